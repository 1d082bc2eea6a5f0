import Mathlib.Algebra.Order.Field.Basic
import Mathlib.Tactic.Linarith
import Mathlib.Tactic.Ring
import Mathlib.Tactic.LinearCombination
/-!
# Orientation

Model of common/vec3.h, common/quat.h, `MotionUtil::FromData` (motion/motion_util.h) and the tracking of the direction of
gravity in common/fuse.h.  Floating point numbers are replaced by the elements of any ordered field (no
rounding); square roots and sines enter as elements with the defining equation of the root (`r * r = x`) or
of sine and cosine (`c * c + s * s = 1`).
-/
namespace Verif.Motion

/-- `Vec3`, common/vec3.h:5-9 -/
@[ext] structure V3 (K : Type) where
  x : K
  y : K
  z : K
deriving DecidableEq

section
variable {K : Type} [Field K]

namespace V3
/-- common/vec3.h:28-30 -/
def add (a b : V3 K) : V3 K := ⟨a.x + b.x, a.y + b.y, a.z + b.z⟩
/-- common/vec3.h:34-36 -/
def sub (a b : V3 K) : V3 K := ⟨a.x - b.x, a.y - b.y, a.z - b.z⟩
/-- common/vec3.h:40-42 -/
def neg (a : V3 K) : V3 K := ⟨-a.x, -a.y, -a.z⟩
/-- common/vec3.h:53-55 -/
def mul (a : V3 K) (f : K) : V3 K := ⟨a.x * f, a.y * f, a.z * f⟩
/-- common/vec3.h:68-70 -/
def dot (a b : V3 K) : K := a.x * b.x + a.y * b.y + a.z * b.z
/-- common/vec3.h:71-75 -/
def cross (a b : V3 K) : V3 K := ⟨a.y * b.z - a.z * b.y, a.z * b.x - a.x * b.z, a.x * b.y - a.y * b.x⟩
/-- common/vec3.h:76 -/
def len2 (a : V3 K) : K := a.x * a.x + a.y * a.y + a.z * a.z

/-- `RotateX90`, common/vec3.h:79-83 and 88 -/
def rotateX90 (a : V3 K) : V3 K := ⟨a.x, a.z, -a.y⟩
/-- `RotateZ90`, common/vec3.h:79-83 and 89 -/
def rotateZ90 (a : V3 K) : V3 K := ⟨a.y, -a.x, a.z⟩
/-- `RotateY90`, common/vec3.h:79-83 and 90 -/
def rotateY90 (a : V3 K) : V3 K := ⟨-a.z, a.y, a.x⟩
/-- `RotateX180`, common/vec3.h:84-87 and 92 -/
def rotateX180 (a : V3 K) : V3 K := ⟨a.x, -a.y, -a.z⟩
/-- `RotateZ180`, common/vec3.h:84-87 and 93 -/
def rotateZ180 (a : V3 K) : V3 K := ⟨-a.x, -a.y, a.z⟩
/-- `RotateY180`, common/vec3.h:84-87 and 94 -/
def rotateY180 (a : V3 K) : V3 K := ⟨-a.x, a.y, -a.z⟩

/-- `RotateX`, common/vec3.h:97-101, with cosine and sine of the angle -/
def rotateX (a : V3 K) (c s : K) : V3 K := ⟨a.x, a.y * c + a.z * s, a.y * -s + a.z * c⟩
/-- `RotateY`, common/vec3.h:102-106 -/
def rotateY (a : V3 K) (c s : K) : V3 K := ⟨a.x * c - a.z * s, a.y, a.y * s + a.z * c⟩
/-- `RotateZ`, common/vec3.h:107-111 -/
def rotateZ (a : V3 K) (c s : K) : V3 K := ⟨a.x * c - a.y * s, a.x * s + a.y * c, a.z⟩
end V3

/-- `Quat`, common/quat.h:124-125 -/
@[ext] structure Quat (K : Type) where
  w : K
  v : V3 K
deriving DecidableEq

namespace Quat
/-- common/quat.h:34-36 -/
def len2 (q : Quat K) : K := q.w * q.w + q.v.len2
/-- common/quat.h:54-56 -/
def conjugate (q : Quat K) : Quat K := ⟨q.w, q.v.neg⟩
/-- common/quat.h:62-64 -/
def scale (q : Quat K) (f : K) : Quat K := ⟨q.w * f, q.v.mul f⟩
/-- common/quat.h:66-69 -/
def mul (p q : Quat K) : Quat K := ⟨p.w * q.w - p.v.dot q.v, ((q.v.mul p.w).add (p.v.mul q.w)).add (p.v.cross q.v)⟩
/-- `normalize`, common/quat.h:43-46, where `len` is the square root of `len2` -/
def normalize (q : Quat K) (len : K) : Quat K := ⟨q.w * (1 / len), q.v.mul (1 / len)⟩
/-- `rotate_normalized`, common/quat.h:107-115 -/
def rotateNormalized (q : Quat K) (a : V3 K) : V3 K :=
  (((q.v.mul 2).mul (q.v.dot a)).add (a.mul (q.w * q.w - q.v.dot q.v))).add (((q.v.cross a).mul 2).mul q.w)
/-- `Quat(Vec3 u, Vec3 v)`, common/quat.h:13-17, where `m` is the square root of `2 + 2 u.v` -/
def fromTo (u v : V3 K) (m : K) : Quat K := ⟨m / 2, (u.cross v).mul (1 / m)⟩
/-- `Quat(Vec3 angles)`, common/quat.h:80-96, with cosines and sines of the half angles -/
def euler (c1 c2 c3 s1 s2 s3 : K) : Quat K :=
  ⟨c1 * c2 * c3 - s1 * s2 * s3, s1 * c2 * c3 + c1 * s2 * s3, c1 * s2 * c3 - s1 * c2 * s3, c1 * c2 * s3 + s1 * s2 * c3⟩
/-- `Quat(Vec3 vector, float angle)`, common/quat.h:20-23, with cosine and sine of the half angle -/
def axis (a : V3 K) (c s : K) : Quat K := ⟨c, a.mul s⟩
end Quat

/-- the 16 bit number in two bytes, motion/motion_util.h:10-12; `lsb` is 1 if the low byte comes first -/
def getShort (data : Nat → Nat) (i lsb : Nat) : Int :=
  let u := data (i + lsb) * 256 + data (i + (1 - lsb))
  if u < 32768 then u else (u : Int) - 65536

/-- `FromData`, motion/motion_util.h:13-28, without `ORIENTATION_ROTATION`; `orientation` as in common/vec3.h:15-25 -/
def fromData (data : Nat → Nat) (mul : K) (lsb orientation : Nat) : V3 K :=
  let x := mul * (getShort data ((0 + orientation % 8) % 6) lsb : Int)
  let y := mul * (getShort data ((2 + orientation % 8) % 6) lsb : Int)
  let z := mul * (getShort data ((4 + orientation % 8) % 6) lsb : Int)
  if orientation / 16 % 2 = 1 then ⟨-x, -y, z⟩ else ⟨x, y, z⟩

/-- the values of `Orientation`, common/vec3.h:15-25 -/
def orientations : List Nat := [0x00, 0x10, 0x02, 0x12, 0x04, 0x14]

/-- one reading of the fusion loop, common/fuse.h:122-191: half the angle turned since the last one (as a vector around which to turn),
the length of the quaternion, the acceleration and how much to trust the gyroscope -/
structure Reading (K : Type) where
  half : V3 K
  len : K
  accel : V3 K
  factor : K

/-- the rotation since the last reading, common/fuse.h:130 -/
def Reading.rotation (r : Reading K) : Quat K := Quat.normalize ⟨1, r.half⟩ r.len

/-- the new direction of gravity, common/fuse.h:136 and 191 -/
def fuse (down : V3 K) (r : Reading K) : V3 K :=
  let down := r.rotation.rotateNormalized down
  (down.mul r.factor).add (r.accel.mul (1 - r.factor))

/-! ## Specification -/

/-- a proper rotation: linear, keeps lengths and angles (dot products), and the handedness (cross products) -/
structure Rotation (f : V3 K → V3 K) : Prop where
  add : ∀ a b, f (a.add b) = (f a).add (f b)
  mul : ∀ a k, f (a.mul k) = (f a).mul k
  dot : ∀ a b, (f a).dot (f b) = a.dot b
  cross : ∀ a b, f (a.cross b) = (f a).cross (f b)

/-! ## Proofs -/

theorem rotate_is_mul (q : Quat K) (a : V3 K) : q.rotateNormalized a = ((q.mul ⟨0, a⟩).mul q.conjugate).v := by
  ext <;> simp only [Quat.rotateNormalized, Quat.mul, Quat.conjugate, V3.add, V3.mul, V3.dot, V3.cross, V3.neg] <;> ring

theorem mul_len2 (p q : Quat K) : (p.mul q).len2 = p.len2 * q.len2 := by
  simp only [Quat.mul, Quat.len2, V3.len2, V3.add, V3.mul, V3.dot, V3.cross]; ring

theorem rotate_mul (p q : Quat K) (a : V3 K) : (p.mul q).rotateNormalized a = p.rotateNormalized (q.rotateNormalized a) := by
  ext <;> simp only [Quat.rotateNormalized, Quat.mul, V3.add, V3.mul, V3.dot, V3.cross] <;> ring

/-- **C90**: a quaternion of length 1 turns vectors by a proper rotation -/
theorem C90_rotation (q : Quat K) (h : q.len2 = 1) : Rotation q.rotateNormalized := by
  simp only [Quat.len2, V3.len2] at h
  refine ⟨fun a b => ?_, fun a k => ?_, fun a b => ?_, fun a b => ?_⟩
  · ext <;> simp only [Quat.rotateNormalized, V3.add, V3.mul, V3.dot, V3.cross] <;> ring
  · ext <;> simp only [Quat.rotateNormalized, V3.add, V3.mul, V3.dot, V3.cross] <;> ring
  · have e : (q.rotateNormalized a).dot (q.rotateNormalized b) = (q.w * q.w + (q.v.x * q.v.x + q.v.y * q.v.y + q.v.z * q.v.z)) *
        (q.w * q.w + (q.v.x * q.v.x + q.v.y * q.v.y + q.v.z * q.v.z)) * a.dot b := by
      simp only [Quat.rotateNormalized, V3.add, V3.mul, V3.dot, V3.cross]; ring
    rw [e, h]; ring
  · have e : ((q.rotateNormalized a).cross (q.rotateNormalized b)) =
        (q.rotateNormalized (a.cross b)).mul (q.w * q.w + (q.v.x * q.v.x + q.v.y * q.v.y + q.v.z * q.v.z)) := by
      ext <;> simp only [Quat.rotateNormalized, V3.add, V3.mul, V3.dot, V3.cross] <;> ring
    rw [e, h]
    ext <;> simp [V3.mul]

/-- **C90**: turning by a product is turning by one factor after the other, the conjugate turns back, and products and
conjugates of quaternions of length 1 have length 1 -/
theorem C90_compose (p q : Quat K) (hp : p.len2 = 1) (hq : q.len2 = 1) (a : V3 K) :
    (p.mul q).len2 = 1 ∧ (p.mul q).rotateNormalized a = p.rotateNormalized (q.rotateNormalized a) ∧
    p.conjugate.len2 = 1 ∧ p.conjugate.rotateNormalized (p.rotateNormalized a) = a := by
  refine ⟨by rw [mul_len2, hp, hq, one_mul], rotate_mul p q a, ?_, ?_⟩
  · rw [← hp]; simp only [Quat.conjugate, Quat.len2, V3.len2, V3.neg]; ring
  · rw [← rotate_mul]
    have e : p.conjugate.mul p = ⟨p.len2, ⟨0, 0, 0⟩⟩ := by
      ext <;> simp only [Quat.conjugate, Quat.mul, Quat.len2, V3.len2, V3.neg, V3.add, V3.mul, V3.dot, V3.cross] <;> ring
    rw [e, hp]
    ext <;> simp [Quat.rotateNormalized, V3.add, V3.mul, V3.dot, V3.cross]

/-- normalizing gives length 1 -/
theorem normalize_len (q : Quat K) (r : K) (hr : r * r = q.len2) (h0 : r ≠ 0) : (q.normalize r).len2 = 1 := by
  have h1 : r * (1 / r) = 1 := mul_one_div_cancel h0
  simp only [Quat.normalize, Quat.len2, V3.len2, V3.mul] at hr ⊢
  generalize 1 / r = k at *
  linear_combination (-(k * k)) * hr + (r * k + 1) * h1

/-- **C90**: the quaternion made from two unit vectors turns the first to the second (unless they are opposite) -/
theorem C90_fromTo (u v : V3 K) (m : K) (hu : u.len2 = 1) (hv : v.len2 = 1) (hm : m * m = 2 + 2 * u.dot v) (h0 : m ≠ 0) (h2 : (2 : K) ≠ 0) :
    (Quat.fromTo u v m).len2 = 1 ∧ (Quat.fromTo u v m).rotateNormalized u = v := by
  have h1 : m * (1 / m) = 1 := mul_one_div_cancel h0
  have hh : (m / 2) = m * (1 / 2) := by ring
  have h3 : (2 : K) * (1 / 2) = 1 := mul_one_div_cancel h2
  obtain ⟨k, hk⟩ : ∃ k, k = 1 / m := ⟨_, rfl⟩
  obtain ⟨t, htt⟩ : ∃ t, t = (1 : K) / 2 := ⟨_, rfl⟩
  rw [← hk] at h1
  rw [← htt] at h3 hh
  have hx : (u.cross v).len2 = 1 - u.dot v * u.dot v := by
    have : (u.cross v).len2 = u.len2 * v.len2 - u.dot v * u.dot v := by
      simp only [V3.len2, V3.cross, V3.dot]; ring
    rw [this, hu, hv]; ring
  obtain ⟨c, hc⟩ : ∃ c, c = u.dot v := ⟨_, rfl⟩
  rw [← hc] at hm hx
  -- w² = (1 + c) / 2, |v|² = (1 - c) / 2
  have hw : m * t * (m * t) = (1 + c) * t := by linear_combination t * t * hm + (1 + c) * t * h3
  have hkk : k * k * (1 - c * c) = (1 - c) * t := by
    have e1 : k * k * (2 + 2 * c) = 1 := by rw [← hm]; linear_combination (m * k + 1) * h1
    linear_combination (1 - c) * t * e1 - (k * k * (1 - c * c)) * h3
  have hvv : ((u.cross v).mul k).len2 = (1 - c) * t := by
    rw [← hkk, ← hx]; simp only [V3.mul, V3.len2]; ring
  refine ⟨?_, ?_⟩
  · rw [Quat.len2, Quat.fromTo, ← hk]
    simp only
    rw [hh, hvv, hw]; linear_combination h3
  · have hd : ((u.cross v).mul k).dot u = 0 := by simp only [V3.mul, V3.dot, V3.cross]; ring
    have hself : ((u.cross v).mul k).dot ((u.cross v).mul k) = (1 - c) * t := by rw [← hvv]; rfl
    have hcr : ((u.cross v).mul k).cross u = (v.sub (u.mul c)).mul k := by
      simp only [V3.len2] at hu
      simp only [V3.dot] at hc
      ext <;> simp only [V3.mul, V3.sub, V3.cross, hc]
      · linear_combination k * v.x * hu
      · linear_combination k * v.y * hu
      · linear_combination k * v.z * hu
    rw [Quat.fromTo, Quat.rotateNormalized, ← hk]
    simp only
    rw [hd, hself, hcr, hh, hw]
    have h4 : (1 + c) * t - (1 - c) * t = c := by linear_combination c * h3
    rw [h4]
    ext <;> simp only [V3.add, V3.mul, V3.sub]
    · linear_combination ((v.x - u.x * c) * 2 * t) * h1 + (v.x - u.x * c) * h3
    · linear_combination ((v.y - u.y * c) * 2 * t) * h1 + (v.y - u.y * c) * h3
    · linear_combination ((v.z - u.z * c) * 2 * t) * h1 + (v.z - u.z * c) * h3

/-- **C90**: the quaternion of three angles is the product of the turns about the three axes, and of length 1 -/
theorem C90_euler (c1 c2 c3 s1 s2 s3 : K) (h1 : c1 * c1 + s1 * s1 = 1) (h2 : c2 * c2 + s2 * s2 = 1) (h3 : c3 * c3 + s3 * s3 = 1) :
    Quat.euler c1 c2 c3 s1 s2 s3 = ((Quat.axis ⟨1, 0, 0⟩ c1 s1).mul (Quat.axis ⟨0, 1, 0⟩ c2 s2)).mul (Quat.axis ⟨0, 0, 1⟩ c3 s3) ∧
    (Quat.euler c1 c2 c3 s1 s2 s3).len2 = 1 := by
  constructor
  · ext <;> simp only [Quat.euler, Quat.axis, Quat.mul, V3.add, V3.mul, V3.dot, V3.cross] <;> ring
  · have e : (Quat.euler c1 c2 c3 s1 s2 s3).len2 = (c1 * c1 + s1 * s1) * (c2 * c2 + s2 * s2) * (c3 * c3 + s3 * s3) := by
      simp only [Quat.euler, Quat.len2, V3.len2]; ring
    rw [e, h1, h2, h3]; ring

/-- **C90**: the quarter and half turns are proper rotations, and so are `RotateX` and `RotateZ` -/
theorem C90_turns : Rotation (V3.rotateX90 (K := K)) ∧ Rotation (V3.rotateY90 (K := K)) ∧ Rotation (V3.rotateZ90 (K := K)) ∧
    Rotation (V3.rotateX180 (K := K)) ∧ Rotation (V3.rotateY180 (K := K)) ∧ Rotation (V3.rotateZ180 (K := K)) ∧
    (∀ c s : K, c * c + s * s = 1 → Rotation (fun a : V3 K => a.rotateX c s) ∧ Rotation (fun a : V3 K => a.rotateZ c s)) := by
  refine ⟨?_, ?_, ?_, ?_, ?_, ?_, fun c s h => ⟨?_, ?_⟩⟩
  all_goals
    refine ⟨fun a b => ?_, fun a k => ?_, fun a b => ?_, fun a b => ?_⟩
    all_goals try (simp only [V3.rotateX90, V3.rotateY90, V3.rotateZ90, V3.rotateX180, V3.rotateY180, V3.rotateZ180, V3.rotateX, V3.rotateZ, V3.add,
      V3.mul, V3.dot, V3.cross]; ring1)
    all_goals try (ext <;> simp only [V3.rotateX90, V3.rotateY90, V3.rotateZ90, V3.rotateX180, V3.rotateY180, V3.rotateZ180, V3.rotateX, V3.rotateZ, V3.add,
      V3.mul, V3.dot, V3.cross] <;> ring1)
  · simp only [V3.rotateX, V3.dot]; linear_combination (a.y * b.y + a.z * b.z) * h
  · ext <;> simp only [V3.rotateX, V3.cross]
    · linear_combination -(a.y * b.z - a.z * b.y) * h
    · ring
    · ring
  · simp only [V3.rotateZ, V3.dot]; linear_combination (a.x * b.x + a.y * b.y) * h
  · ext <;> simp only [V3.rotateZ, V3.cross]
    · ring
    · ring
    · linear_combination -(a.x * b.y - a.y * b.x) * h

/-- `RotateY` is not a rotation: turned by 90 degrees the x axis vanishes -/
theorem C90_rotateY_counterexample : (⟨1, 0, 0⟩ : V3 K).rotateY 0 1 = ⟨0, 0, 0⟩ := by
  simp [V3.rotateY]

/-- what a sensor sees with the board mounted in some orientation -/
def mounted (o : Nat) (a : V3 K) : V3 K :=
  let b : V3 K := if o % 8 = 2 then ⟨a.y, a.z, a.x⟩ else if o % 8 = 4 then ⟨a.z, a.x, a.y⟩ else a
  if o / 16 % 2 = 1 then ⟨-b.x, -b.y, b.z⟩ else b

/-- **C90**: each mounting orientation turns what the sensor measures by one and the same proper rotation -/
theorem C90_mounting (o : Nat) (ho : o ∈ orientations) : Rotation (mounted (K := K) o) ∧
    ∀ (data : Nat → Nat) (mul : K) (lsb : Nat), fromData data mul lsb o = mounted o (fromData data mul lsb 0) := by
  simp only [orientations, List.mem_cons, List.not_mem_nil, or_false] at ho
  refine ⟨?_, fun data mul lsb => ?_⟩
  · rcases ho with rfl | rfl | rfl | rfl | rfl | rfl <;>
      (refine ⟨fun a b => ?_, fun a k => ?_, fun a b => ?_, fun a b => ?_⟩
       · ext <;> simp [mounted, V3.add] <;> ring
       · ext <;> simp [mounted, V3.mul]
       · simp [mounted, V3.dot] <;> ring
       · ext <;> simp [mounted, V3.cross] <;> ring)
  · rcases ho with rfl | rfl | rfl | rfl | rfl | rfl <;> simp [mounted, fromData]

/-- **C90**: the bytes are read as a signed number in the given byte order -/
theorem C90_bytes (data : Nat → Nat) (i : Nat) (hd : ∀ k, data k < 256) :
    (getShort data i 1 % 65536 = ((data i + 256 * data (i + 1) : Nat) : Int) ∧ -32768 ≤ getShort data i 1 ∧ getShort data i 1 < 32768) ∧
    (getShort data i 0 % 65536 = ((data (i + 1) + 256 * data i : Nat) : Int) ∧ -32768 ≤ getShort data i 0 ∧ getShort data i 0 < 32768) := by
  have h1 := hd i
  have h2 := hd (i + 1)
  simp only [getShort, Nat.sub_self, Nat.sub_zero, Nat.add_zero]
  constructor
  · split <;> omega
  · split <;> omega
end

/-! ## Tracking gravity -/

section
variable {K : Type} [Field K] [LinearOrder K] [IsStrictOrderedRing K]

/-- a reading as computed: the length of the quaternion is right and the trust is a fraction -/
structure Reading.Ok (r : Reading K) : Prop where
  root : r.len * r.len = 1 + r.half.len2
  frac : 0 ≤ r.factor ∧ r.factor ≤ 1

theorem rotation_len (r : Reading K) (h : r.Ok) : r.rotation.len2 = 1 := by
  refine normalize_len _ _ ?_ ?_
  · rw [h.root]; simp only [Quat.len2, one_mul]
  · intro h0
    have h1 := h.root
    rw [h0] at h1
    have hx := mul_self_nonneg r.half.x
    have hy := mul_self_nonneg r.half.y
    have hz := mul_self_nonneg r.half.z
    simp only [V3.len2] at h1
    linarith

theorem len2_dot (a : V3 K) : a.len2 = a.dot a := rfl

/-- **C90**: the estimate of gravity is never longer than the initial estimate and the accelerations measured, whatever the readings -/
theorem C90_down_bounded (M : K) : ∀ (rs : List (Reading K)) (down : V3 K), down.len2 ≤ M → (∀ r ∈ rs, r.Ok ∧ r.accel.len2 ≤ M) → (rs.foldl fuse down).len2 ≤ M
  | [], _, h, _ => h
  | r :: rs, down, h, hr => by
    refine C90_down_bounded M rs _ ?_ (fun r' h' => hr r' (by simp [h']))
    obtain ⟨hok, ha⟩ := hr r (by simp)
    obtain ⟨f0, f1⟩ := hok.frac
    have hrot := (C90_rotation _ (rotation_len r hok)).dot down down
    rw [← len2_dot, ← len2_dot] at hrot
    simp only [fuse]
    generalize r.rotation.rotateNormalized down = b at *
    rw [← hrot] at h
    have key : ((b.mul r.factor).add (r.accel.mul (1 - r.factor))).len2 =
        r.factor * b.len2 + (1 - r.factor) * r.accel.len2 - r.factor * (1 - r.factor) * (b.sub r.accel).len2 := by
      simp only [V3.add, V3.mul, V3.sub, V3.len2]; ring
    have hsq : 0 ≤ (b.sub r.accel).len2 := by
      simp only [V3.len2]
      exact add_nonneg (add_nonneg (mul_self_nonneg _) (mul_self_nonneg _)) (mul_self_nonneg _)
    have h1 := mul_le_mul_of_nonneg_left h f0
    have h2 := mul_le_mul_of_nonneg_left ha (show 0 ≤ 1 - r.factor by linarith)
    have h3 := mul_nonneg (mul_nonneg f0 (show 0 ≤ 1 - r.factor by linarith)) hsq
    rw [key]; linarith

/-- what the readings are while the saber is turned but not otherwise accelerated: gravity, seen from the saber, turns with each reading and
is what the accelerometer measures -/
inductive Turned : V3 K → List (Reading K) → V3 K → Prop where
  | nil (g : V3 K) : Turned g [] g
  | cons {g g' : V3 K} {r : Reading K} {rs : List (Reading K)} : r.Ok → r.accel = r.rotation.rotateNormalized g → Turned (r.rotation.rotateNormalized g) rs g' →
      Turned g (r :: rs) g'

/-- **C90**: while the saber is only turned, the error of the estimate shrinks by the factor of each reading, however it is turned -/
theorem C90_down_converges {g g' : V3 K} {rs : List (Reading K)} (h : Turned g rs g') : ∀ down : V3 K,
    ((rs.foldl fuse down).sub g').len2 = ((rs.map fun r => r.factor * r.factor).prod) * (down.sub g).len2 := by
  induction h with
  | nil g => intro down; simp
  | @cons g g' r rs hok ha _ ih =>
    intro down
    rw [List.foldl_cons, ih, List.map_cons, List.prod_cons]
    have hrot := C90_rotation _ (rotation_len r hok)
    have e1 : ((fuse down r).sub (r.rotation.rotateNormalized g)) = (r.rotation.rotateNormalized (down.sub g)).mul r.factor := by
      have e : r.rotation.rotateNormalized (down.sub g) = (r.rotation.rotateNormalized down).sub (r.rotation.rotateNormalized g) := by
        have : down.sub g = down.add (g.mul (-1)) := by ext <;> simp [V3.sub, V3.add, V3.mul] <;> ring
        rw [this, hrot.add, hrot.mul]
        ext <;> simp [V3.sub, V3.add, V3.mul] <;> ring
      rw [e]
      simp only [fuse]
      rw [ha]
      ext <;> simp only [V3.sub, V3.add, V3.mul] <;> ring
    rw [e1]
    have e2 : ∀ a : V3 K, (a.mul r.factor).len2 = r.factor * r.factor * a.len2 := by
      intro a; simp only [V3.mul, V3.len2]; ring
    rw [e2, len2_dot (r.rotation.rotateNormalized _), hrot.dot, ← len2_dot]
    ring
end

/-! ## Dividing a quaternion by a number -/

/-- `Quat::operator/(float)`, common/quat.h:71-73: vectors can only be divided by an `int` (common/vec3.h:65-67), to which the number is
converted; `none` is a division by zero -/
def Quat.div (q : Quat Rat) (f : Rat) : Option (Quat Rat) :=
  if f = 0 then none
  else if f.num.tdiv f.den = 0 then none
  else some ⟨q.w / f, q.v.x / (f.num.tdiv f.den : Int), q.v.y / (f.num.tdiv f.den : Int), q.v.z / (f.num.tdiv f.den : Int)⟩

/-- `invert`, common/quat.h:58-60 -/
def Quat.invert (q : Quat Rat) : Option (Quat Rat) := q.conjugate.div q.len2

/-- the inverse is right for quaternions of length exactly 1 … -/
theorem C90_invert_partial (q : Quat Rat) (h : q.len2 = 1) : q.invert = some q.conjugate ∧ q.mul q.conjugate = ⟨1, 0, 0, 0⟩ := by
  constructor
  · have e : (1 : Rat).num.tdiv (1 : Rat).den = 1 := rfl
    simp [Quat.invert, Quat.div, h, e]
  · rw [← h]
    ext <;> simp only [Quat.conjugate, Quat.mul, Quat.len2, V3.len2, V3.neg, V3.add, V3.mul, V3.dot, V3.cross] <;> ring

/-- … but every quaternion that is a bit shorter divides by zero, and longer ones are divided by a truncated length: the length must be exact -/
theorem C90_invert_counterexample : (∀ q : Quat Rat, q.len2 < 1 → q.invert = none) ∧
    (⟨3 / 2, 1 / 2, 0, 0⟩ : Quat Rat).invert = some ⟨3 / 5, -1 / 4, 0, 0⟩ := by
  constructor
  · intro q h
    have h0 : 0 ≤ q.len2 := by
      simp only [Quat.len2, V3.len2]
      have h1 := mul_self_nonneg q.w
      have h2 := mul_self_nonneg q.v.x
      have h3 := mul_self_nonneg q.v.y
      have h4 := mul_self_nonneg q.v.z
      linarith
    simp only [Quat.invert, Quat.div]
    generalize q.len2 = f at *
    by_cases hz : f = 0
    · rw [if_pos hz]
    · rw [if_neg hz, if_pos]
      have h1 : 0 ≤ f.num := Rat.num_nonneg.mpr h0
      have h2 : f.num < f.den := by
        have := Rat.lt_iff f 1
        rw [this] at h
        simpa using h
      rw [Int.tdiv_eq_ediv_of_nonneg h1]
      exact Int.ediv_eq_zero_of_lt h1 h2
  · decide +kernel

/-- readings while the saber turns -/
example : ∃ r : Reading Rat, r.Ok ∧ r.rotation.rotateNormalized ⟨0, 0, 1⟩ = ⟨0, -24 / 25, 7 / 25⟩ := by
  refine ⟨⟨⟨3 / 4, 0, 0⟩, 5 / 4, ⟨0, 0, 1⟩, 1 / 2⟩, ⟨by decide +kernel, by decide +kernel, by decide +kernel⟩, ?_⟩
  ext <;> decide +kernel

end Verif.Motion
