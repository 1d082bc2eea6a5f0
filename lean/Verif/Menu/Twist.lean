import Mathlib.Algebra.Order.Field.Basic
import Mathlib.Algebra.Order.Floor.Ring
import Mathlib.Data.Rat.Floor
import Mathlib.Tactic.Linarith
import Mathlib.Tactic.Ring
import Mathlib.Tactic.LinearCombination
/-
  Turning the hilt to choose from a menu or to set a value: `Angle`
  (common/angle.h), `SteppedModeBase` (modes/stepped_mode.h), `SmoothBase`,
  `SmoothWraparoundMode` and `SmoothMode` (modes/smooth_mode.h).

  Simplified: floating point arithmetic is exact (an ordered field `K` with a
  floor, in which `P` is `M_PI`).  Not modelled: the sounds which announce the
  entries, the conversion of 0..32767 to a volume, a colour, ... (`get`/`set`).
-/
namespace Verif.Menu.Twist
set_option linter.unusedSectionVars false

variable {K : Type} [Field K] [LinearOrder K] [IsStrictOrderedRing K] [FloorRing K]

/-! ## Angles -/

/-- `Angle::TRUNC`, also the constructor (angle.h:8-16). -/
def trunc (P f : K) : K :=
  if P ≤ f then f - P * 2 else if f < -P then f + P * 2 else f

/-- `operator+`, `+=` (angle.h:32-37). -/
def add (P a b : K) : K := trunc P (a + b)

/-- `operator-`, `-=` (angle.h:38-43). -/
def sub (P a b : K) : K := trunc P (a - b)

/-- Conversion to `int`: towards zero. -/
def cint (x : K) : Int := if 0 ≤ x then ⌊x⌋ else -⌊-x⌋

/-- `clampi32(x, 0, 32767)`. -/
def clamp (x : Int) : Int := if x < 0 then 0 else if x > 32767 then 32767 else x

/-- `fromFixed` (angle.h:21-23). -/
def fromFixed (P : K) (a : Int) : K := trunc P (((a : K) - 16384) * (P / 16384))

/-- `fromFixedWithMargin` (angle.h:24-29). -/
def fromFixedM (P m : K) (a : Int) : K :=
  if a ≥ 32767 then trunc P (P * (1 - m / 5))
  else if a ≤ 0 then trunc P (-P * (1 - m / 5))
  else trunc P (((a : K) - 16384 * (1 + m)) * (P / (16384 * (1 + m))))

/-- `fixed` (angle.h:80-84). -/
def fixed (P a : K) : Int := clamp (cint (a * (16384 / P)) + 16384)

/-- `fixed_with_margin` (angle.h:86-91). -/
def fixedM (P m a : K) : Int :=
  let tmp := 16384 * (1 + m)
  clamp (cint (a * (tmp / P) + 16384))

/-- `increment_with_guardrails` (angle.h:62-73): new angle and bump. -/
def guard (P a diff : K) : K × Int :=
  let a := a + diff
  if P ≤ a then (P, 1) else if a < -P then (-P, -1) else (a, 0)

/-! ## Stepped menus -/

/-- `stepsize()` (stepped_mode.h:24-26), `n` = `steps_per_revolution()`. -/
def stepsize (P n : K) : K := 2 * P / n

/-- `twistsize()` (stepped_mode.h:30-32), `dz` = `dead_zone_percent()`. -/
def twistsize (P n dz : K) : K := stepsize P n / 2 * (200 + dz) / 200

/-- `angle_`, and the calls made: `pos` counts `next()` minus `prev()`. -/
structure Step (K : Type) where
  angle : K
  pos : Int
deriving DecidableEq

/-- The step with acceleration (stepped_mode.h:46-52); `v` = |gyro.x| / 360. -/
def accel (size v : K) : K := if 1 < v then size / (v * v) else size

/-- `SteppedModeBase::mode_activate` (stepped_mode.h:34-36). -/
def stepOpen (P r : K) : Step K := { angle := trunc P r, pos := 0 }

/-- `SteppedModeBase::mode_Loop` (stepped_mode.h:39-63); `r` is `fusor.angle2()`. -/
def stepLoop (P n dz r v : K) (s : Step K) : Step K :=
  let d := sub P (trunc P r) s.angle
  if |d| > twistsize P n dz then
    if d > 0 then
      { angle := add P s.angle (trunc P (accel (stepsize P n) v)), pos := s.pos + 1 }
    else
      { angle := sub P s.angle (trunc P (accel (stepsize P n) v)), pos := s.pos - 1 }
  else s

/-- What can happen in a stepped menu: a loop with the hilt at true angle `θ`
    (any number of turns), read as `r`, turning at `v` turns per second; or a
    short click of BUTTON_LEFT / BUTTON_RIGHT (stepped_mode.h:65-79). -/
inductive SEv (K : Type)
  | loop (θ r v : K)
  | left
  | right

def stepEv (P n dz : K) : SEv K → Step K → Step K
  | .loop _ r v, s => stepLoop P n dz r v s
  | .left, s => { s with pos := s.pos - 1 }
  | .right, s => { s with pos := s.pos + 1 }

def stepRun (P n dz : K) : List (SEv K) → Step K → Step K
  | [], s => s
  | e :: es, s => stepRun P n dz es (stepEv P n dz e s)

/-! ## Smooth settings -/

/-- `delta_.last_angle_`, `angle_`, `saved_` and the value set. -/
structure Sm (K : Type) where
  last : K
  angle : K
  saved : Int
  value : Int
deriving DecidableEq

/-- `SmoothBase::mode_activate(false)` (smooth_mode.h:31-35), `DeltaAngle::init`
    (smooth_mode.h:12-14); `x` is `get()`. -/
def smOpen (P r : K) (x : Int) : Sm K :=
  { last := trunc P r, angle := fromFixed P x, saved := x, value := x }

/-- `SmoothMode::mode_activate(false)` (smooth_mode.h:83-86). -/
def smOpenM (P m r : K) (x : Int) : Sm K :=
  { smOpen P r x with angle := fromFixedM P m x }

/-- `DeltaAngle::get` (smooth_mode.h:15-21) and the division by `revolutions()`. -/
def delta (P rev r : K) (s : Sm K) : K := trunc P (sub P (trunc P r) s.last / rev)

/-- `SmoothWraparoundMode::mode_Loop` (smooth_mode.h:69-72). -/
def wrapLoop (P rev r : K) (s : Sm K) : Sm K :=
  let a := add P s.angle (delta P rev r s)
  { s with last := trunc P r, angle := a, value := fixed P a }

/-- `SmoothMode::mode_Loop` (smooth_mode.h:87-94). -/
def railLoop (P m rev r : K) (s : Sm K) : Sm K × Int :=
  let a := guard P s.angle (delta P rev r s)
  ({ s with last := trunc P r, angle := a.1, value := fixedM P m a.1 }, a.2)

/-- `BUTTON_LEFT` / `BUTTON_RIGHT` short click (smooth_mode.h:45-56). -/
def smLeft (P : K) (s : Sm K) : Sm K :=
  { s with angle := add P s.angle (trunc P (P * 2 / 36)) }
def smRight (P : K) (s : Sm K) : Sm K :=
  { s with angle := sub P s.angle (trunc P (P * 2 / 36)) }

/-- `exit()` (smooth_mode.h:37-40). -/
def smExit (s : Sm K) : Sm K := { s with value := s.saved }

inductive MEv (K : Type)
  | loop (θ r : K)
  | left
  | right

def wrapEv (P rev : K) : MEv K → Sm K → Sm K
  | .loop _ r, s => wrapLoop P rev r s
  | .left, s => smLeft P s
  | .right, s => smRight P s

def wrapRun (P rev : K) : List (MEv K) → Sm K → Sm K
  | [], s => s
  | e :: es, s => wrapRun P rev es (wrapEv P rev e s)

def railEv (P m rev : K) : MEv K → Sm K → Sm K
  | .loop _ r, s => (railLoop P m rev r s).1
  | .left, s => smLeft P s
  | .right, s => smRight P s

def railRun (P m rev : K) : List (MEv K) → Sm K → Sm K
  | [], s => s
  | e :: es, s => railRun P m rev es (railEv P m rev e s)

/-! ## Angles: facts -/

/-- Equal up to whole turns. -/
def Same (P x y : K) : Prop := ∃ k : Int, x = y + k * (2 * P)

theorem Same.refl (P x : K) : Same P x x := ⟨0, by simp⟩
theorem Same.symm {P x y : K} : Same P x y → Same P y x := by
  rintro ⟨k, h⟩; exact ⟨-k, by rw [h]; push_cast; ring⟩
theorem Same.trans {P x y z : K} : Same P x y → Same P y z → Same P x z := by
  rintro ⟨k, h⟩ ⟨j, g⟩; exact ⟨k + j, by rw [h, g]; push_cast; ring⟩
theorem Same.add {P x y a b : K} : Same P x y → Same P a b → Same P (x + a) (y + b) := by
  rintro ⟨k, h⟩ ⟨j, g⟩; exact ⟨k + j, by rw [h, g]; push_cast; ring⟩
theorem Same.sub {P x y a b : K} : Same P x y → Same P a b → Same P (x - a) (y - b) := by
  rintro ⟨k, h⟩ ⟨j, g⟩; exact ⟨k - j, by rw [h, g]; push_cast; ring⟩

theorem trunc_same (P f : K) : Same P (trunc P f) f := by
  unfold trunc
  split
  · exact ⟨-1, by push_cast; ring⟩
  · split
    · exact ⟨1, by push_cast; ring⟩
    · exact Same.refl P f

theorem trunc_range {P f : K} (h1 : -(3 * P) ≤ f) (h2 : f < 3 * P) :
    -P ≤ trunc P f ∧ trunc P f < P := by
  unfold trunc
  split
  · constructor <;> linarith
  · split
    · constructor <;> linarith
    · constructor <;> linarith

theorem trunc_id {P f : K} (h1 : -P ≤ f) (h2 : f < P) : trunc P f = f := by
  unfold trunc
  rw [if_neg (not_le.mpr h2), if_neg (not_lt.mpr h1)]

/-- Two angles of the range which differ by whole turns are equal. -/
theorem same_eq {P x y : K} (hP : 0 < P) (h : Same P x y)
    (hx : -P ≤ x ∧ x < P) (hy : -P ≤ y ∧ y < P) : x = y := by
  obtain ⟨k, h⟩ := h
  have h1 : (k : K) * (2 * P) < 1 * (2 * P) := by linarith
  have h2 : (-1 : K) * (2 * P) < k * (2 * P) := by linarith
  have h3 := lt_of_mul_lt_mul_right h1 (by linarith)
  have h4 := lt_of_mul_lt_mul_right h2 (by linarith)
  have h5 : k < 1 := by exact_mod_cast h3
  have h6 : -1 < k := by exact_mod_cast h4
  have h7 : k = 0 := by omega
  rw [h, h7]; simp

theorem sub_range {P a b : K} (hP : 0 < P) (ha : -P ≤ a ∧ a < P) (hb : -P ≤ b ∧ b < P) :
    -P ≤ sub P a b ∧ sub P a b < P :=
  trunc_range (by linarith) (by linarith)

theorem add_range {P a b : K} (hP : 0 < P) (ha : -P ≤ a ∧ a < P) (hb : -P ≤ b ∧ b < P) :
    -P ≤ add P a b ∧ add P a b < P :=
  trunc_range (by linarith) (by linarith)

/-- The sensor reads the true angle up to whole turns (`atan2f`: -π..π). -/
def Reads (P θ r : K) : Prop := -P ≤ r ∧ r ≤ P ∧ Same P r θ

theorem Reads.range {P θ r : K} (hP : 0 < P) (h : Reads P θ r) :
    -P ≤ trunc P r ∧ trunc P r < P :=
  trunc_range (by linarith [h.1]) (by linarith [h.2.1])

theorem Reads.same {P θ r : K} (h : Reads P θ r) : Same P (trunc P r) θ :=
  (trunc_same P r).trans h.2.2

theorem cint_near (x : K) : |(cint x : K) - x| < 1 := by
  unfold cint
  split
  · rw [abs_lt]
    have h1 := Int.floor_le x
    have h2 := Int.lt_floor_add_one x
    constructor <;> linarith
  · have h1 := Int.floor_le (-x)
    have h2 := Int.lt_floor_add_one (-x)
    push_cast
    rw [abs_lt]
    constructor <;> linarith

theorem clamp_range (x : Int) : 0 ≤ clamp x ∧ clamp x ≤ 32767 := by
  unfold clamp; (repeat' split) <;> omega

/-! ## Stepped menus: the entry follows the hilt -/

/-- Net short clicks. -/
def clicks : List (SEv K) → Int
  | [] => 0
  | .left :: es => clicks es - 1
  | .right :: es => clicks es + 1
  | .loop _ _ _ :: es => clicks es

/-- Where the hilt ends. -/
def endAngle (θ : K) : List (SEv K) → K
  | [] => θ
  | .loop θ' _ _ :: es => endAngle θ' es
  | _ :: es => endAngle θ es

/-- A calm history: the hilt turns at most `size` between two loops, at most one
    turn per second, and every reading is right. -/
def Calm (P size : K) : K → List (SEv K) → Prop
  | _, [] => True
  | θ, .loop θ' r v :: es => |θ' - θ| ≤ size ∧ v ≤ 1 ∧ Reads P θ' r ∧ Calm P size θ' es
  | θ, _ :: es => Calm P size θ es

/-- One loop with step `z` and threshold `t`. -/
theorem loop_eq (P n dz r v : K) (s : Step K) (z t : K) (hz : accel (stepsize P n) v = z)
    (ht : twistsize P n dz = t) :
    stepLoop P n dz r v s =
      if |sub P (trunc P r) s.angle| > t then
        if sub P (trunc P r) s.angle > 0 then
          { angle := add P s.angle (trunc P z), pos := s.pos + 1 }
        else { angle := sub P s.angle (trunc P z), pos := s.pos - 1 }
      else s := by
  subst hz ht; rfl

theorem stepsize_pos {P n : K} (hP : 0 < P) (hn : 0 < n) : 0 < stepsize P n := by
  unfold stepsize; positivity

theorem twist_ge {P n dz : K} :
    2 * twistsize P n dz = stepsize P n + stepsize P n * dz / 200 := by
  unfold twistsize; ring

theorem loop_tracks {P n dz : K} (hP : 0 < P) (hn : 0 < n) (hdz : 0 ≤ dz)
    (ht : stepsize P n + twistsize P n dz < P) (s : Step K) (θ θ' r v θ₀ : K) (c : Int)
    (hr : -P ≤ s.angle ∧ s.angle < P)
    (hs : Same P s.angle (θ₀ + stepsize P n * ((s.pos - c : Int) : K)))
    (he : |θ - θ₀ - stepsize P n * ((s.pos - c : Int) : K)| ≤ twistsize P n dz)
    (hθ : |θ' - θ| ≤ stepsize P n) (hv : v ≤ 1) (hR : Reads P θ' r) :
    (-P ≤ (stepLoop P n dz r v s).angle ∧ (stepLoop P n dz r v s).angle < P) ∧
    Same P (stepLoop P n dz r v s).angle
      (θ₀ + stepsize P n * (((stepLoop P n dz r v s).pos - c : Int) : K)) ∧
    |θ' - θ₀ - stepsize P n * (((stepLoop P n dz r v s).pos - c : Int) : K)|
      ≤ twistsize P n dz := by
  have hsz : 0 < stepsize P n := stepsize_pos hP hn
  have htw : stepsize P n ≤ 2 * twistsize P n dz := by
    rw [twist_ge]
    linarith [div_nonneg (mul_nonneg hsz.le hdz) (by norm_num : (0 : K) ≤ 200)]
  rw [loop_eq P n dz r v s (stepsize P n) (twistsize P n dz)
    (by unfold accel; rw [if_neg (not_lt.mpr hv)]) rfl]
  generalize stepsize P n = z at *
  generalize twistsize P n dz = t at *
  have hd := sub_range hP (hR.range hP) hr
  have hz : trunc P z = z := trunc_id (by linarith) (by linarith)
  have hdm : Same P (sub P (trunc P r) s.angle) (θ' - (θ₀ + z * ((s.pos - c : Int) : K))) :=
    (trunc_same P _).trans (hR.same.sub hs)
  generalize hp : ((s.pos - c : Int) : K) = p at *
  rw [abs_le] at he hθ
  have hde := same_eq hP hdm hd ⟨by linarith, by linarith⟩
  have hza : -P ≤ z ∧ z < P := ⟨by linarith, by linarith⟩
  rw [hz, hde]
  have hinc : ((s.pos + 1 - c : Int) : K) = p + 1 := by rw [← hp]; push_cast; ring
  have hdec : ((s.pos - 1 - c : Int) : K) = p - 1 := by rw [← hp]; push_cast; ring
  by_cases h : |θ' - (θ₀ + z * p)| > t
  · rw [if_pos h]
    by_cases h0 : θ' - (θ₀ + z * p) > 0
    · rw [if_pos h0]
      rw [abs_of_pos h0] at h
      refine ⟨add_range hP hr hza, ?_, ?_⟩
      · show Same P (add P s.angle z) (θ₀ + z * ((s.pos + 1 - c : Int) : K))
        rw [hinc]
        have := (trunc_same P (s.angle + z)).trans (hs.add (Same.refl P z))
        have e : θ₀ + z * p + z = θ₀ + z * (p + 1) := by ring
        rw [e] at this; exact this
      · show |θ' - θ₀ - z * ((s.pos + 1 - c : Int) : K)| ≤ t
        rw [hinc, abs_le]
        constructor <;> linarith
    · rw [if_neg h0]
      rw [abs_of_nonpos (not_lt.mp h0)] at h
      refine ⟨sub_range hP hr hza, ?_, ?_⟩
      · show Same P (sub P s.angle z) (θ₀ + z * ((s.pos - 1 - c : Int) : K))
        rw [hdec]
        have := (trunc_same P (s.angle - z)).trans (hs.sub (Same.refl P z))
        have e : θ₀ + z * p - z = θ₀ + z * (p - 1) := by ring
        rw [e] at this; exact this
      · show |θ' - θ₀ - z * ((s.pos - 1 - c : Int) : K)| ≤ t
        rw [hdec, abs_le]
        constructor <;> linarith
  · rw [if_neg h]
    refine ⟨hr, by rw [hp]; exact hs, ?_⟩
    rw [hp]
    have e : θ' - θ₀ - z * p = θ' - (θ₀ + z * p) := by ring
    rw [e]; exact not_lt.mp h

theorem run_tracks {P n dz : K} (hP : 0 < P) (hn : 0 < n) (hdz : 0 ≤ dz)
    (ht : stepsize P n + twistsize P n dz < P) (θ₀ : K) (es : List (SEv K)) :
    ∀ (s : Step K) (θ : K) (c : Int), (-P ≤ s.angle ∧ s.angle < P) →
    Same P s.angle (θ₀ + stepsize P n * ((s.pos - c : Int) : K)) →
    |θ - θ₀ - stepsize P n * ((s.pos - c : Int) : K)| ≤ twistsize P n dz →
    Calm P (stepsize P n) θ es →
    |endAngle θ es - θ₀ -
      stepsize P n * (((stepRun P n dz es s).pos - (c + clicks es) : Int) : K)|
        ≤ twistsize P n dz := by
  induction es with
  | nil => intro s θ c _ _ he _; simpa [stepRun, endAngle, clicks] using he
  | cons e es ih =>
    intro s θ c hr hs he hc
    cases e with
    | loop θ' r v =>
      obtain ⟨h1, h2, h3, h4⟩ := hc
      obtain ⟨a, b, d⟩ := loop_tracks hP hn hdz ht s θ θ' r v θ₀ c hr hs he h1 h2 h3
      exact ih _ θ' c a b d h4
    | left =>
      have e : s.pos - 1 - (c - 1) = s.pos - c := by ring
      have := ih { s with pos := s.pos - 1 } θ (c - 1) hr
        (by show Same P s.angle (θ₀ + stepsize P n * ((s.pos - 1 - (c - 1) : Int) : K))
            rw [e]; exact hs)
        (by show |θ - θ₀ - stepsize P n * ((s.pos - 1 - (c - 1) : Int) : K)| ≤ _
            rw [e]; exact he) hc
      have e2 : c - 1 + clicks es = c + (clicks es - 1) := by ring
      rw [e2] at this; exact this
    | right =>
      have e : s.pos + 1 - (c + 1) = s.pos - c := by ring
      have := ih { s with pos := s.pos + 1 } θ (c + 1) hr
        (by show Same P s.angle (θ₀ + stepsize P n * ((s.pos + 1 - (c + 1) : Int) : K))
            rw [e]; exact hs)
        (by show |θ - θ₀ - stepsize P n * ((s.pos + 1 - (c + 1) : Int) : K)| ≤ _
            rw [e]; exact he) hc
      have e2 : c + 1 + clicks es = c + (clicks es + 1) := by ring
      rw [e2] at this; exact this

/-- The entry of a stepped menu follows the hilt: after any calm history the
    number of entries moved, less the clicks, is the angle turned in units of
    one entry, up to half an entry and half of the dead zone. -/
theorem C98_tracks {P n dz : K} (hP : 0 < P) (hn : 0 < n) (hdz : 0 ≤ dz)
    (ht : stepsize P n + twistsize P n dz < P) (θ₀ r₀ : K) (h0 : Reads P θ₀ r₀)
    (es : List (SEv K)) (hc : Calm P (2 * P / n) θ₀ es) :
    |(endAngle θ₀ es - θ₀) -
      2 * P / n * (((stepRun P n dz es (stepOpen P r₀)).pos - clicks es : Int) : K)|
        ≤ P / n * (1 + dz / 200) := by
  have htz : 0 ≤ twistsize P n dz := by
    have := stepsize_pos hP hn
    unfold twistsize; positivity
  have h := run_tracks hP hn hdz ht θ₀ es (stepOpen P r₀) θ₀ 0 (h0.range hP)
    (by simpa [stepOpen] using h0.same) (by simpa [stepOpen] using htz) hc
  rw [zero_add] at h
  have e : twistsize P n dz = P / n * (1 + dz / 200) := by
    unfold twistsize stepsize; ring
  rw [e] at h
  exact h

/-- Turned back to where the menu was opened, without clicks: the entry is the
    one it was opened at.  More generally a turn of exactly `k` entries moves
    exactly `k` entries. -/
theorem C98_returns {P n dz : K} (hP : 0 < P) (hn : 0 < n) (hdz : 0 ≤ dz) (hd2 : dz < 200)
    (ht : stepsize P n + twistsize P n dz < P) (θ₀ r₀ : K) (h0 : Reads P θ₀ r₀)
    (es : List (SEv K)) (hc : Calm P (2 * P / n) θ₀ es) (k : Int)
    (hk : endAngle θ₀ es = θ₀ + k * (2 * P / n)) :
    (stepRun P n dz es (stepOpen P r₀)).pos = k + clicks es := by
  have h := C98_tracks hP hn hdz ht θ₀ r₀ h0 es hc
  generalize (stepRun P n dz es (stepOpen P r₀)).pos = q at *
  have e : (endAngle θ₀ es - θ₀) - 2 * P / n * ((q - clicks es : Int) : K)
      = (2 * (P / n)) * ((k - (q - clicks es) : Int) : K) := by
    rw [hk]; push_cast; ring
  rw [e] at h
  have hpn : 0 < P / n := by positivity
  generalize P / n = w at *
  rw [abs_mul, abs_of_pos (by linarith : 0 < 2 * w)] at h
  have h2 : 2 * w * |((k - (q - clicks es) : Int) : K)| < 2 * w * 1 := by
    have : w * (dz / 200) < w * 1 := mul_lt_mul_of_pos_left (by linarith) hpn
    linarith
  have h3 := lt_of_mul_lt_mul_left h2 (by linarith)
  rw [← Int.cast_abs] at h3
  have h4 : |k - (q - clicks es)| < 1 := by exact_mod_cast h3
  have h5 := Int.abs_lt_one_iff.mp h4
  omega

example : let es : List (SEv ℚ) := [.loop (1/4) (1/4) 0, .right, .loop (1/2) (1/2) 1,
      .loop (3/4) (3/4) (1/2), .loop 1 1 0, .loop (4/3) (-2/3) 1]
    Calm 1 (2 * 1 / 6) 0 es ∧ stepsize (1 : ℚ) 6 + twistsize 1 6 25 < 1 ∧
    endAngle 0 es = 0 + (4 : Int) * (2 * 1 / 6) ∧
    (stepRun 1 6 25 es (stepOpen 1 0)).pos = 5 := by
  refine ⟨?_, ?_, ?_, ?_⟩
  · simp only [Calm, Reads, Same]
    refine ⟨by norm_num [abs_le], by norm_num, ⟨by norm_num, by norm_num, 0, by norm_num⟩,
      by norm_num [abs_le], by norm_num, ⟨by norm_num, by norm_num, 0, by norm_num⟩,
      by norm_num [abs_le], by norm_num, ⟨by norm_num, by norm_num, 0, by norm_num⟩,
      by norm_num [abs_le], by norm_num, ⟨by norm_num, by norm_num, 0, by norm_num⟩,
      by norm_num [abs_le], by norm_num, ⟨by norm_num, by norm_num, -1, by norm_num⟩, trivial⟩
  · decide +kernel
  · decide +kernel
  · decide +kernel

/-! ## Stepped menus: no chatter, and rest -/

/-- After a step the hilt must turn back by more than the dead zone before the
    menu steps back: at any speed, a smaller turn back never does. -/
theorem C98_no_chatter {P n dz : K} (hP : 0 < P) (hn : 1 < n) (hdz : 0 ≤ dz)
    (ht : stepsize P n + twistsize P n dz < P)
    (s : Step K) (hs : -P ≤ s.angle ∧ s.angle < P) (θ r v θ' r' v' : K)
    (hR : Reads P θ r) (hR' : Reads P θ' r') :
    ((stepLoop P n dz r v s).pos = s.pos + 1 → θ - 2 * P / n * (dz / 200) ≤ θ' → θ' ≤ θ →
      s.pos + 1 ≤ (stepLoop P n dz r' v' (stepLoop P n dz r v s)).pos) ∧
    ((stepLoop P n dz r v s).pos = s.pos - 1 → θ ≤ θ' → θ' ≤ θ + 2 * P / n * (dz / 200) →
      (stepLoop P n dz r' v' (stepLoop P n dz r v s)).pos ≤ s.pos - 1) := by
  have hn0 : 0 < n := lt_trans one_pos hn
  have hsz : 0 < stepsize P n := stepsize_pos hP hn0
  have htw := @twist_ge K _ _ _ _ P n dz
  have e2 : 2 * P / n = stepsize P n := rfl
  rw [e2]
  have hz0 : 0 < accel (stepsize P n) v := by
    unfold accel; split
    · positivity
    · exact hsz
  have hz1 : accel (stepsize P n) v ≤ stepsize P n := by
    unfold accel; split
    · rename_i h
      have hv : 1 ≤ v * v := by nlinarith
      rw [div_le_iff₀ (by linarith)]
      nlinarith
    · exact le_refl _
  rw [loop_eq P n dz r' v' _ _ _ rfl rfl, loop_eq P n dz r v s _ _ rfl rfl]
  have hdzz : 0 ≤ stepsize P n * (dz / 200) := by positivity
  have htw : 2 * twistsize P n dz = stepsize P n + stepsize P n * (dz / 200) := by
    rw [htw]; ring
  generalize stepsize P n * (dz / 200) = w at *
  generalize accel (stepsize P n) v' = z' at *
  generalize accel (stepsize P n) v = z at *
  generalize stepsize P n = y at *
  generalize twistsize P n dz = t at *
  have hzz : trunc P z = z := trunc_id (by linarith) (by linarith)
  rw [hzz]
  have hza : -P ≤ z ∧ z < P := ⟨by linarith, by linarith⟩
  have hd := sub_range hP (hR.range hP) hs
  have hdm : Same P (sub P (trunc P r) s.angle) (trunc P r - s.angle) := trunc_same P _
  have hturn : Same P (trunc P r' - trunc P r) (θ' - θ) := hR'.same.sub hR.same
  generalize hdd : sub P (trunc P r) s.angle = d at *
  by_cases h : |d| > t
  · rw [if_pos h]
    by_cases h0 : d > 0
    · rw [if_pos h0]
      rw [abs_of_pos h0] at h
      refine ⟨fun _ h1 h2 => ?_, fun h1 => by
        have h1' : s.pos + 1 = s.pos - 1 := h1
        omega⟩
      have ha := add_range hP hs hza
      have hd' := sub_range hP (hR'.range hP) ha
      have hm : Same P (sub P (trunc P r') (add P s.angle z)) (d - z + (θ' - θ)) := by
        have a1 : Same P (add P s.angle z) (s.angle + z) := trunc_same P _
        have a2 := (trunc_same P (trunc P r' - add P s.angle z)).trans
          ((Same.refl P (trunc P r')).sub a1)
        have a3 : Same P (trunc P r' - (s.angle + z)) (d - z + (θ' - θ)) := by
          have := (hdm.symm.add (Same.refl P (-z))).add hturn
          have e1 : trunc P r - s.angle + -z + (trunc P r' - trunc P r)
              = trunc P r' - (s.angle + z) := by ring
          have e3 : d + -z + (θ' - θ) = d - z + (θ' - θ) := by ring
          rw [e1, e3] at this; exact this
        exact a2.trans a3
      have hv := same_eq hP hm hd' ⟨by linarith, by linarith⟩
      show _ ≤ (if |sub P (trunc P r') (add P s.angle z)| > t then _ else _ : Step K).pos
      rw [hv]
      by_cases k : |d - z + (θ' - θ)| > t
      · rw [if_pos k]
        by_cases k0 : d - z + (θ' - θ) > 0
        · rw [if_pos k0]; show s.pos + 1 ≤ s.pos + 1 + 1; omega
        · rw [abs_of_nonpos (not_lt.mp k0)] at k
          exfalso; linarith
      · rw [if_neg k]
    · rw [if_neg h0]
      rw [abs_of_nonpos (not_lt.mp h0)] at h
      refine ⟨fun h1 => by
        have h1' : s.pos - 1 = s.pos + 1 := h1
        omega, fun _ h1 h2 => ?_⟩
      have ha := sub_range hP hs hza
      have hd' := sub_range hP (hR'.range hP) ha
      have hm : Same P (sub P (trunc P r') (sub P s.angle z)) (d + z + (θ' - θ)) := by
        have a1 : Same P (sub P s.angle z) (s.angle - z) := trunc_same P _
        have a2 := (trunc_same P (trunc P r' - sub P s.angle z)).trans
          ((Same.refl P (trunc P r')).sub a1)
        have a3 : Same P (trunc P r' - (s.angle - z)) (d + z + (θ' - θ)) := by
          have := (hdm.symm.add (Same.refl P z)).add hturn
          have e1 : trunc P r - s.angle + z + (trunc P r' - trunc P r)
              = trunc P r' - (s.angle - z) := by ring
          rw [e1] at this; exact this
        exact a2.trans a3
      have hv := same_eq hP hm hd' ⟨by linarith, by linarith⟩
      show (if |sub P (trunc P r') (sub P s.angle z)| > t then _ else _ : Step K).pos ≤ _
      rw [hv]
      by_cases k : |d + z + (θ' - θ)| > t
      · rw [if_pos k]
        by_cases k0 : d + z + (θ' - θ) > 0
        · rw [abs_of_pos k0] at k
          exfalso; linarith
        · rw [if_neg k0]; show s.pos - 1 - 1 ≤ s.pos - 1; omega
      · rw [if_neg k]
  · rw [if_neg h]
    exact ⟨fun h1 => by omega, fun h1 => by omega⟩

example : ((stepLoop 1 6 25 (1/5) 0 (stepOpen 1 0) : Step ℚ).pos = 1) ∧
    ((stepLoop 1 6 25 (-1/5) 2 (stepOpen 1 0) : Step ℚ).pos = -1) ∧
    -- a larger turn back does step back
    ((stepLoop 1 6 25 (1/8) 0 (stepLoop 1 6 25 (1/5) 0 (stepOpen 1 0)) : Step ℚ).pos = 0) := by
  decide +kernel

/-- `k` loops with the hilt held still. -/
def still (P n dz r : K) : Nat → Step K → Step K
  | 0, s => s
  | k + 1, s => still P n dz r k (stepLoop P n dz r 0 s)

theorem still_step {P n dz : K} (hP : 0 < P) (hn : 0 < n) (hdz : 0 ≤ dz)
    (ht : stepsize P n + twistsize P n dz < P) (s : Step K)
    (hs : -P ≤ s.angle ∧ s.angle < P) (θ r : K) (hR : Reads P θ r)
    (d : K) (hd : sub P (trunc P r) s.angle = d) :
    (-P ≤ (stepLoop P n dz r 0 s).angle ∧ (stepLoop P n dz r 0 s).angle < P) ∧
    ((|d| ≤ twistsize P n dz ∧ stepLoop P n dz r 0 s = s) ∨
     (twistsize P n dz < d ∧ (stepLoop P n dz r 0 s).pos = s.pos + 1 ∧
        sub P (trunc P r) (stepLoop P n dz r 0 s).angle = d - stepsize P n) ∨
     (d < -twistsize P n dz ∧ (stepLoop P n dz r 0 s).pos = s.pos - 1 ∧
        sub P (trunc P r) (stepLoop P n dz r 0 s).angle = d + stepsize P n)) := by
  have hsz : 0 < stepsize P n := stepsize_pos hP hn
  have htw := @twist_ge K _ _ _ _ P n dz
  have hdzz : 0 ≤ stepsize P n * dz / 200 := by positivity
  rw [loop_eq P n dz r 0 s (stepsize P n) (twistsize P n dz)
    (by unfold accel; rw [if_neg (by simp)]) rfl, hd]
  generalize stepsize P n * dz / 200 = w at *
  generalize stepsize P n = z at *
  generalize twistsize P n dz = t at *
  have hz : trunc P z = z := trunc_id (by linarith) (by linarith)
  have hza : -P ≤ z ∧ z < P := ⟨by linarith, by linarith⟩
  have hdr := sub_range hP (hR.range hP) hs
  have hdm : Same P (sub P (trunc P r) s.angle) (trunc P r - s.angle) := trunc_same P _
  rw [hd] at hdr hdm
  rw [hz]
  by_cases h : |d| > t
  · rw [if_pos h]
    by_cases h0 : d > 0
    · rw [if_pos h0]
      rw [abs_of_pos h0] at h
      have ha := add_range hP hs hza
      refine ⟨ha, .inr (.inl ⟨h, rfl, ?_⟩)⟩
      have hd' := sub_range hP (hR.range hP) ha
      have a1 : Same P (add P s.angle z) (s.angle + z) := trunc_same P _
      have a2 := (trunc_same P (trunc P r - add P s.angle z)).trans
        ((Same.refl P (trunc P r)).sub a1)
      have a3 := hdm.symm.sub (Same.refl P z)
      have e1 : trunc P r - s.angle - z = trunc P r - (s.angle + z) := by ring
      rw [e1] at a3
      exact same_eq hP (a2.trans a3) hd' ⟨by linarith, by linarith⟩
    · rw [if_neg h0]
      rw [abs_of_nonpos (not_lt.mp h0)] at h
      have ha := sub_range hP hs hza
      refine ⟨ha, .inr (.inr ⟨by linarith, rfl, ?_⟩)⟩
      have hd' := sub_range hP (hR.range hP) ha
      have a1 : Same P (sub P s.angle z) (s.angle - z) := trunc_same P _
      have a2 := (trunc_same P (trunc P r - sub P s.angle z)).trans
        ((Same.refl P (trunc P r)).sub a1)
      have a3 := hdm.symm.add (Same.refl P z)
      have e1 : trunc P r - s.angle + z = trunc P r - (s.angle - z) := by ring
      rw [e1] at a3
      exact same_eq hP (a2.trans a3) hd' ⟨by linarith, by linarith⟩
  · rw [if_neg h]
    exact ⟨hs, .inl ⟨not_lt.mp h, rfl⟩⟩

theorem still_rest {P n dz r : K} (s : Step K) (h : stepLoop P n dz r 0 s = s) (k : Nat) :
    still P n dz r k s = s := by
  induction k with
  | zero => rfl
  | succ k ih => rw [still, h]; exact ih

theorem still_settles {P n dz : K} (hP : 0 < P) (hn : 0 < n) (hdz : 0 ≤ dz)
    (ht : stepsize P n + twistsize P n dz < P) (θ r : K) (hR : Reads P θ r) (k : Nat) :
    ∀ (s : Step K), (-P ≤ s.angle ∧ s.angle < P) →
    |sub P (trunc P r) s.angle| ≤ k * stepsize P n + twistsize P n dz →
    stepLoop P n dz r 0 (still P n dz r k s) = still P n dz r k s ∧
    |sub P (trunc P r) (still P n dz r k s).angle| ≤ twistsize P n dz := by
  have hsz : 0 < stepsize P n := stepsize_pos hP hn
  have htw := @twist_ge K _ _ _ _ P n dz
  have hdzz : 0 ≤ stepsize P n * dz / 200 := by positivity
  induction k with
  | zero =>
    intro s hs hk
    have hk : |sub P (trunc P r) s.angle| ≤ twistsize P n dz := by simpa using hk
    have hk' := abs_le.mp hk
    obtain ⟨_, h | h | h⟩ := still_step hP hn hdz ht s hs θ r hR _ rfl
    · exact ⟨h.2, hk⟩
    · exfalso; linarith
    · exfalso; linarith
  | succ k ih =>
    intro s hs hk
    push_cast at hk
    have hk0 : 0 ≤ (k : K) * stepsize P n := by positivity
    obtain ⟨ha, h | h | h⟩ := still_step hP hn hdz ht s hs θ r hR _ rfl
    · rw [still_rest s h.2]; exact ⟨h.2, h.1⟩
    · refine ih _ ha ?_
      rw [h.2.2, abs_le]
      rw [abs_le] at hk
      constructor <;> linarith
    · refine ih _ ha ?_
      rw [h.2.2, abs_le]
      rw [abs_le] at hk
      constructor <;> linarith

/-- With the hilt held still, wherever it is, the menu comes to rest on one entry
    within as many loops as it takes to walk half a turn, and stays. -/
theorem C98_rests {P n dz : K} (hP : 0 < P) (hn : 0 < n) (hdz : 0 ≤ dz)
    (ht : stepsize P n + twistsize P n dz < P) (θ r : K) (hR : Reads P θ r)
    (s : Step K) (hs : -P ≤ s.angle ∧ s.angle < P) (k j : Nat)
    (hk : P ≤ k * (2 * P / n) + P / n * (1 + dz / 200)) :
    still P n dz r (k + j) s = still P n dz r k s := by
  have hd := sub_range hP (hR.range hP) hs
  have e : twistsize P n dz = P / n * (1 + dz / 200) := by
    unfold twistsize stepsize; ring
  have h := (still_settles hP hn hdz ht θ r hR k s hs (by
    rw [e]
    show _ ≤ (k : K) * (2 * P / n) + _
    rw [abs_le]; constructor <;> linarith)).1
  have add : ∀ (j k : Nat) (s : Step K),
      still P n dz r (k + j) s = still P n dz r j (still P n dz r k s) := by
    intro j k
    induction k with
    | zero => intro s; rw [Nat.zero_add]; rfl
    | succ k ih => intro s; rw [Nat.succ_add]; exact ih _
  rw [add, still_rest _ h]

example : (still 1 6 25 (-1) 3 (stepOpen 1 0) : Step ℚ).pos = -3 ∧
    (1 : ℚ) ≤ (3 : Nat) * (2 * 1 / 6) + 1 / 6 * (1 + 25 / 200) := by decide +kernel

/-! ## Values which wrap around -/

def mClicks : List (MEv K) → Int
  | [] => 0
  | .left :: es => mClicks es + 1
  | .right :: es => mClicks es - 1
  | .loop _ _ :: es => mClicks es

def mEnd (θ : K) : List (MEv K) → K
  | [] => θ
  | .loop θ' _ :: es => mEnd θ' es
  | _ :: es => mEnd θ es

/-- The hilt turns by less than half a turn between two loops. -/
def Followed (P : K) : K → List (MEv K) → Prop
  | _, [] => True
  | θ, .loop θ' r :: es => |θ' - θ| < P ∧ Reads P θ' r ∧ Followed P θ' es
  | θ, _ :: es => Followed P θ es

def InR (P a : K) : Prop := -P ≤ a ∧ a < P

theorem click_range {P : K} (hP : 0 < P) : InR P (trunc P (P * 2 / 36)) ∧
    trunc P (P * 2 / 36) = P / 18 := by
  have e : P * 2 / 36 = P / 18 := by ring
  have h : trunc P (P * 2 / 36) = P / 18 := by
    rw [e]; exact trunc_id (by linarith [div_pos hP (by norm_num : (0 : K) < 18)]) (by linarith)
  rw [h]
  exact ⟨⟨by linarith [div_pos hP (by norm_num : (0 : K) < 18)], by linarith⟩, rfl⟩

theorem delta_eq {P rev θ θ' r : K} (hP : 0 < P) (hrev : 1 ≤ rev) (s : Sm K)
    (hl : InR P s.last) (hls : Same P s.last θ) (hm : |θ' - θ| < P) (hR : Reads P θ' r) :
    delta P rev r s = (θ' - θ) / rev ∧ InR P ((θ' - θ) / rev) := by
  have hd := sub_range hP (hR.range hP) hl
  have hdm : Same P (sub P (trunc P r) s.last) (θ' - θ) :=
    (trunc_same P _).trans (hR.same.sub hls)
  rw [abs_lt] at hm
  have he := same_eq hP hdm hd ⟨by linarith, hm.2⟩
  have hr0 : 0 < rev := by linarith
  have h1 : (θ' - θ) / rev < P := by rw [div_lt_iff₀ hr0]; nlinarith
  have h2 : -P ≤ (θ' - θ) / rev := by rw [le_div_iff₀ hr0]; nlinarith
  unfold delta
  rw [he]
  exact ⟨trunc_id h2 h1, h2, h1⟩

theorem wrap_run {P rev : K} (hP : 0 < P) (hrev : 1 ≤ rev) (es : List (MEv K)) :
    ∀ (s : Sm K) (θ : K), InR P s.last → Same P s.last θ → InR P s.angle →
    Followed P θ es →
    InR P (wrapRun P rev es s).angle ∧
    Same P (wrapRun P rev es s).angle
      (s.angle + (mEnd θ es - θ) / rev + mClicks es * (P / 18)) ∧
    (wrapRun P rev es s).saved = s.saved := by
  induction es with
  | nil =>
    intro s θ _ _ ha _
    refine ⟨ha, ?_, rfl⟩
    simp only [mEnd, mClicks, wrapRun]
    have : s.angle + (θ - θ) / rev + ((0 : Int) : K) * (P / 18) = s.angle := by
      simp
    rw [this]; exact Same.refl P _
  | cons e es ih =>
    intro s θ hl hls ha hf
    cases e with
    | loop θ' r =>
      obtain ⟨h1, h2, h3⟩ := hf
      obtain ⟨d1, d2⟩ := delta_eq hP hrev s hl hls h1 h2
      obtain ⟨i1, i2, i3⟩ := ih (wrapLoop P rev r s) θ' (h2.range hP) h2.same
        (by unfold wrapLoop; rw [d1]; exact add_range hP ha d2) h3
      refine ⟨i1, ?_, i3⟩
      have a1 : Same P (wrapLoop P rev r s).angle (s.angle + (θ' - θ) / rev) := by
        show Same P (add P s.angle (delta P rev r s)) _
        rw [d1]; exact trunc_same P _
      have a2 := (a1.add (Same.refl P ((mEnd θ' es - θ') / rev))).add
        (Same.refl P ((mClicks es : K) * (P / 18)))
      have e1 : s.angle + (θ' - θ) / rev + (mEnd θ' es - θ') / rev + (mClicks es : K) * (P / 18)
          = s.angle + (mEnd θ' es - θ) / rev + (mClicks es : K) * (P / 18) := by ring
      rw [e1] at a2
      exact i2.trans a2
    | left =>
      obtain ⟨c1, c2⟩ := click_range hP
      obtain ⟨i1, i2, i3⟩ := ih (smLeft P s) θ hl hls (add_range hP ha c1) hf
      refine ⟨i1, ?_, i3⟩
      have a1 : Same P (smLeft P s).angle (s.angle + P / 18) := by
        show Same P (add P s.angle _) _
        rw [c2]; exact trunc_same P _
      have a2 := (a1.add (Same.refl P ((mEnd θ es - θ) / rev))).add
        (Same.refl P ((mClicks es : K) * (P / 18)))
      have e1 : s.angle + P / 18 + (mEnd θ es - θ) / rev + (mClicks es : K) * (P / 18)
          = s.angle + (mEnd θ es - θ) / rev + ((mClicks es + 1 : Int) : K) * (P / 18) := by
        push_cast; ring
      rw [e1] at a2
      exact i2.trans a2
    | right =>
      obtain ⟨c1, c2⟩ := click_range hP
      obtain ⟨i1, i2, i3⟩ := ih (smRight P s) θ hl hls (sub_range hP ha c1) hf
      refine ⟨i1, ?_, i3⟩
      have a1 : Same P (smRight P s).angle (s.angle - P / 18) := by
        show Same P (sub P s.angle _) _
        rw [c2]; exact trunc_same P _
      have a2 := (a1.add (Same.refl P ((mEnd θ es - θ) / rev))).add
        (Same.refl P ((mClicks es : K) * (P / 18)))
      have e1 : s.angle - P / 18 + (mEnd θ es - θ) / rev + (mClicks es : K) * (P / 18)
          = s.angle + (mEnd θ es - θ) / rev + ((mClicks es - 1 : Int) : K) * (P / 18) := by
        push_cast; ring
      rw [e1] at a2
      exact i2.trans a2

/-- An angle of the range gives a value of 0..32767 without clamping, right to
    less than one. -/
theorem fixed_near {P a : K} (hP : 0 < P) (ha : InR P a) :
    0 ≤ fixed P a ∧ fixed P a ≤ 32767 ∧ |(fixed P a : K) - (a * 16384 / P + 16384)| < 1 := by
  have e : a * (16384 / P) = a * 16384 / P := by ring
  have h1 : -16384 ≤ a * 16384 / P := by rw [le_div_iff₀ hP]; nlinarith [ha.1]
  have h2 : a * 16384 / P < 16384 := by rw [div_lt_iff₀ hP]; nlinarith [ha.2]
  unfold fixed
  rw [e]
  generalize a * 16384 / P = y at *
  have hc := cint_near y
  have hlo : -16384 ≤ cint y := by
    unfold cint; split
    · have : (0 : Int) ≤ ⌊y⌋ := Int.floor_nonneg.mpr (by assumption)
      omega
    · have : ⌊-y⌋ ≤ 16384 := by
        have := Int.floor_le (-y)
        have h3 : ((⌊-y⌋ : Int) : K) ≤ ((16384 : Int) : K) := by push_cast; linarith
        exact_mod_cast h3
      omega
  have hhi : cint y < 16384 := by
    unfold cint; split
    · exact Int.floor_lt.mpr (by push_cast; exact h2)
    · rename_i h
      have : (0 : Int) ≤ ⌊-y⌋ := Int.floor_nonneg.mpr (by linarith [not_le.mp h])
      omega
  have hcl : clamp (cint y + 16384) = cint y + 16384 := by
    unfold clamp; rw [if_neg (by omega), if_neg (by omega)]
  rw [hcl]
  refine ⟨by omega, by omega, ?_⟩
  push_cast
  have e2 : (cint y : K) + 16384 - (y + 16384) = cint y - y := by ring
  rw [e2]; exact hc

theorem fromFixed_eq {P : K} (hP : 0 < P) (x : Int) (h0 : 0 ≤ x) (h1 : x ≤ 32767) :
    fromFixed P x = ((x : K) - 16384) * (P / 16384) ∧ InR P (fromFixed P x) := by
  have a0 : (0 : K) ≤ x := by exact_mod_cast h0
  have a1 : (x : K) ≤ 32767 := by exact_mod_cast h1
  have hw : 0 < P / 16384 := by positivity
  have e : P = 16384 * (P / 16384) := by ring
  have l : -P ≤ ((x : K) - 16384) * (P / 16384) := by
    generalize P / 16384 = w at *; rw [e]; nlinarith
  have u : ((x : K) - 16384) * (P / 16384) < P := by
    generalize P / 16384 = w at *; rw [e]; nlinarith
  unfold fromFixed
  rw [trunc_id l u]
  exact ⟨rfl, l, u⟩

/-- A value which wraps around (the hue of a colour change) follows the hilt:
    after any history ending in a loop it is the value at opening plus the angle
    turned, `rev` turns being the whole range, plus 1/36 of the range for every click, modulo the range and to less than one. -/
theorem C98_wraps {P rev : K} (hP : 0 < P) (hrev : 1 ≤ rev) (x : Int) (h0 : 0 ≤ x)
    (h1 : x ≤ 32767) (θ₀ r₀ : K) (hR₀ : Reads P θ₀ r₀) (es : List (MEv K)) (θ r : K)
    (hf : Followed P θ₀ (es ++ [.loop θ r])) :
    let v := (wrapRun P rev (es ++ [.loop θ r]) (smOpen P r₀ x)).value
    0 ≤ v ∧ v ≤ 32767 ∧ ∃ k : Int,
      |(v : K) - (x + 32768 * ((θ - θ₀) / (2 * P) / rev + mClicks es / 36 + k))| < 1 := by
  obtain ⟨f1, f2⟩ := fromFixed_eq hP x h0 h1
  obtain ⟨i1, i2, _⟩ := wrap_run hP hrev (es ++ [.loop θ r]) (smOpen P r₀ x) θ₀
    (hR₀.range hP) hR₀.same f2 hf
  have hv : ∀ (es : List (MEv K)) (s : Sm K),
      (wrapRun P rev (es ++ [.loop θ r]) s).value
        = fixed P (wrapRun P rev (es ++ [.loop θ r]) s).angle := by
    intro es
    induction es with
    | nil => intro s; rfl
    | cons e es ih => intro s; exact ih _
  have he : ∀ (es : List (MEv K)) (θ₀ : K), mEnd θ₀ (es ++ [.loop θ r]) = θ := by
    intro es
    induction es with
    | nil => intro θ₀; rfl
    | cons e es ih => intro θ₀; cases e <;> exact ih _
  have hcl : ∀ (es : List (MEv K)), mClicks (es ++ [.loop θ r]) = mClicks es := by
    intro es
    induction es with
    | nil => rfl
    | cons e es ih => cases e <;> simp [mClicks, ih]
  rw [he, hcl] at i2
  intro v
  have hvv : v = fixed P (wrapRun P rev (es ++ [.loop θ r]) (smOpen P r₀ x)).angle := hv es _
  generalize (wrapRun P rev (es ++ [.loop θ r]) (smOpen P r₀ x)).angle = a at *
  obtain ⟨g1, g2, g3⟩ := fixed_near hP i1
  rw [hvv]
  refine ⟨g1, g2, ?_⟩
  obtain ⟨k, hk⟩ := i2
  refine ⟨k, ?_⟩
  have ea : a * 16384 / P + 16384
      = x + 32768 * ((θ - θ₀) / (2 * P) / rev + mClicks es / 36 + k) := by
    rw [hk]
    show (fromFixed P x + _ + _ + _) * 16384 / P + 16384 = _
    rw [f1]
    have hP0 : P ≠ 0 := ne_of_gt hP
    have hr0 : rev ≠ 0 := by intro h; rw [h] at hrev; linarith
    field_simp
    ring
  rw [ea] at g3; exact g3

/-- `rev` whole turns, or none, bring the value back exactly. -/
theorem C98_wrap_returns {P rev : K} (hP : 0 < P) (hrev : 1 ≤ rev) (x : Int) (h0 : 0 ≤ x)
    (h1 : x ≤ 32767) (θ₀ r₀ : K) (hR₀ : Reads P θ₀ r₀) (es : List (MEv K)) (θ r : K)
    (hf : Followed P θ₀ (es ++ [.loop θ r])) (hc : mClicks es = 0) (j : Int)
    (hθ : θ = θ₀ + j * rev * (2 * P)) :
    (wrapRun P rev (es ++ [.loop θ r]) (smOpen P r₀ x)).value = x := by
  obtain ⟨a, b, k, h⟩ := C98_wraps hP hrev x h0 h1 θ₀ r₀ hR₀ es θ r hf
  generalize (wrapRun P rev (es ++ [.loop θ r]) (smOpen P r₀ x)).value = v at *
  have hP0 : P ≠ 0 := ne_of_gt hP
  have hr0 : rev ≠ 0 := by intro h; rw [h] at hrev; linarith
  have e : (v : K) - (x + 32768 * ((θ - θ₀) / (2 * P) / rev + mClicks es / 36 + k))
      = ((v - x - 32768 * (j + k) : Int) : K) := by
    rw [hθ, hc]
    push_cast
    field_simp
    ring
  rw [e, ← Int.cast_abs] at h
  have h4 : |v - x - 32768 * (j + k)| < 1 := by exact_mod_cast h
  have h5 := Int.abs_lt_one_iff.mp h4
  omega

example : let es : List (MEv ℚ) := [.loop (3/4) (3/4), .left, .loop (3/2) (-1/2), .right,
      .loop (9/4) (1/4), .loop 3 1, .loop (15/4) (-1/4), .loop (9/2) (1/2), .loop (21/4) (-3/4)]
    Followed 1 0 (es ++ [.loop 6 0]) ∧ mClicks es = 0 ∧
    (wrapRun 1 3 es (smOpen 1 0 20000)).value = 15904 ∧
    (wrapRun 1 3 (es ++ [.loop 6 0]) (smOpen 1 0 20000)).value = 20000 := by
  refine ⟨?_, by decide, by decide +kernel, by decide +kernel⟩
  simp only [List.cons_append, List.nil_append, Followed, Reads, Same]
  refine ⟨by norm_num [abs_lt], ⟨by norm_num, by norm_num, 0, by norm_num⟩,
    by norm_num [abs_lt], ⟨by norm_num, by norm_num, -1, by norm_num⟩,
    by norm_num [abs_lt], ⟨by norm_num, by norm_num, -1, by norm_num⟩,
    by norm_num [abs_lt], ⟨by norm_num, by norm_num, -1, by norm_num⟩,
    by norm_num [abs_lt], ⟨by norm_num, by norm_num, -2, by norm_num⟩,
    by norm_num [abs_lt], ⟨by norm_num, by norm_num, -2, by norm_num⟩,
    by norm_num [abs_lt], ⟨by norm_num, by norm_num, -3, by norm_num⟩,
    by norm_num [abs_lt], ⟨by norm_num, by norm_num, -3, by norm_num⟩, trivial⟩

/-! ## Values with ends -/

/-- The specification: a wheel with stops at `-P` and `P`, turned by each
    movement of the hilt divided by `rev`.  Clicks left out. -/
def wheel (P rev : K) : K → K → List (K × K) → K
  | a, _, [] => a
  | a, θ, (θ', _) :: es => wheel P rev (max (-P) (min P (a + (θ' - θ) / rev))) θ' es

def loops (es : List (K × K)) : List (MEv K) := es.map fun e => .loop e.1 e.2

theorem guard_eq {P a d : K} (hP : 0 < P) : (guard P a d).1 = max (-P) (min P (a + d)) := by
  unfold guard
  simp only []
  by_cases h : P ≤ a + d
  · rw [if_pos h, min_eq_left h, max_eq_right (by linarith)]
  · rw [if_neg h]
    have h' := not_le.mp h
    by_cases g : a + d < -P
    · rw [if_pos g, min_eq_right h'.le, max_eq_left g.le]
    · rw [if_neg g, min_eq_right h'.le, max_eq_right (not_lt.mp g)]

theorem rail_run {P m rev : K} (hP : 0 < P) (hrev : 1 ≤ rev) (es : List (K × K)) :
    ∀ (s : Sm K) (θ : K), InR P s.last → Same P s.last θ → Followed P θ (loops es) →
    (railRun P m rev (loops es) s).angle = wheel P rev s.angle θ es ∧
    (es ≠ [] → (railRun P m rev (loops es) s).value = fixedM P m (wheel P rev s.angle θ es)) ∧
    (railRun P m rev (loops es) s).saved = s.saved := by
  induction es with
  | nil => intro s θ _ _ _; exact ⟨rfl, fun h => absurd rfl h, rfl⟩
  | cons e es ih =>
    intro s θ hl hls hf
    obtain ⟨θ', r⟩ := e
    obtain ⟨h1, h2, h3⟩ := hf
    obtain ⟨d1, d2⟩ := delta_eq hP hrev s hl hls h1 h2
    obtain ⟨i1, i2, i3⟩ := ih (railLoop P m rev r s).1 θ' (h2.range hP) h2.same h3
    have ea : (railLoop P m rev r s).1.angle = max (-P) (min P (s.angle + (θ' - θ) / rev)) := by
      show (guard P s.angle (delta P rev r s)).1 = _
      rw [d1]; exact guard_eq hP
    have ev : (railLoop P m rev r s).1.value
        = fixedM P m (max (-P) (min P (s.angle + (θ' - θ) / rev))) := by
      show fixedM P m (guard P s.angle (delta P rev r s)).1 = _
      rw [d1, guard_eq hP]
    rw [ea] at i1 i2
    refine ⟨i1, fun _ => ?_, i3⟩
    by_cases hn : es = []
    · subst hn; exact ev
    · exact i2 hn

/-- The value of an angle: a straight line, cut off at the ends. -/
theorem fixedM_near {P m a : K} :
    0 ≤ fixedM P m a ∧ fixedM P m a ≤ 32767 ∧
    |(fixedM P m a : K) - max 0 (min 32767 (a * (16384 * (1 + m)) / P + 16384))| < 1 := by
  unfold fixedM
  have e : a * (16384 * (1 + m) / P) = a * (16384 * (1 + m)) / P := by ring
  simp only [e]
  generalize a * (16384 * (1 + m)) / P + 16384 = y
  refine ⟨(clamp_range _).1, (clamp_range _).2, ?_⟩
  have h := cint_near y
  rw [abs_lt] at h
  generalize cint y = c at *
  unfold clamp
  by_cases h0 : c < 0
  · rw [if_pos h0]
    have : (c : K) ≤ -1 := by
      have : c ≤ -1 := by omega
      exact_mod_cast this
    rw [min_eq_right (by linarith), max_eq_left (by linarith)]
    simp
  · rw [if_neg h0]
    by_cases h1 : c > 32767
    · rw [if_pos h1]
      have : (32768 : K) ≤ c := by
        have : 32768 ≤ c := by omega
        exact_mod_cast this
      rw [min_eq_left (by linarith), max_eq_right (by norm_num)]
      simp
    · rw [if_neg h1]
      have c0 : (0 : K) ≤ c := by
        have : 0 ≤ c := by omega
        exact_mod_cast this
      have c1 : (c : K) ≤ 32767 := by
        have : c ≤ 32767 := by omega
        exact_mod_cast this
      by_cases y1 : y ≤ 32767
      · rw [min_eq_right y1]
        by_cases y0 : 0 ≤ y
        · rw [max_eq_right y0, abs_lt]; constructor <;> linarith
        · rw [max_eq_left (not_le.mp y0).le, abs_lt]
          have := not_le.mp y0
          constructor <;> linarith
      · rw [min_eq_left (not_le.mp y1).le, max_eq_right (by norm_num), abs_lt]
        have := not_le.mp y1
        constructor <;> linarith

/-- A value with ends (volume, brightness, dimming) follows a wheel with stops,
    for every history of turning; it never leaves 0..32767 and cancelling gives
    back the value at opening. -/
theorem C98_rails {P m rev : K} (hP : 0 < P) (hrev : 1 ≤ rev)
    (x : Int) (θ₀ r₀ : K) (hR₀ : Reads P θ₀ r₀) (es : List (K × K)) (hes : es ≠ [])
    (hf : Followed P θ₀ (loops es)) :
    let s := railRun P m rev (loops es) (smOpenM P m r₀ x)
    0 ≤ s.value ∧ s.value ≤ 32767 ∧ (smExit s).value = x ∧
    |(s.value : K) - max 0 (min 32767
      (wheel P rev (fromFixedM P m x) θ₀ es * (16384 * (1 + m)) / P + 16384))| < 1 := by
  obtain ⟨_, i2, i3⟩ := rail_run (m := m) hP hrev es (smOpenM P m r₀ x) θ₀ (hR₀.range hP)
    hR₀.same hf
  intro s
  have h := i2 hes
  have hn := @fixedM_near K _ _ _ _ P m (wheel P rev (fromFixedM P m x) θ₀ es)
  have hv : s.value = fixedM P m (wheel P rev (fromFixedM P m x) θ₀ es) := h
  rw [hv]
  exact ⟨hn.1, hn.2.1, i3, hn.2.2⟩

/-- Turning past an end for long enough reaches it: the wheel is at the stop,
    the value is the end, and the bump is signalled. -/
theorem C98_ends {P m rev r : K} (hP : 0 < P) (hm : 0 ≤ m) (s : Sm K) :
    ((railLoop P m rev r s).2 = 1 ↔ P ≤ s.angle + delta P rev r s) ∧
    ((railLoop P m rev r s).2 = -1 ↔ s.angle + delta P rev r s < -P) ∧
    ((railLoop P m rev r s).2 = 1 → (railLoop P m rev r s).1.value = 32767) ∧
    ((railLoop P m rev r s).2 = -1 → (railLoop P m rev r s).1.value = 0) := by
  have hP0 : P ≠ 0 := ne_of_gt hP
  have top : fixedM P m P = 32767 := by
    unfold fixedM
    have e : P * (16384 * (1 + m) / P) = 16384 * (1 + m) := by field_simp
    simp only [e]
    have hc := cint_near (16384 * (1 + m) + 16384)
    rw [abs_lt] at hc
    have h1 : (32767 : Int) < cint (16384 * (1 + m) + 16384) := by
      have : ((32767 : Int) : K) < cint (16384 * (1 + m) + 16384) := by push_cast; linarith
      exact_mod_cast this
    unfold clamp
    rw [if_neg (by omega), if_pos h1]
  have bot : fixedM P m (-P) = 0 := by
    unfold fixedM
    have e : -P * (16384 * (1 + m) / P) + 16384 = -(16384 * m) := by field_simp; ring
    simp only [e]
    have hc := cint_near (-(16384 * m))
    rw [abs_lt] at hc
    have h1 : cint (-(16384 * m)) < 1 := by
      have : ((cint (-(16384 * m)) : Int) : K) < ((1 : Int) : K) := by push_cast; linarith
      exact_mod_cast this
    unfold clamp
    by_cases h : cint (-(16384 * m)) < 0
    · rw [if_pos h]
    · rw [if_neg h, if_neg (by omega)]; omega
  unfold railLoop guard
  simp only []
  generalize s.angle + delta P rev r s = a
  by_cases h : P ≤ a
  · simp only [if_pos h]
    exact ⟨by simp [h], by constructor
                           · intro h; simp at h
                           · intro g; linarith, fun _ => top, fun g => by simp at g⟩
  · simp only [if_neg h]
    by_cases g : a < -P
    · simp only [if_pos g]
      exact ⟨by simp [h], by simp [g], fun g => by simp at g, fun _ => bot⟩
    · simp only [if_neg g]
      exact ⟨by simp [h], by simp [g], fun g => by simp at g, fun g => by simp at g⟩

/-- Opening a value at one of its ends and not turning keeps it there. -/
theorem C98_open_partial {P m rev : K} (hP : 0 < P) (hrev : 1 ≤ rev) (hm : 0 < m) (hm1 : m ≤ 1)
    (x : Int) (hx : x = 0 ∨ x = 32767) (θ₀ r₀ r : K) (hR₀ : Reads P θ₀ r₀) (hR : Reads P θ₀ r) :
    (railLoop P m rev r (smOpenM P m r₀ x)).1.value = x := by
  have hP0 : P ≠ 0 := ne_of_gt hP
  obtain ⟨d1, _⟩ := delta_eq (θ' := θ₀) hP hrev (smOpenM P m r₀ x) (hR₀.range hP) hR₀.same
    (by simpa using hP) hR
  show fixedM P m (guard P (fromFixedM P m x) (delta P rev r (smOpenM P m r₀ x))).1 = x
  rw [d1, guard_eq hP]
  have e0 : (θ₀ - θ₀) / rev = 0 := by simp
  rw [e0, add_zero]
  have hmm : m * m ≤ m := by nlinarith
  have hPm : 0 < P * m := by positivity
  rcases hx with rfl | rfl
  · have hr : fromFixedM P m 0 = -P * (1 - m / 5) := by
      unfold fromFixedM
      rw [if_neg (by decide), if_pos (by decide)]
      exact trunc_id (by linarith) (by nlinarith)
    rw [hr, min_eq_right (by nlinarith), max_eq_right (by linarith)]
    unfold fixedM
    have e : -P * (1 - m / 5) * (16384 * (1 + m) / P) + 16384
        = -(16384 / 5 * (4 * m - m * m)) := by field_simp; ring
    simp only [e]
    have hc := cint_near (-(16384 / 5 * (4 * m - m * m)))
    rw [abs_lt] at hc
    have h1 : cint (-(16384 / 5 * (4 * m - m * m))) < 1 := by
      have : ((cint (-(16384 / 5 * (4 * m - m * m))) : Int) : K) < ((1 : Int) : K) := by
        push_cast; linarith
      exact_mod_cast this
    generalize cint (-(16384 / 5 * (4 * m - m * m))) = c at *
    unfold clamp
    by_cases h : c < 0
    · rw [if_pos h]
    · rw [if_neg h, if_neg (by omega)]; omega
  · have hr : fromFixedM P m 32767 = P * (1 - m / 5) := by
      unfold fromFixedM
      rw [if_pos (by decide)]
      exact trunc_id (by nlinarith) (by linarith)
    rw [hr, min_eq_right (by linarith), max_eq_right (by nlinarith)]
    unfold fixedM
    have e : P * (1 - m / 5) * (16384 * (1 + m) / P) + 16384
        = 32768 + 16384 / 5 * (4 * m - m * m) := by field_simp; ring
    simp only [e]
    have hc := cint_near (32768 + 16384 / 5 * (4 * m - m * m))
    rw [abs_lt] at hc
    have h1 : (32767 : Int) < cint (32768 + 16384 / 5 * (4 * m - m * m)) := by
      have : ((32767 : Int) : K) < cint (32768 + 16384 / 5 * (4 * m - m * m)) := by
        push_cast; linarith
      exact_mod_cast this
    unfold clamp
    rw [if_neg (by omega), if_pos h1]

example : Reads (1 : ℚ) 3 1 ∧ Reads (1 : ℚ) 3 (-1) ∧
    (railLoop 1 (1/50) 2 (1 : ℚ) (smOpenM 1 (1/50) (-1) 32767)).1.value = 32767 := by
  refine ⟨⟨by norm_num, by norm_num, -1, by norm_num⟩,
    ⟨by norm_num, by norm_num, -2, by norm_num⟩, by decide +kernel⟩

/-- In between the value drops on opening, by the margin: 16384 (half volume) read,
    nothing turned, 16056 set; and so on every time the setting is opened. -/
theorem C98_open_counterexample :
    (railLoop 1 (1/50) 1 (0 : ℚ) (smOpenM 1 (1/50) 0 16384)).1.value = 16056 ∧
    (railLoop 1 (1/50) 1 (0 : ℚ) (smOpenM 1 (1/50) 0 16056)).1.value = 15728 ∧
    (railLoop 1 (1/50) 1 (0 : ℚ) (smOpenM 1 (1/50) 0 300)).1.value = 0 := by
  decide +kernel

/-- At the top end a click upwards jumps to near the bottom. -/
theorem C98_click_counterexample :
    let s := (railLoop 1 (1/50) 1 (1/2 : ℚ) (smOpenM 1 (1/50) 0 32000)).1
    s.value = 32767 ∧ (railLoop 1 (1/50) 1 (1/2) (smLeft 1 s)).1.value = 600 := by
  decide +kernel

/-- A colour variation above the range (counted with ticks) is outside what the
    smooth mode can represent: opening it changes it. -/
theorem C98_range_counterexample :
    (wrapLoop 1 3 (0 : ℚ) (smOpen 1 0 60000)).value = 27232 := by
  decide +kernel

end Verif.Menu.Twist
