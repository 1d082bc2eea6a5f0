import Verif.Color.Model
set_option linter.unusedSimpArgs false
/-!
# C27: mixing two colours stays between them
-/
namespace Verif.Color

/-- every channel fits in `bits` bits -/
def Color.ok (c : Color) (bits : Nat) : Prop := ∀ ch, c ch < 2 ^ bits

theorem seqC_some {f : Ch → Option Nat} {g : Color} (h : ∀ ch, f ch = some (g ch)) : seqC f = some g := by
  unfold seqC
  rw [h, h, h]
  simp only [Option.bind_eq_bind, Option.bind_some, Option.some.injEq]
  funext ch
  cases ch <;> rfl

theorem i32_some {x : Int} (h1 : 0 ≤ x) (h2 : x < 2147483648) : i32 x = some x := by
  unfold i32; rw [if_pos ⟨by omega, h2⟩]

theorem bind_i32 {β : Type} {x : Int} (h1 : 0 ≤ x) (h2 : x < 2147483648) (f : Int → Option β) : (i32 x >>= f) = f x := by
  rw [i32_some h1 h2]; rfl

theorem cast_pow (s : Nat) : (2:Int) ^ s = ((2 ^ s : Nat) : Int) := (Int.natCast_pow 2 s).symm

theorem toU_small {bits : Nat} {x : Nat} (h : x < 2 ^ bits) : toU bits (x : Int) = x := by
  unfold toU
  rw [cast_pow, ← Int.natCast_emod, Int.toNat_natCast, Nat.mod_eq_of_lt h]

/-- the exact weighted sum -/
def wsum (T a b x : Nat) : Nat := (T - x) * a + x * b

theorem wsum_between {T a b x : Nat} (hx : x ≤ T) : T * min a b ≤ wsum T a b x ∧ wsum T a b x ≤ T * max a b := by
  obtain ⟨y, rfl⟩ : ∃ y, T = y + x := ⟨T - x, by omega⟩
  unfold wsum
  rw [Nat.add_sub_cancel, Nat.add_mul, Nat.add_mul]
  exact ⟨Nat.add_le_add (Nat.mul_le_mul_left _ (Nat.min_le_left _ _)) (Nat.mul_le_mul_left _ (Nat.min_le_right _ _)),
    Nat.add_le_add (Nat.mul_le_mul_left _ (Nat.le_max_left _ _)) (Nat.mul_le_mul_left _ (Nat.le_max_right _ _))⟩

theorem wsum_mono {T a b x y : Nat} (h : x ≤ y) (hy : y ≤ T) (hab : a ≤ b) : wsum T a b x ≤ wsum T a b y := by
  obtain ⟨d, rfl⟩ : ∃ d, y = x + d := ⟨y - x, by omega⟩
  obtain ⟨z, rfl⟩ : ∃ z, T = z + (x + d) := ⟨T - (x + d), by omega⟩
  unfold wsum
  have e1 : z + (x + d) - x = z + d := by omega
  have e2 : z + (x + d) - (x + d) = z := by omega
  rw [e1, e2, Nat.add_mul, Nat.add_mul]
  have := Nat.mul_le_mul_left d hab
  omega

theorem wsum_swap {T a b x : Nat} (hx : x ≤ T) : wsum T a b x = wsum T b a (T - x) := by
  unfold wsum
  have : T - (T - x) = x := by omega
  rw [this]; omega

/-- the exact mixed channel value -/
def mixed (T a b x : Nat) : Nat := wsum T a b x / T

theorem mixed_between {T a b x : Nat} (hT : 0 < T) (hx : x ≤ T) : min a b ≤ mixed T a b x ∧ mixed T a b x ≤ max a b := by
  have h := wsum_between (a := a) (b := b) hx
  unfold mixed
  constructor
  · rw [Nat.le_div_iff_mul_le hT, Nat.mul_comm]; exact h.1
  · exact Nat.div_le_of_le_mul h.2

theorem mixed_zero {T a b : Nat} (hT : 0 < T) : mixed T a b 0 = a := by
  unfold mixed wsum
  rw [Nat.sub_zero, Nat.zero_mul, Nat.add_zero, Nat.mul_div_cancel_left _ hT]

theorem mixed_full {T a b : Nat} (hT : 0 < T) : mixed T a b T = b := by
  unfold mixed wsum
  rw [Nat.sub_self, Nat.zero_mul, Nat.zero_add, Nat.mul_div_cancel_left _ hT]

theorem pow_split {s bits : Nat} (h : s + bits ≤ 31) {c : Nat} (hc : c < 2 ^ bits) : 2 ^ s * c < 2147483648 := by
  have h1 : 2 ^ s * c < 2 ^ s * 2 ^ bits := Nat.mul_lt_mul_of_pos_left hc (Nat.two_pow_pos s)
  rw [← Nat.pow_add] at h1
  have h2 : 2 ^ (s + bits) ≤ 2 ^ 31 := Nat.pow_le_pow_right (by omega) h
  omega

theorem max_lt_pow {bits a b : Nat} (ha : a < 2 ^ bits) (hb : b < 2 ^ bits) : max a b < 2 ^ bits := by
  rcases Nat.le_total a b with h | h
  · rw [Nat.max_eq_right h]; exact hb
  · rw [Nat.max_eq_left h]; exact ha

theorem mixCh_eq {s bits a b x : Nat} (hsb : s + bits ≤ 31) (ha : a < 2 ^ bits) (hb : b < 2 ^ bits) (hx : x ≤ 2 ^ s) :
    mixCh s bits a b (x : Int) = some (mixed (2 ^ s) a b x) := by
  have hw := (wsum_between (a := a) (b := b) hx).2
  have hm := pow_split hsb (max_lt_pow ha hb)
  have hp : ((2:Int) ^ s - (x : Int)) * (a : Int) = (((2 ^ s - x) * a : Nat) : Int) := by
    rw [Int.natCast_mul, Int.natCast_sub hx, cast_pow]
  have hq : (x : Int) * (b : Int) = ((x * b : Nat) : Int) := (Int.natCast_mul x b).symm
  have hs : (2 ^ s - x) * a + x * b < 2147483648 := by
    have : wsum (2 ^ s) a b x = (2 ^ s - x) * a + x * b := rfl
    omega
  unfold mixCh
  rw [hp, bind_i32 (by omega) (by omega)]
  rw [hq, bind_i32 (by omega) (by omega)]
  rw [bind_i32 (by omega) (by omega)]
  have e : ((((2 ^ s - x) * a : Nat) : Int) + ((x * b : Nat) : Int)) / 2 ^ s = ((mixed (2 ^ s) a b x : Nat) : Int) := by
    unfold mixed wsum
    rw [cast_pow, Int.natCast_ediv, Int.natCast_add]
  rw [e, toU_small]
  have := (mixed_between (a := a) (b := b) (Nat.two_pow_pos s) hx).2
  have := max_lt_pow ha hb
  omega

/-- the weight shifts and channel widths the library uses -/
def MixKind (s bits : Nat) : Prop := (s = 8 ∨ s = 14 ∨ s = 15) ∧ (bits = 8 ∨ bits = 16)

theorem MixKind.le {s bits : Nat} (h : MixKind s bits) : s + bits ≤ 31 := by
  obtain ⟨rfl | rfl | rfl, rfl | rfl⟩ := h <;> omega

/-- **C27** (`mix`, `mix2`, `mix3` of 8- and 16-bit colours).  For every weight from 0 to full: no
overflow; the mix is the first colour at 0 and the second at full weight; every channel lies between
the two inputs; and with growing weight every channel moves monotonically from the first to the
second. -/
theorem C27_mix {s bits : Nat} (hk : MixKind s bits) {a b : Color} (ha : a.ok bits) (hb : b.ok bits) {x : Nat} (hx : x ≤ 2 ^ s) :
    ∃ m, mix s bits a b x = some m ∧
      (∀ ch, min (a ch) (b ch) ≤ m ch ∧ m ch ≤ max (a ch) (b ch)) ∧
      (x = 0 → m = a) ∧ (x = 2 ^ s → m = b) ∧
      ∀ y : Nat, x ≤ y → y ≤ 2 ^ s → ∀ m', mix s bits a b y = some m' →
        ∀ ch, (a ch ≤ b ch → m ch ≤ m' ch) ∧ (b ch ≤ a ch → m' ch ≤ m ch) := by
  have hsb := hk.le
  have key : ∀ z : Nat, z ≤ 2 ^ s → mix s bits a b (z : Int) = some (fun ch => mixed (2 ^ s) (a ch) (b ch) z) := by
    intro z hz
    unfold mix
    exact seqC_some fun ch => mixCh_eq hsb (ha ch) (hb ch) hz
  refine ⟨_, key x hx, fun ch => mixed_between (Nat.two_pow_pos s) hx, ?_, ?_, ?_⟩
  · rintro rfl; funext ch; exact mixed_zero (Nat.two_pow_pos s)
  · rintro rfl; funext ch; exact mixed_full (Nat.two_pow_pos s)
  · intro y hxy hy m' hm' ch
    rw [key y hy] at hm'
    cases hm'
    refine ⟨fun h => ?_, fun h => ?_⟩
    · exact Nat.div_le_div_right (wsum_mono hxy hy h)
    · show mixed _ _ _ _ ≤ mixed _ _ _ _
      unfold mixed
      rw [wsum_swap hx, wsum_swap hy]
      exact Nat.div_le_div_right (wsum_mono (by omega) (by omega) h)

example : MixKind 15 16 := by unfold MixKind; omega

/-- concrete: a quarter of the way from (1000, 65535, 0) to (3000, 0, 65535) -/
example : (mix 15 16 (fun | .r => 1000 | .g => 65535 | .b => 0) (fun | .r => 3000 | .g => 0 | .b => 65535) 8192).map (fun m => (m .r, m .g, m .b)) =
    some (1500, 49151, 16383) := by decide +kernel

/-! ## MixColors -/

theorem mul32_eq {c : Color} {x : Nat} (h : ∀ ch, c ch * x < 2147483648) : mul32 c x = some (fun ch => c ch * x) := by
  unfold mul32
  apply seqC_some
  intro ch
  rw [i32_some (by omega) (by have := h ch; omega), Option.map_some, Int.toNat_natCast]

theorem toU16_sub {T x : Nat} (hT : T < 65536) (hx : x ≤ T) : toU 16 ((T : Int) - (x : Int)) = T - x := by
  rw [← Int.natCast_sub hx, toU_small (by omega)]

theorem bind_some {α β : Type} (x : α) (f : α → Option β) : (some x >>= f) = f x := rfl

theorem mixColor_eq {shift : Nat} (hs : shift ≤ 15) {a b : Color} (ha : a.ok 16) (hb : b.ok 16) {x : Nat} (hx : x ≤ 2 ^ shift) :
    mixColor a b (x : Int) shift = some (fun ch => mixed (2 ^ shift) (a ch) (b ch) x) := by
  have hT : 2 ^ shift < 65536 := by
    have : 2 ^ shift ≤ 2 ^ 15 := Nat.pow_le_pow_right (by omega) hs
    omega
  have h1 : toU 16 ((2:Int) ^ shift - (x : Int)) = 2 ^ shift - x := by
    rw [cast_pow]
    exact toU16_sub hT hx
  have h2 : toU 16 (x : Int) = x := toU_small (by omega)
  have hw : ∀ ch, wsum (2 ^ shift) (a ch) (b ch) x < 2147483648 := by
    intro ch
    have h3 := (wsum_between (a := a ch) (b := b ch) hx).2
    have h4 := pow_split (s := shift) (bits := 16) (by omega) (max_lt_pow (ha ch) (hb ch))
    omega
  have hw' : ∀ ch, (2 ^ shift - x) * a ch + x * b ch < 2147483648 := hw
  unfold mixColor
  rw [h1, mul32_eq (fun ch => by have := hw' ch; rw [Nat.mul_comm]; omega), bind_some]
  rw [h2, mul32_eq (fun ch => by have := hw' ch; rw [Nat.mul_comm (b ch)]; omega), bind_some, Option.some.injEq]
  funext ch
  show (a ch * (2 ^ shift - x) + b ch * x) % 4294967296 / 2 ^ shift % 65536 = _
  have e : a ch * (2 ^ shift - x) + b ch * x = wsum (2 ^ shift) (a ch) (b ch) x := by
    unfold wsum; rw [Nat.mul_comm, Nat.mul_comm (b ch)]
  rw [e, Nat.mod_eq_of_lt (a := wsum (2 ^ shift) (a ch) (b ch) x) (by have := hw ch; omega)]
  show mixed (2 ^ shift) (a ch) (b ch) x % 65536 = _
  apply Nat.mod_eq_of_lt
  have := (mixed_between (a := a ch) (b := b ch) (Nat.two_pow_pos shift) hx).2
  have := max_lt_pow (ha ch) (hb ch)
  omega

/-- the exact mixed alpha, rounded up -/
def mixedUp (T a b x : Nat) : Nat := (wsum T a b x + (T - 1)) / T

theorem mixedUp_between {T a b x : Nat} (hT : 0 < T) (hx : x ≤ T) : min a b ≤ mixedUp T a b x ∧ mixedUp T a b x ≤ max a b := by
  have h := wsum_between (a := a) (b := b) hx
  unfold mixedUp
  constructor
  · rw [Nat.le_div_iff_mul_le hT, Nat.mul_comm]; omega
  · rw [Nat.div_le_iff_le_mul hT, Nat.mul_comm]; omega

theorem mixAlpha_eq {shift : Nat} (hs : shift ≤ 15) {a b : Nat} (ha : a ≤ 32768) (hb : b ≤ 32768) {x : Nat} (hx : x ≤ 2 ^ shift) :
    mixAlpha a b (x : Int) shift = some (mixedUp (2 ^ shift) a b x) := by
  have hT : 2 ^ shift ≤ 32768 := by
    have : 2 ^ shift ≤ 2 ^ 15 := Nat.pow_le_pow_right (by omega) hs
    omega
  have hpos : 0 < 2 ^ shift := Nat.two_pow_pos shift
  have hw := (wsum_between (a := a) (b := b) hx).2
  have hm : 2 ^ shift * max a b ≤ 32768 * 32768 := Nat.mul_le_mul hT (by omega)
  have hw' : (2 ^ shift - x) * a + x * b ≤ 32768 * 32768 := by unfold wsum at hw; omega
  have hp : (a : Int) * ((2:Int) ^ shift - (x : Int)) = (((2 ^ shift - x) * a : Nat) : Int) := by
    rw [Int.natCast_mul, Int.natCast_sub hx, Int.mul_comm, cast_pow]
  have hq : (b : Int) * (x : Int) = ((x * b : Nat) : Int) := by rw [Int.natCast_mul, Int.mul_comm]
  have hr : (2:Int) ^ shift - 1 = ((2 ^ shift - 1 : Nat) : Int) := by rw [Int.natCast_sub hpos, cast_pow]; rfl
  unfold mixAlpha
  rw [hp, bind_i32 (by omega) (by omega)]
  rw [hq, bind_i32 (by omega) (by omega)]
  rw [bind_i32 (by omega) (by omega)]
  rw [hr, bind_i32 (by omega) (by omega)]
  have e : (((((2 ^ shift - x) * a : Nat) : Int) + ((x * b : Nat) : Int)) + ((2 ^ shift - 1 : Nat) : Int)) / 2 ^ shift = ((mixedUp (2 ^ shift) a b x : Nat) : Int) := by
    unfold mixedUp wsum
    rw [cast_pow, Int.natCast_ediv, Int.natCast_add, Int.natCast_add]
  rw [e, toU_small]
  have := (mixedUp_between (a := a) (b := b) hpos hx).2
  omega

/-- **C27** (`MixColors` of opaque colours, any weight scale up to `2^15`).  As `C27_mix`; the overdrive
flag is that of the colour with more than half of the weight, the first one at exactly half. -/
theorem C27_mixcolors {shift : Nat} (hs : shift ≤ 15) {a b : OD} (ha : a.c.ok 16) (hb : b.c.ok 16) {x : Nat} (hx : x ≤ 2 ^ shift) :
    ∃ m, mixOD a b x shift = some m ∧ mixColor a.c b.c x shift = some m.c ∧
      (∀ ch, min (a.c ch) (b.c ch) ≤ m.c ch ∧ m.c ch ≤ max (a.c ch) (b.c ch)) ∧
      (x = 0 → m = a) ∧ (x = 2 ^ shift → 1 ≤ shift → m = b) := by
  refine ⟨_, by unfold mixOD; rw [mixColor_eq hs ha hb hx]; rfl, mixColor_eq hs ha hb hx, fun ch => mixed_between (Nat.two_pow_pos _) hx, ?_, ?_⟩
  · rintro rfl
    have : ¬ ((0 : Nat) : Int) > 2 ^ (shift - 1) := by
      have : (0:Int) < 2 ^ (shift - 1) := Int.pow_pos (by omega)
      omega
    rw [if_neg this]
    show (⟨_, _⟩ : OD) = ⟨a.c, a.overdrive⟩
    congr 1
    funext ch; exact mixed_zero (Nat.two_pow_pos _)
  · rintro rfl h1
    have : ((2 ^ shift : Nat) : Int) > 2 ^ (shift - 1) := by
      obtain ⟨k, rfl⟩ : ∃ k, shift = k + 1 := ⟨shift - 1, by omega⟩
      rw [Nat.add_sub_cancel]
      have h2 : (0:Int) < 2 ^ k := Int.pow_pos (by omega)
      rw [← cast_pow, Int.pow_succ]
      omega
    rw [if_pos this]
    show (⟨_, _⟩ : OD) = ⟨b.c, b.overdrive⟩
    congr 1
    funext ch; exact mixed_full (Nat.two_pow_pos _)

/-- **C27** (`MixColors` of transparent layers).  Alpha is mixed too, stays between the two alphas, and is
exact at both ends. -/
theorem C27_mixlayers {shift : Nat} (hs : shift ≤ 15) {a b : Layer} (ha : a.c.ok 16) (hb : b.c.ok 16) (haa : a.alpha ≤ 32768) (hba : b.alpha ≤ 32768)
    {x : Nat} (hx : x ≤ 2 ^ shift) :
    ∃ m, mixRGBA a b x shift = some m ∧ mixNod ⟨a.c, a.alpha⟩ ⟨b.c, b.alpha⟩ x shift = some ⟨m.c, m.alpha⟩ ∧
      (∀ ch, min (a.c ch) (b.c ch) ≤ m.c ch ∧ m.c ch ≤ max (a.c ch) (b.c ch)) ∧
      (min a.alpha b.alpha ≤ m.alpha ∧ m.alpha ≤ max a.alpha b.alpha) ∧
      (x = 0 → m = a) ∧ (x = 2 ^ shift → 1 ≤ shift → m = b) := by
  have hpos : 0 < 2 ^ shift := Nat.two_pow_pos shift
  refine ⟨_, by unfold mixRGBA; rw [mixColor_eq hs ha hb hx, mixAlpha_eq hs haa hba hx]; rfl,
    by unfold mixNod; rw [mixColor_eq hs ha hb hx, mixAlpha_eq hs haa hba hx]; rfl,
    fun ch => mixed_between hpos hx, mixedUp_between hpos hx, ?_, ?_⟩
  · rintro rfl
    have : ¬ ((0 : Nat) : Int) > 2 ^ (shift - 1) := by
      have : (0:Int) < 2 ^ (shift - 1) := Int.pow_pos (by omega)
      omega
    rw [if_neg this]
    show (⟨_, _, _⟩ : Layer) = ⟨a.c, a.alpha, a.overdrive⟩
    congr 1
    · funext ch; exact mixed_zero hpos
    · unfold mixedUp wsum
      rw [Nat.sub_zero, Nat.zero_mul, Nat.add_zero, Nat.mul_add_div hpos]
      rw [Nat.div_eq_of_lt (by omega)]; rfl
  · rintro rfl h1
    have : ((2 ^ shift : Nat) : Int) > 2 ^ (shift - 1) := by
      obtain ⟨k, rfl⟩ : ∃ k, shift = k + 1 := ⟨shift - 1, by omega⟩
      rw [Nat.add_sub_cancel]
      have h2 : (0:Int) < 2 ^ k := Int.pow_pos (by omega)
      rw [← cast_pow, Int.pow_succ]
      omega
    rw [if_pos this]
    show (⟨_, _, _⟩ : Layer) = ⟨b.c, b.alpha, b.overdrive⟩
    congr 1
    · funext ch; exact mixed_full hpos
    · unfold mixedUp wsum
      rw [Nat.sub_self, Nat.zero_mul, Nat.zero_add, Nat.mul_add_div hpos]
      rw [Nat.div_eq_of_lt (by omega)]; rfl

/-- `mix_clamped` with a weight beyond the full weight: the channel should saturate at full brightness
but becomes 0, because the clamp admits 65536. -/
theorem C27_clamped_counterexample : mixClampedCh 0 65535 257 = some 0 := by decide +kernel

/-- **C27** (`mix_clamped`).  Within the normal weights it is the same as `mix`. -/
theorem C27_clamped {a b x : Nat} (ha : a < 2 ^ 16) (hb : b < 2 ^ 16) (hx : x ≤ 2 ^ 8) :
    mixClampedCh a b (x : Int) = mixCh 8 16 a b (x : Int) := by
  have e : ∀ t : Int, 0 ≤ t / 2 ^ 8 → t / 2 ^ 8 ≤ 65536 → toU 16 (clampI (t / 2 ^ 8) 0 65536) = toU 16 (t / 2 ^ 8) := by
    intro t h1 h2
    unfold clampI
    rw [if_neg (by omega), if_neg (by omega)]
  have hw := (wsum_between (a := a) (b := b) hx).2
  have hmx := max_lt_pow ha hb
  have hs : (2 ^ 8 - x) * a + x * b ≤ 256 * 65535 := by
    have : wsum (2 ^ 8) a b x = (2 ^ 8 - x) * a + x * b := rfl
    omega
  have hp : ((2:Int) ^ 8 - (x : Int)) * (a : Int) = (((2 ^ 8 - x) * a : Nat) : Int) := by
    rw [Int.natCast_mul, Int.natCast_sub hx, cast_pow]
  have hq : (x : Int) * (b : Int) = ((x * b : Nat) : Int) := (Int.natCast_mul x b).symm
  unfold mixClampedCh mixCh
  rw [hp, hq]
  generalize (2 ^ 8 - x) * a = p at *
  generalize x * b = q at *
  rw [bind_i32 (by omega) (by omega)]
  rw [bind_i32 (by omega) (by omega)]
  rw [bind_i32 (by omega) (by omega)]
  rw [e _ (by omega) (by omega)]
  rw [bind_i32 (by omega) (by omega), bind_i32 (by omega) (by omega), bind_i32 (by omega) (by omega)]

end Verif.Color
