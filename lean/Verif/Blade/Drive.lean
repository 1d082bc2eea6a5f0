import Mathlib.Algebra.Order.Field.Basic
import Mathlib.Algebra.Order.Floor.Ring
import Mathlib.Data.Rat.Floor
import Mathlib.Tactic.Linarith
import Mathlib.Tactic.Ring
import Mathlib.Tactic.Positivity
import Mathlib.Tactic.FieldSimp
/-!
# How bright a simple LED is driven, and the dimmed blade (C126)

Model of blades/drive_logic.h with `Color16::select` of common/color.h:238-245, and of blades/dim_blade.h. `float` is idealised as an
ordered field.
-/
namespace Verif.Blade.Drive

/-- `Color16`. -/
structure C3 where
  r : Nat
  g : Nat
  b : Nat
deriving DecidableEq

/-- The numbers a `uint16_t` can hold. -/
def C3.ok (c : C3) : Prop := c.r < 65536 ∧ c.g < 65536 ∧ c.b < 65536

/-- One line of `select`, common/color.h:241-243; the product is of type `uint32_t`. -/
def lim (ret a w : Nat) : Nat := if w ≠ 0 then min ret (a * 65535 % 4294967296 / w) else ret

/-- `Color16::select`, common/color.h:238-245. -/
def select (c o : C3) : Nat := lim (lim (lim 65535 c.r o.r) c.g o.g) c.b o.b % 65536

/-- `Color16(Color8)`, common/color.h:209. -/
def wide (r g b : Nat) : C3 := ⟨r * 0x101, g * 0x101, b * 0x101⟩

/-- `Select` of a LED with `SUBTRACT`, blades/drive_logic.h:23-27; the differences are stored in a `uint16_t`. -/
def selectSub (sub led : C3) (c : C3) : Nat :=
  select ⟨((c.r : Int) - select c sub).toNat % 65536 + (if (c.r : Int) < select c sub then 65536 + c.r - select c sub else 0),
    ((c.g : Int) - select c sub).toNat % 65536 + (if (c.g : Int) < select c sub then 65536 + c.g - select c sub else 0),
    ((c.b : Int) - select c sub).toNat % 65536 + (if (c.b : Int) < select c sub then 65536 + c.b - select c sub else 0)⟩ led

theorem lim_iff (ret a w ℓ : Nat) (ha : a < 65536) : ℓ ≤ lim ret a w ↔ ℓ ≤ ret ∧ ℓ * w ≤ a * 65535 := by
  unfold lim
  have hm : a * 65535 % 4294967296 = a * 65535 := Nat.mod_eq_of_lt (by omega)
  by_cases h : w = 0
  · simp [h]
  · rw [if_pos h, hm, Nat.le_min, Nat.le_div_iff_mul_le (by omega)]

theorem lim_le (ret a w : Nat) : lim ret a w ≤ ret := by
  unfold lim; split
  · exact Nat.min_le_left _ _
  · exact Nat.le_refl _

theorem select_le (c o : C3) : lim (lim (lim 65535 c.r o.r) c.g o.g) c.b o.b ≤ 65535 :=
  Nat.le_trans (lim_le _ _ _) (Nat.le_trans (lim_le _ _ _) (lim_le _ _ _))

/-- The level chosen for a LED of a colour is the greatest at which it gives no more red, green or blue than asked for. -/
theorem C126_select (c o : C3) (hc : c.ok) (ℓ : Nat) :
    ℓ ≤ select c o ↔ ℓ ≤ 65535 ∧ ℓ * o.r ≤ c.r * 65535 ∧ ℓ * o.g ≤ c.g * 65535 ∧ ℓ * o.b ≤ c.b * 65535 := by
  unfold select
  rw [Nat.mod_eq_of_lt (by have := select_le c o; omega), lim_iff _ _ _ _ hc.2.2, lim_iff _ _ _ _ hc.2.1, lim_iff _ _ _ _ hc.1]
  constructor
  · rintro ⟨⟨⟨a, b⟩, c⟩, d⟩; exact ⟨a, b, c, d⟩
  · rintro ⟨a, b, c, d⟩; exact ⟨⟨⟨a, b⟩, c⟩, d⟩

theorem eq_of_le (a b : Nat) (h : ∀ ℓ, ℓ ≤ a ↔ ℓ ≤ b) : a = b :=
  Nat.le_antisymm ((h a).1 (Nat.le_refl _)) ((h b).2 (Nat.le_refl _))

theorem select_white (c : C3) (hc : c.ok) : select c (wide 255 255 255) = min c.r (min c.g c.b) := by
  apply eq_of_le
  intro ℓ
  rw [C126_select c _ hc]
  unfold wide C3.ok at *
  simp only [Nat.le_min]
  omega

theorem select_red (c : C3) (hc : c.ok) : select c (wide 255 0 0) = c.r := by
  apply eq_of_le
  intro ℓ
  rw [C126_select c _ hc]
  unfold wide C3.ok at *
  simp only
  omega

theorem select_green (c : C3) (hc : c.ok) : select c (wide 0 255 0) = c.g := by
  apply eq_of_le
  intro ℓ
  rw [C126_select c _ hc]
  unfold wide C3.ok at *
  simp only
  omega

theorem select_blue (c : C3) (hc : c.ok) : select c (wide 0 0 255) = c.b := by
  apply eq_of_le
  intro ℓ
  rw [C126_select c _ hc]
  unfold wide C3.ok at *
  simp only
  omega

theorem sub_eq (a w : Nat) (ha : a < 65536) (h : w ≤ a) :
    ((a : Int) - w).toNat % 65536 + (if (a : Int) < w then 65536 + a - w else 0) = a - w := by
  rw [if_neg (by omega)]
  omega

/-- With red, green, blue and white LEDs, where the white one is taken off the others, each part of the light is exactly what was
asked for, for every colour, and one of the coloured LEDs is off. -/
theorem C126_white (c : C3) (hc : c.ok) :
    select c (wide 255 255 255) + selectSub (wide 255 255 255) (wide 255 0 0) c = c.r ∧
    select c (wide 255 255 255) + selectSub (wide 255 255 255) (wide 0 255 0) c = c.g ∧
    select c (wide 255 255 255) + selectSub (wide 255 255 255) (wide 0 0 255) c = c.b ∧
    (selectSub (wide 255 255 255) (wide 255 0 0) c = 0 ∨ selectSub (wide 255 255 255) (wide 0 255 0) c = 0 ∨
      selectSub (wide 255 255 255) (wide 0 0 255) c = 0) := by
  obtain ⟨h1, h2, h3⟩ := hc
  unfold selectSub
  rw [select_white c ⟨h1, h2, h3⟩]
  rw [sub_eq c.r _ h1 (Nat.min_le_left _ _), sub_eq c.g _ h2 (Nat.le_trans (Nat.min_le_right _ _) (Nat.min_le_left _ _)),
    sub_eq c.b _ h3 (Nat.le_trans (Nat.min_le_right _ _) (Nat.min_le_right _ _))]
  have ok : (C3.mk (c.r - min c.r (min c.g c.b)) (c.g - min c.r (min c.g c.b)) (c.b - min c.r (min c.g c.b))).ok :=
    ⟨by show _ - _ < _; omega, by show _ - _ < _; omega, by show _ - _ < _; omega⟩
  rw [select_red _ ok, select_green _ ok, select_blue _ ok]
  simp only
  omega

/-- A warm white LED, of which the blue part is below 255, is subtracted in full from blue as well: the difference goes below 0 and
the blue LED is driven near its maximum for a colour with little blue. -/
theorem C126_white_counterexample :
    ∃ c : C3, c.ok ∧ c.b = 5000 ∧ selectSub (wide 255 255 100) (wide 0 0 255) c = 60536 :=
  ⟨⟨10000, 10000, 5000⟩, ⟨by decide, by decide, by decide⟩, rfl, by decide +kernel⟩

/-! ## Protection from too much current -/

section
variable {K : Type} [Field K] [LinearOrder K] [IsStrictOrderedRing K]

/-- What is known about a LED, blades/leds.h:9-35. -/
structure Led (K : Type) where
  maxAmps : K
  maxVolts : K
  p2Amps : K
  p2Volts : K
  r : K

/-- `amps` of `PWMMultiplier`, blades/drive_logic.h:55-59. -/
def amps (l : Led K) (v : K) : K :=
  (v - l.maxVolts + l.maxAmps * ((l.maxVolts - l.p2Volts) / (l.maxAmps - l.p2Amps))) / ((l.maxVolts - l.p2Volts) / (l.maxAmps - l.p2Amps) + l.r)

/-- `PWMMultiplier`, blades/drive_logic.h:65-69. -/
def multiplier (l : Led K) (v : K) : K := if amps l v ≤ l.maxAmps then 1 else l.maxAmps / amps l v

/-- A sensible description: the first point is above the second. -/
structure Led.good (l : Led K) : Prop where
  volts : l.p2Volts < l.maxVolts
  amps : l.p2Amps < l.maxAmps
  pos : 0 < l.maxAmps
  res : 0 ≤ l.r

theorem slope_pos (l : Led K) (h : l.good) : 0 < (l.maxVolts - l.p2Volts) / (l.maxAmps - l.p2Amps) :=
  div_pos (sub_pos.2 h.volts) (sub_pos.2 h.amps)

/-- The current is the one at which the voltage left after the resistor is that on the line through the two points of the LED; at the
first point exactly the maximum flows. -/
theorem C126_current (l : Led K) (h : l.good) (v i : K) :
    i = amps l v ↔ v - l.r * i = l.p2Volts + (i - l.p2Amps) * ((l.maxVolts - l.p2Volts) / (l.maxAmps - l.p2Amps)) := by
  have hs := slope_pos l h
  have hd : (l.maxVolts - l.p2Volts) / (l.maxAmps - l.p2Amps) * (l.maxAmps - l.p2Amps) = l.maxVolts - l.p2Volts :=
    div_mul_cancel₀ _ (ne_of_gt (sub_pos.2 h.amps))
  unfold amps
  generalize (l.maxVolts - l.p2Volts) / (l.maxAmps - l.p2Amps) = δ at *
  rw [eq_div_iff (by have := h.res; linarith)]
  constructor
  · intro e; linarith
  · intro e; linarith

/-- The average current never is above the maximum of the LED; nothing is dimmed that need not be. -/
theorem C126_protect (l : Led K) (h : l.good) (v : K) :
    0 < multiplier l v ∧ multiplier l v ≤ 1 ∧ multiplier l v * amps l v ≤ l.maxAmps ∧
    (l.maxAmps < amps l v → multiplier l v * amps l v = l.maxAmps) ∧ (amps l v ≤ l.maxAmps → multiplier l v = 1) := by
  unfold multiplier
  split
  · rename_i hc
    exact ⟨one_pos, le_refl _, by linarith, fun h' => absurd hc (not_le.2 h'), fun _ => rfl⟩
  · rename_i hc
    have hc := not_le.1 hc
    have hp : 0 < amps l v := lt_trans h.pos hc
    have e : l.maxAmps / amps l v * amps l v = l.maxAmps := div_mul_cancel₀ _ (ne_of_gt hp)
    exact ⟨div_pos h.pos hp, (div_le_one hp).2 hc.le, e.le, fun _ => e, fun h' => absurd h' (not_le.2 hc)⟩

/-- A fuller battery never gives a brighter setting. -/
theorem C126_antitone (l : Led K) (h : l.good) (v w : K) (hvw : v ≤ w) : multiplier l w ≤ multiplier l v := by
  have hs := slope_pos l h
  have ha : amps l v ≤ amps l w := by
    unfold amps
    apply div_le_div_of_nonneg_right _ (by have := h.res; linarith)
    linarith
  by_cases hv : amps l v ≤ l.maxAmps
  · rw [(C126_protect l h v).2.2.2.2 hv]; exact (C126_protect l h w).2.1
  · have hv := not_le.1 hv
    unfold multiplier
    rw [if_neg (not_le.2 hv), if_neg (not_le.2 (lt_of_lt_of_le hv ha))]
    exact div_le_div_of_nonneg_left h.pos.le (lt_trans h.pos hv) ha

/-- `PWM`, blades/drive_logic.h:75-86. -/
def pwm [FloorRing K] (l : Led K) (v : K) (level : Nat) : Int := ⌊(level : K) * multiplier l v⌋

/-- What is sent to the pin is between nothing and the level of the colour, and it lets through at most the share of the maximum
current that the level stands for. -/
theorem C126_pwm [FloorRing K] (l : Led K) (h : l.good) (v : K) (level : Nat) (hv : 0 ≤ amps l v) :
    0 ≤ pwm l v level ∧ pwm l v level ≤ level ∧ (pwm l v level : K) * amps l v ≤ level * l.maxAmps ∧
    (amps l v ≤ l.maxAmps → pwm l v level = level) := by
  obtain ⟨m0, m1, m2, -, m4⟩ := C126_protect l h v
  have hl : (0 : K) ≤ level := Nat.cast_nonneg _
  have hf : (pwm l v level : K) ≤ level * multiplier l v := Int.floor_le _
  refine ⟨Int.floor_nonneg.2 (mul_nonneg hl m0.le), ?_, ?_, ?_⟩
  · have : (level : K) * multiplier l v ≤ ((level : Int) : K) := by push_cast; nlinarith
    have h2 := Int.floor_le_floor this
    rw [Int.floor_intCast] at h2
    exact h2
  · calc (pwm l v level : K) * amps l v ≤ level * multiplier l v * amps l v := mul_le_mul_of_nonneg_right hf hv
      _ = level * (multiplier l v * amps l v) := by ring
      _ ≤ level * l.maxAmps := mul_le_mul_of_nonneg_left m2 hl
  · intro ha
    unfold pwm
    rw [m4 ha, mul_one]
    exact Int.floor_natCast level

example : (⟨1, 3, 1 / 2, 2, 1⟩ : Led Rat).good := ⟨by norm_num, by norm_num, by norm_num, by norm_num⟩
example : amps (⟨1, 3, 1 / 2, 2, 1⟩ : Led Rat) 7 = 2 ∧ multiplier (⟨1, 3, 1 / 2, 2, 1⟩ : Led Rat) 7 = 1 / 2 := by
  have e : amps (⟨1, 3, 1 / 2, 2, 1⟩ : Led Rat) 7 = 2 := by unfold amps; norm_num
  refine ⟨e, ?_⟩
  unfold multiplier
  rw [e]; norm_num

end

/-! ## Dimmed blade -/

/-- `DimBlade`, blades/dim_blade.h:71-73. -/
def fraction (percentage : Rat) : Int := ⌊percentage * 16384 / 100⌋

/-- `DimBladeWrapper::set` for one channel, blades/dim_blade.h:12-14; `none` when the product does not fit in an `int`. -/
def dim (f : Int) (c : Nat) : Option Nat :=
  if (c : Int) * f < 2147483648 ∧ -2147483648 ≤ (c : Int) * f then some (max 0 (min 65535 ((c : Int) * f / 16384))).toNat else none

/-- At 100 percent nothing changes and at 0 the blade is dark; up to 100 a channel is never brighter than asked, and more percent never
are darker. From 0 to 200 percent, where the product fits, the result is the fraction of the channel, at most the maximum. -/
theorem C126_dim (c : Nat) (hc : c < 65536) :
    dim (fraction 100) c = some c ∧ dim (fraction 0) c = some 0 ∧
    (∀ p : Rat, 0 ≤ p → p ≤ 200 → dim (fraction p) c = some (min 65535 (c * (fraction p).toNat / 16384))) ∧
    (∀ p : Rat, 0 ≤ p → p ≤ 100 → ∃ d, dim (fraction p) c = some d ∧ d ≤ c) ∧
    (∀ p q : Rat, 0 ≤ p → p ≤ q → q ≤ 200 → ∃ d e, dim (fraction p) c = some d ∧ dim (fraction q) c = some e ∧ d ≤ e) := by
  have hfrac : ∀ p q : Rat, p ≤ q → fraction p ≤ fraction q := by
    intro p q h
    exact Int.floor_le_floor (by linarith)
  have h100 : fraction 100 = 16384 := by
    unfold fraction; rw [show (100 : Rat) * 16384 / 100 = ((16384 : Int) : Rat) by norm_num]; exact Int.floor_intCast _
  have h200 : fraction 200 = 32768 := by
    unfold fraction; rw [show (200 : Rat) * 16384 / 100 = ((32768 : Int) : Rat) by norm_num]; exact Int.floor_intCast _
  have h0 : fraction 0 = 0 := by
    unfold fraction; rw [show (0 : Rat) * 16384 / 100 = ((0 : Int) : Rat) by norm_num]; exact Int.floor_intCast _
  have key : ∀ p : Rat, 0 ≤ p → p ≤ 200 → dim (fraction p) c = some (min 65535 (c * (fraction p).toNat / 16384)) := by
    intro p hp hq
    have a := hfrac 0 p hp
    have b := hfrac p 200 hq
    rw [h0] at a; rw [h200] at b
    obtain ⟨k, hk⟩ : ∃ k : Nat, fraction p = k := ⟨(fraction p).toNat, by omega⟩
    rw [hk] at b ⊢
    have hle : c * k ≤ 65535 * 32768 := Nat.mul_le_mul (by omega) (by omega)
    have hcast : (c : Int) * (k : Int) = ((c * k : Nat) : Int) := by push_cast; rfl
    unfold dim
    rw [hcast, if_pos (by omega), Int.toNat_natCast]
    generalize c * k = m at *
    congr 1
    omega
  refine ⟨?_, ?_, key, ?_, ?_⟩
  · rw [key 100 (by norm_num) (by norm_num), h100, show (16384 : Int).toNat = 16384 from rfl]; congr 1; omega
  · rw [key 0 (by norm_num) (by norm_num), h0]; simp
  · intro p hp hq
    refine ⟨_, key p hp (by linarith), ?_⟩
    have b := hfrac p 100 hq
    rw [h100] at b
    have : c * (fraction p).toNat ≤ c * 16384 := Nat.mul_le_mul (Nat.le_refl _) (by omega)
    omega
  · intro p q hp hpq hq
    refine ⟨_, _, key p hp (by linarith), key q (by linarith) hq, ?_⟩
    have b := hfrac p q hpq
    have : c * (fraction p).toNat ≤ c * (fraction q).toNat := Nat.mul_le_mul (Nat.le_refl _) (by omega)
    omega

/-- Above 200 percent a fully lit channel overflows. -/
theorem C126_dim_counterexample (p : Rat) (h : 201 ≤ p) : dim (fraction p) 65535 = none := by
  have a : fraction 201 ≤ fraction p := Int.floor_le_floor (by linarith)
  have b : (32769 : Int) ≤ fraction 201 := Int.le_floor.2 (by norm_num)
  unfold dim
  rw [if_neg (by omega)]

/-- Calls a style gets. -/
inductive Call | activate | deactivate
deriving DecidableEq

/-- `DimBladeWrapper::activate` and `deactivate`, blades/dim_blade.h:41-48: to the style if there is one. -/
def forward (style : Bool) (k : Call) : List Call := if style then [k] else []

/-- `SetStyle` of a plain blade, blades/abstract_blade.h:19-25: `onCall` is what the style given to it does. -/
def plainSet (onCall : Call → List Call) : List Call := onCall .activate

/-- `UnSetStyle` of a plain blade with a style, blades/abstract_blade.h:27-34. -/
def plainUnset (onCall : Call → List Call) : List Call := onCall .deactivate

/-- `DimBladeWrapper::SetStyle`, blades/dim_blade.h:18-25: calls the style of the user sees. -/
def dimSet (style : Bool) : List Call := (if style then [.activate] else []) ++ plainSet (forward style)

/-- `DimBladeWrapper::UnSetStyle`, blades/dim_blade.h:26-34. -/
def dimUnset (style : Bool) : List Call := plainUnset (forward style) ++ if style then [.deactivate] else []

/-- A style put on a dimmed blade is activated twice and deactivated twice, where on the blade itself it is once. -/
theorem C126_twice_counterexample :
    plainSet (fun k => [k]) = [.activate] ∧ dimSet true = [.activate, .activate] ∧ dimUnset true = [.deactivate, .deactivate] :=
  ⟨rfl, rfl, rfl⟩

example : select ⟨30000, 20000, 10000⟩ (wide 255 128 0) = 30000 := by decide +kernel
example : selectSub (wide 255 255 255) (wide 255 0 0) ⟨30000, 20000, 10000⟩ = 20000 := by decide +kernel
example : dim (fraction 50) 1001 = some 500 := by
  have : fraction 50 = 8192 := by
    unfold fraction; rw [show (50 : Rat) * 16384 / 100 = ((8192 : Int) : Rat) by norm_num]; exact Int.floor_intCast _
  rw [this]; decide +kernel

end Verif.Blade.Drive
