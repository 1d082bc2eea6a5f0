/-!
# The charging style and the colour cycle (C153)

Model of styles/charging.h and styles/rgb_cycle.h.  Simplified: the voltage is a whole number of millivolts and floating point is exact; the slow pulsing
with the sine is a number from 28 to 228.
-/
namespace Verif.Style.Charging

/-- red, green, blue -/
structure C where
  r : Int
  g : Int
  b : Int
  deriving DecidableEq

/-- `Color8::mix`, common/color.h:12-17 -/
def mix (a b : C) (x : Int) : C := ⟨((256 - x) * a.r + x * b.r) / 256, ((256 - x) * a.g + x * b.g) / 256, ((256 - x) * a.b + x * b.b) / 256⟩

/-- `colors`, styles/charging.h:19-25 -/
def colors (i : Int) : C :=
  if i = 0 then ⟨0, 255, 0⟩ else if i = 1 then ⟨0, 0, 255⟩ else if i = 2 then ⟨255, 128, 0⟩ else ⟨255, 0, 0⟩

/-- `clampi32` -/
def clamp (x a b : Int) : Int := if x < a then a else if x > b then b else x

/-- the colour by millivolts, styles/charging.h:26-32; `x` there is `(4000 - u) * 2 / 1000` -/
def colour (u : Int) : C :=
  let i := clamp ((4000 - u) * 2 / 1000) 0 3
  let blend := clamp ((((4000 - u) * 2 - 1000 * i) * 255).tdiv 100) 0 255
  mix (colors i) (colors (i + 1)) blend

/-- `p`, styles/charging.h:36-39, in parts of 1/32 LED -/
def level (u n : Int) : Int := ((u - 2700) * n * 32).tdiv 1500

/-- how bright a LED is, of 256, styles/charging.h:41 -/
def weight (u n i : Int) : Int := max 0 (256 - ((level u n - i * 32).natAbs : Int))

/-- what a LED shows, styles/charging.h:33,40-42, with the pulsing -/
def shown (u n pulse i : Int) : C := mix ⟨0, 0, 0⟩ (mix (colour u) ⟨0, 0, 0⟩ pulse) (weight u n i)

/-- `n_` after `RGBCycle::run`, styles/rgb_cycle.h:12-18, in eight bits; `fresh` says that the millisecond is new. -/
def cycle (fresh : Bool) (n : Nat) : Nat := if fresh then (if (n + 1) % 256 ≥ 3 then 0 else (n + 1) % 256) else n

/-- `RGBCycle::getColor`, styles/rgb_cycle.h:19-28 -/
def cycleColour (n : Nat) : Nat × Nat × Nat := match n with
  | 0 => (65535, 0, 0)
  | 1 => (0, 65535, 0)
  | 2 => (0, 0, 65535)
  | _ => (0, 0, 0)

/-! ## Claims -/

/-- **C153.** A full battery is shown green, and below that blue, orange and red in turn, each but for the first 1/20 volt, in which it
is blended in, within one of its pure colour. -/
theorem C153_colour (u : Int) :
    (4000 ≤ u → colour u = ⟨0, 255, 0⟩) ∧ (3500 < u → u ≤ 3950 → colour u = ⟨0, 0, 254⟩) ∧ (3000 < u → u ≤ 3450 → colour u = ⟨254, 127, 0⟩) ∧
    (u ≤ 2950 → colour u = ⟨255, 0, 0⟩) := by
  have key : ∀ i bl : Int, clamp ((4000 - u) * 2 / 1000) 0 3 = i → clamp ((((4000 - u) * 2 - 1000 * i) * 255).tdiv 100) 0 255 = bl →
      colour u = mix (colors i) (colors (i + 1)) bl := fun i bl h1 h2 => by unfold colour; rw [h1]; dsimp only; rw [h2]
  have big : ∀ y : Int, 100 ≤ y → clamp ((y * 255).tdiv 100) 0 255 = 255 := fun y hy => by
    rw [Int.tdiv_eq_ediv_of_nonneg (by omega)]
    unfold clamp; split
    · omega
    · split <;> omega
  refine ⟨fun h => ?_, fun h1 h2 => ?_, fun h1 h2 => ?_, fun h => ?_⟩
  · have hi : clamp ((4000 - u) * 2 / 1000) 0 3 = 0 := by
      unfold clamp; split
      · rfl
      · split <;> omega
    rw [key 0 0 hi ?_]
    · decide
    · have : (((4000 - u) * 2 - 1000 * 0) * 255).tdiv 100 ≤ 0 := by
        have e : ((4000 - u) * 2 - 1000 * 0) * 255 = -((u - 4000) * 510) := by omega
        rw [e, Int.neg_tdiv, Int.tdiv_eq_ediv_of_nonneg (by omega)]
        omega
      generalize (((4000 - u) * 2 - 1000 * 0) * 255).tdiv 100 = z at *
      unfold clamp; split
      · rfl
      · split <;> omega
  · have hi : clamp ((4000 - u) * 2 / 1000) 0 3 = 0 := by
      unfold clamp; split
      · rfl
      · split <;> omega
    rw [key 0 255 hi (big _ (by omega))]
    decide
  · have hi : clamp ((4000 - u) * 2 / 1000) 0 3 = 1 := by
      unfold clamp; split
      · omega
      · split <;> omega
    rw [key 1 255 hi (big _ (by omega))]
    decide
  · by_cases h2 : 2500 < u
    · have hi : clamp ((4000 - u) * 2 / 1000) 0 3 = 2 := by
        unfold clamp; split
        · omega
        · split <;> omega
      rw [key 2 255 hi (big _ (by omega))]
      decide
    · have hi : clamp ((4000 - u) * 2 / 1000) 0 3 = 3 := by
        unfold clamp; split
        · omega
        · split <;> omega
      rw [key 3 _ hi rfl]
      have hm : ∀ x : Int, mix (colors 3) (colors (3 + 1)) x = ⟨255, 0, 0⟩ := fun x => by
        rw [show colors 3 = ⟨255, 0, 0⟩ by decide, show colors (3 + 1) = ⟨255, 0, 0⟩ by decide]
        simp only [mix]
        congr 1 <;> omega
      exact hm _

/-- **C153.** At 4, 3.5 and 3 volts it is exactly green, blue and orange, and in the first half of the blending that follows each is still at least half
there. -/
theorem C153_blend (u : Int) :
    colour 4000 = ⟨0, 255, 0⟩ ∧ colour 3500 = ⟨0, 0, 255⟩ ∧ colour 3000 = ⟨255, 128, 0⟩ ∧ (3975 ≤ u → u ≤ 4000 → 127 ≤ (colour u).g) ∧
    (3475 ≤ u → u ≤ 3500 → 127 ≤ (colour u).b) ∧ (2975 ≤ u → u ≤ 3000 → 64 ≤ (colour u).g) := by
  have small : ∀ y : Int, 0 ≤ y → y ≤ 50 → 0 ≤ clamp ((y * 255).tdiv 100) 0 255 ∧ clamp ((y * 255).tdiv 100) 0 255 ≤ 127 := fun y h0 h1 => by
    rw [Int.tdiv_eq_ediv_of_nonneg (by omega)]
    unfold clamp; split
    · omega
    · split <;> omega
  have key : ∀ k : Int, clamp ((4000 - u) * 2 / 1000) 0 3 = k → 0 ≤ (4000 - u) * 2 - 1000 * k → (4000 - u) * 2 - 1000 * k ≤ 50 →
      ∃ bl, 0 ≤ bl ∧ bl ≤ 127 ∧ colour u = mix (colors k) (colors (k + 1)) bl := fun k h1 h2 h3 =>
    ⟨_, (small _ h2 h3).1, (small _ h2 h3).2, by unfold colour; rw [h1]⟩
  refine ⟨by decide, by decide, by decide, fun h1 h2 => ?_, fun h1 h2 => ?_, fun h1 h2 => ?_⟩
  · obtain ⟨bl, a, b, e⟩ := key 0 (by unfold clamp; split; · omega
                                      · split <;> omega) (by omega) (by omega)
    rw [e, show colors 0 = ⟨0, 255, 0⟩ by decide, show colors (0 + 1) = ⟨0, 0, 255⟩ by decide]
    simp only [mix]; omega
  · obtain ⟨bl, a, b, e⟩ := key 1 (by unfold clamp; split; · omega
                                      · split <;> omega) (by omega) (by omega)
    rw [e, show colors 1 = ⟨0, 0, 255⟩ by decide, show colors (1 + 1) = ⟨255, 128, 0⟩ by decide]
    simp only [mix]; omega
  · obtain ⟨bl, a, b, e⟩ := key 2 (by unfold clamp; split; · omega
                                      · split <;> omega) (by omega) (by omega)
    rw [e, show colors 2 = ⟨255, 128, 0⟩ by decide, show colors (2 + 1) = ⟨255, 0, 0⟩ by decide]
    simp only [mix]; omega

/-- **C153.** The level shown goes up with the voltage, from the hilt at 2.7 volts to the tip at 4.2. -/
theorem C153_level (u v n : Int) (hn : 0 < n) (h : u ≤ v) : level u n ≤ level v n ∧ level 2700 n = 0 ∧ level 4200 n = 32 * n := by
  refine ⟨?_, ?_, ?_⟩
  · unfold level
    apply Int.tdiv_le_tdiv (by omega)
    exact Int.mul_le_mul_of_nonneg_right (Int.mul_le_mul_of_nonneg_right (by omega) (by omega)) (by omega)
  · unfold level; simp
  · unfold level
    rw [Int.tdiv_eq_ediv_of_nonneg (by omega)]
    omega

/-- **C153.** A LED more than 8 from the level is dark; one nearer to the level is no darker than one farther away; one at the level has the whole
colour, pulsing. -/
theorem C153_bar (u n pulse i j : Int) :
    (8 * 32 ≤ (level u n - 32 * i).natAbs → shown u n pulse i = ⟨0, 0, 0⟩) ∧
    ((level u n - 32 * i).natAbs ≤ (level u n - 32 * j).natAbs → weight u n j ≤ weight u n i) ∧
    (level u n = 32 * i → shown u n pulse i = mix (colour u) ⟨0, 0, 0⟩ pulse) := by
  refine ⟨fun h => ?_, fun h => ?_, fun h => ?_⟩
  · have hw : weight u n i = 0 := by unfold weight; omega
    unfold shown
    rw [hw]
    simp [mix]
  · unfold weight; omega
  · have hw : weight u n i = 256 := by unfold weight; omega
    unfold shown
    rw [hw]
    generalize mix (colour u) ⟨0, 0, 0⟩ pulse = c
    obtain ⟨r, g, b⟩ := c
    simp only [mix]
    congr 1 <;> omega

/-- **C153.** No LED is brighter than the colour, nor less than dark. -/
theorem C153_range (c : C) (w : Int) (h0 : 0 ≤ w) (h1 : w ≤ 256) (hr : 0 ≤ c.r) (hg : 0 ≤ c.g) (hb : 0 ≤ c.b) :
    (0 ≤ (mix ⟨0, 0, 0⟩ c w).r ∧ (mix ⟨0, 0, 0⟩ c w).r ≤ c.r) ∧ (0 ≤ (mix ⟨0, 0, 0⟩ c w).g ∧ (mix ⟨0, 0, 0⟩ c w).g ≤ c.g) ∧
    (0 ≤ (mix ⟨0, 0, 0⟩ c w).b ∧ (mix ⟨0, 0, 0⟩ c w).b ≤ c.b) := by
  have key : ∀ x : Int, 0 ≤ x → 0 ≤ ((256 - w) * 0 + w * x) / 256 ∧ ((256 - w) * 0 + w * x) / 256 ≤ x := fun x hx => by
    have ha : 0 ≤ w * x := Int.mul_nonneg h0 hx
    have hb : w * x ≤ 256 * x := Int.mul_le_mul_of_nonneg_right h1 hx
    generalize w * x = z at *
    omega
  exact ⟨key c.r hr, key c.g hg, key c.b hb⟩

/-- **C153.** Counterexample: a battery low enough leaves the whole blade dark; with 144 LEDs this is at 2.616 volts. -/
theorem C153_dark_counterexample (u n pulse i : Int) (hi : 0 ≤ i) (h : 12000 ≤ (2700 - u) * n) : shown u n pulse i = ⟨0, 0, 0⟩ := by
  refine (C153_bar u n pulse i i).1 ?_
  have hl : level u n ≤ -256 := by
    have e : (u - 2700) * n * 32 = -((2700 - u) * n * 32) := by
      rw [← Int.neg_mul, ← Int.neg_mul]; congr 2; omega
    unfold level
    rw [e, Int.neg_tdiv, Int.tdiv_eq_ediv_of_nonneg (by omega)]
    omega
  omega

/-- **C153.** Whatever the cycle begins with, after it has run once exactly one of the three colours is fully on, and after three more milliseconds each has
been on once and the first is on again; within a millisecond nothing changes. -/
theorem C153_cycle (n : Nat) :
    cycle true n < 3 ∧ cycle true (cycle true (cycle true (cycle true n))) = cycle true n ∧ cycle false n = n ∧
    ∀ c ∈ [(65535, 0, 0), (0, 65535, 0), (0, 0, 65535)],
      c ∈ [cycleColour (cycle true n), cycleColour (cycle true (cycle true n)), cycleColour (cycle true (cycle true (cycle true n)))] := by
  have h : cycle true n < 3 := by
    simp only [cycle, if_true]; split <;> omega
  refine ⟨h, ?_, rfl, ?_⟩
  · generalize cycle true n = m at h
    match m, h with
    | 0, _ => decide
    | 1, _ => decide
    | 2, _ => decide
  · generalize cycle true n = m at h
    match m, h with
    | 0, _ => decide
    | 1, _ => decide
    | 2, _ => decide

/-- The claims apply: 3.7 volts on 144 LEDs. -/
example : colour 3700 = ⟨0, 0, 254⟩ ∧ level 3700 144 = 3072 ∧ shown 3700 144 128 96 = ⟨0, 0, 127⟩ ∧ shown 3700 144 128 87 = ⟨0, 0, 0⟩ ∧
    12000 ≤ (2700 - 2616) * (144 : Int) := by decide

end Verif.Style.Charging
