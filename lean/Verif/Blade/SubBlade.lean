/-!
# Sub-blades

Model of blades/sub_blade.h: the LEDs a sub-blade addresses, the ring of the sub-blades of one physical blade, activation, and running the
styles of all sub-blades in one frame.
-/
set_option linter.unusedSimpArgs false
set_option linter.unusedVariables false
namespace Verif.Blade

/-! ## Which LED is addressed -/

/-- the four ways to cut a blade -/
inductive Kind where
  /-- blades/sub_blade.h:37-157 -/
  | plain
  /-- blades/sub_blade.h:187-197 -/
  | reverse
  /-- blades/sub_blade.h:224-238 -/
  | stride (stride : Int)
  /-- blades/sub_blade.h:266-285 -/
  | zz (stride col : Int)

/-- the wrapper's `offset_` and `num_leds_` as set up, blades/sub_blade.h:183, 220, 262, 310 -/
def setup (k : Kind) (first last : Int) : Int × Int :=
  match k with
  | .plain => (first, last + 1 - first)
  | .reverse => (last, last + 1 - first)
  | .stride s => (first, (last - first).tdiv s + 1)
  | .zz s _ => (first, (last - first).tdiv s + 1)

/-- the LED of the physical blade that `set(led, …)` addresses, blades/sub_blade.h:41, 192, 230, 272 -/
def target (k : Kind) (offset : Int) (led : Int) : Int :=
  match k with
  | .plain => led + offset
  | .reverse => offset - led
  | .stride s => led * s + offset
  | .zz s c => offset + led * s + (if led % 2 = 1 then c else s - 1 - c)

/-- `primary()`, blades/sub_blade.h:71-73, 188-190, 274-276 -/
def primary (k : Kind) (offset num : Int) : Bool :=
  match k with
  | .plain => offset == 0
  | .reverse => offset + 1 == num
  | .stride _ => offset == 0
  | .zz _ _ => target k offset 0 == 0

/-- what a configuration must respect: a range of LEDs, a positive stride, and for zig-zag whole rows and a column of a row -/
def Ok : Kind → Int → Int → Prop
  | .plain, a, b => 0 ≤ a ∧ a ≤ b
  | .reverse, a, b => 0 ≤ a ∧ a ≤ b
  | .stride s, a, b => 0 ≤ a ∧ a ≤ b ∧ 0 < s
  | .zz s c, a, b => 0 ≤ a ∧ a ≤ b ∧ 0 < s ∧ (b + 1 - a) % s = 0 ∧ 0 ≤ c ∧ c < s

/-- the LEDs of a sub-blade: the range from `a` to `b` cut into rows of the stride; a straight stride uses the first of each row, a
zig-zag column `c` the `c`-th of each row, counted from the other side in every other row -/
def Own : Kind → Int → Int → Int → Prop
  | .plain, a, b, x => a ≤ x ∧ x ≤ b
  | .reverse, a, b, x => a ≤ x ∧ x ≤ b
  | .stride s, a, b, x => a ≤ x ∧ x ≤ b ∧ (x - a) % s = 0
  | .zz s c, a, b, x => a ≤ x ∧ x ≤ b ∧ ((x - a) / s % 2 = 1 → (x - a) % s = c) ∧ ((x - a) / s % 2 = 0 → (x - a) % s = s - 1 - c)

theorem div_row {s r c : Int} (hc : 0 ≤ c) (hc2 : c < s) : (r * s + c) / s = r ∧ (r * s + c) % s = c := by
  have hs : s ≠ 0 := by omega
  constructor
  · rw [Int.add_comm, Int.add_mul_ediv_right _ _ hs, Int.ediv_eq_zero_of_lt hc hc2, Int.zero_add]
  · rw [Int.add_comm, Int.add_mul_emod_self_right, Int.emod_eq_of_lt hc hc2]

theorem rows {s a b led : Int} (hs : 0 < s) (hab : a ≤ b) (h0 : 0 ≤ led) : led < (b - a).tdiv s + 1 ↔ led * s ≤ b - a := by
  rw [Int.tdiv_eq_ediv_of_nonneg (by omega)]
  have h := Int.le_ediv_iff_mul_le (a := led) (b := b - a) hs
  omega

theorem rows_zz {s a b led : Int} (hs : 0 < s) (hab : a ≤ b) (hm : (b + 1 - a) % s = 0) (h0 : 0 ≤ led) : led < (b - a).tdiv s + 1 ↔ led * s + s ≤ b + 1 - a := by
  rw [rows hs hab h0]
  have e := Int.mul_ediv_add_emod (b + 1 - a) s
  rw [hm] at e
  generalize (b + 1 - a) / s = q at e
  constructor
  · intro h
    have h1 : led * s < s * q := by omega
    rw [Int.mul_comm] at h1
    have h2 : led < q := Int.lt_of_mul_lt_mul_left h1 (by omega)
    have h3 : s * (led + 1) ≤ s * q := Int.mul_le_mul_of_nonneg_left (by omega) (by omega)
    rw [Int.mul_add, Int.mul_one, Int.mul_comm s led] at h3
    omega
  · intro h; omega

/-- Every LED index of a sub-blade is one of its own LEDs, and every own LED has an index: `num_leds` indices, none used twice. -/
theorem C52_own {k : Kind} {a b : Int} (h : Ok k a b) :
    (∀ led, 0 ≤ led → led < (setup k a b).2 → Own k a b (target k (setup k a b).1 led)) ∧
    (∀ x, Own k a b x → ∃ led, 0 ≤ led ∧ led < (setup k a b).2 ∧ target k (setup k a b).1 led = x) ∧
    (∀ i j, 0 ≤ i → i < (setup k a b).2 → 0 ≤ j → j < (setup k a b).2 → target k (setup k a b).1 i = target k (setup k a b).1 j → i = j) := by
  cases k with
  | plain =>
    simp only [Ok, setup, target, Own] at *
    exact ⟨fun led h1 h2 => by omega, fun x hx => ⟨x - a, by omega⟩, fun i j => by omega⟩
  | reverse =>
    simp only [Ok, setup, target, Own] at *
    exact ⟨fun led h1 h2 => by omega, fun x hx => ⟨b - x, by omega⟩, fun i j => by omega⟩
  | stride s =>
    simp only [Ok, setup, target, Own] at *
    obtain ⟨h1, h2, h3⟩ := h
    refine ⟨fun led l1 l2 => ?_, fun x ⟨x1, x2, x3⟩ => ?_, fun i j i1 i2 j1 j2 e => ?_⟩
    · have := (rows h3 h2 l1).1 l2
      have hp : 0 ≤ led * s := Int.mul_nonneg l1 (by omega)
      refine ⟨by omega, by omega, ?_⟩
      rw [show led * s + a - a = led * s by omega, Int.mul_emod_left]
    · have e := Int.mul_ediv_add_emod (x - a) s
      rw [x3, Int.mul_comm] at e
      have hq : 0 ≤ (x - a) / s := Int.ediv_nonneg (by omega) (by omega)
      exact ⟨(x - a) / s, hq, (rows h3 h2 hq).2 (by omega), by omega⟩
    · have : i * s = j * s := by omega
      exact Int.eq_of_mul_eq_mul_right (by omega) this
  | zz s c =>
    simp only [Ok, setup, target, Own] at *
    obtain ⟨h1, h2, h3, h4, h5, h6⟩ := h
    refine ⟨fun led l1 l2 => ?_, fun x ⟨x1, x2, x3, x4⟩ => ?_, fun i j i1 i2 j1 j2 e => ?_⟩
    · have := (rows_zz h3 h2 h4 l1).1 l2
      have hp : 0 ≤ led * s := Int.mul_nonneg l1 (by omega)
      split
      · have r := div_row (r := led) h5 h6
        rw [show a + led * s + c - a = led * s + c by omega, r.1, r.2]
        omega
      · have r := div_row (r := led) (s := s) (c := s - 1 - c) (by omega) (by omega)
        rw [show a + led * s + (s - 1 - c) - a = led * s + (s - 1 - c) by omega, r.1, r.2]
        omega
    · have e := Int.mul_ediv_add_emod (x - a) s
      have m1 := Int.emod_nonneg (x - a) (show s ≠ 0 by omega)
      have m2 := Int.emod_lt_of_pos (x - a) h3
      have hq : 0 ≤ (x - a) / s := Int.ediv_nonneg (by omega) (by omega)
      rw [Int.mul_comm] at e
      generalize (x - a) / s = q at *
      generalize (x - a) % s = m at *
      refine ⟨q, hq, (rows_zz h3 h2 h4 hq).2 ?_, ?_⟩
      · have e4 := Int.mul_ediv_add_emod (b + 1 - a) s
        rw [h4] at e4
        generalize (b + 1 - a) / s = w at e4
        have h7 : s * q < s * w := by rw [Int.mul_comm s q]; omega
        have h8 : q < w := Int.lt_of_mul_lt_mul_left h7 (by omega)
        have h9 : s * (q + 1) ≤ s * w := Int.mul_le_mul_of_nonneg_left (by omega) (by omega)
        rw [Int.mul_add, Int.mul_one, Int.mul_comm s q] at h9
        omega
      · split
        · rename_i c1; have := x3 c1; omega
        · rename_i c1; have := x4 (by omega); omega
    · obtain ⟨p, hp1, hp2, hpe⟩ : ∃ p, 0 ≤ p ∧ p < s ∧ p = (if i % 2 = 1 then c else s - 1 - c) := ⟨_, by split <;> omega, by split <;> omega, rfl⟩
      obtain ⟨q, hq1, hq2, hqe⟩ : ∃ q, 0 ≤ q ∧ q < s ∧ q = (if j % 2 = 1 then c else s - 1 - c) := ⟨_, by split <;> omega, by split <;> omega, rfl⟩
      rw [← hpe, ← hqe] at e
      have r1 := div_row (r := i) hp1 hp2
      have r2 := div_row (r := j) hq1 hq2
      have : i * s + p = j * s + q := by omega
      rw [this] at r1
      omega
example : Ok (.zz 4 1) 2 13 ∧ (List.range 3).map (fun (i : Nat) => target (.zz 4 1) 2 i) = [4, 7, 12] := by unfold Ok; decide

/-- own LEDs are in the declared range, so sub-blades with disjoint ranges never touch each other's LEDs -/
theorem C52_disjoint {k k' : Kind} {a b a' b' : Int} (h : Ok k a b) (h' : Ok k' a' b') (hd : b < a' ∨ b' < a) {i j : Int}
    (i1 : 0 ≤ i) (i2 : i < (setup k a b).2) (j1 : 0 ≤ j) (j2 : j < (setup k' a' b').2) :
    target k (setup k a b).1 i ≠ target k' (setup k' a' b').1 j := by
  have range : ∀ {k : Kind} {a b x : Int}, Own k a b x → a ≤ x ∧ x ≤ b := by
    intro k a b x h
    cases k <;> exact ⟨h.1, by first | exact h.2 | exact h.2.1⟩
  have r1 := range ((C52_own h).1 i i1 i2)
  have r2 := range ((C52_own h').1 j j1 j2)
  omega
example : Ok .plain 4 8 ∧ Ok .reverse 0 3 ∧ ((3 : Int) < 4) := by unfold Ok; decide

/-- the columns of a zig-zag matrix are disjoint, and together they are the whole range -/
theorem C52_columns {s a b : Int} (hs : 0 < s) (x : Int) (h1 : a ≤ x) (h2 : x ≤ b) :
    ∃ c, (0 ≤ c ∧ c < s ∧ Own (.zz s c) a b x) ∧ ∀ c', 0 ≤ c' → c' < s → Own (.zz s c') a b x → c' = c := by
  have m1 := Int.emod_nonneg (x - a) (show s ≠ 0 by omega)
  have m2 := Int.emod_lt_of_pos (x - a) hs
  unfold Own
  by_cases hp : (x - a) / s % 2 = 1
  · exact ⟨(x - a) % s, ⟨m1, m2, h1, h2, fun _ => rfl, fun h => by omega⟩, fun c' _ _ h => (h.2.2.1 hp).symm⟩
  · exact ⟨s - 1 - (x - a) % s, ⟨by omega, by omega, h1, h2, fun h => by omega, fun h => by omega⟩, fun c' _ _ h => by have := h.2.2.2 (by omega); omega⟩
example : Own (.zz 4 1) 2 13 7 := by unfold Own; decide

/-- without whole rows a zig-zag leaves its declared range: LED 4 of a range of LEDs 0 to 3, and of a blade of four LEDs -/
theorem C52_zz_counterexample : ∃ (k : Kind) (a b led : Int), 0 ≤ a ∧ a ≤ b ∧ 0 ≤ led ∧ led < (setup k a b).2 ∧ ¬ target k (setup k a b).1 led ≤ b :=
  ⟨.zz 3 1, 0, 3, 1, by decide, by decide, by decide, by decide, by decide⟩

/-- The primary sub-blade is the one which has the first LED of the physical blade. -/
theorem C70_primary {k : Kind} {a b : Int} (h : Ok k a b) : primary k (setup k a b).1 (setup k a b).2 = true ↔ Own k a b 0 := by
  cases k with
  | plain => simp [Ok, setup, primary, Own] at *; omega
  | reverse => simp [Ok, setup, primary, Own] at *; omega
  | stride s =>
    simp [Ok, setup, primary, Own] at *
    constructor
    · rintro rfl; simp; omega
    · intro h; omega
  | zz s c =>
    simp [Ok, setup, primary, Own, target] at *
    obtain ⟨h1, h2, h3, h4, h5, h6⟩ := h
    constructor
    · intro e
      have ea : a = 0 := by omega
      subst ea
      simp; omega
    · rintro ⟨e1, e2, e3, e4⟩
      have ea : a = 0 := by omega
      subst ea
      simp at e4; omega

end Verif.Blade
