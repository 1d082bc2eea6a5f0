import Verif.Func.Basic
import Mathlib.Tactic.Linarith
import Mathlib.Tactic.Ring
/-! # Integer style functions stay between 0 and 32768 -/
set_option linter.unusedSimpArgs false
set_option linter.unusedVariables false
namespace Verif.Func
open Verif.Color (i32 i32_some bind_i32)

theorem i32_ok {x : Int} (h1 : -2147483648 ≤ x) (h2 : x < 2147483648) : i32 x = some x := if_pos ⟨h1, h2⟩
theorem bind_ok {β : Type} {x : Int} (h1 : -2147483648 ≤ x) (h2 : x < 2147483648) (f : Int → Option β) : (i32 x >>= f) = f x := by
  rw [i32_ok h1 h2]; rfl
theorem bind_some {β : Type} (x : Int) (f : Int → Option β) : (some x >>= f) = f x := rfl

/-- a fraction: 0 is none, 32768 is all -/
def U (x : Int) : Prop := 0 ≤ x ∧ x ≤ 32768

/-- the function has a value for every LED -/
def Defined (n : Nat) (f : F) : Prop := ∀ led, led < n → ∃ v, f.eval n led = some v

/-- functions which users treat as fractions: every leaf gives fractions and every combination is documented to -/
inductive Frac (n : Nat) : F → Prop where
  | leaf (v : Nat → Int) (h : ∀ led, U (v led)) : Frac n (.leaf v)
  | mult {f g : F} : Frac n f → Frac n g → Frac n (.mult f g)
  | layer {f g : F} : Frac n f → Frac n g → Frac n (.layer f g)
  | scale {f a b : F} : Frac n f → Frac n a → Frac n b → Frac n (.scale f a b)
  | clamp {f a b : F} : Defined n f → Frac n a → Frac n b → Frac n (.clamp f a b)
  | isBetween {f a b : F} : Defined n f → Defined n a → Defined n b → Frac n (.isBetween f a b)
  | isLess {f g : F} : Defined n f → Defined n g → Frac n (.isLess f g)
  | divide {f g : F} : Frac n f → Frac n g → Frac n (.divide f g)
  | mod {f g : F} : Defined n f → Frac n g → Frac n (.mod f g)
  | smoothStep {p w : F} : Frac n p → (∃ x, w.eval n 0 = some x ∧ -32768 ≤ x ∧ x ≤ 32768) → Frac n (.smoothStep p w)
  | ramp : Frac n .ramp
  | centerDist {c : F} : Frac n c → Frac n (.centerDist c)
  | circular {p f : F} : Frac n p → Frac n f → Frac n (.circular p f)
  | linear {p f : F} : Frac n p → Frac n f → Frac n (.linear p f)
  | select {f : F} {vs : List Int} : Defined n f → vs ≠ [] → (∀ v ∈ vs, U v) → Frac n (.select f vs)
  | ifon {f g : F} (b : Bool) : Frac n f → Frac n g → Frac n (.ifon b f g)

theorem U_mul {a b : Int} (ha : U a) (hb : U b) : 0 ≤ a * b ∧ a * b ≤ 1073741824 ∧ a * b ≤ 32768 * a ∧ a * b ≤ 32768 * b := by
  obtain ⟨h1, h2⟩ := ha; obtain ⟨h3, h4⟩ := hb
  refine ⟨mul_nonneg h1 h3, by nlinarith, by nlinarith, by nlinarith⟩

/-- the value of `smooth` -/
def S (x : Int) : Int := if x < 0 then 0 else if x > 32768 then 32768 else x * x / 16384 * (49152 - x) / 32768

theorem S_range (x : Int) : U (S x) := by
  unfold S U
  split
  · omega
  · split
    · omega
    · have h1 : x * x / 16384 * 16384 ≤ x * x := Int.ediv_mul_le _ (by decide)
      have h0 : 0 ≤ x * x / 16384 := Int.ediv_nonneg (mul_nonneg (by omega) (by omega)) (by decide)
      have h2 : x * x / 16384 * (49152 - x) ≤ 1073741824 := by
        have : x * x * (49152 - x) ≤ 32768 * 32768 * 16384 := by
          have e : 32768 * 32768 * 16384 - x * x * (49152 - x) = (32768 - x) * (32768 - x) * (x + 16384) := by ring
          have : 0 ≤ (32768 - x) * (32768 - x) * (x + 16384) := mul_nonneg (mul_nonneg (by omega) (by omega)) (by omega)
          omega
        nlinarith
      have h3 : 0 ≤ x * x / 16384 * (49152 - x) := mul_nonneg h0 (by omega)
      omega

theorem smooth_eq {mult location : Int} {led : Nat} (h1 : -2147483648 ≤ led * mult) (h2 : led * mult < 2147483648)
    (h3 : -2147483648 ≤ led * mult - location) (h4 : led * mult - location < 2147483648) :
    smooth mult location led = some (S (led * mult - location)) := by
  unfold smooth S
  rw [bind_ok h1 h2, bind_ok h3 h4]
  generalize (led : Int) * mult - location = x at *
  split
  · rfl
  · split
    · rfl
    · have h5 : x * x ≤ 1073741824 := by nlinarith
      have h6 : 0 ≤ x * x := mul_nonneg (by omega) (by omega)
      rw [bind_ok (by omega) (by omega)]
      have h1 : x * x / 16384 * 16384 ≤ x * x := Int.ediv_mul_le _ (by decide)
      have h0 : 0 ≤ x * x / 16384 := by omega
      have h2 : x * x / 16384 * (49152 - x) ≤ 1073741824 := by
        have : x * x * (49152 - x) ≤ 32768 * 32768 * 16384 := by
          have e : 32768 * 32768 * 16384 - x * x * (49152 - x) = (32768 - x) * (32768 - x) * (x + 16384) := by ring
          have : 0 ≤ (32768 - x) * (32768 - x) * (x + 16384) := mul_nonneg (mul_nonneg (by omega) (by omega)) (by omega)
          omega
        nlinarith
      have h3 : 0 ≤ x * x / 16384 * (49152 - x) := mul_nonneg h0 (by omega)
      rw [bind_ok (by omega) (by omega)]

/-- quotients, rounded towards 0 -/
theorem tdiv_bound {a b : Int} (m : Nat) (h1 : -m ≤ a) (h2 : a ≤ m) : -m ≤ a.tdiv b ∧ a.tdiv b ≤ m := by
  have h := Int.natAbs_tdiv_le_natAbs a b
  omega

/-- `SmoothStep` is `S` at a position linear in the LED -/
theorem smoothStep_eq {n : Nat} {pf wf : F} {p w : Int} (hn : 0 < n) (hn2 : n ≤ 32767) (hp : pf.eval n 0 = some p) (hw : wf.eval n 0 = some w)
    (up : U p) (w1 : -32768 ≤ w) (w2 : w ≤ 32768) {led : Nat} (hl : led < n) :
    (F.smoothStep pf wf).eval n led = some (S (if w = 0 then led * 32768 - n * p
      else led * (((1073741824 : Int).tdiv w).tdiv n) - ((32768 * p).tdiv w - 16384))) := by
  unfold F.eval
  rw [hw, bind_some, hp, bind_some]
  obtain ⟨u1, u2⟩ := up
  split
  · have a1 : (n : Int) * p ≤ 32767 * 32768 := by nlinarith
    have a2 : 0 ≤ (n : Int) * p := mul_nonneg (by omega) u1
    rw [bind_ok (by omega) (by omega), smooth_eq (by omega) (by omega) (by omega) (by omega)]
  · rw [if_neg (by omega), bind_ok (by omega) (by omega)]
    have b1 := tdiv_bound (b := w) 1073741824 (show -((1073741824 : Nat) : Int) ≤ 32768 * p by omega) (by omega)
    rw [bind_ok (by omega) (by omega)]
    have b2 := tdiv_bound (a := 1073741824) (b := w) 1073741824 (by omega) (by omega)
    have b3 : -1073741824 ≤ (led : Int) * (((1073741824 : Int).tdiv w).tdiv n) ∧ (led : Int) * (((1073741824 : Int).tdiv w).tdiv n) ≤ 1073741824 := by
      generalize (1073741824 : Int).tdiv w = q at b2
      have h := Int.natAbs_tdiv q n
      have h2 : q.natAbs / n * n ≤ q.natAbs := Nat.div_mul_le_self _ _
      have h3 : ((led : Int) * (q.tdiv n)).natAbs ≤ q.natAbs := by
        rw [Int.natAbs_mul, h]
        simp only [Int.natAbs_natCast]
        calc led * (q.natAbs / n) ≤ n * (q.natAbs / n) := Nat.mul_le_mul_right _ (by omega)
          _ ≤ _ := by rw [Nat.mul_comm]; exact h2
      omega
    have b4 : ¬ (0 < (led : Int) * (((1073741824 : Int).tdiv w).tdiv n) ∧ (32768 * p).tdiv w < 0) := by
      rintro ⟨c1, c2⟩
      rcases Int.lt_or_gt_of_ne ‹w ≠ 0› with hw | hw
      · have d1 : (1073741824 : Int).tdiv w ≤ 0 := by
          have := Int.tdiv_neg 1073741824 (-w)
          have h2 : 0 ≤ (1073741824 : Int).tdiv (-w) := Int.tdiv_nonneg (by omega) (by omega)
          rw [Int.neg_neg] at this; omega
        have d2 : ((1073741824 : Int).tdiv w).tdiv n ≤ 0 := by
          generalize (1073741824 : Int).tdiv w = q at d1
          have := Int.neg_tdiv (-q) n
          have h2 : 0 ≤ (-q).tdiv n := Int.tdiv_nonneg (by omega) (by omega)
          rw [Int.neg_neg] at this; omega
        have := mul_nonneg (show (0 : Int) ≤ led by omega) (show 0 ≤ -(((1073741824 : Int).tdiv w).tdiv n) by omega)
        rw [Int.mul_neg] at this
        omega
      · have : 0 ≤ (32768 * p).tdiv w := Int.tdiv_nonneg (by omega) (by omega)
        omega
    rw [smooth_eq (by omega) (by omega) (by omega) (by omega)]

theorem lit_le (lo hi led : Nat) : lit lo hi led ≤ 32768 := by unfold lit; omega

theorem mod32_pos {x m : Int} (hm : 0 < m) : mod32 x m = some (x % m) := by
  unfold mod32
  rw [if_neg (by omega)]
  congr 1
  split
  · rename_i h; exact Int.tmod_eq_emod_of_nonneg h
  · rename_i h
    rw [Int.tmod_eq_emod_of_nonneg (by omega)]
    have h1 := Int.emod_nonneg (-x - 1) (show m ≠ 0 by omega)
    have h2 := Int.emod_lt_of_pos (-x - 1) hm
    have h3 := Int.mul_ediv_add_emod (-x - 1) m
    generalize (-x - 1) % m = r at *
    generalize (-x - 1) / m = q at *
    have h4 : x = (m + (-r - 1)) + m * (-q - 1) := by
      rw [Int.mul_sub, Int.mul_neg, Int.mul_one]; omega
    rw [h4, Int.add_mul_emod_self_left]
    exact (Int.emod_eq_of_lt (by omega) (by omega)).symm

/-- the loop ends with a selection which is not negative and has the same remainder -/
theorem wrapUp_spec {n : Nat} (hn : 0 < n) : ∀ (k : Nat) (f : Int), -f ≤ k → 0 ≤ wrapUp n k f ∧ wrapUp n k f % n = f % n
  | 0, f, h => ⟨by simp only [wrapUp]; omega, rfl⟩
  | k + 1, f, h => by
    simp only [wrapUp]
    split
    · have := wrapUp_spec hn k (f + n * 256) (by omega)
      refine ⟨this.1, this.2.trans ?_⟩
      rw [Int.add_mul_emod_self_left]
    · exact ⟨by omega, rfl⟩

theorem select_eq {n : Nat} {f : F} {x : Int} {vs : List Int} (hx : f.eval n 0 = some x) (hv : vs ≠ []) (led : Nat) :
    (F.select f vs).eval n led = vs[(x % vs.length).toNat]? := by
  unfold F.eval
  rw [hx, bind_some, if_neg hv]
  have hl : 0 < vs.length := List.length_pos_iff.2 hv
  have h := wrapUp_spec hl (-x).toNat x (by omega)
  rw [Int.tmod_eq_emod_of_nonneg h.1, h.2]

/-- start and end of a circular section, when it is neither empty nor full -/
theorem circular_eq {n : Nat} {pf ff : F} {p fr : Int} (hn : n ≤ 32767) (hp : pf.eval n 0 = some p) (hf : ff.eval n 0 = some fr)
    (up : U p) (uf : U fr) (led : Nat) :
    (F.circular pf ff).eval n led = some ((if fr = 32768 then lit 0 (n * 32768) led else if fr = 0 then 0
      else if ((p + 32768 - fr / 2) % 32768).toNat * n ≤ ((p + fr / 2) % 32768).toNat * n
        then lit (((p + 32768 - fr / 2) % 32768).toNat * n) (((p + fr / 2) % 32768).toNat * n) led
        else lit 0 (((p + fr / 2) % 32768).toNat * n) led + lit (((p + 32768 - fr / 2) % 32768).toNat * n) (n * 32768) led : Nat) : Int) := by
  obtain ⟨u1, u2⟩ := up; obtain ⟨u3, u4⟩ := uf
  unfold F.eval
  rw [hf, bind_some, hp, bind_some]
  have e1 : n * 32768 % 4294967296 = n * 32768 := Nat.mod_eq_of_lt (by omega)
  rw [e1]
  by_cases c1 : fr = 32768
  · rw [if_pos c1, if_pos c1]; simp
  · rw [if_neg c1, if_neg c1]
    by_cases c2 : fr = 0
    · rw [if_pos c2, if_pos c2]; simp [lit]
    · rw [if_neg c2, if_neg c2]
      have e2 : fr.tdiv 2 = fr / 2 := Int.tdiv_eq_ediv_of_nonneg u3
      rw [e2, bind_ok (by omega) (by omega), bind_ok (by omega) (by omega), bind_ok (by omega) (by omega)]
      have b : ∀ z : Int, (z % 32768).toNat * n % 4294967296 = (z % 32768).toNat * n := fun z => by
        have : (z % 32768).toNat ≤ 32767 := by omega
        exact Nat.mod_eq_of_lt (by nlinarith)
      rw [b, b]
      rfl

theorem linear_eq {n : Nat} {pf ff : F} {p fr : Int} (hn : n ≤ 32767) (hp : pf.eval n 0 = some p) (hf : ff.eval n 0 = some fr)
    (up : U p) (uf : U fr) (led : Nat) :
    (F.linear pf ff).eval n led = some ((lit (clamp ((p - fr / 2) * n) 0 (32768 * n)).toNat (clamp ((p + fr / 2) * n) 0 (32768 * n)).toNat led : Nat) : Int) := by
  obtain ⟨u1, u2⟩ := up; obtain ⟨u3, u4⟩ := uf
  unfold F.eval
  rw [hf, bind_some, hp, bind_some]
  have e2 : fr.tdiv 2 = fr / 2 := Int.tdiv_eq_ediv_of_nonneg u3
  have q1 : -16384 ≤ p - fr / 2 := by omega
  have q2 : p - fr / 2 ≤ 32768 := by omega
  have q3 : 0 ≤ p + fr / 2 := by omega
  have q4 : p + fr / 2 ≤ 49152 := by omega
  rw [e2, bind_ok (by omega) (by omega), bind_ok (by nlinarith) (by nlinarith), bind_ok (by omega) (by omega), bind_ok (by nlinarith) (by nlinarith),
    bind_ok (by omega) (by omega)]

/-- every such function is defined and gives a fraction -/
theorem C48_range {n : Nat} (hn : 0 < n) (hn2 : n ≤ 32767) {f : F} (hf : Frac n f) :
    ∀ led, led < n → ∃ v, f.eval n led = some v ∧ U v := by
  induction hf with
  | leaf v h => exact fun led _ => ⟨_, rfl, h led⟩
  | mult _ _ ih1 ih2 =>
    intro led hl
    obtain ⟨a, ha, ua⟩ := ih1 led hl
    obtain ⟨b, hb, ub⟩ := ih2 led hl
    have h := U_mul ua ub
    unfold F.eval
    rw [ha, bind_some, hb, bind_some, bind_ok (by omega) (by omega)]
    exact ⟨_, rfl, by unfold U; omega⟩
  | layer _ _ ih1 ih2 =>
    intro led hl
    obtain ⟨a, ha, ua⟩ := ih1 led hl
    obtain ⟨b, hb, ub⟩ := ih2 led hl
    have h := U_mul (a := 32768 - a) (b := 32768 - b) (by unfold U at *; omega) (by unfold U at *; omega)
    unfold U at ua ub
    unfold F.eval
    rw [ha, bind_some, hb, bind_some, bind_ok (by omega) (by omega), bind_ok (by omega) (by omega), bind_ok (by omega) (by omega), i32_ok (by omega) (by omega)]
    exact ⟨_, rfl, by unfold U; omega⟩
  | scale _ _ _ ih1 ih2 ih3 =>
    intro led hl
    obtain ⟨x, hx, ux⟩ := ih1 led hl
    obtain ⟨a, ha, ua⟩ := ih2 0 hn
    obtain ⟨b, hb, ub⟩ := ih3 0 hn
    unfold F.eval
    obtain ⟨x1, x2⟩ := ux; obtain ⟨a1, a2⟩ := ua; obtain ⟨b1, b2⟩ := ub
    have h1 : -(32768 * a) ≤ x * (b - a) := by nlinarith
    have h2 : x * (b - a) ≤ 32768 * (32768 - a) := by nlinarith
    rw [ha, bind_some, hb, bind_some, bind_ok (by omega) (by omega), hx, bind_some, bind_ok (by omega) (by omega), i32_ok (by omega) (by omega)]
    exact ⟨_, rfl, by unfold U; omega⟩
  | clamp h _ _ ih2 ih3 =>
    intro led hl
    obtain ⟨x, hx⟩ := h led hl
    obtain ⟨a, ha, ua⟩ := ih2 led hl
    obtain ⟨b, hb, ub⟩ := ih3 led hl
    unfold F.eval
    rw [ha, bind_some, hb, bind_some, hx, bind_some]
    refine ⟨_, rfl, ?_⟩
    unfold clamp U at *
    split
    · omega
    · split <;> omega
  | isBetween h1 h2 h3 =>
    intro led hl
    obtain ⟨x, hx⟩ := h1 led hl
    obtain ⟨a, ha⟩ := h2 led hl
    obtain ⟨b, hb⟩ := h3 led hl
    unfold F.eval
    rw [hx, bind_some, ha, bind_some]
    split
    · rw [hb, bind_some]; exact ⟨_, rfl, by unfold U; split <;> decide⟩
    · exact ⟨_, rfl, by unfold U; decide⟩
  | isLess h1 h2 =>
    intro led hl
    obtain ⟨x, hx⟩ := h1 led hl
    obtain ⟨a, ha⟩ := h2 led hl
    unfold F.eval
    rw [hx, bind_some, ha, bind_some]
    exact ⟨_, rfl, by unfold U; split <;> decide⟩
  | divide _ _ ih1 ih2 =>
    intro led hl
    obtain ⟨a, ha, ua⟩ := ih1 led hl
    obtain ⟨b, hb, ub⟩ := ih2 led hl
    unfold F.eval
    rw [hb, bind_some]
    split
    · exact ⟨_, rfl, by unfold U; decide⟩
    · obtain ⟨a1, a2⟩ := ua; obtain ⟨b1, b2⟩ := ub
      have h := tdiv_bound (a := a) (b := b) 32768 (by omega) (by omega)
      have h2 : 0 ≤ a.tdiv b := Int.tdiv_nonneg a1 b1
      rw [ha, bind_some, i32_ok (by omega) (by omega)]
      exact ⟨_, rfl, by unfold U; omega⟩
  | mod h _ ih2 =>
    intro led hl
    obtain ⟨a, ha⟩ := h led hl
    obtain ⟨b, hb, ub⟩ := ih2 led hl
    unfold F.eval
    rw [hb, bind_some]
    split
    · exact ⟨_, rfl, by unfold U; decide⟩
    · obtain ⟨b1, b2⟩ := ub
      rw [ha, bind_some, mod32_pos (by omega)]
      have h1 := Int.emod_nonneg a (show b ≠ 0 by omega)
      have h2 := Int.emod_lt_of_pos a (show 0 < b by omega)
      exact ⟨_, rfl, by unfold U; omega⟩
  | smoothStep _ hw ih =>
    intro led hl
    obtain ⟨w, hw, w1, w2⟩ := hw
    obtain ⟨p, hp, up⟩ := ih 0 hn
    exact ⟨_, smoothStep_eq hn hn2 hp hw up w1 w2 hl, S_range _⟩
  | ramp =>
    intro led hl
    unfold F.eval
    rw [if_neg (by omega), bind_ok (by omega) (by omega)]
    refine ⟨_, rfl, ?_⟩
    rw [Int.tdiv_eq_ediv_of_nonneg (by omega)]
    refine ⟨Int.ediv_nonneg (by omega) (by omega), ?_⟩
    have : (led : Int) * 32768 / n < 32768 + 1 := Int.ediv_lt_of_lt_mul (by omega) (by nlinarith)
    omega
  | centerDist _ ih =>
    intro led hl
    obtain ⟨c, hc, uc⟩ := ih led hl
    unfold F.eval
    rw [if_neg (by omega), bind_ok (by omega) (by omega), hc, bind_some]
    rw [Int.tdiv_eq_ediv_of_nonneg (by omega)]
    have h1 : 0 ≤ (led : Int) * 32768 / n := Int.ediv_nonneg (by omega) (by omega)
    have h2 : (led : Int) * 32768 / n < 32768 + 1 := Int.ediv_lt_of_lt_mul (by omega) (by nlinarith)
    obtain ⟨c1, c2⟩ := uc
    rw [bind_ok (by omega) (by omega), i32_ok (by omega) (by omega)]
    exact ⟨_, rfl, by unfold U; omega⟩
  | circular _ _ ih1 ih2 =>
    intro led hl
    obtain ⟨p, hp, up⟩ := ih1 0 hn
    obtain ⟨fr, hf, uf⟩ := ih2 0 hn
    refine ⟨_, circular_eq hn2 hp hf up uf led, Int.natCast_nonneg _, ?_⟩
    split
    · have := lit_le 0 (n * 32768) led; omega
    · split
      · omega
      · generalize ((p + 32768 - fr / 2) % 32768).toNat * n = s
        generalize ((p + fr / 2) % 32768).toNat * n = e
        split
        · have := lit_le s e led; omega
        · unfold lit; omega
  | linear _ _ ih1 ih2 =>
    intro led hl
    obtain ⟨p, hp, up⟩ := ih1 0 hn
    obtain ⟨fr, hf, uf⟩ := ih2 0 hn
    refine ⟨_, linear_eq hn2 hp hf up uf led, Int.natCast_nonneg _, ?_⟩
    exact_mod_cast lit_le _ _ led
  | select h hv hu =>
    intro led hl
    obtain ⟨x, hx⟩ := h 0 hn
    rename_i vs
    have hl : 0 < vs.length := List.length_pos_iff.2 hv
    have h1 := Int.emod_nonneg x (show (vs.length : Int) ≠ 0 by omega)
    have h2 := Int.emod_lt_of_pos x (show (0 : Int) < vs.length by omega)
    have h3 : (x % vs.length).toNat < vs.length := by omega
    exact ⟨_, (select_eq hx hv led).trans (List.getElem?_eq_getElem h3), hu _ (List.getElem_mem h3)⟩
  | ifon b _ _ ih1 ih2 =>
    intro led hl
    unfold F.eval
    cases b
    · exact ih2 led hl
    · exact ih1 led hl

/-- a smooth step over a moving position, dimmed, on 144 LEDs -/
example : Frac 144 (.mult (.smoothStep (.leaf fun _ => 9000) (.leaf fun _ => -16384)) (.layer .ramp (.circular (.leaf fun _ => 100) (.leaf fun _ => 8192)))) :=
  .mult (.smoothStep (.leaf _ fun _ => ⟨by decide, by decide⟩) ⟨_, rfl, by decide, by decide⟩)
    (.layer .ramp (.circular (.leaf _ fun _ => ⟨by decide, by decide⟩) (.leaf _ fun _ => ⟨by decide, by decide⟩)))
example : (F.mult (.smoothStep (.leaf fun _ => 9000) (.leaf fun _ => 16384)) .ramp).eval 144 50 = some 8092 := by decide +kernel

end Verif.Func
