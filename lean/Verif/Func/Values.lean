import Verif.Func.Range
/-! # Documented values of integer style functions -/
set_option linter.unusedSimpArgs false
set_option linter.unusedVariables false
namespace Verif.Func
open Verif.Color (i32 i32_some bind_i32)

section
variable {n led : Nat} {f g : F} {a b : Int}

/-- a product of fractions is rounded down, and 0 and 32768 behave like zero and one -/
theorem C48_mult (ha : f.eval n led = some a) (hb : g.eval n led = some b) (ua : U a) (ub : U b) :
    ∃ v, (F.mult f g).eval n led = some v ∧ v * 32768 ≤ a * b ∧ a * b < v * 32768 + 32768 ∧
      (b = 32768 → v = a) ∧ (a = 32768 → v = b) ∧ (a = 0 → v = 0) ∧ (b = 0 → v = 0) := by
  have h := U_mul ua ub
  unfold F.eval
  rw [ha, bind_some, hb, bind_some, bind_ok (by omega) (by omega)]
  refine ⟨_, rfl, by omega, by omega, ?_, ?_, ?_, ?_⟩ <;> rintro rfl <;> omega
example : U 16384 ∧ U 16384 ∧ (F.mult (.leaf fun _ => 16384) (.leaf fun _ => 16384)).eval 10 3 = some 8192 := by unfold U; decide

/-- layering fractions: not less than either, and what is left out is the product of what each leaves out, rounded down -/
theorem C48_layer (ha : f.eval n led = some a) (hb : g.eval n led = some b) (ua : U a) (ub : U b) :
    ∃ v, (F.layer f g).eval n led = some v ∧ a ≤ v ∧ b ≤ v ∧
      (32768 - v) * 32768 ≤ (32768 - a) * (32768 - b) ∧ (32768 - a) * (32768 - b) < (32768 - v) * 32768 + 32768 ∧
      (b = 0 → v = a) ∧ (a = 0 → v = b) := by
  have h := U_mul (a := 32768 - a) (b := 32768 - b) (by unfold U at *; omega) (by unfold U at *; omega)
  unfold U at ua ub
  unfold F.eval
  rw [ha, bind_some, hb, bind_some, bind_ok (by omega) (by omega), bind_ok (by omega) (by omega), bind_ok (by omega) (by omega), i32_ok (by omega) (by omega)]
  refine ⟨_, rfl, by omega, by omega, by omega, by omega, ?_, ?_⟩ <;> rintro rfl <;> omega
example : (F.layer (.leaf fun _ => 16384) (.leaf fun _ => 16384)).eval 10 3 = some 24576 := by decide

/-- an integer of 32 bits -/
def I32 (x : Int) : Prop := -2147483648 ≤ x ∧ x < 2147483648

/-- dividing rounds towards 0; dividing by 0 gives 0 -/
theorem C48_divide (ha : f.eval n led = some a) (hb : g.eval n led = some b) (ia : I32 a) (hm : ¬ (a = -2147483648 ∧ b = -1)) :
    ∃ v, (F.divide f g).eval n led = some v ∧ (b = 0 → v = 0) ∧
      (b ≠ 0 → v.natAbs = a.natAbs / b.natAbs ∧ 0 ≤ v * (a * b)) := by
  unfold F.eval
  rw [hb, bind_some]
  split
  · exact ⟨0, rfl, fun _ => rfl, fun h => absurd ‹_› h⟩
  · rename_i h
    unfold I32 at ia
    have h1 : (a.tdiv b).natAbs = a.natAbs / b.natAbs := Int.natAbs_tdiv a b
    have k := Nat.div_le_self a.natAbs b.natAbs
    have hr : -2147483648 ≤ a.tdiv b ∧ a.tdiv b < 2147483648 := by
      rw [← h1] at k
      by_cases c : (a.tdiv b) = 2147483648
      · exfalso
        have e1 : a = -2147483648 := by omega
        subst e1
        by_cases d : b = 1
        · subst d; revert c; decide
        · have d2 : b ≠ -1 := fun e => hm ⟨rfl, e⟩
          have d3 : 2 ≤ b.natAbs := by omega
          have : Int.natAbs (-2147483648) / b.natAbs ≤ Int.natAbs (-2147483648) / 2 := Nat.div_le_div_left d3 (by decide)
          rw [← h1, c] at this
          revert this; decide
      · omega
    rw [ha, bind_some, i32_ok hr.1 hr.2]
    refine ⟨_, rfl, fun e => absurd e h, fun _ => ⟨h1, ?_⟩⟩
    have key := Int.mul_tdiv_add_tmod a b
    have : 0 ≤ a.tdiv b * b * a := by
      rcases Int.le_total 0 a with ha' | ha'
      · have : 0 ≤ a.tmod b := Int.tmod_nonneg _ ha'
        have k2 : (a.tmod b).natAbs ≤ a.natAbs := by rw [Int.natAbs_tmod]; exact Nat.mod_le _ _
        exact mul_nonneg (by rw [mul_comm]; omega) ha'
      · have k1 : (-a).tmod b = -(a.tmod b) := Int.neg_tmod a b
        have : 0 ≤ (-a).tmod b := Int.tmod_nonneg _ (by omega)
        have k2 : (a.tmod b).natAbs ≤ a.natAbs := by rw [Int.natAbs_tmod]; exact Nat.mod_le _ _
        have k3 : a.tdiv b * b ≤ 0 := by rw [mul_comm]; omega
        nlinarith
    rw [show a.tdiv b * (a * b) = a.tdiv b * b * a by ring]
    exact this
example : (F.divide (.leaf fun _ => -7) (.leaf fun _ => 2)).eval 10 3 = some (-3) ∧ (F.divide (.leaf fun _ => -7) (.leaf fun _ => 0)).eval 10 3 = some 0 := by decide

/-- wrapping into 0 … max-1 -/
theorem C48_mod (ha : f.eval n led = some a) (hb : g.eval n led = some b) (hp : 0 < b) :
    ∃ v q, (F.mod f g).eval n led = some v ∧ 0 ≤ v ∧ v < b ∧ a = v + q * b := by
  unfold F.eval
  rw [hb, bind_some, if_neg (by omega), ha, bind_some, mod32_pos hp]
  refine ⟨_, a / b, rfl, Int.emod_nonneg a (by omega), Int.emod_lt_of_pos a hp, ?_⟩
  have := Int.mul_ediv_add_emod a b
  rw [mul_comm] at this; omega
example : (F.mod (.leaf fun _ => -7) (.leaf fun _ => 5)).eval 10 3 = some 3 := by decide

/-- adding and subtracting, as long as the result fits an `int` -/
theorem C48_sum (ha : f.eval n led = some a) (hb : g.eval n led = some b) :
    (I32 (a + b) → (F.sum f g).eval n led = some (a + b)) ∧ (I32 (a - b) → (F.sub f g).eval n led = some (a - b)) := by
  unfold F.eval
  rw [ha, bind_some, bind_some, hb, bind_some, bind_some]
  exact ⟨fun h => i32_ok h.1 h.2, fun h => i32_ok h.1 h.2⟩
example : I32 (30000 + -40000) := by unfold I32; decide

/-- clamping gives the nearest value of the interval; the comparisons give 32768 for yes and 0 for no -/
theorem C48_clamp {x : F} {v : Int} (hx : x.eval n led = some v) (ha : f.eval n led = some a) (hb : g.eval n led = some b) :
    (a ≤ b → (F.clamp x f g).eval n led = some (max a (min v b))) ∧
    (F.isBetween x f g).eval n led = some (if a < v ∧ v < b then 32768 else 0) ∧
    (F.isLess f g).eval n led = some (if a < b then 32768 else 0) := by
  refine ⟨fun h => ?_, ?_, ?_⟩
  · unfold F.eval
    rw [ha, bind_some, hb, bind_some, hx, bind_some]
    congr 1
    unfold clamp
    split
    · omega
    · split <;> omega
  · unfold F.eval
    rw [hx, bind_some, ha, bind_some, hb, bind_some]
    split
    · by_cases c : v < b
      · rw [if_pos c, if_pos ⟨by omega, c⟩]
      · rw [if_neg c, if_neg (fun h => c h.2)]
    · rw [if_neg (fun h => by omega)]
  · unfold F.eval
    rw [ha, bind_some, hb, bind_some]
example : (F.clamp (.leaf fun _ => 99) (.leaf fun _ => 5) (.leaf fun _ => 50)).eval 10 3 = some 50 := by decide

/-- scaling a fraction: from `a` at 0 to `b` at 32768, never outside the interval, and never turning around -/
theorem C48_scale {x : F} {v : Int} (hx : x.eval n led = some v) (ha : f.eval n 0 = some a) (hb : g.eval n 0 = some b)
    (uv : U v) (ua : -32768 ≤ a ∧ a ≤ 32768) (ub : -32768 + a ≤ b ∧ b ≤ 32768 + a) :
    ∃ r, (F.scale x f g).eval n led = some r ∧ (a ≤ b → a ≤ r ∧ r ≤ b) ∧ (b ≤ a → b ≤ r ∧ r ≤ a) ∧ (v = 0 → r = a) ∧ (v = 32768 → r = b) ∧
      (r - a) * 32768 ≤ v * (b - a) ∧ v * (b - a) < (r - a) * 32768 + 32768 := by
  obtain ⟨v1, v2⟩ := uv; obtain ⟨a1, a2⟩ := ua; obtain ⟨b1, b2⟩ := ub
  have h1 : -1073741824 ≤ v * (b - a) := by nlinarith
  have h2 : v * (b - a) ≤ 1073741824 := by nlinarith
  unfold F.eval
  rw [ha, bind_some, hb, bind_some, bind_ok (by omega) (by omega), hx, bind_some, bind_ok (by omega) (by omega), i32_ok (by omega) (by omega)]
  refine ⟨_, rfl, fun h => ?_, fun h => ?_, ?_, ?_, by omega, by omega⟩
  · have h3 : 0 ≤ v * (b - a) := mul_nonneg v1 (by omega)
    have h4 : v * (b - a) ≤ 32768 * (b - a) := mul_le_mul_of_nonneg_right v2 (by omega)
    omega
  · have h3 : v * (b - a) ≤ 0 := mul_nonpos_of_nonneg_of_nonpos v1 (by omega)
    have h4 : 32768 * (b - a) ≤ v * (b - a) := by nlinarith
    omega
  · rintro rfl; omega
  · rintro rfl; omega
example : (F.scale (.leaf fun _ => 8192) (.leaf fun _ => 100) (.leaf fun _ => -300)).eval 10 3 = some 0 := by decide

/-- inverting a fraction is exact -/
theorem C48_invert {x : F} {v : Int} (hx : x.eval n led = some v) (uv : U v) :
    (F.scale x (.leaf fun _ => 32768) (.leaf fun _ => 0)).eval n led = some (32768 - v) := by
  obtain ⟨r, hr, -, -, -, -, h1, h2⟩ := C48_scale (f := .leaf fun _ => 32768) (g := .leaf fun _ => 0) hx rfl rfl uv (by decide) (by decide)
  rw [hr]
  change v * (0 - 32768) < (r - 32768) * 32768 + 32768 at h2
  change (r - 32768) * 32768 ≤ v * (0 - 32768) at h1
  congr 1
  omega
example : U 1000 := ⟨by decide, by decide⟩

end

/-- selection: item `x mod count`, for every integer, also a negative one -/
theorem C48_select {n led : Nat} {f : F} {x : Int} {vs : List Int} (hx : f.eval n 0 = some x) (hv : vs ≠ []) :
    ∃ i : Nat, ∃ q : Int, ∃ hi : i < vs.length, x = i + q * vs.length ∧ (F.select f vs).eval n led = some vs[i] := by
  have hl : 0 < vs.length := List.length_pos_iff.2 hv
  have h1 := Int.emod_nonneg x (show (vs.length : Int) ≠ 0 by omega)
  have h2 := Int.emod_lt_of_pos x (show (0 : Int) < vs.length by omega)
  have h3 : (x % vs.length).toNat < vs.length := by omega
  refine ⟨_, x / vs.length, h3, ?_, (select_eq hx hv led).trans (List.getElem?_eq_getElem h3)⟩
  have := Int.mul_ediv_add_emod x vs.length
  rw [mul_comm] at this; omega
example : (F.select (.leaf fun _ => -1) [10, 20, 30]).eval 5 2 = some 30 := by decide +kernel

theorem getHalf_eq (m : Nat) : ∀ (vs : List Int) (k : Nat), vs.length ≤ m → (hk : k < vs.length) → getHalf vs k = vs[k] := by
  induction m with
  | zero => intro vs k h hk; omega
  | succ m ih =>
    intro vs k h hk
    unfold getHalf
    split
    · obtain ⟨v, rfl⟩ : ∃ v, vs = [v] := List.length_eq_one_iff.1 (by omega)
      have : k = 0 := by simp at hk; omega
      subst this; rfl
    · split
      · rw [ih _ _ (by simp; omega) (by simp; omega)]
        simp
      · rw [ih _ _ (by simp; omega) (by simp; omega)]
        simp only [List.getElem_drop]
        congr 1
        omega

/-- selecting among functions: item `x mod count` for selections which are not negative -/
theorem C48_selectX_partial {x : Int} {vs : List Int} (h0 : 0 ≤ x) (hx : x < 2147483648) (hv : vs ≠ []) :
    ∃ i : Nat, ∃ q : Int, ∃ hi : i < vs.length, x = i + q * vs.length ∧ selectX x vs = some vs[i] := by
  have hl : 0 < vs.length := List.length_pos_iff.2 hv
  have e : (x % 4294967296).toNat = x.toNat := by omega
  refine ⟨x.toNat % vs.length, (x.toNat / vs.length : Nat), Nat.mod_lt _ hl, ?_, ?_⟩
  · have h := Nat.mod_add_div x.toNat vs.length
    obtain ⟨y, rfl⟩ := Int.eq_ofNat_of_zero_le h0
    rw [Int.toNat_natCast] at h ⊢
    rw [Nat.mul_comm] at h
    exact_mod_cast h.symm
  · unfold selectX
    rw [if_neg hv, e, getHalf_eq _ vs _ (Nat.le_refl _) (Nat.mod_lt _ hl)]
example : selectX 5 [10, 20, 30] = some 30 := by simp [selectX, getHalf]

/-- the two selections differ for negative values: `-1` of three is the last for one and the first for the other -/
theorem C48_selectX_counterexample : selectX (-1) [10, 20, 30] = some 10 ∧ (F.select (.leaf fun _ => -1) [10, 20, 30]).eval 1 0 = some 30 :=
  ⟨by simp [selectX, getHalf], by decide +kernel⟩

/-! ## Sections -/

/-- how many of `w` points from `a` satisfy `p`; LED `led` covers the 32768 points from `32768 * led` -/
@[irreducible] def pointsOf (w : Nat) (p : Nat → Bool) (a : Nat) : Nat := ((List.range w).filter fun i => p (a + i)).length
@[inherit_doc pointsOf] abbrev points (p : Nat → Bool) (led : Nat) : Nat := pointsOf 32768 p (led * 32768)

theorem count_between (a lo hi : Nat) : ∀ w, ((List.range w).filter fun i => decide (lo ≤ a + i ∧ a + i < hi)).length = min hi (a + w) - max lo a
  | 0 => by simp
  | w + 1 => by
    rw [List.range_succ, List.filter_append, List.length_append, count_between a lo hi w]
    by_cases h : lo ≤ a + w ∧ a + w < hi
    · rw [List.filter_cons_of_pos (by simp [h])]; simp; omega
    · rw [List.filter_cons_of_neg (by simpa using h)]; simp; omega

theorem lit_points (lo hi led : Nat) : lit lo hi led = points (fun x => decide (lo ≤ x ∧ x < hi)) led := by
  unfold points pointsOf lit
  exact (count_between (led * 32768) lo hi 32768).symm

theorem filter_or {α : Type} (p q : α → Bool) (l : List α) (h : ∀ x ∈ l, ¬ (p x = true ∧ q x = true)) :
    (l.filter fun x => p x || q x).length = (l.filter p).length + (l.filter q).length := by
  induction l with
  | nil => rfl
  | cons x l ih =>
    have ih := ih fun y hy => h y (List.mem_cons_of_mem _ hy)
    have hx := h x List.mem_cons_self
    cases hp : p x <;> cases hq : q x <;> simp_all [List.filter_cons] <;> omega

theorem points_or (p q : Nat → Bool) (led : Nat) (h : ∀ x, ¬ (p x = true ∧ q x = true)) : points (fun x => p x || q x) led = points p led + points q led := by
  unfold points pointsOf
  exact filter_or (fun i => p (led * 32768 + i)) (fun i => q (led * 32768 + i)) _ fun _ _ => h _

theorem points_congr {p q : Nat → Bool} {led n : Nat} (hl : led < n) (h : ∀ x, x < n * 32768 → p x = q x) : points p led = points q led := by
  unfold points pointsOf
  refine congrArg List.length (List.filter_congr fun i hi => h _ ?_)
  have := List.mem_range.1 hi
  omega

/-- a linear section: an LED is lit by the share of its points which are within half the fraction of the position -/
theorem C48_linear {n led : Nat} {pf ff : F} {p fr : Int} (hn : n ≤ 32767) (hl : led < n) (hp : pf.eval n 0 = some p) (hf : ff.eval n 0 = some fr)
    (up : U p) (uf : U fr) :
    (F.linear pf ff).eval n led = some ((points (fun x => decide ((p - fr / 2) * n ≤ x ∧ (x : Int) < (p + fr / 2) * n)) led : Nat) : Int) := by
  rw [linear_eq hn hp hf up uf led, lit_points]
  refine congrArg (fun k : Nat => some (k : Int)) (points_congr hl fun x hx => ?_)
  rw [decide_eq_decide]
  unfold clamp
  generalize (p - fr / 2) * (n : Int) = s
  generalize (p + fr / 2) * (n : Int) = e
  constructor
  · rintro ⟨h1, h2⟩
    split at h1 <;> split at h2 <;> (try split at h1) <;> (try split at h2) <;> omega
  · rintro ⟨h1, h2⟩
    split <;> split <;> (try split) <;> (try split) <;> omega

/-- a circular section: an LED is lit by the share of its points which are within half the fraction of the position, going
round the end of the blade -/
theorem C48_circular {n led : Nat} {pf ff : F} {p fr : Int} (hn : n ≤ 32767) (hl : led < n) (hp : pf.eval n 0 = some p) (hf : ff.eval n 0 = some fr)
    (up : U p) (uf : U fr) :
    (F.circular pf ff).eval n led = some ((points (fun x => decide (((x : Int) - (p - fr / 2) * n) % (n * 32768) < 2 * (fr / 2) * n)) led : Nat) : Int) := by
  rw [circular_eq hn hp hf up uf led]
  obtain ⟨p1, p2⟩ := up; obtain ⟨f1, f2⟩ := uf
  have hN : (0 : Int) < n * 32768 := by omega
  refine congrArg (fun k : Nat => some (k : Int)) ?_
  split
  · rename_i c
    subst c
    rw [lit_points]
    refine points_congr hl fun x hx => ?_
    rw [decide_eq_decide]
    have := Int.emod_lt_of_pos ((x : Int) - (p - 32768 / 2) * n) hN
    exact ⟨fun _ => by omega, fun _ => by omega⟩
  · split
    · rename_i c1 c2
      subst c2
      rw [show (0 : Nat) = points (fun _ => false) led by unfold points pointsOf; rw [List.filter_eq_nil_iff.2 (by simp)]; rfl]
      refine points_congr hl fun x hx => ?_
      have := Int.emod_nonneg ((x : Int) - (p - 0 / 2) * n) (show (n * 32768 : Int) ≠ 0 by omega)
      symm
      rw [decide_eq_false_iff_not]
      omega
    · rename_i c1 c2
      obtain ⟨h, hh⟩ : ∃ h, h = fr / 2 := ⟨_, rfl⟩
      rw [← hh]
      have h1 : 0 ≤ h := by omega
      have h2 : h ≤ 16383 := by omega
      -- the start, as a point of the blade
      obtain ⟨s, t, hs, hs0, hs1, et⟩ : ∃ s t : Int, (p + 32768 - h) % 32768 = s ∧ 0 ≤ s ∧ s < 32768 ∧ p - h = s + t * 32768 :=
        ⟨_, (p + 32768 - h) / 32768 - 1, rfl, by omega, by omega, by omega⟩
      obtain ⟨e, he, he'⟩ : ∃ e, (p + h) % 32768 = e ∧ ((s + 2 * h < 32768 ∧ e = s + 2 * h) ∨ (32768 ≤ s + 2 * h ∧ e = s + 2 * h - 32768)) :=
        ⟨_, rfl, by omega⟩
      rw [hs, he]
      have key : ∀ x : Nat, x < n * 32768 → (((x : Int) - (p - h) * n) % (n * 32768) < 2 * h * n ↔
          if s * n ≤ x then (x : Int) - s * n < 2 * h * n else (x : Int) - s * n + n * 32768 < 2 * h * n) := by
        intro x hx
        have e1 : (x : Int) - (p - h) * n = (x - s * n) + n * 32768 * (-t) := by rw [et]; ring
        rw [e1, Int.add_mul_emod_self_left]
        have b1 : 0 ≤ s * n := mul_nonneg hs0 (by omega)
        have b2 : s * n < 32768 * n := mul_lt_mul_of_pos_right hs1 (by omega)
        split
        · rw [Int.emod_eq_of_lt (by omega) (by omega)]
        · rw [show (x : Int) - s * n = (x - s * n + n * 32768) + n * 32768 * (-1) by ring, Int.add_mul_emod_self_left,
            Int.emod_eq_of_lt (by omega) (by omega)]
          rw [show (x : Int) - s * n + n * 32768 + n * 32768 * (-1) + n * 32768 = x - s * n + n * 32768 by ring]
      have cs : ((s.toNat * n : Nat) : Int) = s * n := by push_cast; rw [Int.toNat_of_nonneg hs0]
      have ce : ((e.toNat * n : Nat) : Int) = e * n := by push_cast; rw [Int.toNat_of_nonneg (by omega)]
      have b1 : 0 ≤ s * n := mul_nonneg hs0 (by omega)
      have b2 : s * n < 32768 * n := mul_lt_mul_of_pos_right hs1 (by omega)
      have b3 : 0 ≤ 2 * h * n := mul_nonneg (by omega) (by omega)
      have b4 : 2 * h * n < 32768 * (n : Int) := mul_lt_mul_of_pos_right (by omega) (by omega)
      generalize e.toNat * n = E at *
      generalize s.toNat * n = Sn at *
      rcases he' with ⟨w1, w2⟩ | ⟨w1, w2⟩
      · have ee : e * n = s * n + 2 * h * n := by rw [w2]; ring
        have w3 : e * n ≤ 32768 * (n : Int) := mul_le_mul_of_nonneg_right (by omega) (by omega)
        generalize s * (n : Int) = sn at *
        generalize 2 * h * (n : Int) = hn' at *
        generalize e * (n : Int) = en at *
        rw [if_pos (by omega), lit_points]
        refine points_congr hl fun x hx => ?_
        rw [decide_eq_decide, key x hx]
        split <;> omega
      · have ee : e * n = s * n + 2 * h * n - 32768 * n := by rw [w2]; ring
        generalize s * (n : Int) = sn at *
        generalize 2 * h * (n : Int) = hn' at *
        generalize e * (n : Int) = en at *
        rw [if_neg (by omega), lit_points, lit_points, ← points_or]
        · refine points_congr hl fun x hx => ?_
          rw [← Bool.decide_or, decide_eq_decide, key x hx]
          split <;> omega
        · intro x
          simp only [decide_eq_true_eq]
          omega

/-- a quarter of a blade at each end -/
example : (List.range 8).map (F.circular (.leaf fun _ => 0) (.leaf fun _ => 16384) |>.eval 8) =
    [32768, 32768, 0, 0, 0, 0, 32768, 32768].map some := by decide +kernel
example : (List.range 5).map (F.linear (.leaf fun _ => 30000) (.leaf fun _ => 16384) |>.eval 5) =
    [0, 0, 0, 22032, 32768].map some := by decide +kernel

/-! ## Smooth steps -/

theorem S_mono {x y : Int} (h : x ≤ y) : S x ≤ S y + 2 := by
  have rx := S_range x
  have ry := S_range y
  unfold U at rx ry
  by_cases c1 : x < 0
  · have : S x = 0 := by unfold S; rw [if_pos c1]
    omega
  · by_cases c2 : y > 32768
    · have : S y = 32768 := by unfold S; rw [if_neg (by omega), if_pos c2]
      omega
    · unfold S
      rw [if_neg c1, if_neg (by omega), if_neg (by omega), if_neg c2]
      have m1 : x * x * (49152 - x) ≤ y * y * (49152 - y) := by
        have e : y * y * (49152 - y) - x * x * (49152 - x) = (y - x) * (49152 * (x + y) - (x * x + x * y + y * y)) := by ring
        have : 0 ≤ (y - x) * (49152 * (x + y) - (x * x + x * y + y * y)) := mul_nonneg (by omega) (by nlinarith)
        omega
      have h2 : x * x / 16384 * 16384 ≤ x * x := Int.ediv_mul_le _ (by decide)
      have h3 : y * y < y * y / 16384 * 16384 + 16384 := by omega
      have h4 : x * x / 16384 * 16384 * (49152 - x) ≤ x * x * (49152 - x) := mul_le_mul_of_nonneg_right h2 (by omega)
      have h5 : y * y * (49152 - y) ≤ (y * y / 16384 * 16384 + 16384) * (49152 - y) := mul_le_mul_of_nonneg_right (by omega) (by omega)
      rw [show x * x / 16384 * 16384 * (49152 - x) = (x * x / 16384 * (49152 - x)) * 16384 by ring] at h4
      rw [show (y * y / 16384 * 16384 + 16384) * (49152 - y) = (y * y / 16384 * (49152 - y)) * 16384 + 16384 * (49152 - y) by ring] at h5
      omega

theorem S_zero {x : Int} (h : x ≤ 0) : S x = 0 := by
  unfold S
  split
  · rfl
  · have : x = 0 := by omega
    subst this; rfl

theorem S_one {x : Int} (h : 32768 ≤ x) : S x = 32768 := by
  unfold S
  rw [if_neg (by omega)]
  split
  · rfl
  · have : x = 32768 := by omega
    subst this; rfl

/-- A step of width `w` around position `p`: nothing up to half the width before the position, everything from half the width
after it (a little later, by the rounding of the width of an LED), and never more than two steps of 32768 back on the way. -/
theorem C48_smoothStep {n : Nat} {pf wf : F} {p w : Int} (hn : 0 < n) (hn2 : n ≤ 32767) (hp : pf.eval n 0 = some p) (hw : wf.eval n 0 = some w)
    (up : U p) (w1 : 0 < w) (w2 : w ≤ 32768) :
    ∃ v : Nat → Int, (∀ led, led < n → (F.smoothStep pf wf).eval n led = some (v led)) ∧
      (∀ led, led < n → (led : Int) * 65536 ≤ (2 * p - w) * n → v led = 0) ∧
      (∀ led, led < n → (32768 * p + 16384 * w) * n + w * n * led ≤ (led : Int) * 1073741824 → v led = 32768) ∧
      (∀ a b, a ≤ b → b < n → v a ≤ v b + 2) := by
  obtain ⟨u1, u2⟩ := up
  refine ⟨_, fun led hl => smoothStep_eq hn hn2 hp hw ⟨u1, u2⟩ (by omega) w2 hl, ?_⟩
  have e1 : ((1073741824 : Int).tdiv w).tdiv n = 1073741824 / (w * n) := by
    rw [Int.tdiv_eq_ediv_of_nonneg (Int.tdiv_nonneg (by decide) (by omega)), Int.tdiv_eq_ediv_of_nonneg (show (0 : Int) ≤ 1073741824 by decide),
      Int.ediv_ediv_of_nonneg (by omega)]
  have e2 : (32768 * p).tdiv w = 32768 * p / w := Int.tdiv_eq_ediv_of_nonneg (by omega)
  rw [e1, e2]
  have hwn : 0 < w * n := mul_pos w1 (by omega)
  have m1 := Int.mul_ediv_add_emod 1073741824 (w * n)
  have m2 := Int.emod_lt_of_pos 1073741824 hwn
  have m3 := Int.emod_nonneg 1073741824 (show w * (n : Int) ≠ 0 by omega)
  have l1 := Int.mul_ediv_add_emod (32768 * p) w
  have l2 := Int.emod_lt_of_pos (32768 * p) w1
  have l3 := Int.emod_nonneg (32768 * p) (show w ≠ 0 by omega)
  have m0 : 0 ≤ (1073741824 : Int) / (w * n) := Int.ediv_nonneg (by decide) (by omega)
  generalize (1073741824 : Int) / (w * n) = m at *
  generalize (1073741824 : Int) % (w * n) = mr at *
  generalize 32768 * p / w = l at *
  generalize 32768 * p % w = lr at *
  simp only [if_neg (show w ≠ 0 by omega)]
  have hn' : (0 : Int) < n := by omega
  refine ⟨fun led hl h => S_zero ?_, fun led hl h => S_one ?_, fun a b hab hb => ?_⟩
  · -- led * m ≤ l - 16384, because both sides times w * n are ordered
    by_contra c
    have c' : l - 16384 + 1 ≤ led * m := by omega
    have k1 : (l - 16384 + 1) * (w * n) ≤ led * m * (w * n) := mul_le_mul_of_nonneg_right c' (by omega)
    have k2 : (led : Int) * m * (w * n) ≤ led * 1073741824 := by
      have : (led : Int) * (w * n * m) ≤ led * 1073741824 := mul_le_mul_of_nonneg_left (by omega) (by omega)
      nlinarith
    have k3 : (led : Int) * 1073741824 ≤ (2 * p - w) * n * 16384 := by nlinarith
    have k4 : (w * l + lr) * n = 32768 * p * n := by rw [l1]
    have k5 : lr * n < w * n := mul_lt_mul_of_pos_right l2 hn'
    nlinarith
  · have k2 : (led : Int) * 1073741824 - led * (w * n) ≤ led * (w * n * m) := by
      have : (led : Int) * (1073741824 - w * n) ≤ led * (w * n * m) := mul_le_mul_of_nonneg_left (by omega) (by omega)
      nlinarith
    have k4 : (w * l) * n ≤ 32768 * p * n := mul_le_mul_of_nonneg_right (by omega) (by omega)
    have k6 : (l + 16384) * (w * n) ≤ led * m * (w * n) := by nlinarith
    have k7 := le_of_mul_le_mul_right k6 hwn
    omega
  · refine S_mono ?_
    have : (a : Int) * m ≤ b * m := mul_le_mul_of_nonneg_right (by omega) m0
    omega
example : (List.range 8).map (F.smoothStep (.leaf fun _ => 16384) (.leaf fun _ => 16384) |>.eval 8) =
    [0, 0, 0, 5120, 16384, 27648, 32768, 32768].map some := by decide +kernel
/-- with a width of 0 the step is at one point: nothing before it, everything one LED after it -/
theorem C48_step {n led : Nat} {pf wf : F} {p : Int} (hn : 0 < n) (hn2 : n ≤ 32767) (hp : pf.eval n 0 = some p) (hw : wf.eval n 0 = some 0)
    (up : U p) (hl : led < n) :
    ((led : Int) * 32768 ≤ n * p → (F.smoothStep pf wf).eval n led = some 0) ∧
    ((n : Int) * p + 32768 ≤ led * 32768 → (F.smoothStep pf wf).eval n led = some 32768) := by
  rw [smoothStep_eq hn hn2 hp hw up (by decide) (by decide) hl, if_pos rfl]
  exact ⟨fun h => by rw [S_zero (by omega)], fun h => by rw [S_one (by omega)]⟩
example : (F.smoothStep (.leaf fun _ => 16384) (.leaf fun _ => 0)).eval 8 4 = some 0 ∧
    (F.smoothStep (.leaf fun _ => 16384) (.leaf fun _ => 0)).eval 8 5 = some 32768 := by decide +kernel

end Verif.Func
