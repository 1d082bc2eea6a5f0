import Mathlib.Algebra.Order.Field.Rat
import Mathlib.Tactic.Linarith
import Mathlib.Tactic.FieldSimp
import Mathlib.Tactic.Ring
/-!
# Counting loops per second

Model of common/loop_counter.h, by which the frame rates printed are counted.  Times are milliseconds since the start, without bound; the
clock shows them modulo 2^32.  The rate is computed in floating point, here in rational numbers.
-/
namespace Verif.Common.LoopCount

/-- `LoopCounter`, common/loop_counter.h:33-35 -/
structure L where
  updates : Nat
  sum : Nat
  last : Nat
  deriving DecidableEq

/-- the sum after one more time, and whether to halve, common/loop_counter.h:24-28 -/
def addHalf (u s : Nat) : Nat × Nat := if s > 10000 then (u / 2, s / 2) else (u, s)

/-- `LoopCounter::Update`, common/loop_counter.h:20-31, at a time `t` -/
def L.update (c : L) (t : Nat) : L :=
  if c.last ≠ 0 then
    ⟨(addHalf (c.updates + 1) (c.sum + (t % 4294967296 + 4294967296 - c.last) % 4294967296)).1,
     (addHalf (c.updates + 1) (c.sum + (t % 4294967296 + 4294967296 - c.last) % 4294967296)).2, t % 4294967296⟩
  else { c with last := t % 4294967296 }

/-- `LoopCounter::LoopsPerSecond`, common/loop_counter.h:6-9 -/
def L.perSecond (c : L) : Rat := if c.sum = 0 then 0 else c.updates * 1000 / c.sum

/-- a new counter, common/loop_counter.h:33-35, or one after `Reset`, 14-18 -/
def L.new : L := ⟨0, 0, 0⟩

/-- updates at times -/
def run (c : L) (ts : List Nat) : L := ts.foldl L.update c

/-- specification: from a time on, further times each between `a` and `b` after the one before, none at which the clock shows 0 -/
def Steps (a b : Nat) : Nat → List Nat → Prop
  | _, [] => True
  | t, t' :: l => t + a ≤ t' ∧ t' ≤ t + b ∧ t' % 4294967296 ≠ 0 ∧ Steps a b t' l

/-- the last time -/
def lastTime : Nat → List Nat → Nat
  | t, [] => t
  | _, t' :: l => lastTime t' l

/-- The invariant, with the time of the first update and that of the last. -/
def Inv (a b t1 t : Nat) (c : L) : Prop :=
  c.last = t % 4294967296 ∧ t % 4294967296 ≠ 0 ∧ a * c.updates ≤ c.sum + 1 ∧ c.sum ≤ b * (c.updates + 1) ∧ c.sum ≤ 10000 ∧
  t1 ≤ t ∧ (5000 ≤ c.sum ∨ c.sum = t - t1)

theorem half_inv (a b u s : Nat) (hb : s ≤ 10000 + b) (hbb : b ≤ 10000) (h1 : a * u ≤ s + 1) (h2 : s ≤ b * (u + 1)) :
    a * (addHalf u s).1 ≤ (addHalf u s).2 + 1 ∧ (addHalf u s).2 ≤ b * ((addHalf u s).1 + 1) ∧ (addHalf u s).2 ≤ 10000 ∧
    (s > 10000 → 5000 ≤ (addHalf u s).2) ∧ (s ≤ 10000 → (addHalf u s).2 = s) := by
  unfold addHalf
  split
  · refine ⟨?_, ?_, by simp only; omega, fun _ => by simp only; omega, fun h => by omega⟩
    · simp only
      have : a * (u / 2) * 2 ≤ a * u := by
        rw [Nat.mul_assoc]; exact Nat.mul_le_mul_left a (Nat.div_mul_le_self u 2)
      omega
    · simp only
      have e : b * (u + 1) ≤ b * ((u / 2 + 1) * 2) := Nat.mul_le_mul_left b (by omega)
      rw [← Nat.mul_assoc] at e
      omega
  · exact ⟨h1, h2, by simp only; omega, fun h => by omega, fun _ => rfl⟩

theorem inv_update (a b t1 t t' : Nat) (c : L) (h : Inv a b t1 t c) (hb : b ≤ 10000) (ha : t + a ≤ t') (hb' : t' ≤ t + b)
    (hz : t' % 4294967296 ≠ 0) : Inv a b t1 t' (c.update t') := by
  obtain ⟨h1, h2, h3, h4, h5, h6, h7⟩ := h
  have hg : (t' % 4294967296 + 4294967296 - c.last) % 4294967296 = t' - t := by rw [h1]; omega
  have hl : c.last ≠ 0 := by rw [h1]; exact h2
  have hs : c.sum + (t' - t) ≤ b * (c.updates + 1 + 1) := by rw [Nat.mul_add b (c.updates + 1)]; omega
  have ha2 : a * (c.updates + 1) ≤ c.sum + (t' - t) + 1 := by rw [Nat.mul_add]; omega
  obtain ⟨k1, k2, k3, k4, k5⟩ := half_inv a b (c.updates + 1) (c.sum + (t' - t)) (by omega) hb ha2 hs
  unfold L.update
  rw [if_pos hl, hg]
  refine ⟨rfl, hz, k1, k2, k3, by omega, ?_⟩
  by_cases hc : c.sum + (t' - t) > 10000
  · exact .inl (k4 hc)
  · have := k5 (by omega)
    simp only
    rw [this]
    rcases h7 with h7 | h7
    · left; omega
    · right; omega

theorem inv_run (a b t1 : Nat) (hb : b ≤ 10000) (ts : List Nat) (t : Nat) (c : L) (h : Inv a b t1 t c) (hs : Steps a b t ts) :
    Inv a b t1 (lastTime t ts) (run c ts) := by
  induction ts generalizing t c with
  | nil => exact h
  | cons t' l ih =>
    obtain ⟨s1, s2, s3, s4⟩ := hs
    exact ih t' (c.update t') (inv_update a b t1 t t' c h hb s1 s2 s3) s4

theorem inv_first (a b t1 : Nat) (h : t1 % 4294967296 ≠ 0) : Inv a b t1 t1 (L.new.update t1) :=
  ⟨rfl, h, by simp [L.new, L.update], by simp [L.new, L.update], by simp [L.new, L.update], le_refl _, .inr (by simp [L.new, L.update])⟩

/-- For loops taking between `a` and `b` milliseconds each, once five seconds have passed the rate shown is never more than a fifth of a loop
per second below that of the slowest, nor more than one part in 5000 above that of the fastest, however long the counting goes on: the
halving by which old loops are forgotten adds no error. -/
theorem C133_rate (a b t1 : Nat) (ts : List Nat) (ha : 0 < a) (hb : b ≤ 10000) (h1 : t1 % 4294967296 ≠ 0) (hs : Steps a b t1 ts)
    (hlong : t1 + 5000 ≤ lastTime t1 ts) :
    (1000 / b - 1 / 5 : Rat) ≤ (run L.new (t1 :: ts)).perSecond ∧ (run L.new (t1 :: ts)).perSecond ≤ 1000 / a * (1 + 1 / 5000) := by
  have h := inv_run a b t1 hb ts t1 _ (inv_first a b t1 h1) hs
  have hr : run L.new (t1 :: ts) = run (L.new.update t1) ts := rfl
  rw [hr]
  generalize run (L.new.update t1) ts = c at h
  obtain ⟨-, -, h3, h4, h5, h6, h7⟩ := h
  have hw : 5000 ≤ c.sum := by omega
  have hne : c.sum ≠ 0 := by omega
  have hbpos : 0 < b := by
    rcases Nat.eq_zero_or_pos b with rfl | h
    · simp at h4; omega
    · exact h
  unfold L.perSecond
  rw [if_neg hne]
  have hS : (5000 : Rat) ≤ c.sum := by exact_mod_cast hw
  have hS0 : (0 : Rat) < c.sum := by linarith
  have hA : (0 : Rat) < a := by exact_mod_cast ha
  have hB : (0 : Rat) < b := by exact_mod_cast hbpos
  have e3 : (a : Rat) * c.updates ≤ c.sum + 1 := by exact_mod_cast h3
  have e4 : (c.sum : Rat) ≤ b * (c.updates + 1) := by exact_mod_cast h4
  constructor
  · rw [le_div_iff₀ hS0, sub_mul, div_mul_eq_mul_div, sub_le_iff_le_add, div_le_iff₀ hB]
    nlinarith
  · rw [div_le_iff₀ hS0, div_mul_eq_mul_div, div_mul_eq_mul_div, le_div_iff₀ hA]
    nlinarith

theorem steps_const (g : Nat) (hg : 0 < g) (n t : Nat) (h0 : 0 < t) (h : t + g * n < 4294967296) :
    Steps g g t ((List.range' 1 n).map fun k => t + g * k) ∧ lastTime t ((List.range' 1 n).map fun k => t + g * k) = t + g * n := by
  induction n generalizing t with
  | zero => exact ⟨trivial, rfl⟩
  | succ n ih =>
    have e : (List.range' 1 (n + 1)).map (fun k => t + g * k) = (t + g) :: (List.range' 1 n).map (fun k => t + g + g * k) := by
      rw [List.range'_succ, List.map_cons, Nat.mul_one]
      congr 1
      rw [show (1 + 1 : Nat) = 1 + 1 from rfl, List.range'_eq_map_range, List.range'_eq_map_range, List.map_map, List.map_map]
      apply List.map_congr_left
      intro k _
      simp only [Function.comp]
      ring
    have hm : g * (n + 1) = g * n + g := Nat.mul_succ g n
    obtain ⟨i1, i2⟩ := ih (t + g) (by omega) (by omega)
    rw [e]
    refine ⟨⟨Nat.le_refl _, Nat.le_refl _, ?_, i1⟩, ?_⟩
    · rw [Nat.mod_eq_of_lt (by omega)]; omega
    · show lastTime (t + g) _ = _
      rw [i2]; omega

/-- Met by a loop of 20 ms for an hour: the rate is between 49.8 and 50.01 loops per second. -/
example : (1000 / 20 - 1 / 5 : Rat) ≤ (run L.new (1 :: (List.range' 1 180000).map fun k => 1 + 20 * k)).perSecond ∧
    (run L.new (1 :: (List.range' 1 180000).map fun k => 1 + 20 * k)).perSecond ≤ 1000 / 20 * (1 + 1 / 5000) := by
  obtain ⟨h1, h2⟩ := steps_const 20 (by omega) 180000 1 (by omega) (by omega)
  have := C133_rate 20 20 1 _ (by omega) (by omega) (by omega) h1 (by rw [h2]; omega)
  exact_mod_cast this

/-- The counts stay small: the sum is never above ten seconds, so nothing overflows. -/
theorem C133_small (a b t1 : Nat) (ts : List Nat) (ha : 0 < a) (hb : b ≤ 10000) (h1 : t1 % 4294967296 ≠ 0) (hs : Steps a b t1 ts) :
    (run L.new (t1 :: ts)).sum ≤ 10000 ∧ (run L.new (t1 :: ts)).updates ≤ 10001 := by
  have h := inv_run a b t1 hb ts t1 _ (inv_first a b t1 h1) hs
  have hr : run L.new (t1 :: ts) = run (L.new.update t1) ts := rfl
  rw [hr]
  obtain ⟨-, -, h3, h4, h5, h6, h7⟩ := h
  refine ⟨h5, ?_⟩
  have : 1 * (run (L.new.update t1) ts).updates ≤ a * (run (L.new.update t1) ts).updates := Nat.mul_le_mul_right _ ha
  omega

end Verif.Common.LoopCount
