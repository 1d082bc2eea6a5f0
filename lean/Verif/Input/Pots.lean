import Mathlib.Algebra.Order.Field.Basic
import Mathlib.Algebra.Order.Floor.Ring
import Mathlib.Tactic.Linarith
import Mathlib.Tactic.Ring
import Mathlib.Tactic.Positivity
import Mathlib.Tactic.FieldSimp
import Mathlib.Analysis.SpecialFunctions.Log.Basic
/-!
# Potentiometers (C120)

Model of `BasePotClass` (buttons/pots.h:28-52) and the receivers for volume and variation (buttons/pots.h:4-26). The factor
`expf(logf(0.1) * t / 1000000.0)` is any function that turns sums of times into products, over any ordered field (`float` is idealised).
-/
namespace Verif.Input.Pots

variable {K : Type} [Field K] [LinearOrder K] [IsStrictOrderedRing K]

/-- What is used of `0.1^(t/1000000)`. -/
structure Decay (f : Nat → K) : Prop where
  zero : f 0 = 1
  add : ∀ a b, f (a + b) = f a * f b
  pos : ∀ a, 0 < f a
  le : ∀ a, f a ≤ 1
  second : f 1000000 = 1 / 10

/-- `now - last_read_time_`. -/
def since (now last : Nat) : Nat := (now % 4294967296 + 4294967296 - last % 4294967296) % 4294967296

structure S (K : Type) where
  reading : K
  last : Nat

/-- buttons/pots.h:36-44; `v` is `reader_.Value()`. -/
def read (f : Nat → K) (s : S K) (now : Nat) (v : Nat) : S K :=
  ⟨s.reading * f (since now s.last) + (v : K) / 1024 * (1 - f (since now s.last)), now⟩

def run (f : Nat → K) (s : S K) (l : List (Nat × Nat)) : S K := l.foldl (fun s x => read f s x.1 x.2) s

/-! ## Claims -/

theorem since_real (now last : Nat) (h : last ≤ now) (h2 : now < last + 4294967296) : since now last = now - last := by
  unfold since; omega

/-- The reading never leaves the range of the values read. -/
theorem C120_range (f : Nat → K) (hf : Decay f) (s : S K) (l : List (Nat × Nat)) (lo hi : Nat) (h : ∀ x ∈ l, lo ≤ x.2 ∧ x.2 ≤ hi)
    (h0 : (lo : K) / 1024 ≤ s.reading ∧ s.reading ≤ (hi : K) / 1024) :
    (lo : K) / 1024 ≤ (run f s l).reading ∧ (run f s l).reading ≤ (hi : K) / 1024 := by
  unfold run
  induction l generalizing s with
  | nil => exact h0
  | cons x t ih =>
    rw [List.foldl_cons]
    apply ih _ (fun y hy => h y (List.mem_cons_of_mem _ hy))
    obtain ⟨v1, v2⟩ := h x (by simp)
    have p := hf.pos (since x.1 s.last)
    have q := hf.le (since x.1 s.last)
    unfold read
    simp only
    generalize f (since x.1 s.last) = m at p q
    have c1 : (lo : K) / 1024 ≤ (x.2 : K) / 1024 := by
      apply div_le_div_of_nonneg_right _ (by positivity); exact_mod_cast v1
    have c2 : (x.2 : K) / 1024 ≤ (hi : K) / 1024 := by
      apply div_le_div_of_nonneg_right _ (by positivity); exact_mod_cast v2
    have m1 := mul_le_mul_of_nonneg_right h0.1 p.le
    have m2 := mul_le_mul_of_nonneg_right h0.2 p.le
    have m3 := mul_le_mul_of_nonneg_right c1 (sub_nonneg.2 q)
    have m4 := mul_le_mul_of_nonneg_right c2 (sub_nonneg.2 q)
    constructor
    · linarith
    · linarith

/-- Times of the readings in order, less than one turn of the clock apart. -/
def Times : Nat → List (Nat × Nat) → Prop
  | _, [] => True
  | last, x :: r => last ≤ x.1 ∧ x.1 < last + 4294967296 ∧ Times x.1 r

/-- The time of the last of the readings. -/
def final : Nat → List (Nat × Nat) → Nat
  | last, [] => last
  | _, x :: r => final x.1 r

theorem final_le (last : Nat) (l : List (Nat × Nat)) (h : Times last l) : last ≤ final last l := by
  induction l generalizing last with
  | nil => exact Nat.le_refl _
  | cons x r ih => exact Nat.le_trans h.1 (ih x.1 h.2.2)

/-- If the knob stands still the reading depends only on the time passed, not on how often or how regularly it is read; -/
theorem C120_rate (f : Nat → K) (hf : Decay f) (s : S K) (l : List (Nat × Nat)) (v : Nat) (h : ∀ x ∈ l, x.2 = v) (ht : Times s.last l) :
    (run f s l).reading - (v : K) / 1024 = (s.reading - (v : K) / 1024) * f (final s.last l - s.last) := by
  unfold run
  induction l generalizing s with
  | nil => simp [final, hf.zero]
  | cons x r ih =>
    obtain ⟨t1, t2, t3⟩ := ht
    have hx := h x (by simp)
    rw [List.foldl_cons, ih (read f s x.1 x.2) (fun y hy => h y (List.mem_cons_of_mem _ hy)) t3]
    have hl := final_le x.1 r t3
    have hd : final s.last (x :: r) - s.last = (x.1 - s.last) + (final x.1 r - x.1) := by
      show final x.1 r - s.last = _
      omega
    rw [hd, hf.add]
    unfold read
    simp only
    rw [since_real _ _ t1 t2, hx]
    ring

theorem decay_secs (f : Nat → K) (hf : Decay f) (k : Nat) : f (k * 1000000) = (1 / 10) ^ k := by
  induction k with
  | zero => simp [hf.zero]
  | succ n ih => rw [Nat.succ_mul, hf.add, ih, hf.second, pow_succ]

/-- and its distance from the true place falls by ten in every second. -/
theorem C120_second (f : Nat → K) (hf : Decay f) (s : S K) (l : List (Nat × Nat)) (v k : Nat) (h : ∀ x ∈ l, x.2 = v) (ht : Times s.last l)
    (hk : final s.last l = s.last + k * 1000000) :
    |(run f s l).reading - (v : K) / 1024| = |s.reading - (v : K) / 1024| * (1 / 10) ^ k := by
  rw [C120_rate f hf s l v h ht, hk, Nat.add_sub_cancel_left, decay_secs f hf, abs_mul, abs_pow, abs_of_nonneg (by positivity : (0 : K) ≤ 1 / 10)]

variable [FloorRing K]

/-- `ChangeVolumeAnalogReceiver::Set` and `ChangeVariationAnalogReceiver::Set`, buttons/pots.h:10-26: conversion to int. -/
def setVolume (volume : Nat) (x : K) : Int := ⌊(volume : K) * x⌋
def setVariation (x : K) : Int := ⌊32767 * x⌋

/-- Volume and variation keep their range whatever the knob does. -/
theorem C120_set (f : Nat → K) (hf : Decay f) (last : Nat) (l : List (Nat × Nat)) (volume : Nat) (h : ∀ x ∈ l, x.2 ≤ 1023) :
    (0 ≤ setVolume volume (run f ⟨0, last⟩ l).reading ∧ setVolume volume (run f ⟨0, last⟩ l).reading ≤ volume) ∧
    (0 ≤ setVariation (run f ⟨0, last⟩ l).reading ∧ setVariation (run f ⟨0, last⟩ l).reading ≤ 32735) := by
  have r := C120_range f hf ⟨0, last⟩ l 0 1023 (fun x hx => ⟨Nat.zero_le _, h x hx⟩) (by norm_num)
  generalize (run f ⟨0, last⟩ l).reading = x at r
  have r1 : 0 ≤ x := by simpa using r.1
  have r2 : x ≤ 1023 / 1024 := by exact_mod_cast r.2
  have hv : (0 : K) ≤ volume := by positivity
  unfold setVolume setVariation
  refine ⟨⟨Int.floor_nonneg.2 (mul_nonneg hv r1), ?_⟩, ⟨Int.floor_nonneg.2 (by linarith), ?_⟩⟩
  · have h1 : (volume : K) * x ≤ volume := by
      have := mul_le_mul_of_nonneg_left r2 hv
      linarith
    have h2 := Int.floor_le ((volume : K) * x)
    have h3 : ((⌊(volume : K) * x⌋ : Int) : K) ≤ ((volume : Int) : K) := by
      rw [Int.cast_natCast]; linarith
    exact_mod_cast h3
  · have h2 := Int.floor_le (32767 * x)
    have h3 : ⌊32767 * x⌋ < 32736 := by rw [Int.floor_lt]; norm_num; linarith
    omega

/-- Full volume and full variation are never reached, wherever the knob stands and however long. -/
theorem C120_full_counterexample (f : Nat → K) (hf : Decay f) (last : Nat) (l : List (Nat × Nat)) (volume : Nat) (hv : 0 < volume) (h : ∀ x ∈ l, x.2 ≤ 1023) :
    setVolume volume (run f ⟨0, last⟩ l).reading < volume ∧ setVariation (run f ⟨0, last⟩ l).reading < 32767 := by
  have k := C120_set f hf last l volume h
  have r := C120_range f hf ⟨0, last⟩ l 0 1023 (fun x hx => ⟨Nat.zero_le _, h x hx⟩) (by norm_num)
  refine ⟨?_, by omega⟩
  generalize (run f ⟨0, last⟩ l).reading = x at r
  have r2 : x ≤ 1023 / 1024 := by exact_mod_cast r.2
  have hv' : (0 : K) < volume := by exact_mod_cast hv
  unfold setVolume
  rw [Int.floor_lt]
  have := mul_le_mul_of_nonneg_left r2 hv'.le
  rw [Int.cast_natCast]
  linarith

example : Times 0 [(1000, 5), (2500, 5), (4294967296, 5)] := by simp [Times]

/-- The factor of the code, over the real numbers. -/
noncomputable def factor (t : Nat) : ℝ := Real.exp (Real.log (1 / 10) * t / 1000000)

/-- It is such a function. -/
theorem factor_decay : Decay factor where
  zero := by simp [factor]
  add a b := by
    unfold factor
    rw [← Real.exp_add]
    congr 1
    push_cast
    ring
  pos a := Real.exp_pos _
  le a := by
    unfold factor
    rw [Real.exp_le_one_iff]
    have : Real.log (1 / 10) ≤ 0 := Real.log_nonpos (by norm_num) (by norm_num)
    have h2 : (0 : ℝ) ≤ (a : ℝ) := by positivity
    have := mul_nonneg_of_nonpos_of_nonpos this (neg_nonpos.2 h2)
    have : Real.log (1 / 10) * (a : ℝ) ≤ 0 := by linarith
    exact div_nonpos_of_nonpos_of_nonneg this (by norm_num)
  second := by
    unfold factor
    rw [show Real.log (1 / 10) * ((1000000 : ℕ) : ℝ) / 1000000 = Real.log (1 / 10) by push_cast; ring]
    exact Real.exp_log (by norm_num)

end Verif.Input.Pots
