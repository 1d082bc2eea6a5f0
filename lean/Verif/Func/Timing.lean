import Verif.Num.Model
import Mathlib.Tactic.Linarith
import Mathlib.Tactic.Ring

/-!
# Functions which keep time or wander (C103)

Model of `functions/blinking.h`, `functions/strobe.h`, `functions/time_since_effect.h`,
`functions/on_spark.h` and `functions/brown_noise.h`.

The clocks count microseconds or milliseconds modulo 2^32.  The theorems speak about real time,
a natural number of which the clock shows the remainder.  Random numbers are inputs.
-/
namespace Verif.Func.Timing

open Verif.Num (u32 sub32 clampi32)

/-- Conversion of a `uint32_t` to `int32_t`. -/
def s32 (x : Nat) : Int := if x < 2147483648 then (x : Int) else (x : Int) - 4294967296

/-- What a clock shows at a real time. -/
def clock (t : Nat) : Nat := t % 4294967296

/-! ## Lemmas about the clock -/

theorem sub_clock (t s : Nat) (h : s ≤ t) (hd : t - s < 4294967296) : sub32 (clock t) (clock s) = t - s := by
  unfold sub32 clock Verif.Num.W32
  simp only [show (2:Nat)^32 = 4294967296 by rfl]
  omega

theorem add_clock (t d : Nat) : u32 (clock t + d) = clock (t + d) := by
  unfold u32 clock Verif.Num.W32
  simp only [show (2:Nat)^32 = 4294967296 by rfl]
  omega

theorem clock_sub (t d : Nat) (h : d ≤ t) (hd : d < 4294967296) : sub32 (clock t) d = clock (t - d) := by
  unfold sub32 clock Verif.Num.W32
  simp only [show (2:Nat)^32 = 4294967296 by rfl]
  omega

theorem u32_id (x : Nat) (h : x < 4294967296) : u32 x = x := by
  unfold u32 Verif.Num.W32; exact Nat.mod_eq_of_lt h

/-! ## Blinking -/

/-- `BlinkingFSVF::calculate`, functions/blinking.h:27-43: the new `pulse_start_micros_` and the
returned value.  `millis` is the value of the first argument as `uint32_t`. -/
def blink (millis : Nat) (promille : Int) (now start : Nat) : Nat × Int :=
  if millis = 0 then (start, 0)
  else
    let start' :=
      if sub32 now start > u32 (millis * 1000) then
        if sub32 now start < u32 (millis * 2000) then u32 (start + u32 (millis * 1000)) else now
      else start
    (start', if s32 (sub32 now start' / millis) ≤ promille then 0 else 32768)

/-- Calls at the given real times; the result lists times and values. -/
def blinks (millis : Nat) (promille : Int) : List Nat → Nat → List (Nat × Int)
  | [], _ => []
  | t :: ts, start =>
    (t, (blink millis promille (clock t) start).2) ::
      blinks millis promille ts (blink millis promille (clock t) start).1

/-- Times at which something is called at least every `gap` units. -/
def Often (gap : Nat) : Nat → List Nat → Prop
  | _, [] => True
  | t, t' :: r => t ≤ t' ∧ t' < t + gap ∧ Often gap t' r

/-- What a blinking which started at `t0` shows at time `t`: dark for the first `promille`
thousandths of each period, then bright. -/
def Blinks (millis : Nat) (promille : Int) (t0 t : Nat) (v : Int) : Prop :=
  ∃ k, t0 + k * (millis * 1000) ≤ t ∧ t ≤ t0 + (k + 1) * (millis * 1000) ∧
    v = if (((t - (t0 + k * (millis * 1000))) / millis : Nat) : Int) ≤ promille then 0 else 32768

theorem s32_small (x : Nat) (h : x < 2147483648) : s32 x = x := by unfold s32; rw [if_pos h]

theorem phase_small (millis d : Nat) (h : d ≤ millis * 1000) : d / millis < 2147483648 := by
  have : d / millis ≤ 1000 := by
    apply Nat.div_le_of_le_mul; exact h
  omega

theorem half_lt (millis : Nat) (h : millis * 2000 < 4294967296) : millis * 1000 < 4294967296 :=
  Nat.lt_of_le_of_lt (Nat.mul_le_mul_left _ (by decide)) h

theorem dbl (millis P : Nat) (h : millis * 1000 = P) : millis * 2000 = 2 * P := by
  rw [← h]; ring

theorem blink_step (millis : Nat) (promille : Int) (h0 : 0 < millis) (hm : millis * 2000 < 4294967296)
    (t0 k t : Nat) (h1 : t0 + k * (millis * 1000) ≤ t) (h2 : t < t0 + (k + 2) * (millis * 1000)) :
    ∃ k', (blink millis promille (clock t) (clock (t0 + k * (millis * 1000)))).1 =
        clock (t0 + k' * (millis * 1000)) ∧
      t0 + k' * (millis * 1000) ≤ t ∧ t ≤ t0 + (k' + 1) * (millis * 1000) ∧
      (blink millis promille (clock t) (clock (t0 + k * (millis * 1000)))).2 =
        if (((t - (t0 + k' * (millis * 1000))) / millis : Nat) : Int) ≤ promille then 0 else 32768 := by
  have e1 : u32 (millis * 1000) = millis * 1000 := u32_id _ (half_lt millis hm)
  have e2 : u32 (millis * 2000) = millis * 2000 := u32_id _ hm
  have hps : ∀ d, d ≤ millis * 1000 → d / millis < 2147483648 := fun d h => phase_small millis d h
  obtain ⟨P, hP⟩ : ∃ P, millis * 1000 = P := ⟨_, rfl⟩
  have hP2 : millis * 2000 = 2 * P := dbl millis P hP
  have hm' : 2 * P < 4294967296 := by rw [← hP2]; exact hm
  rw [hP] at h1 h2 e1 hps
  rw [hP2] at e2
  simp only [hP]
  have hk2 : t0 + (k + 2) * P = t0 + k * P + 2 * P := by ring
  have hk1 : t0 + (k + 1) * P = t0 + k * P + P := by ring
  obtain ⟨S, hS⟩ : ∃ S, t0 + k * P = S := ⟨_, rfl⟩
  have hk3 : t0 + (k + 1 + 1) * P = t0 + k * P + 2 * P := by ring
  rw [hk2] at h2
  rw [hS] at h1 h2 hk1 hk3
  simp only [hS]
  have e3 : sub32 (clock t) (clock S) = t - S := sub_clock t S h1 (by omega)
  unfold blink
  simp only [if_neg (show ¬ millis = 0 by omega), hP, hP2, e1, e2, e3]
  by_cases hc : t - S > P
  · refine ⟨k + 1, ?_, by omega, ?_, ?_⟩
    · rw [if_pos hc, if_pos (by omega), add_clock, hk1]
    · omega
    · rw [if_pos hc, if_pos (show t - S < 2 * P by omega), add_clock, hk1,
        sub_clock t (S + P) (by omega) (by omega), s32_small _ (hps _ (by omega))]
  · refine ⟨k, ?_, by omega, by omega, ?_⟩
    · rw [if_neg hc, hS]
    · rw [if_neg hc, hS, e3, s32_small _ (hps _ (by omega))]

/-- A blinking which is looked at more often than once per period keeps its rhythm for ever:
there is a time `t0`, and every value is that of a perfectly regular blinking from `t0` on.  The start
value, which is not initialised, only determines `t0`. -/
theorem C103_blink (millis : Nat) (promille : Int) (h0 : 0 < millis) (hm : millis * 2000 < 4294967296)
    (start t : Nat) (hs : start < 4294967296) (ht : 4294967296 ≤ t) (ts : List Nat)
    (ho : Often (millis * 1000) t ts) :
    ∃ t0, ∀ x ∈ blinks millis promille (t :: ts) start, Blinks millis promille t0 x.1 x.2 := by
  have follow : ∀ (ts : List Nat) (t0 k t : Nat), Often (millis * 1000) t ts →
      t0 + k * (millis * 1000) ≤ t → t ≤ t0 + (k + 1) * (millis * 1000) →
      ∀ x ∈ blinks millis promille ts (clock (t0 + k * (millis * 1000))), Blinks millis promille t0 x.1 x.2 := by
    intro ts
    induction ts with
    | nil => intro t0 k t _ _ _ x hx; simp [blinks] at hx
    | cons t' r ih =>
      intro t0 k t ho h1 h2 x hx
      obtain ⟨ho1, ho2, ho3⟩ := ho
      have hk : t0 + (k + 2) * (millis * 1000) = t0 + (k + 1) * (millis * 1000) + millis * 1000 := by ring
      obtain ⟨k', e1, e2, e3, e4⟩ := blink_step millis promille h0 hm t0 k t' (by omega) (by omega)
      simp only [blinks, List.mem_cons] at hx
      rcases hx with hx | hx
      · subst hx
        exact ⟨k', e2, e3, e4⟩
      · rw [e1] at hx
        exact ih t0 k' t' ho3 e2 e3 x hx
  -- the first call: find a real time for the start value
  obtain ⟨S, hS1, hS2, hS3⟩ : ∃ S, clock S = start ∧ S ≤ t ∧ t - S < 4294967296 := by
    refine ⟨t - sub32 (clock t) start, ?_, ?_, ?_⟩
    · unfold clock sub32 Verif.Num.W32
      simp only [show (2:Nat)^32 = 4294967296 by rfl]
      omega
    · exact Nat.sub_le _ _
    · unfold clock sub32 Verif.Num.W32
      simp only [show (2:Nat)^32 = 4294967296 by rfl]
      omega
  have e3 : sub32 (clock t) start = t - S := by rw [← hS1]; exact sub_clock t S hS2 hS3
  obtain ⟨P, hP⟩ : ∃ P, millis * 1000 = P := ⟨_, rfl⟩
  have hP2 := dbl millis P hP
  by_cases hc : t < S + 2 * P
  · refine ⟨S, ?_⟩
    obtain ⟨k', g1, g2, g3, g4⟩ := blink_step millis promille h0 hm S 0 t (by rw [Nat.zero_mul]; omega)
      (by rw [hP]; omega)
    intro x hx
    rw [← hS1] at hx
    simp only [Nat.zero_mul, Nat.add_zero] at g1 g4
    simp only [blinks, List.mem_cons] at hx
    rcases hx with hx | hx
    · subst hx; exact ⟨k', g2, g3, g4⟩
    · rw [g1] at hx
      exact follow ts S k' t ho g2 g3 x hx
  · refine ⟨t, ?_⟩
    have e1 : u32 (millis * 1000) = millis * 1000 := u32_id _ (half_lt millis hm)
    have e2 : u32 (millis * 2000) = millis * 2000 := u32_id _ hm
    have b1 : blink millis promille (clock t) start =
        (clock t, if ((0 / millis : Nat) : Int) ≤ promille then 0 else 32768) := by
      unfold blink
      rw [hP] at e1
      rw [hP2] at e2
      simp only [if_neg (show ¬ millis = 0 by omega), e3, hP, hP2, e1, e2]
      rw [if_pos (show t - S > P by omega), if_neg (show ¬ t - S < 2 * P by omega), sub_clock t t (by omega) (by omega), Nat.sub_self,
        s32_small _ (by rw [Nat.zero_div]; omega)]
    intro x hx
    simp only [blinks, List.mem_cons, b1] at hx
    rcases hx with hx | hx
    · subst hx
      exact ⟨0, by rw [Nat.zero_mul]; exact Nat.le_refl _, Nat.le_add_right _ _, by simp⟩
    · have := follow ts t 0 t ho (by rw [Nat.zero_mul]; exact Nat.le_refl _) (Nat.le_add_right _ _) x
      simp only [Nat.zero_mul, Nat.add_zero] at this
      exact this hx

example : blinks 100 500 [5000000000, 5000049999, 5000060000, 5000110000] 705032704 =
    [(5000000000, 0), (5000049999, 0), (5000060000, 32768), (5000110000, 0)] := by decide +kernel

example : Often (100 * 1000) 5000000000 [5000049999, 5000060000, 5000110000] := by simp [Often]

/-- If it is not looked at for more than two periods, the rhythm starts anew. -/
theorem C103_blink_restart (millis : Nat) (promille : Int) (h0 : 0 < millis) (hp : 0 ≤ promille)
    (hm : millis * 2000 < 4294967296) (S t : Nat) (h : S + millis * 2000 ≤ t) (hd : t - S < 4294967296) :
    blink millis promille (clock t) (clock S) = (clock t, 0) := by
  have e1 : u32 (millis * 1000) = millis * 1000 := u32_id _ (half_lt millis hm)
  have e2 : u32 (millis * 2000) = millis * 2000 := u32_id _ hm
  have e3 : sub32 (clock t) (clock S) = t - S := sub_clock t S (by exact Nat.le_trans (Nat.le_add_right _ _) h) hd
  unfold blink
  obtain ⟨P, hP⟩ : ∃ P, millis * 1000 = P := ⟨_, rfl⟩
  have hP2 := dbl millis P hP
  rw [hP2] at h
  have hP0 : 0 < P := by rw [← hP]; exact Nat.mul_pos h0 (by decide)
  rw [hP] at e1
  rw [hP2] at e2
  simp only [if_neg (show ¬ millis = 0 by omega), e1, e2, e3, hP, hP2]
  rw [if_pos (show t - S > P by omega), if_neg (show ¬ t - S < 2 * P by omega),
    sub_clock t t (by omega) (by omega), Nat.sub_self, Nat.zero_div,
    if_pos (by simpa [s32] using hp)]

/-- Periods of more than 35 minutes lose their rhythm, as twice the length does not fit the clock: a
period of 36 minutes starts anew at the call after its end; one of 83 minutes lasts
only 11.8 minutes. -/
theorem C103_blink_long_counterexample :
    (blink 2160000 500 (clock 2161000000) (clock 0)).1 = clock 2161000000 ∧
    (blink 5000000 500 (clock 800000000) (clock 0)).1 = 705032704 := by decide +kernel

/-! ## Strobe -/

/-- State of `StrobeSVF`: `strobe_` and `strobe_start_`. -/
structure Strobe where
  on : Bool
  start : Nat
deriving DecidableEq, Repr

/-- `StrobeSVF::run`, functions/strobe.h:16-30: `a` is `strobe_millis`, `freq` the frequency. -/
def strobe (a freq m : Nat) (s : Strobe) : Strobe :=
  let f := if freq = 0 then 1 else freq
  let timeout := if s.on then a else 1000 / f
  if sub32 m s.start > timeout then
    { on := !s.on
      start := if sub32 m (u32 (s.start + timeout)) > u32 (a + 1000 / f) then m else u32 (s.start + timeout) }
  else s

/-- `getInteger`, functions/strobe.h:32. -/
def strobeValue (s : Strobe) : Nat := if s.on then 32768 else 0

/-- Calls of `run` at real times (in milliseconds), and the value after each. -/
def strobes (a freq : Nat) : List Nat → Strobe → List (Nat × Nat)
  | [], _ => []
  | t :: r, s => (t, strobeValue (strobe a freq (clock t) s)) :: strobes a freq r (strobe a freq (clock t) s)

/-- A perfect strobe light: `b` ms dark and `a` ms bright in turn, from `t0` on. -/
def Flashes (a b t0 t v : Nat) : Prop :=
  ∃ k, (v = 0 ∧ t0 + k * (a + b) ≤ t ∧ t ≤ t0 + k * (a + b) + b) ∨
       (v = 32768 ∧ t0 + k * (a + b) + b ≤ t ∧ t ≤ t0 + k * (a + b) + b + a)

/-- The strobe light follows a perfect one, if it is run often enough (more often than its shorter
phase) and was in step at the time `t` of some call. -/
theorem C103_strobe (a freq b gap : Nat) (hf : 0 < freq) (hb : b = 1000 / freq) (ha : gap ≤ a + 1) (hgb : gap ≤ b + 1)
    (hs : a < 1000000000) (t0 t : Nat) (ts : List Nat) (ho : Often gap t ts) (h1 : t0 ≤ t) (h2 : t ≤ t0 + b) :
    ∀ x ∈ strobes a freq ts ⟨false, clock t0⟩, Flashes a b t0 x.1 x.2 := by
  have hb1 : b ≤ 1000 := by rw [hb]; exact Nat.div_le_self _ _
  have key : ∀ (ts : List Nat) (k t : Nat) (on : Bool), Often gap t ts →
      (if on then t0 + k * (a + b) + b else t0 + k * (a + b)) ≤ t →
      t ≤ (if on then t0 + k * (a + b) + b + a else t0 + k * (a + b) + b) →
      ∀ x ∈ strobes a freq ts ⟨on, clock (if on then t0 + k * (a + b) + b else t0 + k * (a + b))⟩,
        Flashes a b t0 x.1 x.2 := by
    intro ts
    induction ts with
    | nil => intro k t on _ _ _ x hx; simp [strobes] at hx
    | cons t' r ih =>
      intro k t on ho h1 h2 x hx
      obtain ⟨o1, o2, o3⟩ := ho
      have e0 : u32 (a + b) = a + b := u32_id _ (by omega)
      have hk : t0 + (k + 1) * (a + b) = t0 + k * (a + b) + a + b := by ring
      rcases on with _ | _
      · simp only [Bool.false_eq_true, if_false] at h1 h2 hx
        have ed : sub32 (clock t') (clock (t0 + k * (a + b))) = t' - (t0 + k * (a + b)) :=
          sub_clock _ _ (by omega) (by omega)
        by_cases hc : t' - (t0 + k * (a + b)) > b
        · have es : strobe a freq (clock t') ⟨false, clock (t0 + k * (a + b))⟩ =
              ⟨true, clock (t0 + k * (a + b) + b)⟩ := by
            unfold strobe
            simp only [if_neg (show ¬ freq = 0 by omega), ← hb, Bool.false_eq_true, if_false, ed, add_clock,
              Bool.not_false]
            rw [if_pos hc, sub_clock _ _ (by omega) (by omega), e0, if_neg (by omega)]
          simp only [strobes, es, List.mem_cons] at hx
          rcases hx with hx | hx
          · subst hx
            exact ⟨k, Or.inr ⟨rfl, by simp only; omega, by simp only; omega⟩⟩
          · exact ih k t' true o3 (by simp only [if_true]; omega) (by simp only [if_true]; omega) x hx
        · have es : strobe a freq (clock t') ⟨false, clock (t0 + k * (a + b))⟩ =
              ⟨false, clock (t0 + k * (a + b))⟩ := by
            unfold strobe
            simp only [if_neg (show ¬ freq = 0 by omega), ← hb, Bool.false_eq_true, if_false, ed]
            rw [if_neg hc]
          simp only [strobes, es, List.mem_cons] at hx
          rcases hx with hx | hx
          · subst hx
            exact ⟨k, Or.inl ⟨rfl, by simp only; omega, by simp only; omega⟩⟩
          · exact ih k t' false o3 (by simp only [Bool.false_eq_true, if_false]; omega)
              (by simp only [Bool.false_eq_true, if_false]; omega) x (by simpa using hx)
      · simp only [if_true] at h1 h2 hx
        have ed : sub32 (clock t') (clock (t0 + k * (a + b) + b)) = t' - (t0 + k * (a + b) + b) :=
          sub_clock _ _ (by omega) (by omega)
        by_cases hc : t' - (t0 + k * (a + b) + b) > a
        · have es : strobe a freq (clock t') ⟨true, clock (t0 + k * (a + b) + b)⟩ =
              ⟨false, clock (t0 + (k + 1) * (a + b))⟩ := by
            unfold strobe
            simp only [if_neg (show ¬ freq = 0 by omega), ← hb, if_true, ed, add_clock, Bool.not_true]
            rw [if_pos hc, sub_clock _ _ (by omega) (by omega), e0, if_neg (by omega)]
            congr 2; omega
          simp only [strobes, es, List.mem_cons] at hx
          rcases hx with hx | hx
          · subst hx
            exact ⟨k + 1, Or.inl ⟨rfl, by simp only; omega, by simp only; omega⟩⟩
          · exact ih (k + 1) t' false o3 (by simp only [Bool.false_eq_true, if_false]; omega)
              (by simp only [Bool.false_eq_true, if_false]; omega) x (by simpa using hx)
        · have es : strobe a freq (clock t') ⟨true, clock (t0 + k * (a + b) + b)⟩ =
              ⟨true, clock (t0 + k * (a + b) + b)⟩ := by
            unfold strobe
            simp only [if_neg (show ¬ freq = 0 by omega), ← hb, if_true, ed]
            rw [if_neg hc]
          simp only [strobes, es, List.mem_cons] at hx
          rcases hx with hx | hx
          · subst hx
            exact ⟨k, Or.inr ⟨rfl, by simp only; omega, by simp only; omega⟩⟩
          · exact ih k t' true o3 (by simp only [if_true]; omega) (by simp only [if_true]; omega) x hx
  intro x hx
  have := key ts 0 t false ho (by simp; omega) (by simp; omega) x
  simp only [Bool.false_eq_true, if_false, Nat.zero_mul, Nat.add_zero] at this
  exact this hx

/-- 15 Hz with flashes of 2 ms, run every 2 ms. -/
example : strobes 2 15 [1060, 1062, 1064, 1066, 1068, 1070] ⟨false, clock 1000⟩ =
    [(1060, 0), (1062, 0), (1064, 0), (1066, 0), (1068, 32768), (1070, 0)] ∧
    Often 3 1058 [1060, 1062, 1064, 1066, 1068, 1070] := by
  constructor
  · decide +kernel
  · simp [Often]

/-- It is put back into step by a pause: after a call which comes much too late the start of the
phase is now. -/
theorem C103_strobe_restart (a freq : Nat) (s : Strobe) (S t : Nat) (hS : s.start = clock S) (ha : a < 1000000000)
    (h : S + 2 * a + 2000 < t) (hd : t - S < 4294967296) :
    (strobe a freq (clock t) s).start = clock t ∧ (strobe a freq (clock t) s).on = !s.on := by
  have hb : 1000 / (if freq = 0 then 1 else freq) ≤ 1000 := Nat.div_le_self _ _
  have key : ∀ T b, T ≤ a ∨ T ≤ b → b ≤ 1000 → sub32 (clock t) (clock S) > T ∧
      sub32 (clock t) (u32 (clock S + T)) > u32 (a + b) := by
    intro T b hT hb
    rw [sub_clock _ _ (by omega) hd, add_clock, sub_clock _ _ (by omega) (by omega), u32_id _ (by omega)]
    omega
  unfold strobe
  simp only [hS]
  generalize 1000 / (if freq = 0 then 1 else freq) = b at *
  rcases hon : s.on with _ | _
  · obtain ⟨k1, k2⟩ := key b b (Or.inr (Nat.le_refl _)) hb
    simp only [Bool.false_eq_true, if_false, Bool.not_false]
    rw [if_pos k1, if_pos k2]; exact ⟨rfl, rfl⟩
  · obtain ⟨k1, k2⟩ := key a b (Or.inl (Nat.le_refl _)) hb
    simp only [if_true, Bool.not_true]
    rw [if_pos k1, if_pos k2]; exact ⟨rfl, rfl⟩

/-! ## TimeSinceEffect -/

/-- `TimeSinceEffectSVF::calculate`, functions/time_since_effect.h:17-37: new
`last_occurance_us_` and the value.  `eff` is the start time of the effect just detected. -/
def timeSince (now : Nat) (eff : Option Nat) (last : Nat) : Nat × Nat :=
  let last := eff.getD last
  let ret := sub32 now last
  (if ret > 1000000000 then sub32 now 1000000000 else last, ret / 1000)

/-- A call: real time and, if an effect was detected, its real start. -/
structure Ask where
  t : Nat
  eff : Option Nat

/-- Calls one after the other, with the values returned. -/
def asks : List Ask → Nat → List Nat
  | [], _ => []
  | q :: r, last =>
    (timeSince (clock q.t) (q.eff.map clock) last).2 :: asks r (timeSince (clock q.t) (q.eff.map clock) last).1

/-- The real start of the latest effect before or at each call; at first the time of boot, 0. -/
def latest : List Ask → Nat → List Nat
  | [], _ => []
  | q :: r, e => (q.eff.getD e) :: latest r (q.eff.getD e)

/-- Times go forward, it is asked at least every 50 minutes, and effects are reported within 50
minutes of their start. -/
def Fair : List Ask → Nat → Prop
  | [], _ => True
  | q :: r, t => t ≤ q.t ∧ q.t < t + 3000000000 ∧ (∀ e ∈ q.eff, e ≤ q.t ∧ q.t < e + 3000000000) ∧ Fair r q.t

/-- The value is the number of milliseconds since the latest effect as long as this is up to 1000
seconds, and at least 1000 seconds from then on; it never wraps around, however long no effect
occurs. -/
theorem C103_time_since (qs : List Ask) (t e : Nat) (hf : Fair qs t) (he : e ≤ t) (hte : t ≤ e + 1000000000)
    (i : Nat) (q : Ask) (v d : Nat) (hq : qs[i]? = some q) (hv : (asks qs (clock e))[i]? = some v)
    (hd : (latest qs e)[i]? = some d) :
    (q.t - d ≤ 1000000000 → v = (q.t - d) / 1000) ∧ (1000000000 < q.t - d → 1000000 ≤ v) := by
  have key : ∀ (qs : List Ask) (t e x i v d : Nat) (q : Ask), Fair qs t → e ≤ x → x ≤ t → t ≤ x + 1000000000 →
      (x = e ∨ (t = x + 1000000000)) → qs[i]? = some q → (asks qs (clock x))[i]? = some v →
      (latest qs e)[i]? = some d →
      (q.t - d ≤ 1000000000 → v = (q.t - d) / 1000) ∧ (1000000000 < q.t - d → 1000000 ≤ v) := by
    intro qs
    induction qs with
    | nil => intro t e x i v d q _ _ _ _ _ hq; simp at hq
    | cons a r ih =>
      intro t e x i v d q hf hex hxt htx hor hq hv hd
      obtain ⟨f1, f2, f3, f4⟩ := hf
      -- the start used by this call, as a real time
      obtain ⟨y, hy1, hy2, hy3, hy4, hy5⟩ : ∃ y, (a.eff.map clock).getD (clock x) = clock y ∧ y ≤ a.t ∧
          a.t < y + 4294967296 ∧ a.eff.getD e ≤ y ∧ (y = a.eff.getD e ∨ (y + 1000000000 ≤ a.t)) := by
        rcases hae : a.eff with _ | z
        · exact ⟨x, rfl, by omega, by omega, by simpa using hex, by simp; omega⟩
        · have := f3 z (by rw [hae]; rfl)
          exact ⟨z, rfl, by omega, by omega, by simp, by simp⟩
      have er : sub32 (clock a.t) (clock y) = a.t - y := sub_clock _ _ hy2 (by omega)
      rcases i with _ | i
      · simp only [List.getElem?_cons_zero, Option.some.injEq, asks, latest] at hq hv hd
        subst hq
        unfold timeSince at hv
        simp only [hy1, er] at hv
        subst hv; subst hd
        constructor
        · intro h
          rcases hy5 with h5 | h5
          · rw [h5]
          · have : y = a.eff.getD e := by omega
            rw [this]
        · intro h
          rcases hy5 with h5 | h5
          · rw [h5]; omega
          · omega
      · simp only [List.getElem?_cons_succ, asks, latest] at hq hv hd
        unfold timeSince at hv
        simp only [hy1, er] at hv
        by_cases hc : a.t - y > 1000000000
        · rw [if_pos hc, clock_sub _ _ (by omega) (by omega)] at hv
          exact ih a.t (a.eff.getD e) (a.t - 1000000000) i v d q f4 (by omega) (by omega) (by omega)
            (Or.inr (by omega)) hq hv hd
        · rw [if_neg hc] at hv
          exact ih a.t (a.eff.getD e) y i v d q f4 hy4 hy2 (by omega) (by omega) hq hv hd
  exact key qs t e e i v d q hf (Nat.le_refl _) he hte (Or.inl rfl) hq hv hd

/-- Two hours without an effect, then one: asked every 40 minutes. -/
example : asks [⟨2400000000, none⟩, ⟨4800000000, none⟩, ⟨7200000000, none⟩, ⟨7300000000, some 7299000000⟩] (clock 0) =
    [2400000, 3400000, 3400000, 1000] ∧
    Fair [⟨2400000000, none⟩, ⟨4800000000, none⟩, ⟨7200000000, none⟩, ⟨7300000000, some 7299000000⟩] 0 := by
  constructor
  · decide +kernel
  · have none' : ∀ (t : Nat), ∀ e ∈ (none : Option Nat), e ≤ t ∧ t < e + 3000000000 := by intro t e he; cases he
    have some' : ∀ e ∈ (some 7299000000 : Option Nat), e ≤ 7300000000 ∧ 7300000000 < e + 3000000000 := by
      intro e he; rw [Option.mem_some_iff] at he; omega
    exact ⟨by decide, by decide, none' _, by decide, by decide, none' _, by decide, by decide, none' _,
      by decide, by decide, some', trivial⟩

/-! ## OnSpark -/

/-- State of `OnSparkFSVF`. -/
structure OnSpark where
  on : Bool
  onMillis : Nat
deriving DecidableEq, Repr

/-- `OnSparkFSVF::calculate`, functions/on_spark.h:17-30. -/
def onSpark (m : Nat) (isOn : Bool) (fade : Nat) (s : OnSpark) : OnSpark × Int :=
  let s1 : OnSpark := if s.on ≠ isOn then ⟨isOn, if isOn then m else s.onMillis⟩ else s
  let t := sub32 m s1.onMillis
  (s1, if t < fade then (32768 - (u32 (32768 * t) / fade : Nat) : Int) else 0)

/-- The spark begins with full strength when the blade goes on, falls in proportion to time and is
gone after the given time. -/
theorem C103_on_spark (fade : Nat) (hf : 0 < fade) (hf' : fade ≤ 131072) (s : OnSpark) (hs : s.on = false)
    (t0 t : Nat) (h : t0 ≤ t) (hd : t - t0 < 4294967296) :
    let s1 := (onSpark (clock t0) true fade s).1
    (onSpark (clock t0) true fade s).2 = 32768 ∧
    (onSpark (clock t) true fade s1).1 = s1 ∧
    (onSpark (clock t) true fade s1).2 =
      if t - t0 < fade then 32768 - ((32768 * (t - t0) / fade : Nat) : Int) else 0 := by
  have e1 : (onSpark (clock t0) true fade s).1 = ⟨true, clock t0⟩ := by
    unfold onSpark; simp [hs]
  have e0 : sub32 (clock t0) (clock t0) = 0 := by
    rw [sub_clock t0 t0 (by omega) (by omega)]; omega
  have et : sub32 (clock t) (clock t0) = t - t0 := sub_clock t t0 h hd
  simp only [e1]
  refine ⟨?_, ?_, ?_⟩
  · unfold onSpark
    simp only [hs, ne_eq, Bool.false_eq_true, not_false_eq_true, if_true, e0]
    rw [if_pos hf, Nat.mul_zero, u32_id 0 (by decide), Nat.zero_div]
    rfl
  · unfold onSpark; simp
  · unfold onSpark
    simp only [ne_eq, not_true_eq_false, if_false, et]
    split
    · rw [u32_id _ (by omega)]
    · rfl

example : (onSpark (clock 5100) true 200 ⟨true, clock 5000⟩).2 = 16384 := by decide +kernel

/-- With a time of more than 131 seconds the product overflows: the spark returns to full strength. -/
theorem C103_on_spark_counterexample :
    (onSpark (clock 131071) true 200000 ⟨true, clock 0⟩).2 = 11294 ∧
    (onSpark (clock 131072) true 200000 ⟨true, clock 0⟩).2 = 32768 := by decide +kernel

/-! ## Noise -/

/-- `SlowNoise::run`, functions/brown_noise.h:40-51: the new value.  `draws` are the random numbers,
one for each millisecond. -/
def slowNoise (speed : Int) (draws : List Int) (value : Int) : Int :=
  draws.foldl (fun v r => clampi32 (v + (r - speed)) 0 32768) value

/-- How many random numbers are used, functions/brown_noise.h:42-49. -/
def noiseSteps (now last : Nat) : Nat := if sub32 now last > 100 then 1 else sub32 now last

theorem clamp_range (x : Int) : 0 ≤ clampi32 x 0 32768 ∧ clampi32 x 0 32768 ≤ 32768 := by
  unfold clampi32; split
  · omega
  · split <;> omega

theorem clamp_near (v r s : Int) (hv : 0 ≤ v ∧ v ≤ 32768) (h0 : 0 ≤ r) (h1 : r ≤ 2 * s) :
    clampi32 (v + (r - s)) 0 32768 - v ≤ s ∧ v - clampi32 (v + (r - s)) 0 32768 ≤ s := by
  unfold clampi32; split
  · omega
  · split <;> omega

/-- The slow noise stays in range and moves by at most `speed` for each millisecond (and by at most
100 times `speed` from one call to the next). -/
theorem C103_slow_noise (speed : Int) (draws : List Int)
    (hd : ∀ r ∈ draws, 0 ≤ r ∧ r < speed * 2 + 1) (value : Int) (hv : 0 ≤ value ∧ value ≤ 32768) :
    0 ≤ slowNoise speed draws value ∧ slowNoise speed draws value ≤ 32768 ∧
    slowNoise speed draws value - value ≤ speed * draws.length ∧
    value - slowNoise speed draws value ≤ speed * draws.length := by
  unfold slowNoise
  induction draws generalizing value with
  | nil => simp; omega
  | cons r rs ih =>
    simp only [List.foldl]
    have hr := hd r (by simp)
    have h1 := clamp_range (value + (r - speed))
    have h2 := clamp_near value r speed hv hr.1 (by omega)
    obtain ⟨a, b, c, d⟩ := ih (fun x hx => hd x (by simp [hx])) _ h1
    have e : speed * ((rs.length + 1 : Nat) : Int) = speed * rs.length + speed := by push_cast; ring
    simp only [List.length_cons]
    rw [e]
    generalize speed * (rs.length : Int) = L at *
    omega

theorem C103_noise_steps (t t' : Nat) (h : t ≤ t') (hd : t' - t < 4294967296) :
    noiseSteps (clock t') (clock t) = if t' - t > 100 then 1 else t' - t := by
  unfold noiseSteps; rw [sub_clock t' t h hd]

/-- `BrownNoiseF::getInteger`, functions/brown_noise.h:19-23, for one LED after the other. -/
def brownNoise (grade : Int) : List Int → Int → List Int
  | [], _ => []
  | r :: rs, mix =>
    clampi32 (mix + r - grade) 0 32768 :: brownNoise grade rs (clampi32 (mix + r - grade) 0 32768)

/-- Brown noise stays in range and neighbouring LEDs differ by at most `grade`. -/
theorem C103_brown_noise (grade : Int) (draws : List Int)
    (hd : ∀ r ∈ draws, 0 ≤ r ∧ r < grade * 2 + 1) (mix : Int) (hm : 0 ≤ mix ∧ mix ≤ 32768) (i : Nat) (a b : Int)
    (ha : (mix :: brownNoise grade draws mix)[i]? = some a)
    (hb : (mix :: brownNoise grade draws mix)[i+1]? = some b) :
    0 ≤ b ∧ b ≤ 32768 ∧ b - a ≤ grade ∧ a - b ≤ grade := by
  induction draws generalizing mix i with
  | nil => simp [brownNoise] at hb
  | cons r rs ih =>
    simp only [brownNoise] at ha hb
    have hr := hd r (by simp)
    have h1 := clamp_range (mix + (r - grade))
    have h2 := clamp_near mix r grade hm hr.1 (by omega)
    rw [show mix + r - grade = mix + (r - grade) by omega] at ha hb
    rcases i with _ | i
    · simp only [List.getElem?_cons_zero, Option.some.injEq] at ha
      simp only [List.getElem?_cons_succ, List.getElem?_cons_zero, Option.some.injEq] at hb
      subst ha; subst hb
      exact ⟨h1.1, h1.2, h2.1, h2.2⟩
    · rw [List.getElem?_cons_succ] at ha hb
      exact ih (fun x hx => hd x (by simp [hx])) _ h1 i ha hb

example : brownNoise 100 [0, 200, 50] 1000 = [900, 1000, 950] ∧ slowNoise 3 [0, 6, 6] 1 = 6 := by decide

end Verif.Func.Timing
