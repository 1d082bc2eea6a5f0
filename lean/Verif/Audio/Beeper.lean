import Mathlib.Tactic.Linarith
import Mathlib.Tactic.Ring

/-!
# The beeper (C104)

Model of `Beeper`, sound/beeper.h:7-71.  The queue of sixteen beeps is a list (the circular buffer
itself is the subject of C37).  Lengths and half periods are natural numbers; `Beep` computes them
with `float`s, which is not modelled.
-/
namespace Verif.Audio.Beeper

/-- `struct Beep`, sound/beeper.h:63-66: half period in samples (0: silence) and samples left. -/
structure Beep where
  f : Nat
  samples : Nat
deriving DecidableEq, Repr

/-- Members of `Beeper`, sound/beeper.h:67-69. -/
structure St where
  beeps : List Beep
  x : Nat
  value : Int
deriving DecidableEq, Repr

/-- `Beep()`, sound/beeper.h:45-52: ignored if there is no space in the queue. -/
def St.beep (s : St) (b : Beep) : St := if s.beeps.length < 16 then { s with beeps := s.beeps ++ [b] } else s

/-- The part of the loop which starts a new half period, sound/beeper.h:17-29. -/
def refresh (b : Beep) (x : Nat) (value : Int) : Nat × Int :=
  if x = 0 then
    if b.f = 0 then (b.samples, 0) else (b.f, if value ≤ 0 then 200 else -200)
  else (x, value)

/-- `read`, sound/beeper.h:12-43: the samples written, and the new state.  Their number is the value
returned. -/
def read (n : Nat) (s : St) : List Int × St :=
  match s.beeps with
  | [] => ([], s)
  | b :: r =>
    if h : min (min n b.samples) (refresh b s.x s.value).1 = 0 then
      ([], ⟨b :: r, (refresh b s.x s.value).1, (refresh b s.x s.value).2⟩)
    else
      let rest := read (n - min (min n b.samples) (refresh b s.x s.value).1)
        ⟨if b.samples - min (min n b.samples) (refresh b s.x s.value).1 = 0 then r
          else ⟨b.f, b.samples - min (min n b.samples) (refresh b s.x s.value).1⟩ :: r,
         (refresh b s.x s.value).1 - min (min n b.samples) (refresh b s.x s.value).1, (refresh b s.x s.value).2⟩
      (List.replicate (min (min n b.samples) (refresh b s.x s.value).1) (refresh b s.x s.value).2 ++ rest.1, rest.2)
termination_by n
decreasing_by
  have h1 := Nat.min_le_left (min n b.samples) (refresh b s.x s.value).1
  have h2 := Nat.min_le_left n b.samples
  omega

/-! ## One sample at a time -/

/-- The next sample of a beeper with something to play. -/
def tick (s : St) : Option (Int × St) :=
  match s.beeps with
  | [] => none
  | b :: r =>
    let xv := refresh b s.x s.value
    if b.samples = 0 ∨ xv.1 = 0 then none
    else some (xv.2, ⟨if b.samples - 1 = 0 then r else ⟨b.f, b.samples - 1⟩ :: r, xv.1 - 1, xv.2⟩)

/-- The first `n` samples. -/
def ticks : Nat → St → List Int × St
  | 0, s => ([], s)
  | n+1, s =>
    match tick s with
    | none => ([], s)
    | some (v, s') => (v :: (ticks n s').1, (ticks n s').2)

/-- Two states which will play the same. -/
def Same (s t : St) : Prop :=
  s.beeps = t.beeps ∧
  match s.beeps with
  | [] => s.x = t.x ∧ s.value = t.value
  | b :: _ => refresh b s.x s.value = refresh b t.x t.value

theorem refresh_nz (b : Beep) (x : Nat) (v : Int) (h : x ≠ 0) : refresh b x v = (x, v) := by
  unfold refresh; rw [if_neg h]

theorem refresh_idem (b : Beep) (x : Nat) (v : Int) (h : (refresh b x v).1 ≠ 0) :
    refresh b (refresh b x v).1 (refresh b x v).2 = refresh b x v := by
  rw [refresh_nz _ _ _ h]

/-- No beep in the queue is empty. -/
def Good (s : St) : Prop := ∀ b ∈ s.beeps, 0 < b.samples

theorem refresh_pos (b : Beep) (x : Nat) (v : Int) (h : 0 < b.samples) : 0 < (refresh b x v).1 := by
  unfold refresh; (repeat' split) <;> simp only <;> omega

theorem tick_same (s t : St) (h : Same s t) : tick s = tick t := by
  obtain ⟨h1, h2⟩ := h
  unfold tick
  rw [← h1]
  cases hb : s.beeps with
  | nil => rfl
  | cons b r =>
    rw [hb] at h2
    simp only at h2 ⊢
    rw [h2]

theorem ticks_same (n : Nat) (s t : St) (h : Same s t) :
    (ticks n s).1 = (ticks n t).1 ∧ Same (ticks n s).2 (ticks n t).2 := by
  cases n with
  | zero => exact ⟨rfl, h⟩
  | succ n =>
    unfold ticks
    rw [tick_same s t h]
    cases tick t with
    | none => exact ⟨rfl, h⟩
    | some p =>
      refine ⟨rfl, rfl, ?_⟩
      split <;> simp

theorem same_refl (s : St) : Same s s := by
  refine ⟨rfl, ?_⟩
  cases hb : s.beeps <;> simp

theorem same_trans (a b c : St) (h : Same a b) (h' : Same b c) : Same a c := by
  obtain ⟨h1, h2⟩ := h
  obtain ⟨g1, g2⟩ := h'
  refine ⟨h1.trans g1, ?_⟩
  cases hb : a.beeps with
  | nil =>
    rw [hb] at h2
    rw [← h1, hb] at g2
    exact ⟨h2.1.trans g2.1, h2.2.trans g2.2⟩
  | cons b r =>
    rw [hb] at h2
    rw [← h1, hb] at g2
    exact Eq.trans h2 g2

theorem same_symm (a b : St) (h : Same a b) : Same b a := by
  obtain ⟨h1, h2⟩ := h
  refine ⟨h1.symm, ?_⟩
  rw [← h1]
  cases hb : a.beeps with
  | nil => rw [hb] at h2; exact ⟨h2.1.symm, h2.2.symm⟩
  | cons b r => rw [hb] at h2; exact Eq.symm h2

/-- A run of equal samples. -/
theorem ticks_run (k n : Nat) (b : Beep) (r : List Beep) (x : Nat) (v : Int) (hk : 0 < k) (hks : k ≤ b.samples)
    (hkx : k ≤ (refresh b x v).1) :
    ticks (k + n) ⟨b :: r, x, v⟩ =
      (List.replicate k (refresh b x v).2 ++
        (ticks n ⟨if b.samples - k = 0 then r else ⟨b.f, b.samples - k⟩ :: r, (refresh b x v).1 - k, (refresh b x v).2⟩).1,
       (ticks n ⟨if b.samples - k = 0 then r else ⟨b.f, b.samples - k⟩ :: r, (refresh b x v).1 - k, (refresh b x v).2⟩).2) := by
  induction k generalizing b x v with
  | zero => omega
  | succ k ih =>
    rw [show k + 1 + n = (k + n) + 1 by omega]
    have ht : tick ⟨b :: r, x, v⟩ = some ((refresh b x v).2,
        ⟨if b.samples - 1 = 0 then r else ⟨b.f, b.samples - 1⟩ :: r, (refresh b x v).1 - 1, (refresh b x v).2⟩) := by
      unfold tick
      simp only
      rw [if_neg (by omega)]
    rw [show ticks (k + n + 1) ⟨b :: r, x, v⟩ = match tick ⟨b :: r, x, v⟩ with
        | none => ([], ⟨b :: r, x, v⟩)
        | some (w, s') => (w :: (ticks (k + n) s').1, (ticks (k + n) s').2) from rfl, ht]
    simp only
    rcases Nat.eq_zero_or_pos k with h0 | h0
    · subst h0
      simp
    · rw [if_neg (by omega)]
      have hx : (refresh b x v).1 - 1 ≠ 0 := by omega
      have e : refresh ⟨b.f, b.samples - 1⟩ ((refresh b x v).1 - 1) (refresh b x v).2 =
          ((refresh b x v).1 - 1, (refresh b x v).2) := by
        rw [refresh_nz _ _ _ hx]
      have := ih ⟨b.f, b.samples - 1⟩ ((refresh b x v).1 - 1) (refresh b x v).2 h0 (by simp only; omega)
        (by rw [e]; simp only; omega)
      rw [this, e]
      simp only [List.replicate_succ, List.cons_append]
      rw [show b.samples - 1 - k = b.samples - (k + 1) by omega,
        show (refresh b x v).1 - 1 - k = (refresh b x v).1 - (k + 1) by omega]

theorem ticks_nil (n x : Nat) (v : Int) : ticks n ⟨[], x, v⟩ = ([], ⟨[], x, v⟩) := by
  cases n <;> rfl

theorem good_step (b : Beep) (r : List Beep) (k x : Nat) (v : Int) (h : ∀ c ∈ b :: r, 0 < c.samples) :
    Good ⟨if b.samples - k = 0 then r else ⟨b.f, b.samples - k⟩ :: r, x, v⟩ := by
  intro c hc
  simp only at hc
  split at hc
  · exact h c (by simp [hc])
  · rcases List.mem_cons.mp hc with hc | hc
    · subst hc; simp only; omega
    · exact h c (by simp [hc])

/-- `read` plays what the sample by sample beeper plays. -/
theorem read_ticks (n : Nat) (s : St) (hg : Good s) :
    (read n s).1 = (ticks n s).1 ∧ Same (read n s).2 (ticks n s).2 ∧ Good (read n s).2 := by
  induction n using Nat.strongRecOn generalizing s with
  | _ n ih =>
    obtain ⟨bs, x, v⟩ := s
    cases bs with
    | nil =>
      rw [ticks_nil]
      unfold read
      exact ⟨rfl, same_refl _, hg⟩
    | cons b r =>
      have hb : 0 < b.samples := hg b (by simp)
      have hx := refresh_pos b x v hb
      unfold read
      simp only
      by_cases hn : n = 0
      · subst hn
        rw [dif_pos (by omega)]
        refine ⟨rfl, ⟨rfl, ?_⟩, hg⟩
        exact refresh_idem b x v (by omega)
      · rw [dif_neg (by omega)]
        obtain ⟨k, hk⟩ : ∃ k, k = min (min n b.samples) (refresh b x v).1 := ⟨_, rfl⟩
        rw [← hk]
        have hr := ticks_run k (n - k) b r x v (by omega) (by omega) (by omega)
        rw [show k + (n - k) = n by omega] at hr
        rw [hr]
        have h := ih (n - k) (by omega) ⟨if b.samples - k = 0 then r else ⟨b.f, b.samples - k⟩ :: r,
          (refresh b x v).1 - k, (refresh b x v).2⟩ (good_step b r k _ _ hg)
        exact ⟨by simp only; rw [h.1], h.2.1, h.2.2⟩

theorem ticks_succ (n : Nat) (s : St) : ticks (n + 1) s = match tick s with
    | none => ([], s)
    | some (v, s') => (v :: (ticks n s').1, (ticks n s').2) := rfl

theorem ticks_add (a b : Nat) (s : St) (hfull : (ticks a s).1.length = a) :
    (ticks (a + b) s).1 = (ticks a s).1 ++ (ticks b (ticks a s).2).1 ∧
    (ticks (a + b) s).2 = (ticks b (ticks a s).2).2 := by
  induction a generalizing s with
  | zero => simp [ticks]
  | succ a ih =>
    rw [show a + 1 + b = (a + b) + 1 by omega]
    rw [ticks_succ a] at hfull
    rw [ticks_succ (a + b), ticks_succ a]
    cases ht : tick s with
    | none => rw [ht] at hfull; simp at hfull
    | some p =>
      obtain ⟨v, s'⟩ := p
      rw [ht] at hfull
      simp only [List.length_cons, Nat.add_right_cancel_iff] at hfull
      have := ih s' hfull
      simp only [List.cons_append]
      exact ⟨by rw [this.1], by rw [this.2]⟩

/-! ## Length -/

/-- Samples still to be played. -/
def total : List Beep → Nat
  | [] => 0
  | b :: r => b.samples + total r

theorem tick_some (s : St) (hg : Good s) (b : Beep) (r : List Beep) (hb : s.beeps = b :: r) :
    ∃ s', tick s = some ((refresh b s.x s.value).2, s') ∧ Good s' ∧ total s'.beeps + 1 = total s.beeps := by
  have h1 : 0 < b.samples := hg b (by rw [hb]; simp)
  have h2 := refresh_pos b s.x s.value h1
  unfold tick
  rw [hb]
  simp only
  rw [if_neg (by omega)]
  refine ⟨_, rfl, good_step b r 1 _ _ (by rw [← hb]; exact hg), ?_⟩
  simp only
  split
  · simp only [total]; omega
  · simp only [total]; omega

theorem ticks_length (n : Nat) (s : St) (hg : Good s) :
    (ticks n s).1.length = min n (total s.beeps) ∧ Good (ticks n s).2 ∧
    total (ticks n s).2.beeps = total s.beeps - n := by
  induction n generalizing s with
  | zero => exact ⟨by simp [ticks], hg, by simp [ticks]⟩
  | succ n ih =>
    cases hb : s.beeps with
    | nil =>
      have : tick s = none := by unfold tick; rw [hb]
      unfold ticks
      rw [this]
      simp [total, hg, hb]
    | cons b r =>
      obtain ⟨s', h1, h2, h3⟩ := tick_some s hg b r hb
      unfold ticks
      rw [h1]
      obtain ⟨g1, g2, g3⟩ := ih s' h2
      rw [hb] at h3
      simp only [List.length_cons]
      exact ⟨by omega, g2, by omega⟩

theorem good_beep (s : St) (b : Beep) (hg : Good s) (hb : 0 < b.samples) : Good (s.beep b) := by
  unfold St.beep
  split
  · intro c hc
    simp only [List.mem_append, List.mem_singleton] at hc
    rcases hc with hc | hc
    · exact hg c hc
    · subst hc; exact hb
  · exact hg

/-! ## The claims -/

/-- As long as there is something to play every request is filled completely; the number of samples
played for the beeps is exactly the sum of their lengths, however they are read; and the beeper is
at the end of its stream when, and only when, all of them have been played. -/
theorem C104_length (s : St) (hg : Good s) (n : Nat) :
    (read n s).1.length = min n (total s.beeps) ∧
    total (read n s).2.beeps = total s.beeps - n ∧
    ((read n s).2.beeps = [] ↔ total s.beeps ≤ n) := by
  obtain ⟨h1, h2, h3⟩ := read_ticks n s hg
  obtain ⟨g1, g2, g3⟩ := ticks_length n s hg
  have e : total (read n s).2.beeps = total s.beeps - n := by rw [h2.1, g3]
  refine ⟨by rw [h1, g1], e, ?_⟩
  constructor
  · intro h
    rw [h] at e
    simp only [total] at e
    omega
  · intro h
    cases hb : (read n s).2.beeps with
    | nil => rfl
    | cons b r =>
      have : 0 < b.samples := h3 b (by rw [hb]; simp)
      rw [hb] at e
      simp only [total] at e
      omega

/-- The sound does not depend on the sizes of the pieces in which it is read: reading `a` and then
`b` samples gives the same samples as reading `a + b` at once, and what follows is the same as well. -/
theorem C104_chunks (s : St) (hg : Good s) (a b c : Nat) :
    (read (a + b) s).1 = (read a s).1 ++ (read b (read a s).2).1 ∧
    (read c (read (a + b) s).2).1 = (read c (read b (read a s).2).2).1 := by
  obtain ⟨h1, h2, h3⟩ := read_ticks (a + b) s hg
  obtain ⟨g1, g2, g3⟩ := read_ticks a s hg
  obtain ⟨k1, k2, k3⟩ := read_ticks b (read a s).2 g3
  obtain ⟨l1, _, _⟩ := read_ticks c (read (a + b) s).2 h3
  obtain ⟨m1, _, _⟩ := read_ticks c (read b (read a s).2).2 k3
  have hs := ticks_same b _ _ g2
  have hl := ticks_length a s hg
  -- the sample by sample beeper may be split anywhere
  have split : (ticks (a + b) s).1 = (ticks a s).1 ++ (ticks b (ticks a s).2).1 ∧
      (ticks (a + b) s).2 = (ticks b (ticks a s).2).2 := by
    by_cases hf : (ticks a s).1.length = a
    · exact ticks_add a b s hf
    · -- everything has been played
      have ht : total s.beeps < a := by omega
      obtain ⟨T, hT⟩ : ∃ T, T = total s.beeps := ⟨_, rfl⟩
      have hlT := ticks_length T s hg
      have hempty : (ticks T s).2.beeps = [] := by
        cases hb : (ticks T s).2.beeps with
        | nil => rfl
        | cons b r =>
          have h0 : 0 < b.samples := hlT.2.1 b (by rw [hb]; simp)
          have := hlT.2.2
          rw [hb] at this
          simp only [total] at this
          omega
      have nothing : ∀ m, ticks m (ticks T s).2 = ([], (ticks T s).2) := by
        intro m
        rcases hst : (ticks T s).2 with ⟨bs, x, v⟩
        rw [hst] at hempty
        simp only at hempty
        subst hempty
        exact ticks_nil m x v
      have hTl : (ticks T s).1.length = T := by rw [hlT.1]; omega
      have e1 := ticks_add T (a - T) s hTl
      have e2 := ticks_add T (a + b - T) s hTl
      rw [show T + (a - T) = a by omega] at e1
      rw [show T + (a + b - T) = a + b by omega] at e2
      rw [nothing] at e1 e2
      rw [e2.1, e2.2, e1.1, e1.2, nothing]
      simp
  refine ⟨?_, ?_⟩
  · rw [h1, g1, k1, hs.1, split.1]
  · rw [l1, m1]
    have s1 : Same (read (a + b) s).2 (read b (read a s).2).2 := by
      apply same_trans _ _ _ h2
      rw [split.2]
      exact same_symm _ _ (same_trans _ _ _ k2 hs.2)
    exact (ticks_same c _ _ s1).1

/-- The sign of a wave which follows a half period of value `v`. -/
def next (v : Int) : Int := if v ≤ 0 then 200 else -200

/-- The `j`-th half period after one of value `v`. -/
def half (v : Int) (j : Nat) : Int := if j % 2 = 0 then next v else next (next v)

theorem half_succ (v : Int) (j : Nat) : half (next v) j = half v (j + 1) := by
  unfold half
  rcases Nat.mod_two_eq_zero_or_one j with h | h
  · rw [if_pos h, if_neg (show ¬ (j + 1) % 2 = 0 by omega)]
  · rw [if_neg (show ¬ j % 2 = 0 by omega), if_pos (show (j + 1) % 2 = 0 by omega)]
    unfold next
    by_cases hv : v ≤ 0
    · simp [hv]
    · simp [hv]

/-- What a tone of half period `f` sounds like, if `x` samples of a half period of value `v` are left
from before: these first, then half periods of alternating sign. -/
def tone (f x : Nat) (v : Int) (i : Nat) : Int := if i < x then v else half v ((i - x) / f)

/-- A tone is a square wave of the right frequency: sample by sample. -/
theorem C104_tone (b : Beep) (r : List Beep) (x : Nat) (v : Int) (hf : 0 < b.f) (hg : Good ⟨b :: r, x, v⟩)
    (n i : Nat) (hi : i < n) (his : i < b.samples) :
    (read n ⟨b :: r, x, v⟩).1[i]? = some (tone b.f x v i) := by
  rw [(read_ticks n _ hg).1]
  clear hg
  induction i generalizing n b x v with
  | zero =>
    obtain ⟨n, rfl⟩ : ∃ m, n = m + 1 := ⟨n - 1, by omega⟩
    unfold ticks tick refresh tone half
    simp only
    by_cases hx : x = 0
    · subst hx
      simp only [if_true, if_neg (show ¬ b.f = 0 by omega)]
      rw [if_neg (by omega)]
      simp [next]
    · simp only [if_neg hx]
      rw [if_neg (by omega)]
      simp [show 0 < x by omega]
  | succ i ih =>
    obtain ⟨n, rfl⟩ : ∃ m, n = m + 1 := ⟨n - 1, by omega⟩
    have hr1 : (refresh b x v).1 ≠ 0 := by unfold refresh; (repeat' split) <;> simp only <;> omega
    have ht : tick ⟨b :: r, x, v⟩ = some ((refresh b x v).2,
        ⟨⟨b.f, b.samples - 1⟩ :: r, (refresh b x v).1 - 1, (refresh b x v).2⟩) := by
      unfold tick
      simp only
      rw [if_neg (by omega), if_neg (by omega)]
    unfold ticks
    rw [ht]
    simp only [List.getElem?_cons_succ]
    rw [ih ⟨b.f, b.samples - 1⟩ _ _ hf n (by omega) (by simp only; omega)]
    congr 1
    unfold refresh tone
    by_cases hx : x = 0
    · subst hx
      simp only [if_true, if_neg (show ¬ b.f = 0 by omega), Nat.not_lt_zero, if_false, Nat.sub_zero]
      by_cases hc : i < b.f - 1
      · rw [if_pos hc, show (i + 1) / b.f = 0 from Nat.div_eq_of_lt (by omega)]
        rfl
      · rw [if_neg hc]
        have e : (i + 1) / b.f = (i - (b.f - 1)) / b.f + 1 := by
          rw [show i + 1 = (i - (b.f - 1)) + b.f by omega, Nat.add_div_right _ hf]
        rw [e, ← half_succ]
        rfl
    · simp only [if_neg hx]
      by_cases hc : i + 1 < x
      · rw [if_pos (by omega), if_pos hc]
      · rw [if_neg (by omega), if_neg hc, show i - (x - 1) = i + 1 - x by omega]

/-- A silence is silent, but for what is left of the half period before. -/
theorem C104_silence_partial (b : Beep) (r : List Beep) (x : Nat) (v : Int) (hf : b.f = 0)
    (hg : Good ⟨b :: r, x, v⟩) (n i : Nat) (hi : i < n) (his : i < b.samples) :
    (read n ⟨b :: r, x, v⟩).1[i]? = some (if i < x then v else 0) := by
  rw [(read_ticks n _ hg).1]
  clear hg
  induction i generalizing n b x v with
  | zero =>
    obtain ⟨n, rfl⟩ : ∃ m, n = m + 1 := ⟨n - 1, by omega⟩
    unfold ticks tick refresh
    simp only
    by_cases hx : x = 0
    · subst hx
      simp only [if_true, if_pos hf]
      rw [if_neg (by omega)]
      simp
    · simp only [if_neg hx]
      rw [if_neg (by omega)]
      simp [show 0 < x by omega]
  | succ i ih =>
    obtain ⟨n, rfl⟩ : ∃ m, n = m + 1 := ⟨n - 1, by omega⟩
    have hr1 : (refresh b x v).1 ≠ 0 := by unfold refresh; (repeat' split) <;> simp only <;> omega
    have ht : tick ⟨b :: r, x, v⟩ = some ((refresh b x v).2,
        ⟨⟨b.f, b.samples - 1⟩ :: r, (refresh b x v).1 - 1, (refresh b x v).2⟩) := by
      unfold tick
      simp only
      rw [if_neg (by omega), if_neg (by omega)]
    unfold ticks
    rw [ht]
    simp only [List.getElem?_cons_succ]
    rw [ih ⟨b.f, b.samples - 1⟩ _ _ hf n (by omega) (by simp only; omega)]
    congr 1
    unfold refresh
    by_cases hx : x = 0
    · subst hx
      simp only [if_true, if_pos hf, Nat.not_lt_zero, if_false]
      split <;> rfl
    · simp only [if_neg hx]
      by_cases hc : i + 1 < x
      · rw [if_pos (by omega), if_pos hc]
      · rw [if_neg (by omega), if_neg hc]

/-- The beeps are played one after the other: what follows the samples of the first beep is what the
beeper plays which has only the others. -/
theorem C104_order (b : Beep) (r : List Beep) (x : Nat) (v : Int) (hg : Good ⟨b :: r, x, v⟩) (n : Nat) :
    ∃ x' v', (read b.samples ⟨b :: r, x, v⟩).2 = ⟨r, x', v'⟩ ∧
      (read (b.samples + n) ⟨b :: r, x, v⟩).1 =
        (read b.samples ⟨b :: r, x, v⟩).1 ++ (read n ⟨r, x', v'⟩).1 := by
  have hc := (C104_chunks ⟨b :: r, x, v⟩ hg b.samples n 0).1
  obtain ⟨_, h2, _⟩ := read_ticks b.samples _ hg
  have key : ∀ (m : Nat) (c : Beep) (x : Nat) (v : Int), c.samples = m → 0 < m →
      (ticks m ⟨c :: r, x, v⟩).2.beeps = r := by
    intro m
    induction m with
    | zero => intro c x v _ h; omega
    | succ m ih =>
      intro c x v hm _
      have hr1 := refresh_pos c x v (by omega)
      unfold ticks
      have ht : tick ⟨c :: r, x, v⟩ = some ((refresh c x v).2,
          ⟨if c.samples - 1 = 0 then r else ⟨c.f, c.samples - 1⟩ :: r, (refresh c x v).1 - 1, (refresh c x v).2⟩) := by
        unfold tick
        simp only
        rw [if_neg (by omega)]
      rw [ht]
      simp only
      rcases Nat.eq_zero_or_pos m with h0 | h0
      · subst h0
        rw [if_pos (by omega)]
        rfl
      · rw [if_neg (by omega)]
        exact ih ⟨c.f, c.samples - 1⟩ _ _ (by simp only; omega) h0
  have hk := key b.samples b x v rfl (hg b (by simp))
  rcases hst : (read b.samples ⟨b :: r, x, v⟩).2 with ⟨bs, x', v'⟩
  have hbs : bs = r := by
    have := h2.1
    rw [hst, hk] at this
    exact this
  subst hbs
  exact ⟨x', v', rfl, by rw [hc, hst]⟩

/-- A beep is queued behind the others, and dropped if there are sixteen already; it never changes
what is played before it. -/
theorem C104_queue (s : St) (hg : Good s) (b : Beep) (hb : 0 < b.samples) (n : Nat) (hn : n ≤ total s.beeps) :
    Good (s.beep b) ∧ (read n (s.beep b)).1 = (read n s).1 ∧
    total (s.beep b).beeps = total s.beeps + (if s.beeps.length < 16 then b.samples else 0) := by
  have hgb := good_beep s b hg hb
  refine ⟨hgb, ?_, ?_⟩
  · rw [(read_ticks n _ hgb).1, (read_ticks n _ hg).1]
    unfold St.beep
    split
    · clear hgb
      rename_i hlen
      clear hlen
      induction n generalizing s with
      | zero => rfl
      | succ n ih =>
        cases hbs : s.beeps with
        | nil => rw [hbs] at hn; simp [total] at hn
        | cons c r =>
          obtain ⟨cs, x, v⟩ := s
          simp only at hbs
          subst hbs
          have h1 : 0 < c.samples := hg c (by simp)
          have h2 := refresh_pos c x v h1
          have t1 : tick ⟨c :: r, x, v⟩ = some ((refresh c x v).2,
              ⟨if c.samples - 1 = 0 then r else ⟨c.f, c.samples - 1⟩ :: r, (refresh c x v).1 - 1, (refresh c x v).2⟩) := by
            unfold tick; simp only; rw [if_neg (by omega)]
          have t2 : tick ⟨c :: r ++ [b], x, v⟩ = some ((refresh c x v).2,
              ⟨(if c.samples - 1 = 0 then r else ⟨c.f, c.samples - 1⟩ :: r) ++ [b], (refresh c x v).1 - 1, (refresh c x v).2⟩) := by
            unfold tick
            simp only [List.cons_append]
            rw [if_neg (by omega)]
            split <;> simp
          have t1' := tick_some ⟨c :: r, x, v⟩ hg c r rfl
          obtain ⟨s', e1, e2, e3⟩ := t1'
          rw [t1] at e1
          have e4 := (Prod.mk.inj (Option.some.inj e1)).2
          unfold ticks
          simp only [t1]
          rw [t2]
          simp only [List.cons.injEq, true_and]
          rw [e4]
          have := ih s' e2 (by simp only at e3 hn; omega)
          rw [← e4] at this ⊢
          exact this
    · rfl
  · unfold St.beep
    have happ : ∀ l : List Beep, total (l ++ [b]) = total l + b.samples := by
      intro l
      induction l with
      | nil => simp [total]
      | cons c l ih => simp only [List.cons_append, total, ih]; omega
    split
    · exact happ _
    · rfl

/-- Two tones of half periods 2 and 3. -/
example : (read 7 ⟨[⟨2, 4⟩, ⟨3, 3⟩], 0, 0⟩).1 = [200, 200, -200, -200, 200, 200, 200] ∧
    Good ⟨[⟨2, 4⟩, ⟨3, 3⟩], 0, 0⟩ := by
  constructor
  · decide +kernel
  · simp [Good]

/-- A silence after a tone whose length is not a whole number of half periods begins with a part of
the tone. -/
theorem C104_silence_counterexample :
    (read 8 ⟨[⟨4, 5⟩, ⟨0, 3⟩], 0, 0⟩).1 = [200, 200, 200, 200, -200, -200, -200, -200] := by decide +kernel

/-- A beep of no length is never removed: the beeper plays nothing any more, and what is queued
behind it is never played. -/
theorem C104_empty_counterexample (f : Nat) (r : List Beep) (v : Int) (ns : List Nat) :
    ∃ x' v', (ns.foldl (fun p n => (p.1 ++ (read n p.2).1, (read n p.2).2)) (([] : List Int), (⟨⟨f, 0⟩ :: r, 0, v⟩ : St))) =
      ([], ⟨⟨f, 0⟩ :: r, x', v'⟩) := by
  have key : ∀ (ns : List Nat) (x : Nat) (v : Int),
      ∃ x' v', (ns.foldl (fun p n => (p.1 ++ (read n p.2).1, (read n p.2).2)) (([] : List Int), (⟨⟨f, 0⟩ :: r, x, v⟩ : St))) =
        ([], ⟨⟨f, 0⟩ :: r, x', v'⟩) := by
    intro ns
    induction ns with
    | nil => intro x v; exact ⟨x, v, rfl⟩
    | cons n ns ih =>
      intro x v
      have e : read n ⟨⟨f, 0⟩ :: r, x, v⟩ =
          ([], ⟨⟨f, 0⟩ :: r, (refresh ⟨f, 0⟩ x v).1, (refresh ⟨f, 0⟩ x v).2⟩) := by
        unfold read
        simp
      simp only [List.foldl, e, List.append_nil]
      exact ih _ _
  exact key ns 0 v

end Verif.Audio.Beeper
