import Verif.Func.Range
/-!
# Trigger envelopes

functions/trigger.h.  The arithmetic in `double` is exact enough to be modelled by integers: `t * 32768.0` is below 2^47, and a
quotient of it by a number below 2^32 which is not an integer is at least 2^-32 away from one, more than its rounding error.
-/
set_option linter.unusedSimpArgs false
set_option linter.unusedVariables false
namespace Verif.Func

/-- the four times in milliseconds -/
structure Times where
  delay : Nat
  attack : Nat
  sustain : Nat
  release : Nat

structure Trig where
  value : Int
  state : Nat
  start : Nat
  deriving DecidableEq, Repr

/-- `TriggerSVF::get_millis_for_state`, functions/trigger.h:88-98 -/
def Times.of (d : Times) : Nat → Nat
  | 0 => d.delay
  | 1 => d.attack
  | 2 => d.sustain
  | 3 => d.release
  | _ => 1000000

/-- `TriggerBase::run`, functions/trigger.h:34-58: the loop.  States above 4 have no case: `switch` does nothing and the next state
follows.  The first argument bounds the number of rounds. -/
def Trig.loop (d : Times) : Nat → Trig → Nat → Option Trig
  | 0, _, _ => none
  | k + 1, s, t =>
    let m := d.of s.state * 1000 % 4294967296
    if t < m ∧ s.state ≤ 4 then
      match s.state with
      | 0 => some { s with value := 0 }
      | 1 => some { s with value := t * 32768 / m }
      | 2 => some { s with value := 32768 }
      | 3 => some { s with value := 32768 - (t * 32768 + (m - 1)) / m }
      | _ => some { s with value := 0 }
    else Trig.loop d k { s with state := (s.state + 1) % 256, start := (s.start + m) % 4294967296 } ((t + 4294967296 - m) % 4294967296)

/-- one frame: the time in microseconds and whether the effect is detected -/
structure TIn where
  time : Nat
  detect : Bool

/-- `TriggerSVF::run`, functions/trigger.h:76-87, and functions/trigger.h:27-33 -/
def Trig.run (d : Times) (s : Trig) (i : TIn) : Option Trig :=
  let now := i.time % 4294967296
  let s := if i.detect then { s with start := now, state := 0 } else s
  if s.state = 4 then some { s with value := 0 }
  else Trig.loop d 1000 s ((now + 4294967296 - s.start) % 4294967296)

def Trig.runs (d : Times) : Trig → List TIn → Option Trig
  | s, [] => some s
  | s, i :: is => do Trig.runs d (← s.run d i) is

/-- The envelope, `x` microseconds after the effect: nothing during the delay, rising to 32768 during the attack, 32768 during the
sustain, falling to 0 during the release. -/
def envelope (d : Times) (x : Nat) : Int :=
  if x < 1000 * d.delay then 0
  else if x < 1000 * (d.delay + d.attack) then ((x - 1000 * d.delay) * 32768 / (1000 * d.attack) : Nat)
  else if x < 1000 * (d.delay + d.attack + d.sustain) then 32768
  else if x < 1000 * (d.delay + d.attack + d.sustain + d.release) then
    ((1000 * (d.delay + d.attack + d.sustain + d.release) - x) * 32768 / (1000 * d.release) : Nat)
  else 0

/-- when the effect was last detected, if ever -/
def lastDetect (is : List TIn) (l : Option Nat) : Option Nat := is.foldl (fun l i => if i.detect then some i.time else l) l

/-- frames in order; the gaps are at most 1000 seconds -/
inductive TFrames : Nat → List TIn → Prop where
  | nil {t : Nat} : TFrames t []
  | cons {t : Nat} {i : TIn} {is : List TIn} : t ≤ i.time → i.time - t ≤ 1000000000 → TFrames i.time is → TFrames t (i :: is)

/-- every one of the four times is below 54 minutes -/
def Times.Ok (d : Times) : Prop := d.delay < 3294967 ∧ d.attack < 3294967 ∧ d.sustain < 3294967 ∧ d.release < 3294967

/-- microseconds from the effect to the start of a state -/
def Times.upto (d : Times) : Nat → Nat
  | 0 => 0
  | 1 => 1000 * d.delay
  | 2 => 1000 * (d.delay + d.attack)
  | 3 => 1000 * (d.delay + d.attack + d.sustain)
  | _ => 1000 * (d.delay + d.attack + d.sustain + d.release)

theorem ceil_floor {N t r : Nat} (h : t < r) : (N : Int) - ((t * N + (r - 1)) / r : Nat) = ((r - t) * N / r : Nat) := by
  -- the ceiling of `t * N / r` and the floor of the rest add up
  obtain ⟨k, hk⟩ : ∃ k, k = (r - t) * N / r := ⟨_, rfl⟩
  have hr : (r - t) * N = r * N - t * N := Nat.sub_mul _ _ _
  have h0 : t * N ≤ r * N := Nat.mul_le_mul_right _ (by omega)
  have h1 : k * r ≤ (r - t) * N := by rw [hk]; exact Nat.div_mul_le_self _ _
  have h2 : (r - t) * N < (k + 1) * r := by
    rw [hk]; exact Nat.lt_mul_of_div_lt (Nat.lt_succ_self _) (by omega)
  rw [hr] at h1 h2
  have h3 : k ≤ N := by
    by_contra c
    have : (N + 1) * r ≤ k * r := Nat.mul_le_mul_right r (by omega)
    rw [Nat.add_mul, Nat.one_mul, Nat.mul_comm N r] at this
    omega
  have e : (t * N + (r - 1)) / r = N - k := by
    refine Nat.div_eq_of_lt_le ?_ ?_
    · have e1 : (N - k) * r = N * r - k * r := Nat.sub_mul _ _ _
      rw [e1, Nat.mul_comm N r]
      rw [Nat.add_mul, Nat.one_mul] at h2
      omega
    · have e1 : N - k + 1 = N + 1 - k := by omega
      have e2 : (N + 1 - k) * r = (N + 1) * r - k * r := Nat.sub_mul _ _ _
      have e3 : (N + 1) * r = r * N + r := by rw [Nat.add_mul, Nat.one_mul, Nat.mul_comm]
      rw [e1, e2, e3]
      have := Nat.mul_le_mul_right r h3
      rw [Nat.mul_comm N r] at this
      omega
  rw [e, ← hk]
  omega

theorem release_eq {t r : Nat} (h : t < r) : (32768 : Int) - ((t * 32768 + (r - 1)) / r : Nat) = ((r - t) * 32768 / r : Nat) :=
  ceil_floor h

/-- what is known after a frame at time `t`: off and never triggered since, or in the state which belongs to the time since the effect -/
def TInv (d : Times) (s : Trig) (t : Nat) : Option Nat → Prop
  | none => s.state = 4
  | some t0 => t0 ≤ t ∧ s.state ≤ 4 ∧ d.upto s.state ≤ t - t0 ∧ s.start = (t0 + d.upto s.state) % 4294967296 ∧ (s.state < 4 → t - t0 < d.upto (s.state + 1))

theorem upto_succ (d : Times) {k : Nat} (h : k < 4) : d.upto (k + 1) = d.upto k + d.of k * 1000 := by
  match k with
  | 0 => simp [Times.upto, Times.of]; omega
  | 1 => simp [Times.upto, Times.of]; omega
  | 2 => simp [Times.upto, Times.of]; omega
  | 3 => simp [Times.upto, Times.of]; omega
  | k + 4 => omega

theorem of_lt {d : Times} (hd : d.Ok) (k : Nat) : d.of k * 1000 < 3294967000 := by
  obtain ⟨h1, h2, h3, h4⟩ := hd
  unfold Times.of
  split <;> omega

/-- the loop finds the state which belongs to the time since the effect -/
theorem loop_ok {d : Times} (hd : d.Ok) : ∀ (fuel : Nat) (s : Trig) (t0 T t : Nat), s.state ≤ 4 → 5 - s.state ≤ fuel → t0 ≤ T →
    t = T - t0 - d.upto s.state → d.upto s.state ≤ T - t0 → t < 4294967296 → T - t0 < d.upto 4 + 1000000000 →
    s.start = (t0 + d.upto s.state) % 4294967296 →
    ∃ s', Trig.loop d fuel s t = some s' ∧ s'.value = envelope d (T - t0) ∧ TInv d s' T (some t0) := by
  intro fuel
  induction fuel with
  | zero => intro s t0 T t h1 h2; omega
  | succ fuel ih =>
    intro s t0 T t h1 h2 h0 ht h3 h4 h5 h6
    unfold Trig.loop
    have hm : d.of s.state * 1000 % 4294967296 = d.of s.state * 1000 := Nat.mod_eq_of_lt (by have := of_lt hd s.state; omega)
    simp only [hm]
    by_cases c : t < d.of s.state * 1000
    · rw [if_pos ⟨c, h1⟩]
      obtain ⟨x, hx⟩ : ∃ x, x = T - t0 := ⟨_, rfl⟩
      rw [← hx] at ht h3 h5 ⊢
      have h7 : s.state < 4 → x < d.upto (s.state + 1) := fun h => by rw [upto_succ d h]; omega
      have inv : ∀ v, TInv d { s with value := v } T (some t0) := fun v => ⟨h0, h1, by rw [← hx]; exact h3, h6, by rw [← hx]; exact h7⟩
      obtain ⟨v, st, sta⟩ := s
      simp only at ht h3 h5 h6 h7 inv c h1 h2 ⊢
      clear h2 hm ih
      obtain rfl | rfl | rfl | rfl | rfl : st = 0 ∨ st = 1 ∨ st = 2 ∨ st = 3 ∨ st = 4 := by clear h6 inv; omega
      · refine ⟨_, rfl, ?_, inv _⟩
        have := h7 (by decide)
        simp only [Times.upto] at this
        unfold envelope; rw [if_pos (by omega)]
      · refine ⟨_, rfl, ?_, inv _⟩
        have := h7 (by decide)
        simp only [Times.upto] at this h3 ht
        unfold envelope
        rw [if_neg (by omega), if_pos (by omega), ht]
        simp only [Times.of]
        rw [Nat.mul_comm d.attack]
        push_cast
        rfl
      · refine ⟨_, rfl, ?_, inv _⟩
        have := h7 (by decide)
        simp only [Times.upto] at this h3
        unfold envelope; rw [if_neg (by omega), if_neg (by omega), if_pos (by omega)]
      · refine ⟨_, rfl, ?_, inv _⟩
        have := h7 (by decide)
        simp only [Times.upto] at this h3 ht
        unfold envelope
        rw [if_neg (by omega), if_neg (by omega), if_neg (by omega), if_pos (by omega)]
        simp only [Times.of] at c ⊢
        have e := release_eq (t := t) (r := d.release * 1000) c
        have e2 : d.release * 1000 - t = 1000 * (d.delay + d.attack + d.sustain + d.release) - x := by omega
        rw [e2, Nat.mul_comm d.release] at e
        rw [Nat.mul_comm d.release, ← e]
        have e3 : ((1000 * d.release - 1 : Nat) : Int) = 1000 * d.release - 1 := by omega
        push_cast
        rw [e3]
      · refine ⟨_, rfl, ?_, inv _⟩
        simp only [Times.upto] at h3
        unfold envelope; rw [if_neg (by omega), if_neg (by omega), if_neg (by omega), if_neg (by omega)]
    · rw [if_neg (fun h => c h.1)]
      have hs : s.state < 4 := by
        by_contra h
        have e : s.state = 4 := by omega
        rw [e] at c ht
        simp only [Times.of] at c
        omega
      have hu := upto_succ d hs
      have e1 : (s.state + 1) % 256 = s.state + 1 := by omega
      have hof := of_lt hd s.state
      refine ih _ t0 T _ ?_ ?_ h0 ?_ ?_ ?_ h5 ?_
      · simp only [e1]; omega
      · simp only [e1]; omega
      · simp only [e1]; rw [hu]; omega
      · simp only [e1]; rw [hu]; omega
      · omega
      · simp only [e1]
        rw [hu, h6]
        generalize d.upto s.state = u
        generalize d.of s.state * 1000 = m
        clear hof hm
        omega

theorem run_ok {d : Times} (hd : d.Ok) {s : Trig} {i : TIn} {t : Nat} {l : Option Nat} (hi : TInv d s t l) (ht : t ≤ i.time) (hg : i.time - t ≤ 1000000000) :
    ∃ s', s.run d i = some s' ∧ TInv d s' i.time (lastDetect [i] l) ∧
      s'.value = match lastDetect [i] l with | none => 0 | some t0 => envelope d (i.time - t0) := by
  unfold Trig.run lastDetect
  simp only [List.foldl_cons, List.foldl_nil]
  cases hdet : i.detect
  · simp only [Bool.false_eq_true, if_false]
    cases l with
    | none =>
      have hi : s.state = 4 := hi
      rw [if_pos hi]
      exact ⟨_, rfl, hi, rfl⟩
    | some t0 =>
      obtain ⟨h0, h1, h2, h3, h4⟩ := hi
      by_cases c : s.state = 4
      · rw [if_pos c]
        refine ⟨_, rfl, ⟨by omega, h1, ?_, h3, fun h => ?_⟩, ?_⟩
        · simp only; omega
        · exact absurd h (by simp only; omega)
        · rw [c] at h2
          simp only [Times.upto] at h2
          simp only
          unfold envelope
          rw [if_neg (by omega), if_neg (by omega), if_neg (by omega), if_neg (by omega)]
      · rw [if_neg c]
        have h5 := h4 (by omega)
        have hu := upto_succ d (show s.state < 4 by omega)
        have hof := of_lt hd s.state
        have mono : d.upto (s.state + 1) ≤ d.upto 4 := by
          have : s.state = 0 ∨ s.state = 1 ∨ s.state = 2 ∨ s.state = 3 := by omega
          rcases this with e | e | e | e <;> rw [e] <;> simp only [Times.upto] <;> omega
        have ht' : (i.time % 4294967296 + 4294967296 - s.start) % 4294967296 = i.time - t0 - d.upto s.state := by
          rw [h3]
          generalize d.upto s.state = u at *
          generalize d.of s.state * 1000 = m at *
          generalize d.upto (s.state + 1) = w at *
          clear mono
          omega
        obtain ⟨s', r1, r2, r3⟩ := loop_ok hd 1000 s t0 i.time _ h1 (by omega) (by omega) ht' (by omega) (by rw [ht']; omega) (by omega) h3
        exact ⟨s', r1, r3, r2⟩
  · simp only [if_true]
    rw [if_neg (show ¬ (0 = 4) by decide)]
    have e : (i.time % 4294967296 + 4294967296 - i.time % 4294967296) % 4294967296 = 0 := by omega
    simp only [e]
    obtain ⟨s', r1, r2, r3⟩ := loop_ok hd 1000 { s with start := i.time % 4294967296, state := 0 } i.time i.time 0 (Nat.zero_le _) (show 5 - 0 ≤ 1000 by decide) (Nat.le_refl _)
      (by simp [Times.upto]) (by simp [Times.upto]) (by decide) (by omega) (by simp [Times.upto])
    exact ⟨s', r1, r3, r2⟩

/-- For every schedule of frames with gaps of at most 1000 seconds and every history of effects, the value at each frame is the
envelope at the time since the last effect, and 0 before the first. -/
theorem C51_envelope_partial {d : Times} (hd : d.Ok) {is : List TIn} {i : TIn} {t start : Nat} {value : Int} (hf : TFrames t (is ++ [i])) :
    ∃ s', (Trig.mk value 4 start).runs d (is ++ [i]) = some s' ∧
      s'.value = match lastDetect (is ++ [i]) none with | none => 0 | some t0 => envelope d (i.time - t0) := by
  have key : ∀ (is : List TIn) (s : Trig) (t : Nat) (l : Option Nat), TInv d s t l → TFrames t (is ++ [i]) →
      ∃ s', s.runs d (is ++ [i]) = some s' ∧ s'.value = match lastDetect (is ++ [i]) l with | none => 0 | some t0 => envelope d (i.time - t0) := by
    intro is
    induction is with
    | nil =>
      intro s t l hi hf
      cases hf with
      | cons a1 a2 _ =>
        obtain ⟨s', r1, -, r3⟩ := run_ok hd hi a1 a2
        refine ⟨s', ?_, r3⟩
        simp only [List.nil_append, Trig.runs, r1]
        rfl
    | cons j is ih =>
      intro s t l hi hf
      cases hf with
      | cons a1 a2 hf =>
        obtain ⟨s1, r1, r2, -⟩ := run_ok hd hi a1 a2
        obtain ⟨s2, q1, q2⟩ := ih s1 j.time _ r2 hf
        refine ⟨s2, ?_, q2.trans ?_⟩
        · simp only [List.cons_append, Trig.runs, r1]
          exact q1
        · have e : lastDetect (j :: is ++ [i]) l = lastDetect (is ++ [i]) (lastDetect [j] l) := by simp [lastDetect]
          rw [e]
  exact key is _ t none rfl hf

/-- the envelope is a fraction, starts and ends at 0 -/
theorem C51_range (d : Times) (x : Nat) : U (envelope d x) ∧ (1000 * (d.delay + d.attack + d.sustain + d.release) ≤ x → envelope d x = 0) := by
  constructor
  · unfold envelope U
    split
    · decide
    · split
      · refine ⟨Int.natCast_nonneg _, ?_⟩
        have : (x - 1000 * d.delay) * 32768 / (1000 * d.attack) ≤ 32768 := by
          refine Nat.le_of_lt_succ (Nat.div_lt_of_lt_mul ?_)
          omega
        exact_mod_cast this
      · split
        · decide
        · split
          · refine ⟨Int.natCast_nonneg _, ?_⟩
            have : (1000 * (d.delay + d.attack + d.sustain + d.release) - x) * 32768 / (1000 * d.release) ≤ 32768 := by
              refine Nat.le_of_lt_succ (Nat.div_lt_of_lt_mul ?_)
              omega
            exact_mod_cast this
          · decide
  · intro h
    unfold envelope
    rw [if_neg (by omega), if_neg (by omega), if_neg (by omega), if_neg (by omega)]

/-- an effect, seen in the attack, in the release and after the end; triggered again -/
example : let d : Times := ⟨10, 100, 50, 200⟩
    ((Trig.mk 0 4 0).runs d [⟨5000, true⟩, ⟨65000, false⟩]).map (·.value) = some 16384 ∧
    ((Trig.mk 0 4 0).runs d [⟨5000, true⟩, ⟨65000, false⟩, ⟨265000, false⟩]).map (·.value) = some 16384 ∧
    ((Trig.mk 0 4 0).runs d [⟨5000, true⟩, ⟨65000, false⟩, ⟨465000, false⟩]).map (·.value) = some 0 := by decide +kernel
example : TFrames 0 ([⟨5000, true⟩, ⟨65000, false⟩] ++ [⟨265000, false⟩]) :=
  .cons (by decide) (by decide) (.cons (by decide) (by decide) (.cons (by decide) (by decide) .nil))

/-- a gap of more than 1000 seconds: the state runs past the last one and all the way round, and a sustain of 100 seconds is still at
32768 after 2992 seconds -/
theorem C51_gap_counterexample : ∃ d : Times, d.Ok ∧ 1000 * (d.delay + d.attack + d.sustain + d.release) < 2992000000 ∧
    ((Trig.mk 0 4 0).runs d [⟨0, true⟩, ⟨2992000000, false⟩]).map (·.value) = some 32768 :=
  ⟨⟨0, 0, 100000, 0⟩, by unfold Times.Ok; decide, by decide, by decide +kernel⟩

end Verif.Func
