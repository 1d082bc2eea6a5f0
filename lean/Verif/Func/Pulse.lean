import Verif.Func.Range
/-!
# Pulses, counters and sequences

functions/increment.h, effect_increment.h (`IncrementWithReset`), sequence.h
-/
set_option linter.unusedSimpArgs false
set_option linter.unusedVariables false
namespace Verif.Func
open Verif.Color (i32)

/-! ## Threshold pulses -/

/-- what the three functions return in one frame -/
structure PIn where
  f : Int
  threshold : Int
  percent : Int

/-- `ThresholdPulseFSVF::calculate`, functions/increment.h:56-70: next `triggered_` and the value.  It is called once in each
frame (functions/svf.h:60-80). -/
def pulse (triggered : Bool) (i : PIn) : Option (Bool × Int) :=
  if triggered then do
    let p ← i32 (i.threshold * i.percent)
    some (!decide (i.f < p.tdiv 100), 0)
  else if i.f ≥ i.threshold then some (true, 32768)
  else some (false, 0)

/-- `triggered_` and the value after frame `k` of a history -/
def pulseAt (h : Nat → PIn) : Nat → Option (Bool × Int)
  | 0 => pulse false (h 0)
  | k + 1 => do
    let (t, _) ← pulseAt h k
    pulse t (h (k + 1))

/-- the input is below the hysteresis level: `percent` of the threshold, rounded towards 0 -/
def Below (i : PIn) : Prop := i.f < (i.threshold * i.percent).tdiv 100

/-- the pulse may fire at `k`: since each earlier firing the input has been below the hysteresis level -/
def Ready (h : Nat → PIn) (fires : Nat → Prop) (k : Nat) : Prop := ∀ j, j < k → fires j → ∃ m, j < m ∧ m < k ∧ Below (h m)

theorem pulse_ok (t : Bool) {i : PIn} (hi : -2147483648 ≤ i.threshold * i.percent ∧ i.threshold * i.percent < 2147483648) :
    ∃ t' v, pulse t i = some (t', v) ∧ (v = 32768 ∨ v = 0) ∧ (v = 32768 ↔ t = false ∧ i.f ≥ i.threshold) ∧
      (t' = true ↔ v = 32768 ∨ (t = true ∧ ¬ Below i)) := by
  unfold pulse Below
  cases t
  · simp only [Bool.false_eq_true, if_false]
    by_cases c : i.f ≥ i.threshold
    · rw [if_pos c]; exact ⟨_, _, rfl, by simp, by simp [c], by simp⟩
    · rw [if_neg c]; exact ⟨_, _, rfl, by simp, by simp [c], by simp⟩
  · rw [if_pos rfl, bind_ok hi.1 hi.2]
    exact ⟨_, _, rfl, by simp, by simp, by simp⟩

/-- A threshold pulse fires exactly in the frames in which its input has reached the threshold and, since every earlier
firing, has been below the hysteresis level.  For every history of inputs, thresholds and percentages. -/
theorem C49_once (h : Nat → PIn) (hi : ∀ k, -2147483648 ≤ (h k).threshold * (h k).percent ∧ (h k).threshold * (h k).percent < 2147483648) :
    ∃ out : Nat → Int, (∀ k, (pulseAt h k).map (·.2) = some (out k)) ∧ (∀ k, out k = 32768 ∨ out k = 0) ∧
      ∀ k, out k = 32768 ↔ (h k).f ≥ (h k).threshold ∧ Ready h (fun j => out j = 32768) k := by
  have ex : ∀ k, ∃ t v, pulseAt h k = some (t, v) := by
    intro k
    induction k with
    | zero => obtain ⟨t', v, e, -⟩ := pulse_ok false (hi 0); exact ⟨t', v, e⟩
    | succ k ih =>
      obtain ⟨t, v, e⟩ := ih
      obtain ⟨t', v', e', -⟩ := pulse_ok t (hi (k + 1))
      exact ⟨t', v', by unfold pulseAt; rw [e]; exact e'⟩
  obtain ⟨tr, htr⟩ := Classical.axiomOfChoice ex
  obtain ⟨out, hout⟩ := Classical.axiomOfChoice htr
  have h0 : (out 0 = 32768 ∨ out 0 = 0) ∧ (out 0 = 32768 ↔ (h 0).f ≥ (h 0).threshold) ∧ (tr 0 = true ↔ out 0 = 32768) := by
    obtain ⟨t', v, e, r1, r2, r3⟩ := pulse_ok false (hi 0)
    have e2 := hout 0
    unfold pulseAt at e2
    rw [e] at e2
    obtain ⟨rfl, rfl⟩ := Prod.mk.inj (Option.some.inj e2)
    exact ⟨r1, by simpa using r2, by simpa using r3⟩
  have hs : ∀ k, (out (k + 1) = 32768 ∨ out (k + 1) = 0) ∧ (out (k + 1) = 32768 ↔ tr k = false ∧ (h (k + 1)).f ≥ (h (k + 1)).threshold) ∧
      (tr (k + 1) = true ↔ out (k + 1) = 32768 ∨ (tr k = true ∧ ¬ Below (h (k + 1)))) := by
    intro k
    obtain ⟨t', v, e, r1, r2, r3⟩ := pulse_ok (tr k) (hi (k + 1))
    have e2 := hout (k + 1)
    have e3 : pulseAt h (k + 1) = pulse (tr k) (h (k + 1)) := by
      rw [pulseAt, hout k]; rfl
    rw [e3, e] at e2
    obtain ⟨rfl, rfl⟩ := Prod.mk.inj (Option.some.inj e2)
    exact ⟨r1, r2, r3⟩
  -- triggered: it has fired, and since then the input has not been low
  have inv : ∀ k, tr k = true ↔ ∃ j, j ≤ k ∧ out j = 32768 ∧ ∀ m, j < m → m ≤ k → ¬ Below (h m) := by
    intro k
    induction k with
    | zero =>
      rw [h0.2.2]
      constructor
      · exact fun e => ⟨0, Nat.le_refl _, e, fun m h1 h2 => by omega⟩
      · rintro ⟨j, hj, e, -⟩
        have : j = 0 := by omega
        subst this; exact e
    | succ k ih =>
      rw [(hs k).2.2]
      constructor
      · rintro (e | ⟨e, hb⟩)
        · exact ⟨k + 1, Nat.le_refl _, e, fun m h1 h2 => by omega⟩
        · obtain ⟨j, hj, e, hm⟩ := ih.1 e
          refine ⟨j, by omega, e, fun m h1 h2 => ?_⟩
          by_cases c : m = k + 1
          · rw [c]; exact hb
          · exact hm m h1 (by omega)
      · rintro ⟨j, hj, e, hm⟩
        by_cases c : j = k + 1
        · exact Or.inl (c ▸ e)
        · exact Or.inr ⟨ih.2 ⟨j, by omega, e, fun m h1 h2 => hm m h1 (by omega)⟩, hm (k + 1) (by omega) (Nat.le_refl _)⟩
  refine ⟨out, fun k => by rw [hout k]; rfl, fun k => ?_, fun k => ?_⟩
  · cases k with
    | zero => exact h0.1
    | succ k => exact (hs k).1
  · cases k with
    | zero =>
      rw [h0.2.1]
      exact ⟨fun e => ⟨e, fun j hj => by omega⟩, fun e => e.1⟩
    | succ k =>
      rw [(hs k).2.1, ← Bool.not_eq_true, inv k]
      constructor
      · rintro ⟨hn, e⟩
        refine ⟨e, fun j hj ho => ?_⟩
        by_cases c : ∃ m, j < m ∧ m < k + 1 ∧ Below (h m)
        · exact c
        · refine absurd ⟨j, by omega, ho, fun m h1 h2 hb => c ⟨m, h1, by omega, hb⟩⟩ hn
      · rintro ⟨e, hr⟩
        refine ⟨?_, e⟩
        rintro ⟨j, hj, ho, hm⟩
        obtain ⟨m, h1, h2, hb⟩ := hr j (by omega) ho
        exact hm m h1 (by omega) hb

/-- 40000, a little lower, again higher, low, high: fires at the first and the last -/
example : (List.range 6).map (fun k => (pulseAt (fun k => ⟨[40000, 30000, 40000, 21000, 32767, 32768].getD k 0, 32768, 66⟩) k).map (·.2)) =
    [some 32768, some 0, some 0, some 0, some 0, some 32768] := by decide

/-! ## Counters -/

/-- `IncrementModuloFSVF::run`, functions/increment.h:16-23 -/
def incMod (value : Int) (pulse max inc : Int) : Option Int :=
  if pulse ≠ 0 then do
    let s ← i32 (value + inc)
    if max = 0 then none else some (s.tmod max)
  else some value

/-- a counter over a history of pulses -/
def incModRun (max inc : Int) : List Int → Int → Option Int
  | [], v => some v
  | p :: ps, v => do incModRun max inc ps (← incMod v p max inc)

/-- how often a pulse occurred -/
def count (ps : List Int) : Nat := (ps.filter (· ≠ 0)).length

/-- A counter shows the number of pulses times the increment, wrapped at the maximum. -/
theorem C48_increment {max inc : Int} (hm : 0 < max) (hi : 0 ≤ inc) (hb : max + inc ≤ 2147483648) (ps : List Int) :
    incModRun max inc ps 0 = some (count ps * inc % max) := by
  have key : ∀ (ps : List Int) (v : Int), 0 ≤ v → v < max → incModRun max inc ps v = some ((v + count ps * inc) % max) := by
    intro ps
    induction ps with
    | nil => intro v h1 h2; simp [incModRun, count, Int.emod_eq_of_lt h1 h2]
    | cons p ps ih =>
      intro v h1 h2
      unfold incModRun incMod
      by_cases c : p = 0
      · rw [if_neg (by simpa using c), bind_some, ih v h1 h2]
        congr 3
        unfold count
        rw [List.filter_cons_of_neg (by simpa using c)]
      · rw [if_pos c, bind_ok (by omega) (by omega), if_neg (by omega), bind_some, Int.tmod_eq_emod_of_nonneg (by omega),
          ih _ (Int.emod_nonneg _ (by omega)) (Int.emod_lt_of_pos _ hm), Int.emod_add_emod]
        congr 2
        unfold count
        rw [List.filter_cons_of_pos (by simpa using c), List.length_cons]
        push_cast
        ring
  have := key ps 0 (by omega) hm
  rwa [zero_add] at this
example : incModRun 5 2 [32768, 0, 32768, 32768, 0, 1] 0 = some 3 := by decide

/-- `IncrementWithResetSVF::run`, functions/effect_increment.h:59-70 -/
def incReset (value : Int) (pulse reset max inc : Int) : Option Int := do
  let value := if reset ≠ 0 then 0 else value
  if pulse ≠ 0 then do
    let s ← i32 (value + inc)
    some (min s max)
  else some value

def incResetRun (max inc : Int) : List (Int × Int) → Int → Option Int
  | [], v => some v
  | p :: ps, v => do incResetRun max inc ps (← incReset v p.1 p.2 max inc)

/-- pulses in the frames from the last reset on; all pulses when there was none -/
def sinceReset (ps : List (Int × Int)) : Nat → Nat := ps.foldl (fun k p => (if p.2 ≠ 0 then 0 else k) + (if p.1 ≠ 0 then 1 else 0))

/-- A counter with reset shows the number of pulses since the last reset times the increment, at most the maximum. -/
theorem C48_reset {max inc : Int} (hm : 0 ≤ max) (hi : 0 ≤ inc) (hb : max + inc < 2147483648) (ps : List (Int × Int)) :
    incResetRun max inc ps 0 = some (min (sinceReset ps 0 * inc) max) := by
  have key : ∀ (ps : List (Int × Int)) (k : Nat), incResetRun max inc ps (min (k * inc) max) = some (min (sinceReset ps k * inc) max) := by
    intro ps
    induction ps with
    | nil => intro k; rfl
    | cons p ps ih =>
      intro k
      have hk : 0 ≤ (k : Int) * inc := mul_nonneg (by omega) hi
      have step : incReset (min (k * inc) max) p.1 p.2 max inc =
          some (min ((((if p.2 ≠ 0 then 0 else k) + (if p.1 ≠ 0 then 1 else 0) : Nat) : Int) * inc) max) := by
        unfold incReset
        by_cases c2 : p.2 = 0
        · simp only [ne_eq, c2, not_true_eq_false, if_false]
          by_cases c1 : p.1 = 0
          · simp [c1]
          · rw [if_pos c1, bind_ok (by omega) (by omega)]
            simp only [c1, not_false_eq_true, if_true]
            push_cast
            congr 1
            rw [add_mul, one_mul]
            omega
        · simp only [ne_eq, c2, not_false_eq_true, if_true]
          by_cases c1 : p.1 = 0
          · simp [c1]; omega
          · rw [if_pos c1, bind_ok (by omega) (by omega)]
            simp [c1]
      unfold incResetRun sinceReset
      rw [step, bind_some, List.foldl_cons]
      exact ih _
  have := key ps 0
  rwa [show ((0 : Nat) : Int) * inc = 0 by push_cast; ring, Int.min_eq_left hm] at this
example : incResetRun 5 2 [(1, 0), (1, 0), (1, 0), (0, 0), (1, 1), (1, 0)] 0 = some 4 := by decide
example : incResetRun 5 2 [(1, 0), (1, 0), (1, 0), (0, 0), (1, 0), (1, 0)] 0 = some 5 := by decide

/-! ## Sequences of bits -/

/-- `SequenceF::run`, functions/sequence.h:18-23; words are stored as 16 bits -/
def sequence (mpb bits : Nat) (words : List Nat) (now : Nat) : Option Nat :=
  if mpb = 0 ∨ min bits (words.length * 16) = 0 then none
  else
    let bit := now / mpb % min bits (words.length * 16)
    (words[bit / 16]?).map fun w => 32768 * (w % 65536 / 2 ^ (15 - bit % 16) % 2)

/-- the bits as they are written: most significant first, word by word -/
def written (words : List Nat) : List Bool := words.flatMap fun w => (List.range 16).map fun i => (w % 65536).testBit (15 - i)

theorem written_get : ∀ (words : List Nat) (b : Nat), b < words.length * 16 →
    (written words)[b]? = (words[b / 16]?).map fun w => (w % 65536).testBit (15 - b % 16)
  | [], b, h => by simp at h
  | w :: ws, b, h => by
    have e : written (w :: ws) = ((List.range 16).map fun i => (w % 65536).testBit (15 - i)) ++ written ws := by simp [written]
    rw [e]
    by_cases c : b < 16
    · rw [List.getElem?_append_left (by simpa using c), Nat.div_eq_of_lt c, Nat.mod_eq_of_lt c, List.getElem?_map, List.getElem?_range c]
      rfl
    · rw [List.getElem?_append_right (by simp; omega)]
      have e2 : b / 16 = (b - 16) / 16 + 1 := by omega
      have e3 : b % 16 = (b - 16) % 16 := by omega
      simp only [List.length_map, List.length_range]
      rw [written_get ws (b - 16) (by simp at h; omega), e2, e3, List.getElem?_cons_succ]

/-- After `k` times the time of a bit the sequence shows bit `k` of those written, starting again after the given number of
bits (or after all written bits, when there are fewer). -/
theorem C48_sequence {mpb bits : Nat} {words : List Nat} (h1 : 0 < mpb) (h2 : 0 < bits) (h3 : words ≠ []) (now : Nat) :
    ∃ hb : now / mpb % min bits (written words).length < (written words).length,
      sequence mpb bits words now = some (if (written words)[now / mpb % min bits (written words).length] then 32768 else 0) := by
  have hl : 0 < words.length := List.length_pos_iff.2 h3
  have len : (written words).length = words.length * 16 := by
    clear hl h3
    induction words with
    | nil => rfl
    | cons w ws ih => simp [written, List.length_flatMap] at ih ⊢; omega
  have hm : now / mpb % min bits (words.length * 16) < min bits (words.length * 16) := Nat.mod_lt _ (by omega)
  have hb : now / mpb % min bits (written words).length < (written words).length := by rw [len]; omega
  refine ⟨hb, ?_⟩
  have hg := List.getElem?_eq_getElem hb
  rw [written_get _ _ (by rw [← len]; exact hb)] at hg
  unfold sequence
  rw [if_neg (by omega)]
  simp only [← len]
  generalize now / mpb % min bits (written words).length = b at *
  cases hw : words[b / 16]? with
  | none => rw [hw] at hg; cases hg
  | some w =>
    rw [hw] at hg
    simp only [Option.map_some, Option.some.injEq] at hg ⊢
    rw [← hg, Nat.testBit_eq_decide_div_mod_eq]
    simp only [decide_eq_true_eq]
    split
    · rename_i h; rw [h]
    · have := Nat.mod_two_eq_zero_or_one (w % 65536 / 2 ^ (15 - b % 16))
      have h0 : w % 65536 / 2 ^ (15 - b % 16) % 2 = 0 := by omega
      rw [h0]
/-- the SOS pattern of the documentation: the fourth bit, and the same after 37 bits -/
example : sequence 100 37 [0b0001010100011100, 0b0111000111000101, 0b0100000000000000] 300 = some 32768 ∧
    sequence 100 37 [0b0001010100011100, 0b0111000111000101, 0b0100000000000000] 4099 = some 32768 ∧
    sequence 100 37 [0b0001010100011100, 0b0111000111000101, 0b0100000000000000] 4100 = some 0 := by decide

end Verif.Func
