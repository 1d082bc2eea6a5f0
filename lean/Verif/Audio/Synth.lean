import Mathlib.Data.Int.Order.Basic
import Mathlib.Tactic.Linarith
import Mathlib.Data.Nat.GCD.Basic
/-!
# The synthesized hum (C140)

Model of `WaveFormSampler`, sound/waveform_sampler.h, and of `LightSaberSynth::read`, sound/lightsaber_synth.h:67-87.  A table access outside the
1024 places is `none`, and so is an overflow of 32 bit arithmetic.
-/
namespace Verif.Audio.Synth

/-- `1024 * 65536`, the length of a table in the sampler's units -/
def period : Nat := 67108864

/-- how `pos_` moves on, sound/waveform_sampler.h:15-16 -/
def advance (delta pos : Nat) : Nat := if pos + delta > period then pos + delta - period else pos + delta

/-- the place read, sound/waveform_sampler.h:18 -/
def index (pos : Nat) : Nat := pos / 65536

/-- `next`, sound/waveform_sampler.h:14-19 -/
def next (table : List Int) (delta pos : Nat) : Option Int × Nat := (table[index (advance delta pos)]?, advance delta pos)

/-- the position after `n` samples at one pitch -/
def posAt (delta : Nat) : Nat → Nat
  | 0 => 0
  | n + 1 => advance delta (posAt delta n)

/-- the position after samples at the pitches given -/
def posAfter : List Nat → Nat
  | [] => 0
  | d :: l => advance d (posAfter l)

/-- The sampler goes around the table: the position is, but for whole turns, the sum of all steps, whatever the pitches, and never more than one turn. -/
theorem C140_position (l : List Nat) (h : ∀ d ∈ l, d ≤ period) : posAfter l ≤ period ∧ posAfter l % period = l.sum % period := by
  induction l with
  | nil => exact ⟨Nat.zero_le _, rfl⟩
  | cons d l ih =>
    obtain ⟨h1, h2⟩ := ih fun d hd => h d (List.mem_cons_of_mem _ hd)
    have hd := h d (List.mem_cons_self ..)
    have hs : (posAfter l + d) % period = (d + l.sum) % period := by
      rw [Nat.add_mod, h2, ← Nat.add_mod, Nat.add_comm]
    rw [List.sum_cons, ← hs]
    show advance d (posAfter l) ≤ period ∧ advance d (posAfter l) % period = _
    unfold advance
    split
    · refine ⟨by omega, ?_⟩
      conv_rhs => rw [show posAfter l + d = (posAfter l + d - period) + period by omega, Nat.add_mod_right]
    · exact ⟨by omega, rfl⟩

/-- As long as the sum of the steps is not a whole number of turns, the place read is within the table, the one for that part of a turn. -/
theorem C140_index_partial (l : List Nat) (h : ∀ d ∈ l, d ≤ period) (hs : l.sum % period ≠ 0) :
    index (posAfter l) < 1024 ∧ index (posAfter l) = l.sum % period / 65536 := by
  obtain ⟨h1, h2⟩ := C140_position l h
  have hlt : posAfter l < period := by
    rcases Nat.lt_or_ge (posAfter l) period with h | h
    · exact h
    · rw [show posAfter l = period by omega, Nat.mod_self] at h2; exact absurd h2.symm hs
  rw [Nat.mod_eq_of_lt hlt] at h2
  unfold index
  refine ⟨?_, by rw [h2]⟩
  rw [Nat.div_lt_iff_lt_mul (by omega)]
  exact hlt

example : index (posAfter [1521, 1521, 67108000, 65536]) = 1 := by decide

theorem posAt_eq (delta n : Nat) : posAt delta n = posAfter (List.replicate n delta) := by
  induction n with
  | zero => rfl
  | succ n ih => rw [posAt, ih, List.replicate_succ]; rfl

theorem posAt_pred (delta n : Nat) (h : 0 < n) : posAt delta n = advance delta (posAt delta (n - 1)) := by
  cases n with
  | zero => omega
  | succ n => rfl

theorem posAfter_pos (l : List Nat) (h : ∀ d ∈ l, 0 < d) (hl : l ≠ []) : 0 < posAfter l := by
  cases l with
  | nil => exact absurd rfl hl
  | cons d l =>
    have := h d (List.mem_cons_self ..)
    show 0 < advance d (posAfter l)
    unfold advance
    split <;> omega

/-- The test for the end of the table is off by one: at any fixed pitch, one sample in each 67108864 at the latest is read from beyond the end of the table.  (The
pitches of the three sines are fixed.) -/
theorem C140_end_counterexample (delta : Nat) (h0 : 0 < delta) (h1 : delta ≤ period) (table : List Int) (ht : table.length = 1024) :
    ∃ n, 0 < n ∧ n ≤ period ∧ index (posAt delta n) = 1024 ∧ (next table delta (posAt delta (n - 1))).1 = none := by
  have hp : posAt delta period = period := by
    have hall : ∀ d ∈ List.replicate period delta, d ≤ period := fun d hd => by rw [List.eq_of_mem_replicate hd]; exact h1
    obtain ⟨a, b⟩ := C140_position _ hall
    have hpos := posAfter_pos (List.replicate period delta) (fun d hd => by rw [List.eq_of_mem_replicate hd]; exact h0)
      (fun e => by have := congrArg List.length e; rw [List.length_replicate] at this; exact absurd this (by decide))
    rw [List.sum_replicate_nat, Nat.mul_mod_right] at b
    rw [posAt_eq]
    rcases Nat.lt_or_ge (posAfter (List.replicate period delta)) period with h | h
    · rw [Nat.mod_eq_of_lt h] at b; omega
    · omega
  have hi : index (posAt delta period) = 1024 := by rw [hp]; rfl
  have hp0 : 0 < period := by unfold period; omega
  refine ⟨period, hp0, Nat.le_refl _, hi, ?_⟩
  have e := posAt_pred delta period hp0
  rw [next]
  dsimp only
  rw [← e, hi]
  exact List.getElem?_eq_none (by omega)

/-- for one of 65536, the first time around -/
example : index (advance 65536 (1023 * 65536)) = 1024 := by decide +kernel

/-! ### The sum of the voices -/

/-- `32768 * 16383 / (3 * 16383 + sin)`, sound/lightsaber_synth.h:72, 74, 76; division of positive numbers. -/
def tremolo (sine : Int) : Int := 536838144 / (49149 + sine)

/-- a 32 bit number, or overflow -/
def int32 (x : Int) : Option Int := if -2147483648 ≤ x ∧ x ≤ 2147483647 then some x else none

/-- `clamptoi16`, common/math.h:24-26 -/
def clamp16 (x : Int) : Int := if x < -32768 then -32768 else if x > 32767 then 32767 else x

/-- one sample, sound/lightsaber_synth.h:70-84, from the voices, their sines and the volume -/
def sample (lo sLo hi sHi buzz sB volume : Int) : Option Int :=
  (int32 (lo * tremolo sLo)).bind fun a => (int32 (hi * tremolo sHi)).bind fun b => (int32 (a + b)).bind fun ab =>
  (int32 (buzz * tremolo sB)).bind fun c => (int32 (ab + c)).bind fun t => (int32 (t / 32768 * volume)).map fun v => clamp16 (v / 32768)

/-- a 16 bit number -/
def is16 (x : Int) : Prop := -32768 ≤ x ∧ x ≤ 32767

/-- a place of the sine table, common/sin_table.h -/
def isSine (x : Int) : Prop := -16383 ≤ x ∧ x ≤ 16383

theorem tremolo_range (s : Int) (h : isSine s) : 8192 ≤ tremolo s ∧ tremolo s ≤ 16384 := by
  obtain ⟨h1, h2⟩ := h
  unfold tremolo
  refine ⟨?_, ?_⟩
  · rw [Int.le_ediv_iff_mul_le (by omega)]; omega
  · have : 536838144 / (49149 + s) < 16385 := by rw [Int.ediv_lt_iff_lt_mul (by omega)]; omega
    omega

theorem voice_range (x s : Int) (hx : is16 x) (hs : isSine s) : -536870912 ≤ x * tremolo s ∧ x * tremolo s ≤ 536870912 := by
  obtain ⟨h1, h2⟩ := hx
  obtain ⟨h3, h4⟩ := tremolo_range s hs
  constructor <;> nlinarith

/-- Whatever the voices and sines, nothing overflows with volumes up to full, and the sample is one of 16 bits: the sum of the voices scaled by
the volume, limited. -/
theorem C140_sample (lo sLo hi sHi buzz sB volume : Int) (h1 : is16 lo) (h2 : isSine sLo) (h3 : is16 hi) (h4 : isSine sHi) (h5 : is16 buzz)
    (h6 : isSine sB) (hv : 0 ≤ volume) (hv2 : volume ≤ 32768) :
    ∃ y, sample lo sLo hi sHi buzz sB volume = some y ∧ is16 y ∧
      y = max (-32768) (min 32767 ((lo * tremolo sLo + hi * tremolo sHi + buzz * tremolo sB) / 32768 * volume / 32768)) := by
  obtain ⟨a1, a2⟩ := voice_range lo sLo h1 h2
  obtain ⟨b1, b2⟩ := voice_range hi sHi h3 h4
  obtain ⟨c1, c2⟩ := voice_range buzz sB h5 h6
  unfold sample
  generalize lo * tremolo sLo = a at a1 a2 ⊢
  generalize hi * tremolo sHi = b at b1 b2 ⊢
  generalize buzz * tremolo sB = c at c1 c2 ⊢
  have i32 : ∀ x, -2147483648 ≤ x → x ≤ 2147483647 → int32 x = some x := fun x h h' => by rw [int32, if_pos ⟨h, h'⟩]
  have t1 : -49152 ≤ (a + b + c) / 32768 := by omega
  have t2 : (a + b + c) / 32768 ≤ 49152 := by omega
  rw [i32 a (by omega) (by omega), Option.bind_some, i32 b (by omega) (by omega), Option.bind_some, i32 (a + b) (by omega) (by omega), Option.bind_some,
    i32 c (by omega) (by omega), Option.bind_some, i32 (a + b + c) (by omega) (by omega), Option.bind_some]
  generalize (a + b + c) / 32768 = t at t1 t2 ⊢
  rw [i32 (t * volume) (by nlinarith) (by nlinarith), Option.map_some]
  refine ⟨_, rfl, ?_, ?_⟩
  · unfold clamp16 is16; split <;> [omega; (split <;> omega)]
  · unfold clamp16; split <;> [omega; (split <;> omega)]

example : sample 20000 100 (-5000) 16383 30000 (-16383) 32768 = some 20402 := by decide

end Verif.Audio.Synth
