import Mathlib.Tactic.Linarith
import Mathlib.Data.Rat.Floor
/-!
# Spoken numbers (C115)

Model of `SayWhole`, `SayNumber`, `SayBatteryVolts` and `SayBatteryPercent` (sound/sound_library.h:102-156): the list
of sounds queued.
-/
namespace Verif.Audio.Say

/-- The sounds. -/
inductive W
  | zero
  | num (n : Nat)   -- `mnum1` to `mnum19`: `Play(SoundToPlay(&SFX_mnum, number - 1))`
  | tens (n : Nat)  -- `Say20` to `Say90`
  | hundred | thousand | point | batt | volts | percent
  deriving DecidableEq, Repr

/-- `SayWhole` below 100, sound/sound_library.h:118-136. -/
def below100 (n : Nat) : List W :=
  let t := n / 10
  if 2 ≤ t ∧ t ≤ 9 then W.tens (t * 10) :: (if n % 10 = 0 then [] else [W.num (n % 10)])
  else if n % 10 + t * 10 = 0 then [] else [W.num (n % 10 + t * 10)]

/-- `SayWhole` from the hundreds on for a number below 1000, sound/sound_library.h:112-136; the call for the hundreds is
of a number from 1 to 9. -/
def below1000 (n : Nat) : List W :=
  if n / 100 = 0 then below100 n else below100 (n / 100) ++ W.hundred :: below100 (n % 100)

/-- `SayWhole` of a number which is not negative, sound/sound_library.h:102-137. -/
def sayWhole (n : Nat) : List W :=
  if n = 0 then [W.zero]
  else if _h : n / 1000 = 0 then below1000 n
  else sayWhole (n / 1000) ++ W.thousand :: below1000 (n % 1000)
termination_by n
decreasing_by omega

/-- `SayNumber(number, SAY_DECIMAL)`, sound/sound_library.h:139-152, for a number which is not negative. -/
def sayDecimal (x : Rat) : List W :=
  let h := (⌊Int.fract x * 100⌋).toNat
  sayWhole ⌊x⌋.toNat ++ W.point :: (sayWhole (h / 10) ++ sayWhole (h % 10))

/-- `SayBatteryVolts` and `SayBatteryPercent`, sound/sound_library.h:154-164. -/
def sayVolts (x : Rat) : List W := W.batt :: (sayDecimal x ++ [W.volts])
def sayPercent (x : Rat) : List W := W.batt :: (sayWhole ⌊x⌋.toNat ++ [W.percent])

/-! ## Listening -/

/-- What a listener understands: `total` in thousands, `group` below a thousand. -/
structure Ear where
  total : Nat
  group : Nat

def Ear.hear (e : Ear) : W → Ear
  | .zero => e
  | .num n => { e with group := e.group + n }
  | .tens n => { e with group := e.group + n }
  | .hundred => { e with group := e.group * 100 }
  | .thousand => ⟨(e.total + e.group) * 1000, 0⟩
  | _ => e

/-- The number understood. -/
def heard (ws : List W) : Nat := (ws.foldl Ear.hear ⟨0, 0⟩).total + (ws.foldl Ear.hear ⟨0, 0⟩).group

theorem hear100 (n : Nat) (t g : Nat) : (below100 n).foldl Ear.hear ⟨t, g⟩ = ⟨t, g + n⟩ := by
  unfold below100
  simp only
  by_cases h1 : 2 ≤ n / 10 ∧ n / 10 ≤ 9
  · rw [if_pos h1]
    by_cases h2 : n % 10 = 0
    · rw [if_pos h2]
      simp only [List.foldl_cons, List.foldl_nil, Ear.hear, Ear.mk.injEq, true_and]
      omega
    · rw [if_neg h2]
      simp only [List.foldl_cons, List.foldl_nil, Ear.hear, Ear.mk.injEq, true_and]
      omega
  · rw [if_neg h1]
    by_cases h2 : n % 10 + n / 10 * 10 = 0
    · rw [if_pos h2]
      simp only [List.foldl_nil, Ear.mk.injEq, true_and]
      omega
    · rw [if_neg h2]
      simp only [List.foldl_cons, List.foldl_nil, Ear.hear, Ear.mk.injEq, true_and]
      omega

theorem hear1000 (n : Nat) (t : Nat) : (below1000 n).foldl Ear.hear ⟨t, 0⟩ = ⟨t, n⟩ := by
  unfold below1000
  by_cases h1 : n / 100 = 0
  · rw [if_pos h1, hear100 n, Nat.zero_add]
  · rw [if_neg h1, List.foldl_append, hear100 _, List.foldl_cons]
    simp only [Ear.hear]
    rw [hear100 _, Nat.zero_add]
    congr 1
    omega

theorem hear_whole (n : Nat) : ∃ t g, (sayWhole n).foldl Ear.hear ⟨0, 0⟩ = ⟨t, g⟩ ∧ t + g = n := by
  induction n using Nat.strongRecOn with
  | _ n ih =>
    unfold sayWhole
    by_cases h0 : n = 0
    · rw [if_pos h0]; exact ⟨0, 0, rfl, by omega⟩
    · rw [if_neg h0]
      by_cases h : n / 1000 = 0
      · rw [dif_pos h, hear1000 n]; exact ⟨0, n, rfl, by omega⟩
      · rw [dif_neg h]
        obtain ⟨t, g, e1, e2⟩ := ih (n / 1000) (by omega)
        rw [List.foldl_append, e1, List.foldl_cons]
        simp only [Ear.hear]
        rw [hear1000 _]
        exact ⟨_, _, rfl, by rw [e2]; omega⟩

/-- A listener who knows the words hears the number that was to be said: no two numbers sound the same. -/
theorem C115_whole (n : Nat) : heard (sayWhole n) = n := by
  obtain ⟨t, g, e1, e2⟩ := hear_whole n
  unfold heard
  rw [e1]
  exact e2

theorem C115_distinct (m n : Nat) (h : sayWhole m = sayWhole n) : m = n := by
  rw [← C115_whole m, ← C115_whole n, h]

/-- A sound that exists. -/
def Known : W → Prop
  | .num n => 1 ≤ n ∧ n ≤ 19
  | .tens n => n ∈ [20, 30, 40, 50, 60, 70, 80, 90]
  | _ => True

theorem known100 (n : Nat) (h : n < 100) : (∀ w ∈ below100 n, Known w) ∧ (below100 n).length ≤ 2 := by
  have : ∀ n < 100, (below100 n).all (fun w => match w with
      | .num n => decide (1 ≤ n ∧ n ≤ 19) | .tens n => decide (n ∈ [20, 30, 40, 50, 60, 70, 80, 90]) | _ => true) = true ∧ (below100 n).length ≤ 2 := by
    decide
  obtain ⟨a, b⟩ := this n h
  refine ⟨fun w hw => ?_, b⟩
  have := List.all_eq_true.1 a w hw
  cases w <;> simp_all [Known]

theorem one100 (n : Nat) (h : n < 10) : (below100 n).length ≤ 1 := by
  have : ∀ n < 10, (below100 n).length ≤ 1 := by decide
  exact this n h

theorem known1000 (n : Nat) (h : n < 1000) : (∀ w ∈ below1000 n, Known w) ∧ (below1000 n).length ≤ 4 := by
  unfold below1000
  by_cases h1 : n / 100 = 0
  · rw [if_pos h1]
    obtain ⟨a, b⟩ := known100 n (by omega)
    exact ⟨a, by omega⟩
  · rw [if_neg h1]
    obtain ⟨a1, _⟩ := known100 (n / 100) (by omega)
    obtain ⟨a2, b2⟩ := known100 (n % 100) (by omega)
    have b1 := one100 (n / 100) (by omega)
    constructor
    · intro w hw
      rcases List.mem_append.1 hw with hw | hw
      · exact a1 w hw
      · rcases List.mem_cons.1 hw with rfl | hw
        · trivial
        · exact a2 w hw
    · simp only [List.length_append, List.length_cons]; omega

/-- Only sounds that exist are used, and a number of `k` groups of three digits takes at most `5 * k - 1` of them. -/
theorem C115_sounds (n : Nat) : (∀ w ∈ sayWhole n, Known w) ∧ ∀ k, 0 < k → n < 1000 ^ k → (sayWhole n).length + 1 ≤ 5 * k := by
  induction n using Nat.strongRecOn with
  | _ n ih =>
    unfold sayWhole
    by_cases h0 : n = 0
    · rw [if_pos h0]
      refine ⟨fun w hw => ?_, fun k hk _ => by simp; omega⟩
      rcases List.mem_singleton.1 hw with rfl
      trivial
    · rw [if_neg h0]
      by_cases h : n / 1000 = 0
      · rw [dif_pos h]
        obtain ⟨a, b⟩ := known1000 n (by omega)
        exact ⟨a, fun k hk _ => by omega⟩
      · rw [dif_neg h]
        obtain ⟨a1, b1⟩ := ih (n / 1000) (by omega)
        obtain ⟨a2, b2⟩ := known1000 (n % 1000) (by omega)
        constructor
        · intro w hw
          rcases List.mem_append.1 hw with hw | hw
          · exact a1 w hw
          · rcases List.mem_cons.1 hw with rfl | hw
            · trivial
            · exact a2 w hw
        · intro k hk hn
          obtain ⟨j, rfl⟩ : ∃ j, k = j + 1 := ⟨k - 1, by omega⟩
          have hj : 0 < j := by
            rcases Nat.eq_zero_or_pos j with rfl | hj
            · rw [Nat.zero_add, Nat.pow_one] at hn; omega
            · exact hj
          have hlt : n / 1000 < 1000 ^ j := by
            rw [Nat.div_lt_iff_lt_mul (by omega), ← Nat.pow_succ]; exact hn
          have := b1 j hj hlt
          simp only [List.length_append, List.length_cons]; omega

/-- A decimal number: the whole part, then two digits; the number heard is the number cut to hundredths. -/
theorem C115_decimal (x : Rat) (hx : 0 ≤ x) : ∃ w d1 d2 : Nat, d1 < 10 ∧ d2 < 10 ∧
    sayDecimal x = sayWhole w ++ W.point :: (sayWhole d1 ++ sayWhole d2) ∧
    (w : Rat) + (10 * d1 + d2 : Nat) / 100 ≤ x ∧ x < w + ((10 * d1 + d2 : Nat) + 1) / 100 := by
  have f0 := Int.fract_nonneg x
  have f1 := Int.fract_lt_one x
  have hfl : 0 ≤ ⌊x⌋ := Int.floor_nonneg.2 hx
  have hh : 0 ≤ ⌊Int.fract x * 100⌋ := Int.floor_nonneg.2 (by linarith)
  have hlt : ⌊Int.fract x * 100⌋ < 100 := by rw [Int.floor_lt]; push_cast; linarith
  have l1 := Int.floor_le (Int.fract x * 100)
  have l2 := Int.lt_floor_add_one (Int.fract x * 100)
  have hsum := Int.floor_add_fract x
  refine ⟨⌊x⌋.toNat, (⌊Int.fract x * 100⌋).toNat / 10, (⌊Int.fract x * 100⌋).toNat % 10, by omega, by omega, rfl, ?_⟩
  have e1 : ((⌊x⌋.toNat : Nat) : Rat) = (⌊x⌋ : Rat) := by
    have : ((⌊x⌋.toNat : Nat) : Int) = ⌊x⌋ := Int.toNat_of_nonneg hfl
    exact_mod_cast congrArg (Int.cast : Int → Rat) this
  have e2 : (10 * ((⌊Int.fract x * 100⌋).toNat / 10) + (⌊Int.fract x * 100⌋).toNat % 10 : Nat) = (⌊Int.fract x * 100⌋).toNat := by omega
  have e3 : (((⌊Int.fract x * 100⌋).toNat : Nat) : Rat) = (⌊Int.fract x * 100⌋ : Rat) := by
    have : (((⌊Int.fract x * 100⌋).toNat : Nat) : Int) = ⌊Int.fract x * 100⌋ := Int.toNat_of_nonneg hh
    exact_mod_cast congrArg (Int.cast : Int → Rat) this
  rw [e2, e1, e3]
  constructor <;> linarith

/-- The battery announcements fit into the sound queue of 16 if it is empty, for any voltage and percentage below 1000. -/
theorem C115_battery (x : Rat) (hx : 0 ≤ x) (h : x < 1000) : (sayVolts x).length ≤ 16 ∧ (sayPercent x).length ≤ 16 := by
  have hfl : 0 ≤ ⌊x⌋ := Int.floor_nonneg.2 hx
  have hf : ⌊x⌋ < 1000 := by rw [Int.floor_lt]; exact_mod_cast h
  have a := (C115_sounds ⌊x⌋.toNat).2 1 (by omega) (by rw [Nat.pow_one]; omega)
  obtain ⟨w, d1, d2, hd1, hd2, e, q1, q2⟩ := C115_decimal x hx
  have b1 : (sayWhole d1).length ≤ 1 := by
    have : ∀ d < 10, (sayWhole d).length ≤ 1 := by
      intro d hd
      unfold sayWhole
      split
      · simp
      · rw [dif_pos (by omega)]; unfold below1000; rw [if_pos (by omega)]; exact one100 d hd
    exact this d1 hd1
  have b2 : (sayWhole d2).length ≤ 1 := by
    have : ∀ d < 10, (sayWhole d).length ≤ 1 := by
      intro d hd
      unfold sayWhole
      split
      · simp
      · rw [dif_pos (by omega)]; unfold below1000; rw [if_pos (by omega)]; exact one100 d hd
    exact this d2 hd2
  have hw : w < 1000 := by
    have h0 : (0 : Rat) ≤ ((10 * d1 + d2 : Nat) : Rat) / 100 := div_nonneg (Nat.cast_nonneg _) (by norm_num)
    have : (w : Rat) < 1000 := by linarith
    exact_mod_cast this
  have c := (C115_sounds w).2 1 (by omega) (by rw [Nat.pow_one]; omega)
  constructor
  · unfold sayVolts
    rw [e]
    simp only [List.length_cons, List.length_append, List.length_nil]
    omega
  · unfold sayPercent
    simp only [List.length_cons, List.length_append, List.length_nil]
    omega

example : sayWhole 2047 = [.num 2, .thousand, .tens 40, .num 7] := by
  rw [sayWhole, if_neg (by omega), dif_neg (by omega), sayWhole, if_neg (by omega), dif_pos (by omega)]; decide
example : sayWhole 115 = [.num 1, .hundred, .num 15] := by rw [sayWhole, if_neg (by omega), dif_pos (by omega)]; decide

end Verif.Audio.Say
