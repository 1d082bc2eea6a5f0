/-!
# Byte arrays made at compile time (C146)

Model of common/bytearray.h: numbers and strings as types.  A type that does not exist (the program does not compile) is `none`.
-/
namespace Verif.Str.ByteArray

/-- `ConcatByteArrays`, common/bytearray.h:24-35: the first two are joined, then the rest. -/
def concat : List (List Nat) → List Nat
  | [] => []
  | [a] => a
  | a :: b :: rest => concat ((a ++ b) :: rest)
termination_by l => l.length

/-- `NumberToByteArray`, common/bytearray.h:38-52 -/
def number (n : Nat) : List Nat :=
  if n = 0 then [48]
  else if 10 ≤ n then concat [number (n / 10), [48 + n % 10]]
  else concat [[], [48 + n % 10]]
termination_by n
decreasing_by omega

/-- `StripZeroHelper`, common/bytearray.h:55-58: there is none for the empty array. -/
def strip : List Nat → Option (List Nat)
  | [] => none
  | 0 :: _ => some []
  | a :: l => (strip l).map fun r => concat [[a], r]

/-- `index_string`, common/bytearray.h:60-64 -/
def index (s : List Nat) (i : Nat) : Nat := if i ≥ s.length then 0 else s.getD i 0

/-- `STRTYPE`, common/bytearray.h:69-91 -/
def strtype (s : List Nat) : Option (List Nat) := strip ((List.range 21).map (index s))

/-! ## Lemmas -/

theorem concat_two (a b : List Nat) : concat [a, b] = a ++ b := by simp [concat]

theorem strip_cons (a : Nat) (l : List Nat) (h : a ≠ 0) : strip (a :: l) = (strip l).map (a :: ·) := by
  cases a with
  | zero => exact absurd rfl h
  | succ a => simp [strip, concat]

theorem strip_append (s l : List Nat) (h : ∀ c ∈ s, c ≠ 0) : strip (s ++ 0 :: l) = some s := by
  induction s with
  | nil => rfl
  | cons a s ih =>
    rw [List.cons_append, strip_cons _ _ (h a (by simp)), ih fun c hc => h c (by simp [hc])]
    rfl

theorem strip_none (s : List Nat) (h : ∀ c ∈ s, c ≠ 0) : strip s = none := by
  induction s with
  | nil => rfl
  | cons a s ih => rw [strip_cons _ _ (h a (by simp)), ih fun c hc => h c (by simp [hc])]; rfl

theorem index_map (s : List Nat) (n : Nat) (h : s.length ≤ n) : (List.range n).map (index s) = s ++ List.replicate (n - s.length) 0 := by
  apply List.ext_getElem
  · simp; omega
  · intro i h1 h2
    simp only [List.getElem_map, List.getElem_range, index]
    by_cases hi : i < s.length
    · rw [if_neg (by omega), List.getElem_append_left hi]; simp [hi]
    · rw [if_pos (by omega), List.getElem_append_right (by omega)]; simp

theorem index_take (s : List Nat) (n : Nat) (h : n ≤ s.length) : (List.range n).map (index s) = s.take n := by
  apply List.ext_getElem
  · simp; omega
  · intro i h1 h2
    simp at h1
    simp only [List.getElem_map, List.getElem_range, index, List.getElem_take]
    rw [if_neg (by omega)]; simp [show i < s.length by omega]

/-! ## Specification -/

/-- the number written in decimal digits -/
def value (l : List Nat) : Nat := l.foldl (fun v c => v * 10 + (c - 48)) 0

/-! ## Claims -/

/-- **C146.** Arrays are joined one after another, any number of them. -/
theorem C146_concat (l : List (List Nat)) : concat l = l.flatten := by
  match l with
  | [] => simp [concat]
  | [a] => simp [concat]
  | a :: b :: rest =>
    rw [concat, C146_concat ((a ++ b) :: rest)]
    simp
termination_by l.length

/-- **C146.** Every number is made of decimal digits that read as that number, with no zero in front. -/
theorem C146_number (n : Nat) :
    value (number n) = n ∧ (∀ c ∈ number n, 48 ≤ c ∧ c ≤ 57) ∧ (0 < n → ∃ c l, number n = c :: l ∧ c ≠ 48) ∧ number 0 = [48] := by
  have h0 : number 0 = [48] := by rw [number]; rfl
  by_cases hn : n = 0
  · subst hn; rw [h0]; exact ⟨rfl, by decide, fun h => absurd h (by omega), rfl⟩
  · rw [number, if_neg hn]
    by_cases h10 : 10 ≤ n
    · rw [if_pos h10, concat_two]
      obtain ⟨ih1, ih2, ih3, _⟩ := C146_number (n / 10)
      refine ⟨?_, ?_, fun _ => ?_, h0⟩
      · unfold value at ih1 ⊢
        rw [List.foldl_append, ih1]
        simp; omega
      · intro c hc
        rcases List.mem_append.mp hc with hc | hc
        · exact ih2 c hc
        · simp at hc; omega
      · obtain ⟨c, l, hl, hc⟩ := ih3 (by omega)
        exact ⟨c, l ++ [48 + n % 10], by rw [hl]; rfl, hc⟩
    · rw [if_neg h10, concat_two]
      refine ⟨?_, ?_, fun _ => ⟨48 + n % 10, [], rfl, by omega⟩, h0⟩
      · simp [value]; omega
      · intro c hc; simp at hc; omega
termination_by n
decreasing_by omega

/-- **C146.** Different numbers have different arrays. -/
theorem C146_number_inj (m n : Nat) (h : number m = number n) : m = n := by
  rw [← (C146_number m).1, h, (C146_number n).1]

/-- **C146.** A string of up to twenty characters is kept as it is; one of more does not compile, so none is ever cut off. -/
theorem C146_string (s : List Nat) (h : ∀ c ∈ s, c ≠ 0) : strtype s = if s.length ≤ 20 then some s else none := by
  unfold strtype
  split
  next hl =>
    rw [index_map s 21 (by omega)]
    obtain ⟨k, hk⟩ : ∃ k, 21 - s.length = k + 1 := ⟨20 - s.length, by omega⟩
    rw [hk, List.replicate_succ]
    exact strip_append s _ h
  next hl =>
    rw [index_take s 21 (by omega)]
    exact strip_none _ fun c hc => h c (List.mem_of_mem_take hc)

/-- **C146.** Counterexample: a string with a zero byte within its first twenty is cut off there. -/
theorem C146_zero_counterexample (s t : List Nat) (h : ∀ c ∈ s, c ≠ 0) (hl : (s ++ 0 :: t).length ≤ 21) : strtype (s ++ 0 :: t) = some s := by
  unfold strtype
  rw [index_map _ 21 hl, List.append_assoc, List.cons_append]
  exact strip_append s _ h

/-- The claims apply. -/
example : number 1024 = [49, 48, 50, 52] ∧ strtype [102, 111, 111] = some [102, 111, 111] ∧ (∀ c ∈ [102, 111, 111], c ≠ 0) ∧
    strtype [] = some [] ∧ ([102] ++ 0 :: [111]).length ≤ 21 := by
  refine ⟨?_, by rw [C146_string _ (by decide)]; rfl, by decide, by rw [C146_string _ (by decide)]; rfl, by decide⟩
  simp [number, concat]

end Verif.Str.ByteArray
