import Verif.Sound.ScanFile
/-!
# C40: the files an effect finds, names and chooses
-/
set_option linter.unusedSimpArgs false
namespace Verif.Sound
open Verif.Str (Text toLower startswith endswith endsLoop SameCI C10_startswith C10_endswith)
open Verif.Store (decimal digitsVal)

/-! ## No file name is read behind its end -/

/-- the last byte of a file with a known extension is a letter -/
theorem identify_last {x : Text} (h : identify x ≠ .unknown) : ∃ y c, x = y ++ [c] ∧ 57 < c ∧ 4 ≤ x.length := by
  have key : ∀ (p : Text) (d : Nat), p.length = 3 → 91 ≤ d → endswith (p ++ [d]) x = true → ∃ y c, x = y ++ [c] ∧ 57 < c ∧ 4 ≤ x.length := by
    intro p d hp hd he
    obtain ⟨a, q, hx, hq⟩ := (C10_endswith _ _).mp he
    have hl : q.length = 4 := by
      have := congrArg List.length hq
      simpa [hp] using this
    obtain ⟨q', c, hq'⟩ : ∃ q' c, q = q' ++ [c] := ⟨q.dropLast, q.getLast (by intro e; rw [e] at hl; simp at hl), (List.dropLast_concat_getLast _).symm⟩
    refine ⟨a ++ q', c, by rw [hx, hq', List.append_assoc], ?_, by rw [hx]; simp; omega⟩
    unfold SameCI at hq
    rw [hq', List.map_append, List.map_append] at hq
    have h2 := (List.append_inj' hq (by simp)).2
    simp only [List.map_cons, List.map_nil, List.cons.injEq, and_true] at h2
    unfold toLower at h2
    by_cases hc : 57 < c
    · exact hc
    · split at h2 <;> split at h2 <;> omega
  unfold identify at h
  by_cases h1 : endswith [46, 119, 97, 118] x = true
  · exact key [46, 119, 97] 118 rfl (by decide) h1
  by_cases h2 : endswith [46, 114, 97, 119] x = true
  · exact key [46, 114, 97] 119 rfl (by decide) h2
  by_cases h3 : endswith [46, 117, 115, 108] x = true
  · exact key [46, 117, 115] 108 rfl (by decide) h3
  by_cases h4 : endswith [46, 98, 109, 112] x = true
  · exact key [46, 98, 109] 112 rfl (by decide) h4
  by_cases h5 : endswith [46, 112, 98, 109] x = true
  · exact key [46, 112, 98] 109 rfl (by decide) h5
  by_cases h6 : endswith [46, 98, 105, 110] x = true
  · exact key [46, 98, 105] 110 rfl (by decide) h6
  by_cases h7 : endswith [46, 115, 99, 114] x = true
  · exact key [46, 115, 99] 114 rfl (by decide) h7
  simp [h1, h2, h3, h4, h5, h6, h7] at h

theorem charAt_last {y : Text} {c : Nat} : charAt (y ++ [c]) y.length = some c := by simp [charAt]
theorem charAt_some {s : Text} {i : Nat} (h : i ≤ s.length) : ∃ c, charAt s i = some c := by
  unfold charAt
  by_cases h1 : i < s.length
  · rw [if_pos h1]; exact ⟨s[i], List.getElem?_eq_getElem h1⟩
  · rw [if_neg h1, if_pos (by omega)]; exact ⟨0, rfl⟩

theorem not_digit {c : Nat} (h : 57 < c) : poIsDigit c = false := by simp [poIsDigit]; omega

theorem altnum_some {x : Text} (h : identify x ≠ .unknown) : ∃ a, altnum x = some a := by
  obtain ⟨y, c, rfl, hc, hl⟩ := identify_last h
  rw [List.length_append, List.length_singleton] at hl
  have hlen : (y ++ [c]).length = y.length + 1 := by simp
  unfold altnum
  cases startswith [97, 108, 116] (y ++ [c]) with
  | none => exact ⟨_, rfl⟩
  | some _ =>
    obtain ⟨c3, h3⟩ := charAt_some (s := y ++ [c]) (i := 3) (by omega)
    simp only [h3, Option.bind_eq_bind, Option.bind_some]
    by_cases d3 : poIsDigit c3 = true
    · rw [if_neg (by simp [d3])]
      by_cases l3 : y.length = 3
      · rw [← l3, charAt_last] at h3; injection h3 with h3; subst h3; rw [not_digit hc] at d3; cases d3
      obtain ⟨c4, h4⟩ := charAt_some (s := y ++ [c]) (i := 4) (by omega)
      simp only [h4, Option.bind_some]
      by_cases d4 : poIsDigit c4 = true
      · rw [if_neg (by simp [d4])]
        by_cases l4 : y.length = 4
        · rw [← l4, charAt_last] at h4; injection h4 with h4; subst h4; rw [not_digit hc] at d4; cases d4
        obtain ⟨c5, h5⟩ := charAt_some (s := y ++ [c]) (i := 5) (by omega)
        simp only [h5, Option.bind_some]
        by_cases d5 : poIsDigit c5 = true
        · rw [if_neg (by simp [d5])]
          obtain ⟨c6, h6⟩ := charAt_some (s := y ++ [c]) (i := 6) (by omega)
          simp only [h6, Option.bind_some]
          split <;> exact ⟨_, rfl⟩
        · rw [if_pos (by simp [d5])]; exact ⟨_, rfl⟩
      · rw [if_pos (by simp [d4])]; exact ⟨_, rfl⟩
    · rw [if_pos (by simp [d3])]; exact ⟨_, rfl⟩

theorem scanSub_some (e : Eff) (p : Pattern) {rest y : Text} {c : Nat} (hr : rest = [] ∨ rest = y ++ [c]) (hc : 57 < c) : ∃ q, scanSub e p rest = some q := by
  unfold scanSub
  split
  · rename_i h
    rcases hr with rfl | rfl
    · simp at h
    have hlen : (y ++ [c]).length = y.length + 1 := by simp
    by_cases l0 : y.length = 0
    · have : y = [] := List.length_eq_zero_iff.mp l0
      subst this
      simp at h; omega
    obtain ⟨c1, h1⟩ := charAt_some (s := y ++ [c]) (i := 1) (by omega)
    simp only [h1, Option.bind_eq_bind, Option.bind_some]
    by_cases d1 : poIsDigit c1 = true
    · rw [if_neg (by simp [d1])]
      by_cases l1 : y.length = 1
      · rw [← l1, charAt_last] at h1; injection h1 with h1; subst h1; rw [not_digit hc] at d1; cases d1
      obtain ⟨c2, h2⟩ := charAt_some (s := y ++ [c]) (i := 2) (by omega)
      simp only [h2, Option.bind_some]
      by_cases d2 : poIsDigit c2 = true
      · rw [if_neg (by simp [d2])]
        by_cases l2 : y.length = 2
        · rw [← l2, charAt_last] at h2; injection h2 with h2; subst h2; rw [not_digit hc] at d2; cases d2
        obtain ⟨c3, h3⟩ := charAt_some (s := y ++ [c]) (i := 3) (by omega)
        simp only [h3, Option.bind_some]
        by_cases d3 : poIsDigit c3 = true
        · rw [if_neg (by simp [d3]), if_neg (by omega)]; exact ⟨_, rfl⟩
        · rw [if_pos (by simp [d3])]; exact ⟨_, rfl⟩
      · rw [if_pos (by simp [d2])]; exact ⟨_, rfl⟩
    · rw [if_pos (by simp [d1])]; exact ⟨_, rfl⟩
  · exact ⟨_, rfl⟩

theorem skipSign_suffix (s : Text) : skipSign s <:+ s := by
  unfold skipSign
  split
  · exact List.suffix_cons ..
  · exact List.suffix_cons ..
  · exact List.suffix_refl _

theorem strtolEnd_suffix (s : Text) : (strtolEnd s).2 <:+ s := by
  unfold strtolEnd
  simp only
  split
  · exact List.suffix_refl _
  · exact (List.dropWhile_suffix _).trans ((skipSign_suffix _).trans (List.dropWhile_suffix _))

theorem startswith_suffix {p x r : Text} (h : startswith p x = some r) : r <:+ x := by
  obtain ⟨q, rfl, _⟩ := (C10_startswith p x r).mp h
  exact ⟨q, rfl⟩

theorem suffix_last {s y : Text} {c : Nat} (h : s <:+ y ++ [c]) : s = [] ∨ ∃ z, s = z ++ [c] := by
  rcases List.eq_nil_or_concat s with rfl | ⟨z, d, rfl⟩
  · exact Or.inl rfl
  · right
    obtain ⟨t, ht⟩ := h
    rw [List.concat_eq_append] at ht ⊢
    rw [← List.append_assoc] at ht
    have := (List.append_inj' ht rfl).2
    simp only [List.cons.injEq, and_true] at this
    exact ⟨z, by rw [this]⟩

theorem scanName_suffix {n x : Text} {p : Pattern} {r : Text} (h : scanName n x = some (p, r)) : r <:+ x := by
  unfold scanName at h
  split at h
  · cases h
  · rename_i rest hs
    have h0 := startswith_suffix hs
    split at h
    · split at h
      · rename_i tmp ht
        simp only [Option.some.injEq, Prod.mk.injEq] at h
        rw [← h.2]
        exact (startswith_suffix ht).trans ((List.drop_suffix _ _).trans h0)
      · simp only [Option.some.injEq, Prod.mk.injEq] at h
        rw [← h.2]
        exact (List.drop_suffix _ _).trans h0
    · simp only [Option.some.injEq, Prod.mk.injEq] at h
      rw [← h.2]; exact h0

theorem scanNumber_suffix {e : Eff} {rest : Text} {e' : Eff} {r : Text} (h : scanNumber e rest = (e', some r)) : r <:+ rest := by
  unfold scanNumber at h
  split at h
  · simp only [Prod.mk.injEq, Option.some.injEq] at h; rw [← h.2]; exact List.suffix_refl _
  · simp only at h
    split at h
    · simp at h
    · simp only [Prod.mk.injEq, Option.some.injEq] at h; rw [← h.2]; exact strtolEnd_suffix _

/-- C40: no file name, however short or odd, makes the scanner read behind its end -/
theorem C40_no_overrun (name : Text) (ftype : FType) (e : Eff) (dir : Nat) (file : Text) : ∃ e', scanAll name ftype e dir file = some e' := by
  unfold scanAll
  by_cases hi : identify file = .unknown
  · rw [if_pos hi]; exact ⟨_, rfl⟩
  rw [if_neg hi]
  split
  · exact ⟨_, rfl⟩
  obtain ⟨a, ha⟩ := altnum_some hi
  obtain ⟨y, c, hy, hc, _⟩ := identify_last hi
  suffices ∃ q, scan name ftype e file = some q by
    obtain ⟨q, hq⟩ := this
    rw [hq]; exact ⟨_, rfl⟩
  unfold scan
  rw [ha]
  simp only [Option.bind_eq_bind, Option.bind_some]
  obtain ⟨file', hf'⟩ : ∃ file', file' = (if a ≠ -1 then file.drop 7 else file) := ⟨_, rfl⟩
  rw [← hf']
  have hsuf : file' <:+ file := by
    rw [hf']; split
    · exact List.drop_suffix _ _
    · exact List.suffix_refl _
  cases hn : scanName name file' with
  | none => exact ⟨_, rfl⟩
  | some pr =>
    obtain ⟨p, rest⟩ := pr
    simp only
    unfold scanRest
    simp only
    split
    · exact ⟨_, rfl⟩
    split
    · exact ⟨_, rfl⟩
    split
    · exact ⟨_, rfl⟩
    · rename_i e' r hr
      have hs := (scanNumber_suffix hr).trans ((scanName_suffix hn).trans hsuf)
      rw [hy] at hs
      have : ∃ q, scanSub e' p r = some q := by
        rcases suffix_last hs with h | ⟨z, h⟩
        · exact scanSub_some (y := []) (c := 100) _ _ (Or.inl h) (by decide)
        · exact scanSub_some _ _ (Or.inr h) hc
      obtain ⟨q, hq⟩ := this
      rw [hq]
      show ∃ q', (if q.2.head? ≠ some 46 then _ else _) = some q'
      split
      · exact ⟨_, rfl⟩
      · split <;> exact ⟨_, rfl⟩

end Verif.Sound
