import Verif.Store.Preset

set_option linter.unusedSimpArgs false
namespace Verif.Store

/-- A value that can be stored: no NUL character, no leading blank. -/
def valueOk (v : Text) : Prop := 0 ∉ v ∧ v.head? ≠ some 32

/-- A preset that can be stored by a saber with `nb` blades. -/
structure Preset.ok (nb : Nat) (p : Preset) : Prop where
  font : valueOk p.font
  track : valueOk p.track
  name : valueOk p.name
  styles : ∀ s ∈ p.styles, valueOk s
  count : p.styles.length = nb
  variation : p.variation < 4294967296

theorem cstr_id (v : Text) (h : 0 ∉ v) : cstr v = v := by
  unfold cstr
  induction v with
  | nil => rfl
  | cons c v ih =>
    simp only [List.mem_cons, not_or] at h
    have hc : c ≠ 0 := fun e => h.1 e.symm
    simpa [List.takeWhile_cons, hc] using ih h.2

theorem presetLoop_next {cnt cs p t cnt' cs' p' rest} (ht : t ≠ []) (h : presetLine cnt cs p t = .next cnt' cs' p' rest)
    (hr : rest ≠ []) : presetLoop cnt cs p t = presetLoop cnt' cs' p' (skipline rest) := by
  conv => lhs; unfold presetLoop
  rw [dif_neg ht]
  split
  · rename_i he; rw [h] at he; cases he
  · rename_i he; rw [h] at he; cases he
  · rename_i he; rw [h] at he; cases he; rw [dif_neg hr]

theorem presetLoop_stop {cnt cs p t ok rest} (ht : t ≠ []) (h : presetLine cnt cs p t = .stop ok rest) :
    presetLoop cnt cs p t = some (ok, p, rest) := by
  unfold presetLoop
  rw [dif_neg ht]
  split
  · rename_i he; rw [h] at he; cases he
  · rename_i he; rw [h] at he; cases he; rfl
  · rename_i he; rw [h] at he; cases he

theorem skipspace_field (v rest : Text) (h : valueOk v) :
    skipspace (escape v ++ 10 :: rest) = escape v ++ 10 :: rest := by
  rw [skipspace_escape]
  cases v with
  | nil => rfl
  | cons c v =>
    have : (c == 32) = false := by simpa using h.2
    simp [List.dropWhile_cons, this]

/-- lower-case keyword -/
def keyOk (k : Text) : Prop :=
  k.length ≤ 32 ∧ k ≠ [] ∧ (∀ c ∈ k, isNameChar (toLower c) = true) ∧ k.map toLower = k

theorem readVariable_key (k : Text) (d : Nat) (rest : Text) (hk : keyOk k) (hd : isBlank d = false)
    (hd' : isNameChar (toLower d) = false) : readVariable (k ++ d :: rest) = (k, d :: rest) := by
  have := readVariable_name [] k [] d rest (by simp) hk.1 hk.2.2.1 (by simp) hd (Or.inl hd') (Or.inl hk.2.1)
  simpa [hk.2.2.2] using this

theorem key_head (k : Text) (t : Text) (hk : keyOk k) :
    skipspace (k ++ t) = k ++ t ∧ (k ++ t).head? ≠ some 35 := by
  cases k with
  | nil => exact absurd rfl hk.2.1
  | cons c k =>
    have := isNameChar_not_blank c (hk.2.2.1 c (by simp))
    exact ⟨skipspace_cons _ _ this.1, by simpa using this.2.2.1⟩

/-- A `key=value` line of a preset. -/
theorem presetLoop_field (cs : Nat) (p : Preset) (k v rest : Text) (hk : keyOk k) (hf : isField k = true)
    (hv : valueOk v) (cs' : Nat) (p' : Preset) (hs : setField k v cs p = some (cs', p')) :
    presetLoop 1 cs p (writeKeyValue k v ++ rest) = presetLoop 1 cs' p' rest := by
  have hne : k ≠ kNew ∧ k ≠ kEnd3 := by
    constructor <;> (rintro rfl; exact absurd hf (by decide))
  have e : writeKeyValue k v ++ rest = k ++ 61 :: (escape v ++ 10 :: rest) := by simp [writeKeyValue]
  rw [e]
  obtain ⟨h1, h2⟩ := key_head k (61 :: (escape v ++ 10 :: rest)) hk
  have h3 := readVariable_key k 61 (escape v ++ 10 :: rest) hk (by decide) (by decide)
  have hl : presetLine 1 cs p (k ++ 61 :: (escape v ++ 10 :: rest)) = .next 1 cs' p' (10 :: rest) := by
    unfold presetLine
    simp only [h1, if_neg h2, h3, if_neg hk.2.1, if_neg hne.1, if_neg hne.2, hf, if_true]
    simp only [skipspace_field v rest hv, readString_escape, cstr_id v hv.1, hs]
    simp
  rw [presetLoop_next (by simp) hl (by simp)]
  simp [skipline]

theorem presetLoop_new (cs : Nat) (p : Preset) (rest : Text) :
    presetLoop 0 cs p (kNew ++ 10 :: rest) = presetLoop 1 cs p rest := by
  have hk : keyOk kNew := ⟨by decide, by decide, by decide, by decide⟩
  obtain ⟨h1, h2⟩ := key_head kNew (10 :: rest) hk
  have h3 := readVariable_key kNew 10 rest hk (by decide) (by decide)
  have hl : presetLine 0 cs p (kNew ++ 10 :: rest) = .next 1 cs p (10 :: rest) := by
    unfold presetLine
    simp only [h1, if_neg h2, h3, if_neg hk.2.1, if_true]
    simp
  rw [presetLoop_next (by simp) hl (by simp)]
  simp [skipline]

theorem presetLoop_new2 (cs : Nat) (p : Preset) (rest : Text) :
    presetLoop 1 cs p (kNew ++ 10 :: rest) = some (true, p, kNew ++ 10 :: rest) := by
  have hk : keyOk kNew := ⟨by decide, by decide, by decide, by decide⟩
  obtain ⟨h1, h2⟩ := key_head kNew (10 :: rest) hk
  have h3 := readVariable_key kNew 10 rest hk (by decide) (by decide)
  apply presetLoop_stop (by simp)
  unfold presetLine
  simp only [h1, if_neg h2, h3, if_neg hk.2.1, if_true]

theorem presetLoop_end (cnt cs : Nat) (p : Preset) (rest : Text) :
    presetLoop cnt cs p (kEnd3 ++ 10 :: rest) = some (cnt == 1, p, kEnd3 ++ 10 :: rest) := by
  have hk : keyOk kEnd3 := ⟨by decide, by decide, by decide, by decide⟩
  obtain ⟨h1, h2⟩ := key_head kEnd3 (10 :: rest) hk
  have h3 := readVariable_key kEnd3 10 rest hk (by decide) (by decide)
  apply presetLoop_stop (by simp)
  unfold presetLine
  simp only [h1, if_neg h2, h3, if_neg hk.2.1, if_true]
  have : kEnd3 ≠ kNew := by decide
  simp [this]

theorem presetLoop_installed (p : Preset) (inst rest : Text) :
    presetLoop 0 0 p (writeKeyValue kInst inst ++ rest) = presetLoop 0 0 p rest := by
  have hk : keyOk kInst := ⟨by decide, by decide, by decide, by decide⟩
  have e : writeKeyValue kInst inst ++ rest = kInst ++ 61 :: (escape inst ++ 10 :: rest) := by simp [writeKeyValue]
  rw [e]
  obtain ⟨h1, h2⟩ := key_head kInst (61 :: (escape inst ++ 10 :: rest)) hk
  have h3 := readVariable_key kInst 61 (escape inst ++ 10 :: rest) hk (by decide) (by decide)
  have hl : presetLine 0 0 p (kInst ++ 61 :: (escape inst ++ 10 :: rest)) = .next 0 0 p (61 :: (escape inst ++ 10 :: rest)) := by
    unfold presetLine
    have n1 : kInst ≠ kNew := by decide
    have n2 : kInst ≠ kEnd3 := by decide
    simp only [h1, if_neg h2, h3, if_neg hk.2.1, if_neg n1, if_neg n2, if_true]
  rw [presetLoop_next (by simp) hl (by simp)]
  have := skipline_append (61 :: escape inst) rest (by have := escape_no_newline inst; simp [this])
  rw [List.cons_append] at this
  rw [this]

theorem presetLoop_styles (ss : List Text) (hs : ∀ s ∈ ss, valueOk s) (done : List Text) (p : Preset)
    (rest old : List Text) (tail : Text) (ho : old.length = ss.length) (hp : p.styles = done ++ old ++ rest) :
    presetLoop 1 done.length p (ss.flatMap (fun s => writeKeyValue kStyle s) ++ tail) =
      presetLoop 1 (done.length + ss.length) { p with styles := done ++ ss ++ rest } tail := by
  induction ss generalizing done p old with
  | nil =>
    have : old = [] := List.length_eq_zero_iff.1 (by simpa using ho)
    subst this
    simp at hp ⊢
    rw [← hp]
  | cons s ss ih =>
    cases old with
    | nil => simp at ho
    | cons o old =>
      have hf := presetLoop_field done.length p kStyle s
        (ss.flatMap (fun s => writeKeyValue kStyle s) ++ tail)
        ⟨by decide, by decide, by decide, by decide⟩ (by decide) (hs s (by simp)) (done.length + 1)
        { p with styles := (done ++ [s]) ++ old ++ rest } (by
          have hlt : done.length < p.styles.length := by rw [hp]; simp
          have c1 : kStyle ≠ kName := by decide
          have c2 : kStyle ≠ kFont := by decide
          have c3 : kStyle ≠ kTrack := by decide
          have c4 : kStyle ≠ kVariation := by decide
          unfold setField
          rw [if_neg c1, if_neg c2, if_neg c3, if_neg c4, if_pos rfl, if_pos hlt, hp]
          simp)
      rw [List.flatMap_cons, List.append_assoc, hf]
      have := ih (fun x hx => hs x (by simp [hx])) (done ++ [s]) { p with styles := (done ++ [s]) ++ old ++ rest } old
        (by simpa using ho) rfl
      simp only [List.length_append, List.length_singleton] at this
      rw [this]
      simp only [List.append_assoc, List.singleton_append, List.length_cons]
      congr 1
      omega

/-! ### Variation number -/

theorem digitsVal_decimal (n acc : Nat) : digitsVal acc (decimal n) = acc * 10 ^ (decimal n).length + n := by
  have gen : ∀ (n acc : Nat) (rest : Text), digitsVal acc (decimal n ++ rest) =
      digitsVal (acc * 10 ^ (decimal n).length + n) rest := by
    intro n
    fun_induction decimal n with
    | case1 n h =>
      intro acc rest
      have : 48 + n ≤ 57 := by omega
      simp [digitsVal, this]; congr 1; omega
    | case2 n h ih =>
      intro acc rest
      rw [List.append_assoc, ih]
      have : n % 10 < 10 := Nat.mod_lt _ (by decide)
      have h2 : 48 + n % 10 ≤ 57 := by omega
      simp only [List.singleton_append, digitsVal]
      rw [if_pos ⟨by omega, h2⟩]
      congr 1
      simp only [List.length_append, List.length_singleton, Nat.pow_succ]
      have h3 : acc * (10 ^ (decimal (n / 10)).length * 10) = 10 * (acc * 10 ^ (decimal (n / 10)).length) := by
        rw [← Nat.mul_assoc, Nat.mul_comm]
      rw [h3, Nat.add_sub_cancel_left]
      omega
  have := gen n acc []
  simpa [digitsVal] using this

theorem strtol_itoa (i : Int) (h1 : -2147483648 ≤ i) (h2 : i ≤ 2147483647) : strtol (itoa i) = i := by
  have hd : ∀ c t, decimal i.natAbs = c :: t → 48 ≤ c ∧ c ≤ 57 := by
    intro c t e; exact decimal_digits i.natAbs c (by rw [e]; simp)
  obtain ⟨c, t, e, hc⟩ := decimal_head i.natAbs
  have hv := digitsVal_decimal i.natAbs 0
  rw [Nat.zero_mul, Nat.zero_add] at hv
  unfold strtol itoa
  by_cases hn : i < 0
  · simp only [if_pos hn]
    have hw : (45 :: decimal i.natAbs).dropWhile (fun c => c == 32 || (9 ≤ c && c ≤ 13)) = 45 :: decimal i.natAbs := by
      simp [List.dropWhile_cons]
    simp only [hw, hv]
    omega
  · simp only [if_neg hn]
    have hw : (decimal i.natAbs).dropWhile (fun c => c == 32 || (9 ≤ c && c ≤ 13)) = decimal i.natAbs := by
      rw [e, List.dropWhile_cons]
      have : ¬ ((c == 32 || (decide (9 ≤ c) && decide (c ≤ 13))) = true) := by simp; omega
      simp only [this]; simp
    simp only [hw]
    split
    · rename_i t' he; rw [e] at he; injection he with h _; omega
    · rename_i t' he; rw [e] at he; injection he with h _; omega
    · rw [hv]; omega

theorem variation_roundtrip (n : Nat) (h : n < 4294967296) : toU32 (strtol (itoa (ofU32 n))) = n := by
  have h1 : -2147483648 ≤ ofU32 n ∧ ofU32 n ≤ 2147483647 := by unfold ofU32; split <;> omega
  rw [strtol_itoa _ h1.1 h1.2]
  unfold toU32 ofU32; split <;> omega

theorem itoa_valueOk (i : Int) : valueOk (itoa i) := by
  obtain ⟨c, t, e, hc⟩ := decimal_head i.natAbs
  have hd := decimal_digits i.natAbs
  unfold valueOk itoa
  split
  · refine ⟨?_, by simp⟩
    simp only [List.mem_cons, not_or]
    exact ⟨by decide, fun h => by have := hd 0 h; omega⟩
  · refine ⟨fun h => by have := hd 0 h; omega, ?_⟩
    rw [e]; simp; omega

/-! ### A whole preset -/

/-- What may follow a preset in the file: another preset or the `end` line. -/
def follows (t : Text) : Prop := (∃ u, t = kNew ++ 10 :: u) ∨ ∃ u, t = kEnd3 ++ 10 :: u

/-- Everything up to the line with the variation. -/
def presetHead (p : Preset) : Text :=
  kNew ++ 10 :: (writeKeyValue kFont p.font ++ (writeKeyValue kTrack p.track ++
    (p.styles.flatMap (fun s => writeKeyValue kStyle s) ++ writeKeyValue kName p.name)))

theorem presetText_head (p : Preset) : presetText p = presetHead p ++ writeKeyValue kVariation (itoa (ofU32 p.variation)) := by
  simp [presetText, presetHead]

theorem readPreset_head (nb : Nat) (old p : Preset) (rest : Text) (ho : old.styles.length = nb) (hp : p.ok nb) :
    readPreset old (presetHead p ++ rest) = presetLoop 1 (0 + p.styles.length) { p with variation := old.variation } rest := by
  unfold readPreset presetHead
  simp only [List.append_assoc, List.cons_append]
  rw [presetLoop_new]
  rw [presetLoop_field 0 old kFont p.font _ ⟨by decide, by decide, by decide, by decide⟩ (by decide) hp.font 0
    { old with font := p.font } (by
      have c1 : kFont ≠ kName := by decide
      unfold setField; rw [if_neg c1, if_pos rfl])]
  rw [presetLoop_field 0 _ kTrack p.track _ ⟨by decide, by decide, by decide, by decide⟩ (by decide) hp.track 0
    { old with font := p.font, track := p.track } (by
      have c1 : kTrack ≠ kName := by decide
      have c2 : kTrack ≠ kFont := by decide
      unfold setField; rw [if_neg c1, if_neg c2, if_pos rfl])]
  have hst := presetLoop_styles p.styles hp.styles [] { old with font := p.font, track := p.track } [] old.styles
    (writeKeyValue kName p.name ++ rest) (by rw [ho, hp.count]) (by simp)
  simp only [List.length_nil] at hst
  rw [hst]
  rw [presetLoop_field _ _ kName p.name _ ⟨by decide, by decide, by decide, by decide⟩ (by decide) hp.name
    (0 + p.styles.length) { p with variation := old.variation } (by
      unfold setField; rw [if_pos rfl]; simp)]

theorem setField_variation (cs : Nat) (p : Preset) (v : Nat) (h : p.variation < 4294967296) :
    setField kVariation (itoa (ofU32 p.variation)) cs { p with variation := v } = some (cs, p) := by
  have c1 : kVariation ≠ kName := by decide
  have c2 : kVariation ≠ kFont := by decide
  have c3 : kVariation ≠ kTrack := by decide
  unfold setField; rw [if_neg c1, if_neg c2, if_neg c3, if_pos rfl, variation_roundtrip _ h]

theorem readPreset_text (nb : Nat) (old p : Preset) (rest : Text) (ho : old.styles.length = nb) (hp : p.ok nb)
    (hr : follows rest) : readPreset old (presetText p ++ rest) = some (true, p, rest) := by
  rw [presetText_head, List.append_assoc, readPreset_head nb old p _ ho hp]
  rw [presetLoop_field _ _ kVariation (itoa (ofU32 p.variation)) _ ⟨by decide, by decide, by decide, by decide⟩ (by decide)
    (itoa_valueOk _) (0 + p.styles.length) p (setField_variation _ p _ hp.variation)]
  rcases hr with ⟨u, rfl⟩ | ⟨u, rfl⟩
  · rw [presetLoop_new2]
  · rw [presetLoop_end]; rfl

theorem presetLoop_nil (cs : Nat) (p : Preset) : presetLoop 1 cs p [] = some (true, p, []) := by
  unfold presetLoop; simp

theorem readString_eof (v : Text) : readString (escape v) = (v, []) := by
  induction v with
  | nil => rfl
  | cons c v ih =>
    rw [escape_cons]
    unfold escapeChar
    split
    · simp [readString, unescape, ih, *]
    split
    · simp [readString, unescape, ih, *]
    split
    · simp [readString, unescape, ih, *]
    · simp only [List.cons_append, List.nil_append]
      unfold readString; simp [ih, *]

theorem skipspace_escape_eof (v : Text) (h : valueOk v) : skipspace (escape v) = escape v := by
  cases v with
  | nil => rfl
  | cons c v =>
    have hc : c ≠ 32 := by simpa using h.2
    rw [escape_cons]
    unfold escapeChar
    repeat' split
    all_goals simp [skipspace, isBlank, hc, *]

/-- A `key=value` line at the end of the file, without newline. -/
theorem presetLoop_field_eof (cs : Nat) (p : Preset) (k v : Text) (hk : keyOk k) (hf : isField k = true)
    (hv : valueOk v) (cs' : Nat) (p' : Preset) (hs : setField k v cs p = some (cs', p')) :
    presetLoop 1 cs p (k ++ 61 :: escape v) = some (true, p', []) := by
  have hne : k ≠ kNew ∧ k ≠ kEnd3 := by
    constructor <;> (rintro rfl; exact absurd hf (by decide))
  obtain ⟨h1, h2⟩ := key_head k (61 :: escape v) hk
  have h3 := readVariable_key k 61 (escape v) hk (by decide) (by decide)
  have hl : presetLine 1 cs p (k ++ 61 :: escape v) = .next 1 cs' p' [] := by
    unfold presetLine
    simp only [h1, if_neg h2, h3, if_neg hk.2.1, if_neg hne.1, if_neg hne.2, hf, if_true]
    simp only [skipspace_escape_eof v hv, readString_eof, cstr_id v hv.1, hs]
    simp
  conv => lhs; unfold presetLoop
  rw [dif_neg (by simp)]
  split
  · rename_i he; rw [hl] at he; cases he
  · rename_i he; rw [hl] at he; cases he
  · rename_i he; rw [hl] at he; cases he; rfl

theorem readPreset_end (old : Preset) (u : Text) :
    readPreset old (kEnd3 ++ 10 :: u) = some (false, old, kEnd3 ++ 10 :: u) := by
  unfold readPreset; rw [presetLoop_end]; rfl

theorem readPreset_installed (old : Preset) (inst rest : Text) :
    readPreset old (writeKeyValue kInst inst ++ rest) = readPreset old rest := by
  unfold readPreset; rw [presetLoop_installed]

/-- The text of a list of presets followed by the `end` line. -/
def presetsText (ps : List Preset) (u : Text) : Text := ps.flatMap presetText ++ (kEnd3 ++ 10 :: u)

theorem presetsText_cons (p : Preset) (ps : List Preset) (u : Text) :
    presetsText (p :: ps) u = presetText p ++ presetsText ps u := by simp [presetsText]

theorem follows_presets (ps : List Preset) (u : Text) : follows (presetsText ps u) := by
  cases ps with
  | nil => exact Or.inr ⟨u, rfl⟩
  | cons p ps =>
    left
    rw [presetsText_cons]
    exact ⟨_, by unfold presetText; rw [List.append_assoc, List.cons_append]⟩

end Verif.Store
