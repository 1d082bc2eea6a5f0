import Verif.Store.Config

set_option linter.unusedSimpArgs false
namespace Verif.Store

/-! ### A small grammar of configuration files (specification side) -/

/-- A number as text: optional minus sign, digits, optional decimals. -/
structure Num where
  neg : Bool
  ip : List Nat
  fr : Option (List Nat)

def Num.ok (n : Num) : Prop := n.ip ≠ [] ∧ (∀ d ∈ n.ip, d < 10) ∧ ∀ f, n.fr = some f → ∀ d ∈ f, d < 10

def Num.text (n : Num) : Text :=
  (if n.neg then [45] else []) ++ n.ip.map (48 + ·) ++
    (match n.fr with | none => [] | some f => 46 :: f.map (48 + ·))

/-- the number denoted by a list of decimal digits -/
def ofDigits (l : List Nat) : Nat := l.foldl (fun a d => 10 * a + d) 0

def Num.value (n : Num) : Dec :=
  ⟨n.neg, ofDigits (n.ip ++ n.fr.getD []), (n.fr.getD []).length⟩

/-- Lines of a configuration file. `ws` = preceding white space, which may include empty lines. -/
inductive Line where
  /-- `name = number tail` -/
  | assign (ws name post mid : Text) (num : Num) (tail : Text)
  /-- `# text` -/
  | comment (ws text : Text)
  /-- a possibly empty name followed by something that is neither white space nor `=` -/
  | junk (ws name post : Text) (c : Nat) (tail : Text)
  /-- `installed = <install time> tail` -/
  | installed (ws name post mid tail : Text)

def Line.text (inst : List Nat) : Line → Text
  | .assign ws name post mid num tail => ws ++ (name ++ (post ++ 61 :: (mid ++ (num.text ++ tail)))) ++ [10]
  | .comment ws text => ws ++ (35 :: text) ++ [10]
  | .junk ws name post c tail => ws ++ (name ++ (post ++ c :: tail)) ++ [10]
  | .installed ws name post mid tail => ws ++ (name ++ (post ++ 61 :: (mid ++ (inst ++ tail)))) ++ [10]

def allWhite (t : Text) : Prop := ∀ c ∈ t, isWhite c = true
def allBlank (t : Text) : Prop := ∀ c ∈ t, isBlank c = true
def nameOk (t : Text) : Prop := t.length ≤ 32 ∧ ∀ c ∈ t, isNameChar (toLower c) = true

def Line.ok : Line → Prop
  | .assign ws name post mid num tail =>
    allWhite ws ∧ nameOk name ∧ name ≠ [] ∧ name.map toLower ≠ kEnd ∧ name.map toLower ≠ kInstalled ∧
    allBlank post ∧ allBlank mid ∧ num.ok ∧ 10 ∉ tail ∧
    (∀ c t, tail = c :: t → ¬ (48 ≤ c ∧ c ≤ 57) ∧ c ≠ 46)
  | .comment ws text => allWhite ws ∧ 10 ∉ text
  | .junk ws name post c tail =>
    allWhite ws ∧ nameOk name ∧ name.map toLower ≠ kEnd ∧ allBlank post ∧ (name ≠ [] ∨ post = []) ∧
    isWhite c = false ∧ c ≠ 61 ∧ (name = [] → c ≠ 35) ∧
    (isNameChar (toLower c) = false ∨ (name.length = 32 ∧ post = [])) ∧ 10 ∉ tail
  | .installed ws name post mid tail =>
    allWhite ws ∧ name.map toLower = kInstalled ∧ allBlank post ∧ allBlank mid ∧ 10 ∉ tail

/-- The assignment a line makes, if any. -/
def Line.assignment : Line → Option (Text × Dec)
  | .assign _ name _ _ num _ => some (name, num.value)
  | _ => none

/-! ### Reading numbers -/

theorem readFloatLoop_digits (l : List Nat) (m s : Nat) (f : Bool) (rest : Text) (h : ∀ d ∈ l, d < 10) :
    readFloatLoop m s f (l.map (48 + ·) ++ rest) =
      readFloatLoop (l.foldl (fun a d => 10 * a + d) m) (if f then s + l.length else s) f rest := by
  induction l generalizing m s with
  | nil => cases f <;> simp
  | cons d l ih =>
    have hd := h d (by simp)
    simp only [List.map_cons, List.cons_append, List.foldl_cons]
    conv => lhs; unfold readFloatLoop
    rw [if_pos (by omega)]
    have e : 48 + d - 48 = d := by omega
    rw [e]
    cases f
    · simp only [Bool.false_eq_true, if_false]
      rw [ih _ _ (fun x hx => h x (by simp [hx]))]
      simp
    · simp only [if_true]
      rw [ih _ _ (fun x hx => h x (by simp [hx]))]
      simp only [if_true, List.length_cons]
      congr 1; omega

theorem readFloatLoop_stop (m s : Nat) (f : Bool) (c : Nat) (t : Text) (h : ¬ (48 ≤ c ∧ c ≤ 57)) (h' : c ≠ 46) :
    readFloatLoop m s f (c :: t) = (m, s, c :: t) := by
  unfold readFloatLoop; simp only [h, h', if_false]

theorem readFloat_num (n : Num) (tail : Text) (c : Nat) (t : Text) (hn : n.ok) (ht : tail = c :: t)
    (h : ¬ (48 ≤ c ∧ c ≤ 57) ∧ c ≠ 46) :
    readFloatValue (n.text ++ tail) = (n.value, tail) := by
  have key' : readFloatLoop 0 0 false
      (n.ip.map (48 + ·) ++ (match n.fr with | none => [] | some f => 46 :: f.map (48 + ·)) ++ tail) =
      (n.value.mant, n.value.scale, tail) := by
    rw [List.append_assoc, readFloatLoop_digits _ _ _ _ _ hn.2.1]
    cases hf : n.fr with
    | none =>
      simp only [List.nil_append, ht, readFloatLoop_stop _ _ _ _ _ h.1 h.2]
      simp [Num.value, hf, ofDigits]
    | some f =>
      simp only [List.cons_append]
      conv => lhs; unfold readFloatLoop
      simp only [show ¬ (48 ≤ 46 ∧ 46 ≤ 57) by omega, if_false, if_true, Bool.false_eq_true]
      rw [readFloatLoop_digits _ _ _ _ _ (hn.2.2 f hf)]
      simp only [ht, readFloatLoop_stop _ _ _ _ _ h.1 h.2]
      simp [Num.value, hf, ofDigits, List.foldl_append]
  unfold readFloatValue
  cases hneg : n.neg with
  | true =>
    have : n.text ++ tail = 45 :: (n.ip.map (48 + ·) ++ (match n.fr with | none => [] | some f => 46 :: f.map (48 + ·)) ++ tail) := by
      simp [Num.text, hneg]
    rw [this]
    simp only [key']
    simp [Num.value, hneg]
  | false =>
    have : n.text ++ tail = n.ip.map (48 + ·) ++ (match n.fr with | none => [] | some f => 46 :: f.map (48 + ·)) ++ tail := by
      simp [Num.text, hneg]
    rw [this]
    split
    · rename_i t' he
      have := hn.1
      cases hip : n.ip with
      | nil => exact absurd hip this
      | cons d l =>
        rw [hip] at he
        simp at he
        omega
    · rw [key']
      simp [Num.value, hneg]

/-! ### Reading lines -/

theorem isBlank_white {c} (h : isBlank c = true) : isWhite c = true := by
  unfold isBlank at h; unfold isWhite; simp at h ⊢; rcases h with rfl | rfl <;> simp
theorem white_blank {c} (h : isWhite c = false) : isBlank c = false := by
  cases hb : isBlank c with
  | false => rfl
  | true => rw [isBlank_white hb] at h; exact h

theorem skipwhite_name (ws name t : Text) (c : Nat) (hw : allWhite ws) (hc : ∀ c ∈ name, isNameChar (toLower c) = true)
    (hx : name ≠ [] ∨ isWhite c = false) : skipwhite (ws ++ (name ++ (c :: t))) = name ++ c :: t := by
  rw [skipwhite_append _ _ hw]
  cases name with
  | nil =>
    rcases hx with h | h
    · exact absurd rfl h
    · simp [skipwhite_cons _ _ h]
  | cons d n => exact skipwhite_cons _ _ (isNameChar_not_blank d (hc d (by simp))).2.1

theorem head_name (name t : Text) (c : Nat) (hc : ∀ c ∈ name, isNameChar (toLower c) = true)
    (hx : name = [] → c ≠ 35) : (name ++ c :: t).head? ≠ some 35 := by
  cases name with
  | nil => simpa using hx rfl
  | cons d n => simpa using (isNameChar_not_blank d (hc d (by simp))).2.2.1

/-- head of `post ++ c :: t` -/
theorem split_post (post t : Text) (c : Nat) : ∃ d u, post ++ c :: t = d :: u := by
  cases post with
  | nil => exact ⟨c, t, rfl⟩
  | cons d p => exact ⟨d, p ++ c :: t, rfl⟩

theorem readLine_start (inst : List Nat) (vs : Vars) (ws name post : Text) (c : Nat) (t : Text)
    (hw : allWhite ws) (hn : nameOk name) (hp : allBlank post) (hne : name ≠ [] ∨ post = [])
    (hcw : isWhite c = false) (h35 : name = [] → c ≠ 35)
    (hc : isNameChar (toLower c) = false ∨ (name.length = 32 ∧ post = [])) :
    readLine inst vs (ws ++ (name ++ (post ++ c :: t))) =
      if name.map toLower = kEnd then .stop .ended
      else if c ≠ 61 then .next (c :: t) vs
      else if name.map toLower = kInstalled then
        if (expect inst (skipwhite t)).1 then .next (expect inst (skipwhite t)).2 vs else .stop .fail
      else .next (readFloatValue (skipwhite t)).2 (setVariable (name.map toLower) (readFloatValue (skipwhite t)).1 vs) := by
  obtain ⟨d, u, hdu⟩ := split_post post t c
  have h1 : skipwhite (ws ++ (name ++ (post ++ c :: t))) = name ++ (post ++ c :: t) := by
    rw [hdu]
    apply skipwhite_name _ _ _ _ hw hn.2
    rcases hne with h | h
    · exact Or.inl h
    · subst h; simp at hdu; right; rw [← hdu.1]; exact hcw
  have h2 : (name ++ (post ++ c :: t)).head? ≠ some 35 := by
    rw [hdu]
    apply head_name _ _ _ hn.2
    intro hname
    rcases hne with h | h
    · exact absurd hname h
    · subst h; simp at hdu; rw [← hdu.1]; exact h35 hname
  have h3 := readVariable_name [] name post c t (by simp) hn.1 hn.2 hp (white_blank hcw) hc hne
  simp only [List.nil_append] at h3
  unfold readLine
  simp only [h1, if_neg h2, h3, skipwhite_cons _ _ hcw]

theorem readLoop_next {inst vs t rest vs'} (ht : t ≠ []) (h : readLine inst vs t = .next rest vs') (hr : rest ≠ []) :
    readLoop inst vs t = readLoop inst vs' (skipline rest) := by
  conv => lhs; unfold readLoop
  rw [dif_neg ht]
  split
  · rename_i he; rw [h] at he; cases he
  · rename_i he; rw [h] at he; cases he
    rw [dif_neg hr]

theorem readLoop_stop {inst vs t s} (ht : t ≠ []) (h : readLine inst vs t = .stop s) :
    readLoop inst vs t = (s, vs) := by
  unfold readLoop
  rw [dif_neg ht]
  split
  · rename_i he; rw [h] at he; cases he; rfl
  · rename_i he; rw [h] at he; cases he

theorem expect_self (s t : List Nat) : expect s (s ++ t) = (true, t) := by
  induction s with
  | nil => cases t <;> rfl
  | cons c s ih => simp [expect, ih]

theorem num_text_head (n : Num) (hn : n.ok) (t : Text) : ∃ c u, n.text ++ t = c :: u ∧ isWhite c = false := by
  unfold Num.text
  cases n.neg with
  | true => exact ⟨45, _, rfl, by decide⟩
  | false =>
    cases hip : n.ip with
    | nil => exact absurd hip hn.1
    | cons d l =>
      refine ⟨48 + d, _, rfl, ?_⟩
      unfold isWhite; simp; omega

theorem setVariable_lower (name : Text) (x : Dec) (vs : Vars) :
    setVariable (name.map toLower) x vs = setVariable name x vs := by
  have : ∀ c, toLower (toLower c) = toLower c := by intro c; unfold toLower; split <;> (try split) <;> omega
  unfold setVariable sameName
  simp [List.map_map, Function.comp_def, this]

def Line.effect (vs : Vars) (l : Line) : Vars :=
  match l.assignment with
  | none => vs
  | some (n, x) => setVariable n x vs

theorem readLoop_line (inst : List Nat) (hi : ∃ c u, inst = c :: u ∧ isWhite c = false)
    (vs : Vars) (l : Line) (hl : l.ok) (rest : Text) :
    readLoop inst vs (l.text inst ++ rest) = readLoop inst (l.effect vs) rest := by
  cases l with
  | assign ws name post mid num tail =>
    obtain ⟨h1, h2, h3, h4, h5, h6, h7, h8, h9, h10⟩ := hl
    have e : (Line.assign ws name post mid num tail).text inst ++ rest =
        ws ++ (name ++ (post ++ 61 :: (mid ++ (num.text ++ (tail ++ 10 :: rest))))) := by
      simp [Line.text, List.append_assoc]
    have hs := readLine_start inst vs ws name post 61 (mid ++ (num.text ++ (tail ++ 10 :: rest))) h1 h2 h6
      (Or.inl h3) (by decide) (fun h => absurd h h3) (Or.inl (by decide))
    rw [if_neg h4, if_neg (by simp), if_neg h5] at hs
    have hmid : skipwhite (mid ++ (num.text ++ (tail ++ 10 :: rest))) = num.text ++ (tail ++ 10 :: rest) := by
      rw [skipwhite_append _ _ (fun c hc => isBlank_white (h7 c hc))]
      obtain ⟨c, u, hc, hw⟩ := num_text_head num h8 (tail ++ 10 :: rest)
      rw [hc]; exact skipwhite_cons _ _ hw
    have hnum : readFloatValue (num.text ++ (tail ++ 10 :: rest)) = (num.value, tail ++ 10 :: rest) := by
      cases tail with
      | nil => exact readFloat_num num _ 10 rest h8 rfl (by omega)
      | cons c t => exact readFloat_num num _ c (t ++ 10 :: rest) h8 rfl (h10 c t rfl)
    rw [hmid, hnum] at hs
    rw [e, readLoop_next (by simp) hs (by simp), skipline_append _ _ h9]
    simp only [Line.effect, Line.assignment, setVariable_lower]
  | comment ws text =>
    obtain ⟨h1, h2⟩ := hl
    have e : (Line.comment ws text).text inst ++ rest = ws ++ 35 :: (text ++ 10 :: rest) := by
      simp [Line.text, List.append_assoc]
    have hw : skipwhite (ws ++ 35 :: (text ++ 10 :: rest)) = 35 :: (text ++ 10 :: rest) := by
      rw [skipwhite_append _ _ h1]; exact skipwhite_cons _ _ (by decide)
    have hs : readLine inst vs (ws ++ 35 :: (text ++ 10 :: rest)) = .next (35 :: (text ++ 10 :: rest)) vs := by
      unfold readLine; simp [hw]
    rw [e, readLoop_next (by simp) hs (by simp), ← List.cons_append, skipline_append _ _ (by simpa using h2)]
    rfl
  | junk ws name post c tail =>
    obtain ⟨h1, h2, h3, h4, h5, h6, h7, h8, h9, h10⟩ := hl
    have e : (Line.junk ws name post c tail).text inst ++ rest = ws ++ (name ++ (post ++ c :: (tail ++ 10 :: rest))) := by
      simp [Line.text, List.append_assoc]
    have hs := readLine_start inst vs ws name post c (tail ++ 10 :: rest) h1 h2 h4 h5 h6 h8 h9
    rw [if_neg h3, if_pos h7] at hs
    have hc10 : c ≠ 10 := by rintro rfl; simp [isWhite] at h6
    rw [e, readLoop_next (by simp) hs (by simp), ← List.cons_append, skipline_append _ _ (by simp [h10, Ne.symm hc10])]
    rfl
  | installed ws name post mid tail =>
    obtain ⟨h1, h2, h3, h4, h5⟩ := hl
    have hnm : nameOk name := by
      have hl : name.length = 9 := by
        have := congrArg List.length h2
        simpa [kInstalled] using this
      refine ⟨by omega, fun c hc => ?_⟩
      have : toLower c ∈ name.map toLower := List.mem_map_of_mem hc
      rw [h2] at this
      revert this
      generalize toLower c = x
      intro hx
      simp [kInstalled] at hx
      rcases hx with h | h | h | h | h | h | h | h <;> subst h <;> decide
    have hne : name ≠ [] := by rintro rfl; simp [kInstalled] at h2
    have e : (Line.installed ws name post mid tail).text inst ++ rest =
        ws ++ (name ++ (post ++ 61 :: (mid ++ (inst ++ (tail ++ 10 :: rest))))) := by
      simp [Line.text, List.append_assoc]
    have hs := readLine_start inst vs ws name post 61 (mid ++ (inst ++ (tail ++ 10 :: rest))) h1 hnm h3
      (Or.inl hne) (by decide) (fun h => absurd h hne) (Or.inl (by decide))
    have hmid : skipwhite (mid ++ (inst ++ (tail ++ 10 :: rest))) = inst ++ (tail ++ 10 :: rest) := by
      rw [skipwhite_append _ _ (fun c hc => isBlank_white (h4 c hc))]
      obtain ⟨c, u, hc, hw⟩ := hi
      rw [hc]; exact skipwhite_cons _ _ hw
    rw [hmid, expect_self, if_neg (by rw [h2]; decide), if_neg (by simp), if_pos h2] at hs
    simp only [if_true] at hs
    rw [e, readLoop_next (by simp) hs (by simp), skipline_append _ _ h5]
    rfl

def linesText (inst : List Nat) (ls : List Line) : Text := ls.flatMap (Line.text inst)

theorem readLoop_lines (inst : List Nat) (hi : ∃ c u, inst = c :: u ∧ isWhite c = false)
    (vs : Vars) (ls : List Line) (hl : ∀ l ∈ ls, l.ok) (rest : Text) :
    readLoop inst vs (linesText inst ls ++ rest) = readLoop inst (ls.foldl Line.effect vs) rest := by
  induction ls generalizing vs with
  | nil => rfl
  | cons l ls ih =>
    simp only [linesText, List.flatMap_cons, List.append_assoc, List.foldl_cons]
    rw [readLoop_line inst hi vs l (hl l (by simp))]
    exact ih _ (fun x hx => hl x (by simp [hx]))

/-- Reading stops at an `end` line (any case, with or without `=`); `d` is the next character. -/
theorem readLoop_end (inst : List Nat) (vs : Vars) (ws name post : Text) (d : Nat) (rest : Text)
    (hw : allWhite ws) (hn : name.map toLower = kEnd) (hp : allBlank post) (hd : isBlank d = false)
    (hd' : isNameChar (toLower d) = false) :
    readLoop inst vs (ws ++ (name ++ (post ++ d :: rest))) = (.ended, vs) := by
  have hl : name.length = 3 := by
    have := congrArg List.length hn
    simpa [kEnd] using this
  have hc : ∀ c ∈ name, isNameChar (toLower c) = true := by
    intro c hc
    have : toLower c ∈ name.map toLower := List.mem_map_of_mem hc
    rw [hn] at this
    revert this
    generalize toLower c = x
    intro hx
    simp [kEnd] at hx
    rcases hx with h | h | h <;> subst h <;> decide
  have hne : name ≠ [] := by rintro rfl; simp at hl
  apply readLoop_stop (by simp)
  obtain ⟨x, u, hdu⟩ := split_post post rest d
  have h1 : skipwhite (ws ++ (name ++ (post ++ d :: rest))) = name ++ (post ++ d :: rest) := by
    rw [hdu]; exact skipwhite_name _ _ _ _ hw hc (Or.inl hne)
  have h2 : (name ++ (post ++ d :: rest)).head? ≠ some 35 := by
    rw [hdu]; exact head_name _ _ _ hc (fun h => absurd h hne)
  have h3 := readVariable_name [] name post d rest (by simp) (by omega) hc hp hd (Or.inl hd') (Or.inl hne)
  simp only [List.nil_append] at h3
  unfold readLine
  simp only [h1, if_neg h2, h3, hn, if_true]

/-- Trailing white space at the end of the file. -/
theorem readLoop_trail (inst : List Nat) (vs : Vars) (ws : Text) (hw : allWhite ws) :
    readLoop inst vs ws = (.ok, vs) := by
  unfold readLoop
  split
  · rfl
  · have h1 : skipwhite ws = [] := by
      have := skipwhite_append ws [] hw
      simpa [skipwhite] using this
    have hs : readLine inst vs ws = .next [] vs := by
      unfold readLine
      simp [h1, readVariable, readName, skipspace, skipwhite, kEnd]
    split
    · rename_i he; rw [hs] at he; cases he
    · rename_i he; rw [hs] at he; cases he; rfl

/-- Value of every variable after a sequence of lines. -/
theorem effect_value (ls : List Line) (vs : Vars) :
    ls.foldl Line.effect vs = vs.map fun v =>
      { v with value := (((ls.filterMap Line.assignment).reverse.find? fun a => sameName v.name a.1).map (·.2)).getD v.value } := by
  induction ls generalizing vs with
  | nil => simp
  | cons l ls ih =>
    rw [List.foldl_cons, ih]
    unfold Line.effect
    cases ha : l.assignment with
    | none => simp [List.filterMap_cons, ha]
    | some nx =>
      obtain ⟨n, x⟩ := nx
      simp only [List.filterMap_cons, ha, List.reverse_cons, List.find?_append, setVariable, List.map_map]
      apply List.map_congr_left
      intro v _
      simp only [Function.comp]
      by_cases hs : sameName v.name n
      · simp only [hs, if_true]
        cases hf : (List.filterMap Line.assignment ls).reverse.find? (fun a => sameName v.name a.1) with
        | none => simp [hf, hs]
        | some a => simp [hf, hs]
      · simp only [hs, Bool.false_eq_true, if_false]
        cases hf : (List.filterMap Line.assignment ls).reverse.find? (fun a => sameName v.name a.1) with
        | none => simp [hf, hs]
        | some a => simp [hf, hs]

end Verif.Store
