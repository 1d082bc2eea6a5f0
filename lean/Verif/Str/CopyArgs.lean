import Verif.Str.StyleArgsProps
/-!
# C59: copying arguments between style strings
-/
set_option linter.unusedSimpArgs false
namespace Verif.Str

/-- number of words in the identifier of a style string with words `ws` -/
def idWords (ws : List Text) : Nat := if ws.head? = some builtinWord then 3 else 1

theorem builtin_isWord : IsWord builtinWord := by simp [IsWord, builtinWord]

theorem afterIdentifier_eq {s ws} (h : Words s ws) : afterIdentifier s = shift (idWords ws) s := by
  unfold afterIdentifier idWords
  by_cases hb : firstWord s builtinWord = true
  · rw [if_pos hb, if_pos ((C10_first_word h builtin_isWord).1 hb)]
    rfl
  · rw [if_neg hb, if_neg (fun e => hb ((C10_first_word h builtin_isWord).2 e))]
    rfl

theorem skipNonBlank_boundary (s : Text) : AtBoundary (skipNonBlank s) := by
  induction s with
  | nil => exact Or.inl rfl
  | cons c t ih =>
    simp only [skipNonBlank]
    split
    · rename_i hc; exact Or.inr ⟨c, t, rfl, isBlank_iff.1 hc⟩
    · exact ih

theorem skipSpace_suffix (s : Text) : skipSpace s <:+ s := by
  induction s with
  | nil => exact List.suffix_refl _
  | cons c t ih =>
    simp only [skipSpace]
    split
    · exact ih.trans (List.suffix_cons _ _)
    · exact List.suffix_refl _

theorem skipNonBlank_suffix (s : Text) : skipNonBlank s <:+ s := by
  induction s with
  | nil => exact List.suffix_refl _
  | cons c t ih =>
    simp only [skipNonBlank]
    split
    · exact List.suffix_refl _
    · exact ih.trans (List.suffix_cons _ _)

theorem skipWord_suffix (s : Text) : skipWord s <:+ s := (skipNonBlank_suffix _).trans (skipSpace_suffix s)
theorem skipWord_boundary (s : Text) : AtBoundary (skipWord s) := skipNonBlank_boundary _

theorem shift_suffix (k : Nat) (s : Text) : shift k s <:+ s := by
  induction k generalizing s with
  | zero => exact List.suffix_refl _
  | succ k ih => exact (ih _).trans (skipWord_suffix s)

theorem shift_boundary {k : Nat} (hk : 0 < k) (s : Text) : AtBoundary (shift k s) := by
  induction k generalizing s with
  | zero => omega
  | succ k ih =>
    cases k with
    | zero => exact skipWord_boundary s
    | succ k => exact ih (by omega) _

theorem take_of_suffix {a s : Text} (h : a <:+ s) : s = s.take (s.length - a.length) ++ a ∧ s.drop (s.length - a.length) = a := by
  obtain ⟨p, rfl⟩ := h
  rw [List.length_append, Nat.add_sub_cancel, List.take_left, List.drop_left]
  exact ⟨rfl, rfl⟩

/-- the words of a text up to a word boundary and from there on -/
theorem words_append {a b : Text} {ws vs : List Text} (ha : Words a ws) (hb : Words b vs) (h : AtBoundary b) :
    Words (a ++ b) (ws ++ vs) := by
  induction ha with
  | none hbl =>
    cases hb with
    | none hbl' =>
      refine .none ?_
      intro c hc
      rcases List.mem_append.1 hc with hc | hc
      · exact hbl c hc
      · exact hbl' c hc
    | cons h1 h2 h3 h4 =>
      have := Words.cons (b := _ ++ _) (by
        intro c hc
        rcases List.mem_append.1 hc with hc | hc
        · exact hbl c hc
        · exact h1 c hc) h2 h3 h4
      simpa using this
  | @cons b' w s ws' h1 h2 h3 h4 ih =>
    have hbnd : AtBoundary (s ++ b) := by
      rcases h3 with rfl | ⟨c, t, rfl, hc⟩
      · simpa using h
      · exact Or.inr ⟨c, t ++ b, rfl, hc⟩
    have := Words.cons h1 h2 hbnd ih
    simpa using this

/-- the part of a text before `shift k` has the first `k` words -/
theorem words_take {s ws} (h : Words s ws) (k : Nat) :
    Words (s.take (s.length - (shift k s).length)) (ws.take k) := by
  induction k generalizing s ws with
  | zero => simp [shift]; exact .none (by simp [Blanks])
  | succ k ih =>
    cases h with
    | none hb =>
      rw [List.take_nil]
      refine .none ?_
      intro c hc
      exact hb c (List.mem_of_mem_take hc)
    | @cons b w s ws hb hw hs h =>
      simp only [shift]
      rw [skipWord_cons hb hw hs, List.take_succ_cons]
      have hi := ih h
      obtain ⟨e1, e2⟩ := take_of_suffix (shift_suffix k s)
      have hl : (shift k s).length ≤ s.length := (shift_suffix k s).length_le
      have e3 : (b ++ (w ++ s)).take ((b ++ (w ++ s)).length - (shift k s).length) =
          b ++ (w ++ s.take (s.length - (shift k s).length)) := by
        have : (b ++ (w ++ s)).length - (shift k s).length = b.length + (w.length + (s.length - (shift k s).length)) := by
          simp only [List.length_append]; omega
        rw [this, List.take_append, List.take_append]
        simp only [Nat.add_sub_cancel_left]
        rw [List.take_of_length_le (by omega), List.take_of_length_le (by omega)]
      rw [e3]
      refine .cons hb hw ?_ hi
      rcases hs with rfl | ⟨c, t, rfl, hc⟩
      · simp [AtBoundary]
      · cases hcase : (c :: t).take ((c :: t).length - (shift k (c :: t)).length) with
        | nil => exact Or.inl rfl
        | cons x y =>
          right
          refine ⟨x, y, rfl, ?_⟩
          generalize (c :: t).length - (shift k (c :: t)).length = m at hcase
          cases m with
          | zero => simp at hcase
          | succ m => simp at hcase; rw [← hcase.1]; exact hc

theorem identifier_split {s ws} (h : Words s ws) :
    Words (s.take (identifierLength s)) (ws.take (idWords ws)) ∧
    Words (s.drop (identifierLength s)) (ws.drop (idWords ws)) ∧
    AtBoundary (s.drop (identifierLength s)) ∧ s.drop (identifierLength s) = afterIdentifier s := by
  unfold identifierLength
  rw [afterIdentifier_eq h, (take_of_suffix (shift_suffix _ _)).2]
  refine ⟨words_take h _, shift_words h _, shift_boundary ?_ _, rfl⟩
  unfold idWords
  split <;> decide

/-- Resetting the arguments keeps the identifier words only: the style name, or `builtin X Y`. -/
theorem C59_reset {s : Text} {ws : List Text} (h : Words s ws) :
    Words (resetArguments s) (ws.take (idWords ws)) := (identifier_split h).1

/-- Copying arguments: the identifier words of the target followed by the argument words of the
source. -/
theorem C59_copy {src dst : Text} {fs ts : List Text} (hf : Words src fs) (ht : Words dst ts) :
    Words (copyArguments src dst) (ts.take (idWords ts) ++ fs.drop (idWords fs)) := by
  unfold copyArguments
  obtain ⟨_, h2, h3, _⟩ := identifier_split hf
  obtain ⟨h1, _, _, _⟩ := identifier_split ht
  exact words_append h1 h2 h3

example : copyArguments [97, 32, 49, 32, 50] (builtinWord ++ [32, 51, 32, 52, 32, 57]) = builtinWord ++ [32, 51, 32, 52, 32, 49, 32, 50] := by
  decide

/-! ### argument by argument -/

/-- specification: argument by argument choice with `~` for missing ones -/
def mergeArgs (useTo : Nat → Option Text → Option Text → Bool) : Nat → List Text → List Text → List Text
  | _, [], [] => []
  | n, f :: fs, [] => (if useTo n (some f) none then [126] else f) :: mergeArgs useTo (n + 1) fs []
  | n, [], t :: ts => (if useTo n none (some t) then t else [126]) :: mergeArgs useTo (n + 1) [] ts
  | n, f :: fs, t :: ts => (if useTo n (some f) (some t) then t else f) :: mergeArgs useTo (n + 1) fs ts

/-- one argument piece is `copyWord` of the rest: leading blanks and the word -/
theorem copyWord_piece {s w ws} (h : Words s (w :: ws)) (hb : AtBoundary s) (_ : s ≠ []) :
    ∃ b, b ≠ [] ∧ Blanks b ∧ copyWord s = b ++ w ∧ Words (skipWord s) ws ∧ AtBoundary (skipWord s) := by
  refine (fun (hX : ∃ b, b ≠ [] ∧ Blanks b ∧ copyWord s = b ++ w) => ?_) ?_
  · obtain ⟨b, h1, h2, h3⟩ := hX
    exact ⟨b, h1, h2, h3, h.tail, skipWord_boundary s⟩
  · cases h with
    | @cons b w s ws h1 h2 h3 h4 =>
      refine ⟨b, ?_, h1, ?_⟩
      · rintro rfl
        obtain ⟨c, t, rfl⟩ := List.exists_cons_of_ne_nil h2.1
        have := h2.2 c (by simp)
        rcases hb with hb | ⟨x, y, hb, hx⟩
        · simp at hb
        · simp at hb; rw [hb.1] at this; omega
      · unfold copyWord
        rw [skipWord_cons h1 h2 h3]
        have : (b ++ (w ++ s)).length - s.length = (b ++ w).length := by simp only [List.length_append]; omega
        rw [this, ← List.append_assoc, List.take_left]

theorem NoTrailing.nil_of {s : Text} (h : NoTrailing s) (hw : Words s []) : s = [] := by
  cases hw with
  | none hb =>
    cases hs : s with
    | nil => rfl
    | cons c t =>
      exfalso
      have hne : s ≠ [] := by rw [hs]; simp
      have h1 := h _ (List.getLast?_eq_some_getLast hne)
      have h2 := hb _ (List.getLast_mem hne)
      omega

theorem NoTrailing.suffix {s t : Text} (h : NoTrailing s) (ht : t <:+ s) : NoTrailing t := by
  intro c hc
  obtain ⟨p, rfl⟩ := ht
  refine h c ?_
  rw [List.getLast?_append, hc]
  rfl

/-- a decision on pieces that only looks at the words in them -/
def Respects (useTo : Nat → Text → Text → Bool) (spec : Nat → Option Text → Option Text → Bool) : Prop :=
  ∀ n a b fw tw, Blanks a → Blanks b →
    (∀ f t, fw = some f → tw = some t → useTo n (a ++ f) (b ++ t) = spec n (some f) (some t)) ∧
    (∀ f, fw = some f → useTo n (a ++ f) [] = spec n (some f) none) ∧
    (∀ t, tw = some t → useTo n [] (b ++ t) = spec n none (some t))

theorem mergeArgs_isWord {spec} {n : Nat} {fs ts : List Text} (hf : ∀ w ∈ fs, IsWord w) (ht : ∀ w ∈ ts, IsWord w) :
    ∀ w ∈ mergeArgs spec n fs ts, IsWord w := by
  have htil : IsWord [126] := by simp [IsWord]
  fun_induction mergeArgs spec n fs ts <;> intro w hw <;> simp only [List.mem_cons, List.not_mem_nil] at hw
  · rcases hw with rfl | hw
    · split
      · exact htil
      · exact hf _ (by simp)
    · rename_i ih; exact ih (fun x hx => hf x (by simp [hx])) ht w hw
  · rcases hw with rfl | hw
    · split
      · exact ht _ (by simp)
      · exact htil
    · rename_i ih; exact ih hf (fun x hx => ht x (by simp [hx])) w hw
  · rcases hw with rfl | hw
    · split
      · exact ht _ (by simp)
      · exact hf _ (by simp)
    · rename_i ih; exact ih (fun x hx => hf x (by simp [hx])) (fun x hx => ht x (by simp [hx])) w hw

theorem cons_piece {b w s ws} (hb : Blanks b) (hw : IsWord w) (h : Words s ws) (hs : AtBoundary s) :
    Words (b ++ w ++ s) (w :: ws) := by
  have := Words.cons hb hw hs h
  simpa using this

theorem copyLoop_next_words {useTo spec} (hr : Respects useTo spec) :
    ∀ f arg fr to fs ts, Words fr fs → Words to ts → NoTrailing fr → NoTrailing to → AtBoundary fr → AtBoundary to →
      fs.length < f → ts.length < f →
      Words (copyLoop useTo f arg ⟨copyWord fr, skipWord fr⟩ ⟨copyWord to, skipWord to⟩) (mergeArgs spec arg fs ts) ∧
      AtBoundary (copyLoop useTo f arg ⟨copyWord fr, skipWord fr⟩ ⟨copyWord to, skipWord to⟩) := by
  intro f
  induction f with
  | zero => intro arg fr to fs ts _ _ _ _ _ _ h; omega
  | succ f ih =>
    intro arg fr to fs ts hf ht hnf hnt hbf hbt hlf hlt
    have htil : IsWord [126] := by simp [IsWord]
    have hbl : Blanks [32] := by simp [Blanks]
    have hnil : Blanks [] := by simp [Blanks]
    have bnd : ∀ {b : Text} (w s : Text), b ≠ [] → Blanks b → AtBoundary (b ++ w ++ s) := by
      intro b w s h0 hb
      obtain ⟨c, t, rfl⟩ := List.exists_cons_of_ne_nil h0
      exact Or.inr ⟨c, _, rfl, hb c (by simp)⟩
    have hsf : NoTrailing (skipWord fr) := hnf.suffix (skipWord_suffix fr)
    have hst : NoTrailing (skipWord to) := hnt.suffix (skipWord_suffix to)
    simp only [copyLoop, Iter.next, Iter.text]
    cases fs with
    | nil =>
      have e1 := hnf.nil_of hf
      subst e1
      have e2 : copyWord [] = [] := rfl
      have e3 : skipWord [] = [] := rfl
      rw [e2, e3]
      cases ts with
      | nil =>
        have e1 := hnt.nil_of ht
        subst e1
        rw [e2, e3]
        simp only [mergeArgs, and_self, if_true]
        exact ⟨.none hnil, Or.inl rfl⟩
      | cons t ts =>
        have hne : to ≠ [] := by rintro rfl; have := ht.of_nil rfl; simp at this
        have hw := ht.all_words t (by simp)
        obtain ⟨b, h1, h2, h3, h4, h5⟩ := copyWord_piece ht hbt hne
        have := ih (arg + 1) [] (skipWord to) [] ts (.none hnil) h4 hsf hst (Or.inl rfl) h5 (by simp at hlt ⊢; omega) (by simpa using hlt)
        rw [e2, e3] at this
        rw [h3, ((hr arg [] b none (some t) hnil h2).2.2 t rfl), if_neg (show ¬(([] : Text) = [] ∧ b ++ t = []) from by simp [h1]),
          show (if b ++ t = [] then [32, 126] else b ++ t) = b ++ t from if_neg (by simp [h1]), e2, e3]
        simp only [mergeArgs]
        split
        · exact ⟨cons_piece h2 hw this.1 this.2, bnd t _ h1 h2⟩
        · exact ⟨cons_piece (b := [32]) (w := [126]) hbl htil this.1 this.2, bnd (b := [32]) [126] _ (by simp) hbl⟩
    | cons fw fs =>
      have hne : fr ≠ [] := by rintro rfl; have := hf.of_nil rfl; simp at this
      have hwf := hf.all_words fw (by simp)
      obtain ⟨a, g1, g2, g3, g4, g5⟩ := copyWord_piece hf hbf hne
      cases ts with
      | nil =>
        have e1 := hnt.nil_of ht
        subst e1
        have e2 : copyWord [] = [] := rfl
        have e3 : skipWord [] = [] := rfl
        rw [e2, e3]
        have := ih (arg + 1) (skipWord fr) [] fs [] g4 (.none hnil) hsf hst g5 (Or.inl rfl) (by simpa using hlf) (by simp at hlf ⊢; omega)
        rw [e2, e3] at this
        rw [g3, ((hr arg a [] (some fw) none g2 hnil).2.1 fw rfl), if_neg (show ¬(a ++ fw = [] ∧ ([] : Text) = []) from by simp [g1]),
          show (if a ++ fw = [] then [32, 126] else a ++ fw) = a ++ fw from if_neg (by simp [g1]), e2, e3]
        simp only [mergeArgs]
        split
        · exact ⟨cons_piece (b := [32]) (w := [126]) hbl htil this.1 this.2, bnd (b := [32]) [126] _ (by simp) hbl⟩
        · exact ⟨cons_piece g2 hwf this.1 this.2, bnd fw _ g1 g2⟩
      | cons t ts =>
        have hnet : to ≠ [] := by rintro rfl; have := ht.of_nil rfl; simp at this
        have hwt := ht.all_words t (by simp)
        obtain ⟨b, h1, h2, h3, h4, h5⟩ := copyWord_piece ht hbt hnet
        have := ih (arg + 1) (skipWord fr) (skipWord to) fs ts g4 h4 hsf hst g5 h5 (by simpa using hlf) (by simpa using hlt)
        rw [g3, h3, ((hr arg a b (some fw) (some t) g2 h2).1 fw t rfl rfl), if_neg (show ¬(a ++ fw = [] ∧ b ++ t = []) from by simp [g1]),
          show (if a ++ fw = [] then [32, 126] else a ++ fw) = a ++ fw from if_neg (by simp [g1]),
          show (if b ++ t = [] then [32, 126] else b ++ t) = b ++ t from if_neg (by simp [h1])]
        simp only [mergeArgs]
        split
        · exact ⟨cons_piece h2 hwt this.1 this.2, bnd t _ h1 h2⟩
        · exact ⟨cons_piece g2 hwf this.1 this.2, bnd fw _ g1 g2⟩

theorem copyLoop_words {useTo spec} (hr : Respects useTo spec) (h0 : ∀ f t, useTo 0 f t = true)
    {src dst : Text} {fs ts : List Text} (hf : Words src fs) (ht : Words dst ts) (hnf : NoTrailing src) (hnt : NoTrailing dst)
    (hts : ts ≠ []) :
    Words (copyLoop useTo (src.length + dst.length + 2) 0 (Iter.start src) (Iter.start dst))
      (ts.take (idWords ts) ++ mergeArgs spec 1 (fs.drop (idWords fs)) (ts.drop (idWords ts))) := by
  obtain ⟨f1, f2, f3, f4⟩ := identifier_split hf
  obtain ⟨t1, t2, t3, t4⟩ := identifier_split ht
  have hne : dst.take (identifierLength dst) ≠ [] := by
    intro h
    rw [h] at t1
    have := t1.of_nil rfl
    have hl : (ts.take (idWords ts)).length = 0 := by rw [this]; rfl
    rw [List.length_take] at hl
    have : 0 < ts.length := List.length_pos_iff.2 hts
    have : 0 < idWords ts := by unfold idWords; split <;> decide
    omega
  have hl1 := hf.length_le
  have hl2 := ht.length_le
  have hnext := copyLoop_next_words hr (src.length + dst.length + 1) 1 _ _ _ _ f2 t2
    (hnf.suffix (List.drop_suffix _ _)) (hnt.suffix (List.drop_suffix _ _)) f3 t3
    (by rw [List.length_drop]; omega) (by rw [List.length_drop]; omega)
  have hstep : copyLoop useTo (src.length + dst.length + 1 + 1) 0 (Iter.start src) (Iter.start dst) =
      (Iter.start dst).text ++ copyLoop useTo (src.length + dst.length + 1) 1 (Iter.start src).next (Iter.start dst).next := by
    conv => lhs; unfold copyLoop
    rw [if_neg (by intro h; exact hne h.2), h0, if_pos rfl]
  have htext : (Iter.start dst).text = dst.take (identifierLength dst) := by
    unfold Iter.text
    exact if_neg hne
  show Words (copyLoop useTo (src.length + dst.length + 1 + 1) 0 (Iter.start src) (Iter.start dst)) _
  rw [hstep, htext]
  exact words_append t1 hnext.1 hnext.2

/-- Copying with a list of arguments to keep: the result is the identifier of the target, followed
for each argument position by the target's argument if the position is in the list, otherwise the
source's; `~` where that string has no such argument. -/
theorem C59_copy_list {src dst : Text} {fs ts : List Text} (hf : Words src fs) (ht : Words dst ts)
    (hnf : NoTrailing src) (hnt : NoTrailing dst) (hts : ts ≠ []) (args : List Nat) :
    Words (copyArgumentsList src dst args)
      (ts.take (idWords ts) ++
        mergeArgs (fun n _ _ => decide (n = 0 ∨ n ∈ args)) 1 (fs.drop (idWords fs)) (ts.drop (idWords ts))) := by
  apply copyLoop_words (spec := fun n _ _ => decide (n = 0 ∨ n ∈ args)) _ _ hf ht hnf hnt hts
  · intro n a b fw tw _ _
    have : keep args n = decide (n = 0 ∨ n ∈ args) := by
      unfold keep; rw [Bool.eq_iff_iff]; simp
    simp [this]
  · intro _ _; rfl

theorem comma_blank {b : Text} (hb : Blanks b) (w : Text) : (b ++ w).contains 44 = w.contains 44 := by
  rw [Bool.eq_iff_iff, List.contains_iff_mem, List.contains_iff_mem, List.mem_append]
  constructor
  · rintro (h | h)
    · have := hb 44 h; omega
    · exact h
  · exact Or.inr

/-- an argument (if present) is a colour: it contains a comma -/
def isColor (w : Option Text) : Bool := decide (∃ t, w = some t ∧ 44 ∈ t)

theorem isColor_some (t : Text) : isColor (some t) = t.contains 44 := by
  unfold isColor
  rw [Bool.eq_iff_iff, List.contains_iff_mem]
  simp

theorem isColor_none : isColor none = false := by simp [isColor]

/-- Copying colours, for identifiers without a comma: argument by argument, the source's argument if either is a
colour, else the target's; `~` where that string has no such argument. -/
theorem C59_copy_colors {src dst : Text} {fs ts : List Text} (hf : Words src fs) (ht : Words dst ts)
    (hnf : NoTrailing src) (hnt : NoTrailing dst) (hts : ts ≠ [])
    (hcf : 44 ∉ src.take (identifierLength src)) (hct : 44 ∉ dst.take (identifierLength dst)) :
    Words (copyColorArguments src dst)
      (ts.take (idWords ts) ++
        mergeArgs (fun _ f t => !(isColor f || isColor t)) 1 (fs.drop (idWords fs)) (ts.drop (idWords ts))) := by
  let useTo : Nat → Text → Text → Bool := fun n f t => n = 0 || !(f.contains 44 || t.contains 44)
  have key : Words (copyLoop useTo (src.length + dst.length + 2) 0 (Iter.start src) (Iter.start dst)) _ :=
    copyLoop_words (spec := fun n f t => n = 0 || !(isColor f || isColor t)) (useTo := useTo)
      (by
        intro n a b fw tw ha hb
        refine ⟨?_, ?_, ?_⟩
        · rintro f t rfl rfl
          show (decide (n = 0) || !((a ++ f).contains 44 || (b ++ t).contains 44)) = (decide (n = 0) || !(isColor (some f) || isColor (some t)))
          rw [comma_blank ha, comma_blank hb, isColor_some, isColor_some]
        · rintro f rfl
          show (decide (n = 0) || !((a ++ f).contains 44 || ([] : Text).contains 44)) = (decide (n = 0) || !(isColor (some f) || isColor none))
          rw [comma_blank ha, isColor_some, isColor_none]; rfl
        · rintro t rfl
          show (decide (n = 0) || !(([] : Text).contains 44 || (b ++ t).contains 44)) = (decide (n = 0) || !(isColor none || isColor (some t)))
          rw [comma_blank hb, isColor_some, isColor_none]; rfl)
      (by intro f t; rfl) hf ht hnf hnt hts
  have hsucc : ∀ n f, copyLoop useTo f (n + 1) = copyLoop (fun _ f t => !(f.contains 44 || t.contains 44)) f (n + 1) := by
    intro n f
    induction f generalizing n with
    | zero => rfl
    | succ f ih => funext a b; simp only [copyLoop, ih]; simp [useTo]
  have e1 : copyColorArguments src dst = copyLoop useTo (src.length + dst.length + 2) 0 (Iter.start src) (Iter.start dst) := by
    unfold copyColorArguments
    show copyLoop _ (src.length + dst.length + 1 + 1) 0 _ _ = copyLoop _ (src.length + dst.length + 1 + 1) 0 _ _
    conv => lhs; unfold copyLoop
    conv => rhs; unfold copyLoop
    rw [hsucc 0]
    have : (!((Iter.start src).piece.contains 44 || (Iter.start dst).piece.contains 44)) = true := by
      have a1 : (Iter.start src).piece.contains 44 = false := by
        rw [Bool.eq_false_iff, Ne, List.contains_iff_mem]; exact hcf
      have a2 : (Iter.start dst).piece.contains 44 = false := by
        rw [Bool.eq_false_iff, Ne, List.contains_iff_mem]; exact hct
      rw [a1, a2]; rfl
    rw [this]
    rfl
  have e2 : ∀ n fs ts, mergeArgs (fun n f t => decide (n = 0) || !(isColor f || isColor t)) (n + 1) fs ts =
      mergeArgs (fun _ f t => !(isColor f || isColor t)) (n + 1) fs ts := by
    intro n fs ts
    generalize hm : n + 1 = m
    have hpos : m ≠ 0 := by omega
    clear hm n
    fun_induction mergeArgs (fun n f t => decide (n = 0) || !(isColor f || isColor t)) m fs ts <;>
      simp_all [mergeArgs]
  rw [e1]
  rw [e2 0] at key
  exact key

example : copyColorArguments [97, 32, 49, 44, 50, 32, 55] [98, 32, 57, 32, 56, 32, 51] = [98, 32, 49, 44, 50, 32, 56, 32, 51] := by
  decide

/-- The variant with `keep_arguments_after` writes the identifier of the target, the first `n`
arguments of the source and the rest of the target. -/
theorem C59_copy_after_partial {src dst : Text} {fs ts : List Text} (hf : Words src fs) (ht : Words dst ts) (n : Nat) :
    Words (copyArgumentsKeep src dst n)
      (ts.take (idWords ts) ++ (fs.drop (idWords fs)).take n ++ (ts.drop (idWords ts)).drop n) := by
  unfold copyArgumentsKeep parts
  obtain ⟨f1, f2, f3, f4⟩ := identifier_split hf
  obtain ⟨t1, t2, t3, t4⟩ := identifier_split ht
  simp only
  have mid : ∀ s : Text, ∀ i, (s.take (s.length - (shift n (s.drop i)).length)).drop i =
      (s.drop i).take ((s.drop i).length - (shift n (s.drop i)).length) := by
    intro s i
    rw [List.drop_take]
    congr 1
    rw [List.length_drop]
    omega
  have last : ∀ s : Text, ∀ i, s.drop (s.length - (shift n (s.drop i)).length) = shift n (s.drop i) := by
    intro s i
    exact (take_of_suffix ((shift_suffix n _).trans (List.drop_suffix _ _))).2
  rw [mid, last]
  have hb : AtBoundary (shift n (dst.drop (identifierLength dst))) := by
    cases n with
    | zero => exact t3
    | succ n => exact shift_boundary (by omega) _
  have hm : AtBoundary ((src.drop (identifierLength src)).take ((src.drop (identifierLength src)).length - (shift n (src.drop (identifierLength src))).length)) := by
    rcases f3 with h | ⟨c, t, h, hc⟩
    · rw [h]; simp [AtBoundary]
    · rw [h]
      generalize (c :: t).length - _ = m
      cases m with
      | zero => exact Or.inl rfl
      | succ m => exact Or.inr ⟨c, _, rfl, hc⟩
  exact words_append (words_append t1 (words_take f2 n) hm) (shift_words t2 n) hb

/-- What is missing: that variant allocates the wrong number of bytes.  Here it allocates 4 bytes
and writes 12 (11 characters and the terminator). -/
theorem C59_copy_after_overflow :
    ∃ src dst n, copyArgumentsKeepBuffer src dst n < (copyArgumentsKeep src dst n).length + 1 :=
  ⟨[97, 32, 49], [98, 98, 98, 98, 98, 98, 98, 98, 98], 1, by decide⟩

end Verif.Str
