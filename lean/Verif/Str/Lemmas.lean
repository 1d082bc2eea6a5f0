import Verif.Str.Spec
set_option linter.unusedSimpArgs false
namespace Verif.Str

theorem mem_takeWhile {p : Nat → Bool} {c : Nat} {s : Text} (h : c ∈ s.takeWhile p) : p c = true := by
  induction s with
  | nil => simp at h
  | cons a t ih =>
    by_cases ha : p a = true
    · rw [List.takeWhile_cons_of_pos ha] at h
      rcases List.mem_cons.1 h with rfl | h
      · exact ha
      · exact ih h
    · rw [List.takeWhile_cons_of_neg ha] at h
      simp at h

theorem isBlank_iff {c : Nat} : isBlank c = true ↔ c = 32 ∨ c = 9 := by simp [isBlank]
theorem isBlank_false {c : Nat} : isBlank c = false ↔ c ≠ 32 ∧ c ≠ 9 := by
  simp [isBlank]

theorem skipSpace_blanks {b : Text} (hb : Blanks b) (s : Text) : skipSpace (b ++ s) = skipSpace s := by
  induction b with
  | nil => rfl
  | cons c t ih =>
    have h1 : isBlank c = true := isBlank_iff.2 (hb c (by simp))
    simp only [List.cons_append, skipSpace, h1, if_true]
    exact ih (fun x hx => hb x (by simp [hx]))

theorem skipSpace_all {b : Text} (hb : Blanks b) : skipSpace b = [] := by
  have := skipSpace_blanks hb []
  simpa [skipSpace] using this

theorem skipSpace_word {w : Text} (hw : IsWord w) (s : Text) : skipSpace (w ++ s) = w ++ s := by
  obtain ⟨h0, h1⟩ := hw
  cases w with
  | nil => exact absurd rfl h0
  | cons c t =>
    have : isBlank c = false := isBlank_false.2 (h1 c (by simp))
    simp [skipSpace, this]

theorem skipNonBlank_word {w : Text} (hw : ∀ c ∈ w, c ≠ 32 ∧ c ≠ 9) {s : Text} (hs : AtBoundary s) :
    skipNonBlank (w ++ s) = s := by
  induction w with
  | nil =>
    rcases hs with rfl | ⟨c, t, rfl, h⟩
    · rfl
    · have : isBlank c = true := isBlank_iff.2 h
      simp [skipNonBlank, this]
  | cons c t ih =>
    have : isBlank c = false := isBlank_false.2 (hw c (by simp))
    simp only [List.cons_append, skipNonBlank, this]
    simpa using ih (fun x hx => hw x (by simp [hx]))

theorem wordAt_word {w : Text} (hw : ∀ c ∈ w, c ≠ 32 ∧ c ≠ 9) {s : Text} (hs : AtBoundary s) :
    wordAt (w ++ s) = w := by
  induction w with
  | nil =>
    rcases hs with rfl | ⟨c, t, rfl, h⟩
    · rfl
    · have : isBlank c = true := isBlank_iff.2 h
      simp [wordAt, this]
  | cons c t ih =>
    have hc : isBlank c = false := isBlank_false.2 (hw c (by simp))
    have := ih (fun x hx => hw x (by simp [hx]))
    simp only [wordAt] at this
    simp [wordAt, hc, this]

theorem skipWord_cons {b w s : Text} (hb : Blanks b) (hw : IsWord w) (hs : AtBoundary s) :
    skipWord (b ++ (w ++ s)) = s := by
  rw [skipWord, skipSpace_blanks hb, skipSpace_word hw, skipNonBlank_word hw.2 hs]

theorem skipWord_blanks {b : Text} (hb : Blanks b) : skipWord b = [] := by
  rw [skipWord, skipSpace_all hb]; rfl

/-- every text has words -/
theorem words_exists (s : Text) : ∃ ws, Words s ws := by
  suffices h : ∀ n, ∀ s : Text, s.length ≤ n → ∃ ws, Words s ws from h s.length s (Nat.le_refl _)
  intro n
  induction n with
  | zero =>
    intro s h
    have : s = [] := List.eq_nil_of_length_eq_zero (by omega)
    subst this
    exact ⟨[], .none (by intro c hc; simp at hc)⟩
  | succ n ih =>
    intro s h
    -- split into blanks, word, rest
    let p : Nat → Bool := fun c => isBlank c
    let b := s.takeWhile p
    let r := s.dropWhile p
    have hs : s = b ++ r := (List.takeWhile_append_dropWhile).symm
    have hb : Blanks b := by
      intro c hc
      have := mem_takeWhile hc
      exact isBlank_iff.1 this
    by_cases hr : r = []
    · refine ⟨[], ?_⟩
      rw [hs, hr, List.append_nil]
      exact .none hb
    · let w := r.takeWhile (fun c => !isBlank c)
      let t := r.dropWhile (fun c => !isBlank c)
      have hwt : r = w ++ t := (List.takeWhile_append_dropWhile).symm
      have hw : ∀ c ∈ w, c ≠ 32 ∧ c ≠ 9 := by
        intro c hc
        have := mem_takeWhile hc
        exact isBlank_false.1 (by simpa using this)
      have hw0 : w ≠ [] := by
        obtain ⟨c, r', hcr⟩ := List.exists_cons_of_ne_nil hr
        have hh := List.head?_dropWhile_not (p := p) s
        have hc : isBlank c = false := by
          have : (s.dropWhile p).head? = some c := by
            show r.head? = some c
            rw [hcr]; rfl
          rw [this] at hh
          simpa [p] using hh
        show r.takeWhile _ ≠ []
        rw [hcr]
        simp [hc]
      have ht : AtBoundary t := by
        have hh := List.head?_dropWhile_not (p := fun c => !isBlank c) r
        cases hcase : t with
        | nil => exact Or.inl rfl
        | cons c t' =>
          right
          refine ⟨c, t', rfl, ?_⟩
          have : (r.dropWhile (fun c => !isBlank c)).head? = some c := by
            show t.head? = some c
            rw [hcase]; rfl
          rw [this] at hh
          exact isBlank_iff.1 (by simpa using hh)
      have hlen : t.length ≤ n := by
        have h1 : s.length = b.length + (w.length + t.length) := by
          rw [hs, hwt, List.length_append, List.length_append]
        have h2 : 0 < w.length := List.length_pos_iff.2 hw0
        omega
      obtain ⟨ws, hws⟩ := ih t hlen
      exact ⟨w :: ws, by rw [hs, hwt]; exact .cons hb ⟨hw0, hw⟩ ht hws⟩

theorem Words.of_nil {s ws} (h : Words s ws) (hs : s = []) : ws = [] := by
  cases h with
  | none => rfl
  | cons hb hw _ _ =>
    have := hw.1
    simp at hs
    exact absurd hs.2.1 this

theorem Words.tail {s w ws} (h : Words s (w :: ws)) : Words (skipWord s) ws := by
  cases h with
  | cons hb hw hs h => rw [skipWord_cons hb hw hs]; exact h

theorem Words.skip {s ws} (h : Words s ws) : Words (skipWord s) (ws.drop 1) := by
  cases h with
  | none hb => rw [skipWord_blanks hb]; exact .none (by intro c hc; simp at hc)
  | cons hb hw hs h => rw [skipWord_cons hb hw hs]; exact h

/-- the words of a text are determined by it -/
theorem Words.unique {s : Text} {ws ws' : List Text} (h : Words s ws) (h' : Words s ws') : ws = ws' := by
  induction h generalizing ws' with
  | none hb =>
    cases h' with
    | none => rfl
    | cons hb' hw' hs' h' =>
      rename_i b' w' s' ws''
      obtain ⟨c, t, rfl⟩ := List.exists_cons_of_ne_nil hw'.1
      have h1 := hb c (by simp)
      have h2 := hw'.2 c (by simp)
      omega
  | @cons b w s ws hb hw hs h ih =>
    generalize hx : b ++ (w ++ s) = x at h'
    cases h' with
    | none hb' =>
      subst hx
      obtain ⟨c, t, rfl⟩ := List.exists_cons_of_ne_nil hw.1
      have h1 := hb' c (by simp)
      have h2 := hw.2 c (by simp)
      omega
    | @cons b' w' s' ws' hb' hw' hs' h' =>
      have e1 : skipSpace (b ++ (w ++ s)) = w ++ s := by
        rw [skipSpace_blanks hb, skipSpace_word hw]
      have e2 : skipSpace (b' ++ (w' ++ s')) = w' ++ s' := by
        rw [skipSpace_blanks hb', skipSpace_word hw']
      rw [hx] at e1
      have e3 : w ++ s = w' ++ s' := e1.symm.trans e2
      have e4 : w = w' := by
        rw [← wordAt_word hw.2 hs, e3, wordAt_word hw'.2 hs']
      have e5 : s = s' := by
        subst e4
        exact List.append_cancel_left e3
      subst e4 e5
      rw [ih h']

theorem Words.at_space {s w ws} (h : Words s (w :: ws)) :
    IsWord w ∧ ∃ r, skipSpace s = w ++ r ∧ AtBoundary r ∧ Words r ws := by
  cases h with
  | cons hb hw hs h =>
    exact ⟨hw, _, by rw [skipSpace_blanks hb, skipSpace_word hw], hs, h⟩

theorem Words.space_nil {s} (h : Words s []) : skipSpace s = [] := by
  cases h with
  | none hb => exact skipSpace_all hb

theorem Words.all_words {s ws} (h : Words s ws) : ∀ w ∈ ws, IsWord w := by
  induction h with
  | none => intro w hw; simp at hw
  | cons hb hw _ _ ih =>
    intro x hx
    rcases List.mem_cons.1 hx with rfl | hx
    · exact hw
    · exact ih x hx

theorem Words.length_le {s ws} (h : Words s ws) : ws.length ≤ s.length := by
  induction h with
  | none => simp
  | cons hb hw _ _ ih =>
    have : 0 < List.length _ := List.length_pos_iff.2 hw.1
    simp only [List.length_cons, List.length_append]
    omega

theorem shift_words {s ws} (h : Words s ws) (k : Nat) : Words (shift k s) (ws.drop k) := by
  induction k generalizing s ws with
  | zero => simpa [shift] using h
  | succ k ih =>
    have := ih h.skip
    simpa [shift, List.drop_drop, Nat.add_comm] using this

theorem skipWord_length {s : Text} (h : s ≠ []) : (skipWord s).length < s.length := by
  obtain ⟨ws, hw⟩ := words_exists s
  cases hw with
  | none hb =>
    rw [skipWord_blanks hb]
    exact List.length_pos_iff.2 h
  | cons hb hw hs h =>
    rw [skipWord_cons hb hw hs]
    have : 0 < List.length _ := List.length_pos_iff.2 hw.1
    simp only [List.length_append]
    omega

/-- does the text end in blanks (after its last word)? -/
def trailing (s : Text) : Nat := if s ≠ [] ∧ (∃ c, s.getLast? = some c ∧ isBlank c = true) then 1 else 0

theorem countLoop_fuel {f s} (h : s.length ≤ f) : countLoop f s = countLoop s.length s := by
  suffices H : ∀ n, ∀ s : Text, s.length ≤ n → ∀ f g, s.length ≤ f → s.length ≤ g → countLoop f s = countLoop g s from
    H s.length s (Nat.le_refl _) _ _ h (Nat.le_refl _)
  intro n
  induction n with
  | zero =>
    intro s hn f g _ _
    have : s = [] := List.eq_nil_of_length_eq_zero (by omega)
    subst this
    cases f <;> cases g <;> rfl
  | succ n ih =>
    intro s hn f g hf hg
    cases hs : s with
    | nil => cases f <;> cases g <;> rfl
    | cons c t =>
      rw [← hs]
      have hne : s ≠ [] := by rw [hs]; simp
      have hl := skipWord_length hne
      cases f with
      | zero => have := List.length_pos_iff.2 hne; omega
      | succ f =>
        cases g with
        | zero => have := List.length_pos_iff.2 hne; omega
        | succ g =>
          have e : ∀ k, countLoop (k+1) s = countLoop k (skipWord s) + 1 := by
            intro k; rw [hs]; rfl
          rw [e, e, ih (skipWord s) (by omega) f g (by omega) (by omega)]

theorem countWords_step {s : Text} (h : s ≠ []) : countWords s = countWords (skipWord s) + 1 := by
  have hl := skipWord_length h
  unfold countWords
  obtain ⟨c, t, rfl⟩ := List.exists_cons_of_ne_nil h
  show countLoop t.length (skipWord (c :: t)) + 1 = _
  rw [countLoop_fuel (f := t.length)]
  simp only [List.length_cons] at hl
  omega

theorem countWords_words {s ws} (h : Words s ws) :
    countWords s = ws.length + (match s.getLast? with | some c => if isBlank c then 1 else 0 | none => 0) := by
  induction h with
  | @none s hb =>
    cases hs : s with
    | nil => rfl
    | cons c t =>
      rw [← hs]
      have hne : s ≠ [] := by rw [hs]; simp
      rw [countWords_step hne, skipWord_blanks hb]
      have hl : isBlank (s.getLast hne) = true := isBlank_iff.2 (hb _ (List.getLast_mem hne))
      rw [List.getLast?_eq_some_getLast hne]
      simp [hl, countWords, countLoop]
  | @cons b w s ws hb hw hs h ih =>
    have hne : b ++ (w ++ s) ≠ [] := by
      have := hw.1
      simp [this]
    rw [countWords_step hne, skipWord_cons hb hw hs, ih]
    cases hs' : s with
    | nil =>
      have hl : isBlank (w.getLast hw.1) = false := isBlank_false.2 (hw.2 _ (List.getLast_mem hw.1))
      have : (b ++ (w ++ [])).getLast? = some (w.getLast hw.1) := by
        rw [List.append_nil, List.getLast?_append, List.getLast?_eq_some_getLast hw.1]; rfl
      rw [this]
      simp [hl]
    | cons c t =>
      rw [← hs']
      have hsne : s ≠ [] := by rw [hs']; simp
      have : (b ++ (w ++ s)).getLast? = s.getLast? := by
        rw [List.getLast?_append, List.getLast?_append, List.getLast?_eq_some_getLast hsne]; rfl
      rw [this]
      simp only [List.length_cons]
      omega

/-! ### getArg -/

theorem getArgLoop_words {s ws} (h : Words s ws) (n : Int) :
    ∀ f arg, ws.length < f → arg < n →
    (∃ w r, ws[(n - arg - 1).toNat]? = some w ∧ w.head? ≠ some 126 ∧ getArgLoop n f arg s = some (w ++ r) ∧ AtBoundary r) ∨
    ((ws[(n - arg - 1).toNat]? = none ∨ ∃ w, ws[(n - arg - 1).toNat]? = some w ∧ w.head? = some 126) ∧ getArgLoop n f arg s = none) := by
  induction h with
  | none hb =>
    intro f arg hf ha
    right
    refine ⟨Or.inl (by simp), ?_⟩
    cases f with
    | zero => rfl
    | succ f => simp only [getArgLoop, skipSpace_all hb]
  | @cons b w s ws hb hw hs h ih =>
    intro f arg hf ha
    cases f with
    | zero => simp at hf
    | succ f =>
      have hsp : skipSpace (b ++ (w ++ s)) = w ++ s := by
        rw [skipSpace_blanks hb, skipSpace_word hw]
      obtain ⟨c, t, rfl⟩ := List.exists_cons_of_ne_nil hw.1
      have hstep : getArgLoop n (f+1) arg (b ++ (c :: t ++ s)) =
          if arg + 1 = n then (if c = 126 then none else some (c :: (t ++ s)))
          else getArgLoop n f (arg + 1) s := by
        conv => lhs; unfold getArgLoop
        rw [hsp]
        simp only [List.cons_append]
        rw [show c :: (t ++ s) = (c :: t) ++ s from rfl, skipNonBlank_word hw.2 hs]
      rw [hstep]
      by_cases ha1 : arg + 1 = n
      · have e0 : (n - arg - 1).toNat = 0 := by omega
        rw [e0, if_pos ha1]
        by_cases hc : c = 126
        · right
          exact ⟨Or.inr ⟨c :: t, by simp, by simp [hc]⟩, by rw [if_pos hc]⟩
        · left
          exact ⟨c :: t, s, by simp, by simp [hc], by rw [if_neg hc]; rfl, hs⟩
      · have e0 : (n - arg - 1).toNat = (n - (arg + 1) - 1).toNat + 1 := by omega
        rw [e0, if_neg ha1]
        simp only [List.getElem?_cons_succ]
        exact ih f (arg + 1) (by simp only [List.length_cons] at hf; omega) (by omega)

theorem getArgLoop_nonpos {n : Int} : ∀ f arg s, n ≤ arg → getArgLoop n f arg s = none := by
  intro f
  induction f with
  | zero => intros; rfl
  | succ f ih =>
    intro arg s h
    unfold getArgLoop
    split
    · rfl
    · rw [if_neg (by omega)]
      exact ih _ _ (by omega)

/-! ### cmp -/

theorem cmp_range (a b : Text) : cmp a b = -1 ∨ cmp a b = 0 ∨ cmp a b = 1 := by
  fun_induction cmp a b <;> simp_all

theorem cmp_neg_iff (a b : Text) : cmp a b < 0 ↔ a.map toLower < b.map toLower := by
  fun_induction cmp a b
  · simp
  · simp
  · simp
  · rename_i a as b bs h h2
    simp only [List.map_cons]
    rw [List.cons_lt_cons_iff]
    simp [h2]
  · rename_i a as b bs h h2
    simp only [List.map_cons]
    rw [List.cons_lt_cons_iff]
    simp [h, h2]
  · rename_i a as b bs h ih
    have h : toLower a = toLower b := by simpa using h
    simp only [List.map_cons]
    rw [List.cons_lt_cons_iff]
    simp [h, ih]

theorem cmp_zero_iff (a b : Text) : cmp a b = 0 ↔ a.map toLower = b.map toLower := by
  fun_induction cmp a b
  · simp
  · simp
  · simp
  · rename_i a as b bs h h2
    simp [h]
  · rename_i a as b bs h h2
    simp [h]
  · rename_i a as b bs h ih
    have h : toLower a = toLower b := by simpa using h
    simp [h, ih]

theorem cmp_swap (a b : Text) : cmp b a = - cmp a b := by
  fun_induction cmp a b
  · rfl
  · rfl
  · rfl
  · rename_i a as b bs h h2
    unfold cmp
    rw [if_pos (fun e => h e.symm), if_neg (by omega)]
    rfl
  · rename_i a as b bs h h2
    unfold cmp
    rw [if_pos (fun e => h e.symm), if_pos (by omega)]
  · rename_i a as b bs h ih
    have h : toLower a = toLower b := by simpa using h
    conv => lhs; unfold cmp
    simp [h, ih]

/-! ### patterns -/

theorem formatPattern_length (p v : Text) :
    (formatPattern p v).length + stars p = p.length + stars p * v.length := by
  induction p with
  | nil => simp [formatPattern, stars]
  | cons c p ih =>
    by_cases h : c = 42
    · simp only [formatPattern, stars, h, if_true, List.length_append, List.length_cons]
      rw [Nat.add_mul]
      omega
    · simp only [formatPattern, stars, h, if_false, List.length_cons]
      omega

theorem stars_le (p : Text) : stars p ≤ p.length := by
  induction p with
  | nil => simp [stars]
  | cons c p ih => by_cases h : c = 42 <;> simp [stars, h] <;> omega

theorem matchLoop_format {v : Text} (hv : v ≠ []) (p : Text) :
    ∀ ret, (ret = [] ∨ ret = v) →
      matchLoop v.length p (formatPattern p v) ret = some (if stars p = 0 then ret else v) := by
  induction p with
  | nil => intro ret _; simp [matchLoop, stars]
  | cons c p ih =>
    intro ret hr
    by_cases hc : c = 42
    · subst hc
      simp only [matchLoop, formatPattern, if_true, List.take_left', List.drop_left', stars]
      rw [if_neg (Nat.succ_ne_zero _)]
      rcases hr with rfl | rfl
      · simp only [if_true]
        rw [ih v (Or.inr rfl)]
        simp
      · rw [if_neg hv]
        have : opNe ret ret = false := by
          simp [opNe, (cmp_zero_iff ret ret).2 rfl]
        rw [this, ih ret (Or.inr rfl)]
        simp
    · simp only [matchLoop, formatPattern, hc, if_false, stars]
      rw [if_neg (by simp)]
      exact ih ret hr

/-- soundness of the matching loop -/
theorem matchLoop_sound {k : Nat} (hk : 0 < k) (p : Text) :
    ∀ v ret x, v.length + stars p = p.length + stars p * k → (ret = [] ∨ ret.length = k) →
      matchLoop k p v ret = some x →
      (ret ≠ [] → x = ret) ∧ (stars p ≠ 0 → x.length = k) ∧ (formatPattern p x).map toLower = v.map toLower ∧
      (stars p = 0 ∨ (stars p = 1 ∧ ret = []) → formatPattern p x = v) := by
  induction p with
  | nil =>
    intro v ret x hl hr h
    simp only [matchLoop, Option.some.injEq] at h
    have : v = [] := List.eq_nil_of_length_eq_zero (by simpa [stars] using hl)
    subst this h
    simp [formatPattern, stars]
  | cons c p ih =>
    intro v ret x hl hr h
    by_cases hc : c = 42
    · subst hc
      simp only [matchLoop, if_true] at h
      simp only [stars, if_true, List.length_cons, Nat.add_mul] at hl
      have hsl := stars_le p
      have hkv : k ≤ v.length := by omega
      have hdl : (v.drop k).length + stars p = p.length + stars p * k := by
        rw [List.length_drop]; omega
      have htl : (v.take k).length = k := by rw [List.length_take]; omega
      have htne : v.take k ≠ [] := by
        intro h0; rw [h0] at htl; simp at htl; omega
      by_cases hr0 : ret = []
      · rw [if_pos hr0] at h
        obtain ⟨h1, h2, h3, h4⟩ := ih _ _ _ hdl (Or.inr htl) h
        have hx := h1 htne
        refine ⟨fun hne => absurd hr0 hne, fun _ => by rw [hx, htl], ?_, ?_⟩
        · simp only [formatPattern, if_true, List.map_append, h3]
          rw [hx, ← List.map_append, List.take_append_drop]
        · intro h01
          have hs0 : stars p = 0 := by
            rcases h01 with h01 | h01
            · simp [stars] at h01
            · have := h01.1; simp [stars] at this; exact this
          simp only [formatPattern, if_true]
          rw [h4 (Or.inl hs0), hx, List.take_append_drop]
      · rw [if_neg hr0] at h
        by_cases hn : opNe ret (v.take k) = true
        · rw [if_pos hn] at h; cases h
        · rw [if_neg hn] at h
          obtain ⟨h1, h2, h3, h4⟩ := ih _ _ _ hdl hr h
          have hx := h1 hr0
          have hrk : ret.length = k := by rcases hr with hr | hr; exact absurd hr hr0; exact hr
          refine ⟨fun _ => hx, fun _ => by rw [hx, hrk], ?_, ?_⟩
          · have he : ret.map toLower = (v.take k).map toLower := by
              rw [← cmp_zero_iff]
              simpa [opNe] using hn
            simp only [formatPattern, if_true, List.map_append, h3]
            rw [hx, he, ← List.map_append, List.take_append_drop]
          · intro h01
            rcases h01 with h01 | h01
            · simp [stars] at h01
            · exact absurd h01.2 hr0
    · simp only [matchLoop, hc, if_false] at h
      simp only [stars, hc, if_false, List.length_cons] at hl
      cases v with
      | nil => simp at h
      | cons y v' =>
        simp only at h
        by_cases hy : y = c
        · subst hy
          rw [if_neg (by simp)] at h
          have hl' : v'.length + stars p = p.length + stars p * k := by
            simp only [List.length_cons] at hl; omega
          obtain ⟨h1, h2, h3, h4⟩ := ih _ _ _ hl' hr h
          refine ⟨h1, by simpa [stars, hc] using h2, ?_, ?_⟩
          · simp [formatPattern, hc, h3]
          · intro h01
            simp only [formatPattern, hc, if_false]
            rw [h4 (by simpa [stars, hc] using h01)]
        · rw [if_pos hy] at h; cases h

/-! ### paths -/

theorem lastSlash_none {p : Text} : lastSlash p = none ↔ 47 ∉ p := by
  induction p with
  | nil => simp [lastSlash]
  | cons c t ih =>
    simp only [lastSlash]
    cases h : lastSlash t with
    | none =>
      have := ih.1 h
      by_cases hc : c = 47
      · simp [hc]
      · have : ¬ (47 = c) := fun e => hc e.symm
        simp_all
    | some i =>
      simp only [reduceCtorEq, false_iff]
      have : ¬ (47 ∉ t) := by intro hn; rw [← ih] at hn; rw [hn] at h; cases h
      simp only [Decidable.not_not] at this ⊢
      exact List.mem_cons_of_mem _ this

theorem lastSlash_append {d n : Text} (hn : 47 ∉ n) : lastSlash (d ++ 47 :: n) = some d.length := by
  induction d with
  | nil => simp [lastSlash, lastSlash_none.2 hn]
  | cons c t ih => simp [lastSlash, ih]

theorem lastSlash_some {p : Text} {i : Nat} (h : lastSlash p = some i) :
    p = p.take i ++ 47 :: p.drop (i + 1) ∧ 47 ∉ p.drop (i + 1) := by
  induction p generalizing i with
  | nil => simp [lastSlash] at h
  | cons c t ih =>
    simp only [lastSlash] at h
    cases hl : lastSlash t with
    | none =>
      rw [hl] at h
      by_cases hc : c = 47
      · simp [hc] at h
        subst h hc
        exact ⟨by simp, by simpa using lastSlash_none.1 hl⟩
      · simp [hc] at h
    | some j =>
      rw [hl] at h
      simp at h
      subst h
      obtain ⟨h1, h2⟩ := ih hl
      exact ⟨by simpa using h1, by simpa using h2⟩

end Verif.Str
