import Verif.Str.StyleArgs
import Verif.Str.Props
set_option linter.unusedSimpArgs false
namespace Verif.Str

/-- value of argument `i` (1-based, position 0 is the style name) in a style string with words `ws`;
`~`-words count as absent -/
def argEnv (ws : List Text) (i : Nat) : Option Text := (ws[i]?).filter (fun w => w.head? ≠ some 126)

/-- the queries a style makes, with absolute argument number and default -/
def queries (env : Nat → Option Text) : Prog → Nat → List (Nat × Text)
  | .done, _ => []
  | .get n d k, off => (n + 1 + off, d) :: queries env (k ((env (n + 1 + off)).getD d)) off
  | .shift j p, off => queries env p (off + j)

/-- whether the style goes on in the same way whatever the value of argument `a` is -/
def Indep (a : Nat) : Prog → Nat → Prop
  | .done, _ => True
  | .get n _ k, off => (n + 1 + off = a → ∀ w w', k w = k w') ∧ ∀ w, Indep a (k w) off
  | .shift j p, off => Indep a p (off + j)

/-- last default asked for argument `cur` -/
def lastQuery (cur : Nat) (qs : List (Nat × Text)) : Option Text :=
  (qs.reverse.find? (fun q => q.1 = cur)).map (·.2)

theorem copyWord_word {w : Text} (hw : IsWord w) {r : Text} (hr : AtBoundary r) : copyWord (w ++ r) = w := by
  unfold copyWord
  have := skipWord_cons (b := []) (by simp [Blanks]) hw hr
  rw [List.nil_append] at this
  rw [this, List.length_append, Nat.add_sub_cancel, List.take_left]

theorem copyWord_self {w : Text} (hw : IsWord w) : copyWord w = w := by
  have := copyWord_word hw (r := []) (Or.inl rfl)
  simpa using this

theorem wordAt_self {w : Text} (hw : IsWord w) : wordAt w = w := by
  have := wordAt_word hw.2 (s := []) (Or.inl rfl)
  simpa using this

/-- `getArgPtr` on a shifted argument string, in terms of the environment -/
theorem getArgPtr_env {s ws} (h : Words s ws) (off n : Nat) {d : Text} (hd : IsWord d) :
    copyWord (getArgPtr (shift off (skipWord s)) (n + 1) d) = (argEnv ws (n + 1 + off)).getD d ∧
    wordAt (getArgPtr (shift off (skipWord s)) (n + 1) d) = (argEnv ws (n + 1 + off)).getD d := by
  have hk := shift_words h.skip off
  rw [List.drop_drop] at hk
  obtain ⟨a1, a2, a3⟩ := C13_get hk n d
  rw [List.getElem?_drop, show 1 + off + n = n + 1 + off by omega] at a1 a2 a3
  unfold argEnv
  cases hc : ws[n + 1 + off]? with
  | none =>
    rw [a3 hc]
    exact ⟨by simp [copyWord_self hd], by simp [wordAt_self hd]⟩
  | some w =>
    have hw := h.all_words w (List.mem_of_getElem? hc)
    by_cases ht : w.head? = some 126
    · rw [a2 w hc ht]
      exact ⟨by simp [copyWord_self hd, Option.filter, ht], by simp [wordAt_self hd, Option.filter, ht]⟩
    · obtain ⟨r, e1, e2, e3⟩ := a1 w hc ht
      refine ⟨?_, ?_⟩
      · rw [e1, copyWord_word hw e2]; simp [Option.filter, ht]
      · rw [e3]; simp [Option.filter, ht]

/-- value of argument `cur` as the style sees it -/
def resolve (env : Nat → Option Text) (cur : Nat) (qs : List (Nat × Text)) : Option Text :=
  (lastQuery cur qs).map (fun d => (env cur).getD d)

theorem lastQuery_cons (cur : Nat) (q : Nat × Text) (qs : List (Nat × Text)) :
    lastQuery cur (q :: qs) = (lastQuery cur qs).or (if q.1 = cur then some q.2 else none) := by
  unfold lastQuery
  rw [List.reverse_cons, List.find?_append]
  cases h : qs.reverse.find? (fun q => q.1 = cur) with
  | some x => simp
  | none =>
    by_cases hq : q.1 = cur <;> simp [hq]

theorem runGet_env {s ws} (h : Words s ws) (cur : Nat) (p : Prog) :
    ∀ off o, (∀ q ∈ queries (argEnv ws) p off, IsWord q.2) →
      runGet cur p (shift off (skipWord s)) off o = (resolve (argEnv ws) cur (queries (argEnv ws) p off)).or o := by
  induction p with
  | done => intro off o _; simp [runGet, queries, resolve, lastQuery]
  | get n d k ih =>
    intro off o hq
    simp only [queries, List.mem_cons, forall_eq_or_imp] at hq
    obtain ⟨e1, e2⟩ := getArgPtr_env h off n hq.1
    simp only [runGet, queries]
    rw [e1, e2, ih _ _ _ hq.2]
    unfold resolve
    rw [lastQuery_cons]
    cases lastQuery cur (queries (argEnv ws) (k ((argEnv ws (n + 1 + off)).getD d)) off) with
    | some x => simp
    | none =>
      by_cases hc : cur = n + 1 + off
      · simp [hc]
      · have : ¬ (n + 1 + off = cur) := fun e => hc e.symm
        simp [hc, this]
  | shift j p ih =>
    intro off o hq
    simp only [runGet, queries] at hq ⊢
    have e : shift j (shift off (skipWord s)) = shift (off + j) (skipWord s) := by
      clear ih hq h
      generalize skipWord s = t
      induction off generalizing t with
      | zero => simp [shift]
      | succ m ihm => rw [show m + 1 + j = (m + j) + 1 by omega]; simp only [shift]; exact ihm _
    rw [e]
    exact ih _ _ hq

/-- no blank at the end of the text -/
def NoTrailing (s : Text) : Prop := ∀ c, s.getLast? = some c → c ≠ 32 ∧ c ≠ 9

theorem getArgument_spec {styles : List (Text × Prog)} {s ws p} (h : Words s ws) (ht : NoTrailing s)
    (hp : findStyle styles s = some p) (hq : ∀ q ∈ queries (argEnv ws) p 0, IsWord q.2) (arg : Nat) :
    getArgument styles s arg =
      match resolve (argEnv ws) arg (queries (argEnv ws) p 0) with
      | some o => .val o
      | none => match ws[arg]? with
        | none => .missing
        | some w => if w = [126] then .missing else .val w := by
  unfold getArgument
  rw [hp]
  have := runGet_env h arg p 0 none hq
  simp only [shift] at this
  simp only
  rw [this, Option.or_none]
  cases hr : resolve (argEnv ws) arg (queries (argEnv ws) p 0) with
  | some o => rfl
  | none =>
    simp only
    rw [C10_count_partial h ht]
    by_cases hl : ws.length ≤ arg
    · rw [if_pos hl, List.getElem?_eq_none hl]
    · rw [if_neg hl]
      obtain ⟨r, e1, e2, _, _⟩ := (C10_skip_words h arg).2.1 (by omega)
      have hw : IsWord ws[arg] := h.all_words _ (List.getElem_mem (by omega))
      rw [e1, copyWord_word hw e2, List.getElem?_eq_getElem (by omega)]

theorem Words.join {ws : List Text} (h : ∀ w ∈ ws, IsWord w) : Words (join ws) ws := by
  induction ws with
  | nil => exact .none (by simp [Blanks, Str.join])
  | cons w ws ih =>
    have hw := h w (by simp)
    have ih := ih (fun x hx => h x (by simp [hx]))
    cases ws with
    | nil =>
      have := Words.cons (b := []) (by simp [Blanks]) hw (s := []) (Or.inl rfl) (.none (by simp [Blanks]))
      simpa [Str.join] using this
    | cons w' ws' =>
      have hw' := h w' (by simp)
      have hr : Words (32 :: Str.join (w' :: ws')) (w' :: ws') := by
        generalize Str.join (w' :: ws') = t at ih
        cases ih with
        | @cons b w s ws hb h1 h2 h3 =>
          have := Words.cons (b := 32 :: b) (by intro c hc; rcases List.mem_cons.1 hc with rfl | hc; exact Or.inl rfl; exact hb c hc) h1 h2 h3
          simpa using this
      have := Words.cons (b := []) (by simp [Blanks]) hw (Or.inr ⟨32, _, rfl, Or.inl rfl⟩) hr
      simpa [Str.join] using this

theorem join_noTrailing {ws : List Text} (h : ∀ w ∈ ws, IsWord w) : NoTrailing (join ws) := by
  induction ws with
  | nil => intro c hc; simp [Str.join] at hc
  | cons w ws ih =>
    have hw := h w (by simp)
    have ih := ih (fun x hx => h x (by simp [hx]))
    cases ws with
    | nil =>
      intro c hc
      simp only [Str.join] at hc
      exact hw.2 c (List.mem_of_getLast? hc)
    | cons w' ws' =>
      intro c hc
      have hne : Str.join (w' :: ws') ≠ [] := by
        have hw' := (h w' (by simp)).1
        cases ws' with
        | nil => simpa [Str.join] using hw'
        | cons a b => simp [Str.join]
      simp only [Str.join] at hc
      rw [List.getLast?_append] at hc
      have e : (32 :: Str.join (w' :: ws')).getLast? = (Str.join (w' :: ws')).getLast? := by
        rw [List.getLast?_eq_some_getLast hne, List.getLast?_cons, List.getLast?_eq_some_getLast hne]; rfl
      rw [e, List.getLast?_eq_some_getLast hne] at hc
      refine ih c ?_
      rw [List.getLast?_eq_some_getLast hne]
      simpa using hc

/-- The words after setting argument `arg`. -/
theorem setArgument_words {styles : List (Text × Prog)} {s ws p} (h : Words s ws) (ht : NoTrailing s)
    (hp : findStyle styles s = some p) (hq : ∀ q ∈ queries (argEnv ws) p 0, IsWord q.2)
    {arg : Nat} {v : Text} (hv : IsWord v) {s' : Text} (hs : setArgument styles s arg v = some s') :
    arg ≠ 0 ∧ ∃ ws', Words s' ws' ∧ NoTrailing s' ∧ ws'.length = max ws.length (arg + 1) ∧
      ∀ i, i < max ws.length (arg + 1) → ws'[i]? = some (setPiece styles s arg v i) := by
  unfold setArgument at hs
  split at hs
  · cases hs
  · rename_i ha
    refine ⟨ha, ?_⟩
    rw [hp, C10_count_partial h ht] at hs
    simp only at hs
    split at hs
    · simp only [Option.some.injEq] at hs
      have hall : ∀ w ∈ (List.range (max ws.length (arg + 1))).map (setPiece styles s arg v), IsWord w := by
        intro w hw
        obtain ⟨i, hi, rfl⟩ := List.mem_map.1 hw
        unfold setPiece
        split
        · exact hv
        · rw [getArgument_spec h ht hp hq]
          have htilde : IsWord [126] := by simp [IsWord]
          cases hr : resolve (argEnv ws) i (queries (argEnv ws) p 0) with
          | some o =>
            simp only
            unfold resolve lastQuery at hr
            rw [Option.map_map, Option.map_eq_some_iff] at hr
            obtain ⟨q, hq1, hq2⟩ := hr
            have hmem := List.mem_of_find?_eq_some hq1
            simp only [List.mem_reverse] at hmem
            simp only [Function.comp] at hq2
            rw [← hq2]
            cases hE : argEnv ws i with
            | none => exact hq _ hmem
            | some w =>
              simp only [Option.getD_some]
              unfold argEnv at hE
              have := Option.eq_some_of_filter_eq_some hE
              exact h.all_words w (List.mem_of_getElem? this)
          | none =>
            simp only
            cases hwi : ws[i]? with
            | none => exact htilde
            | some w =>
              simp only
              by_cases hw1 : w = [126]
              · rw [if_pos hw1]; exact htilde
              · rw [if_neg hw1]; exact h.all_words w (List.mem_of_getElem? hwi)
      subst hs
      refine ⟨_, Words.join hall, join_noTrailing hall, by simp, ?_⟩
      intro i hi
      rw [List.getElem?_map, List.getElem?_range hi]
      rfl
    · cases hs

theorem queries_congr {env env' : Nat → Option Text} {a : Nat} (p : Prog) :
    ∀ off, Indep a p off →
      (∀ q ∈ queries env p off, q.1 ≠ a → (env' q.1).getD q.2 = (env q.1).getD q.2) →
      queries env' p off = queries env p off := by
  induction p with
  | done => intros; rfl
  | get n d k ih =>
    intro off hi hq
    simp only [queries, List.mem_cons, forall_eq_or_imp] at hq ⊢
    simp only [Indep] at hi
    have hk : k ((env' (n + 1 + off)).getD d) = k ((env (n + 1 + off)).getD d) := by
      by_cases hc : n + 1 + off = a
      · exact hi.1 hc _ _
      · rw [hq.1 hc]
    rw [hk, ih _ _ (hi.2 _) hq.2]
  | shift j p ih =>
    intro off hi hq
    simp only [queries, Indep] at hq hi ⊢
    exact ih _ hi hq

theorem lastQuery_mem {cur : Nat} {qs : List (Nat × Text)} {d : Text} (h : lastQuery cur qs = some d) :
    (cur, d) ∈ qs := by
  unfold lastQuery at h
  rw [Option.map_eq_some_iff] at h
  obtain ⟨q, h1, h2⟩ := h
  have hm := List.mem_of_find?_eq_some h1
  have hp := List.find?_some h1
  simp only [List.mem_reverse] at hm
  simp only [decide_eq_true_eq] at hp
  rw [← hp, ← h2]
  exact hm

theorem lastQuery_none {cur : Nat} {qs : List (Nat × Text)} (h : lastQuery cur qs = none) :
    ∀ q ∈ qs, q.1 ≠ cur := by
  unfold lastQuery at h
  rw [Option.map_eq_none_iff, List.find?_eq_none] at h
  intro q hq he
  exact h q (List.mem_reverse.2 hq) (by simpa using he)

end Verif.Str
