import Verif.Str.StyleArgsLemmas
/-!
# C09: setting and getting style arguments
-/
set_option linter.unusedSimpArgs false
namespace Verif.Str

/-- The defaults a style uses are proper: words that do not start with `~`, and the style always
uses the same default for the same argument. -/
def ProperDefaults (qs : List (Nat × Text)) : Prop :=
  (∀ q ∈ qs, IsWord q.2 ∧ q.2.head? ≠ some 126) ∧
  (∀ q ∈ qs, ∀ q' ∈ qs, q.1 = q'.1 → q.2 = q'.2)

theorem findStyle_congr {styles : List (Text × Prog)} {s s' : Text} {ws ws' : List Text}
    (hn : ∀ e ∈ styles, IsWord e.1) (h : Words s ws) (h' : Words s' ws') (hh : ws.head? = ws'.head?) :
    findStyle styles s' = findStyle styles s := by
  unfold findStyle
  congr 1
  induction styles with
  | nil => rfl
  | cons e es ih =>
    have he : firstWord s' e.1 = firstWord s e.1 := by
      have h1 := C10_first_word h (hn e (by simp))
      have h2 := C10_first_word h' (hn e (by simp))
      rw [Bool.eq_iff_iff, h1, h2, hh]
    simp only [List.find?_cons, he]
    rw [ih (fun x hx => hn x (by simp [hx]))]

/-- Replacing argument `arg` of a style string and reading the result: argument `arg` reads as the new
value, every other argument (including the style name, position 0) reads as before. -/
theorem C09_set_get {styles : List (Text × Prog)} {s : Text} {ws : List Text} {p : Prog} {arg : Nat} {v s' : Text}
    (hn : ∀ e ∈ styles, IsWord e.1)
    (h : Words s ws) (ht : NoTrailing s) (hp : findStyle styles s = some p)
    (hd : ProperDefaults (queries (argEnv ws) p 0)) (hi : Indep arg p 0)
    (hv : IsWord v) (hv' : v.head? ≠ some 126)
    (hs : setArgument styles s arg v = some s') :
    getArgument styles s' arg = .val v ∧
    ∀ m, m ≠ arg → getArgument styles s' m = getArgument styles s m := by
  obtain ⟨hd1, hd2⟩ := hd
  have hq : ∀ q ∈ queries (argEnv ws) p 0, IsWord q.2 := fun q hq => (hd1 q hq).1
  obtain ⟨ha, ws', hw', ht', hlen, hget⟩ := setArgument_words h ht hp hq hv hs
  have hwl : 0 < ws.length := by
    rcases Nat.eq_zero_or_pos ws.length with h0 | h0
    · have : ws = [] := List.eq_nil_of_length_eq_zero h0
      subst this
      unfold findStyle at hp
      rw [Option.map_eq_some_iff] at hp
      obtain ⟨e, he1, _⟩ := hp
      have he2 := List.find?_some he1
      have he3 := List.mem_of_find?_eq_some he1
      rw [C10_first_word h (hn e he3)] at he2
      simp at he2
    · exact h0
  -- pieces, in terms of the old string
  have hpiece : ∀ i, i < max ws.length (arg + 1) → ws'[i]? = some (if i = arg then v else
      match resolve (argEnv ws) i (queries (argEnv ws) p 0) with
      | some o => o
      | none => match ws[i]? with
        | none => [126]
        | some w => w) := by
    intro i hi
    rw [hget i hi]
    unfold setPiece
    by_cases hia : i = arg
    · rw [if_pos hia, if_pos hia]
    · rw [if_neg hia, if_neg hia, getArgument_spec h ht hp hq]
      cases resolve (argEnv ws) i (queries (argEnv ws) p 0) with
      | some o => rfl
      | none =>
        simp only
        cases ws[i]? with
        | none => rfl
        | some w =>
          simp only
          by_cases hw : w = [126]
          · rw [if_pos hw, hw]
          · rw [if_neg hw]
  -- the style name is not an argument any style asks for
  have hq0 : ∀ env (p : Prog) off, ∀ q ∈ queries env p off, q.1 ≠ 0 := by
    intro env p
    induction p with
    | done => intro off q hq; simp [queries] at hq
    | get n d k ih =>
      intro off q hq
      simp only [queries, List.mem_cons] at hq
      rcases hq with rfl | hq
      · show n + 1 + off ≠ 0; omega
      · exact ih _ _ q hq
    | shift j p ih => intro off q hq; exact ih _ q hq
  have hres0 : resolve (argEnv ws) 0 (queries (argEnv ws) p 0) = none := by
    unfold resolve
    cases hl : lastQuery 0 (queries (argEnv ws) p 0) with
    | none => rfl
    | some d => exact absurd rfl (hq0 _ _ _ _ (lastQuery_mem hl))
  have hhead : ws.head? = ws'.head? := by
    have h0 := hpiece 0 (by omega)
    rw [if_neg (by omega), hres0] at h0
    rw [List.head?_eq_getElem?, List.head?_eq_getElem?, h0]
    obtain ⟨w, tl, rfl⟩ := List.exists_cons_of_length_pos hwl
    rfl
  have hp' : findStyle styles s' = some p := by rw [findStyle_congr hn h hw' hhead, hp]
  have henvarg : argEnv ws' arg = some v := by
    unfold argEnv
    rw [hpiece arg (by omega), if_pos rfl]
    simp [Option.filter, hv']
  -- all other arguments have the same value as far as the style can see
  have hval : ∀ q ∈ queries (argEnv ws) p 0, q.1 ≠ arg → (argEnv ws' q.1).getD q.2 = (argEnv ws q.1).getD q.2 := by
    intro q hqm hqa
    by_cases hl : q.1 < max ws.length (arg + 1)
    · have hlast : ∃ d, lastQuery q.1 (queries (argEnv ws) p 0) = some d := by
        cases hl : lastQuery q.1 (queries (argEnv ws) p 0) with
        | none => exact absurd rfl (lastQuery_none hl q hqm)
        | some d => exact ⟨d, rfl⟩
      obtain ⟨d, hld⟩ := hlast
      have hdq : d = q.2 := hd2 _ (lastQuery_mem hld) q hqm rfl
      have hr : resolve (argEnv ws) q.1 (queries (argEnv ws) p 0) = some ((argEnv ws q.1).getD q.2) := by
        unfold resolve; rw [hld, hdq]; rfl
      have he := hpiece q.1 hl
      rw [if_neg hqa, hr] at he
      have hnt : ((argEnv ws q.1).getD q.2).head? ≠ some 126 := by
        cases hE : argEnv ws q.1 with
        | none => exact (hd1 q hqm).2
        | some w =>
          unfold argEnv at hE
          rw [Option.filter_eq_some_iff] at hE
          simpa using hE.2
      have hE' : argEnv ws' q.1 = some ((argEnv ws q.1).getD q.2) := by
        generalize (argEnv ws q.1).getD q.2 = val at he hnt ⊢
        unfold argEnv
        rw [he]
        simp [Option.filter, hnt]
      rw [hE', Option.getD_some]
    · have h1 : argEnv ws q.1 = none := by
        unfold argEnv
        rw [List.getElem?_eq_none (by omega)]; rfl
      have h2 : argEnv ws' q.1 = none := by
        unfold argEnv
        rw [List.getElem?_eq_none (by omega)]; rfl
      rw [h1, h2]
  have hqs : queries (argEnv ws') p 0 = queries (argEnv ws) p 0 := queries_congr p 0 hi hval
  have hq' : ∀ q ∈ queries (argEnv ws') p 0, IsWord q.2 := by rw [hqs]; exact hq
  constructor
  · rw [getArgument_spec hw' ht' hp' hq', hqs]
    cases hl : lastQuery arg (queries (argEnv ws) p 0) with
    | some d => simp [resolve, hl, henvarg]
    | none =>
      simp only [resolve, hl, Option.map_none]
      rw [hpiece arg (by omega), if_pos rfl]
      simp only
      rw [if_neg]
      intro hc
      rw [hc] at hv'
      simp at hv'
  · intro m hm
    rw [getArgument_spec hw' ht' hp' hq', getArgument_spec h ht hp hq, hqs]
    cases hl : lastQuery m (queries (argEnv ws) p 0) with
    | some d =>
      have := hval (m, d) (lastQuery_mem hl) hm
      simp only [resolve, hl, Option.map_some]
      simp only at this
      rw [this]
    | none =>
      have hr : resolve (argEnv ws) m (queries (argEnv ws) p 0) = none := by simp [resolve, hl]
      have hr' : resolve (argEnv ws') m (queries (argEnv ws) p 0) = none := by simp [resolve, hl]
      rw [hr, hr']
      simp only
      by_cases hml : m < max ws.length (arg + 1)
      · have he := hpiece m hml
        rw [if_neg hm, hr] at he
        rw [he]
        cases hwm : ws[m]? with
        | none => simp
        | some w => simp
      · rw [List.getElem?_eq_none (by omega), List.getElem?_eq_none (by omega)]

/-- a style like `standard`, with two arguments (defaults "0,255,255" and "300") -/
def exampleStyles : List (Text × Prog) :=
  [([115], .get 0 [48, 44, 50] (fun _ => .get 1 [51, 48, 48] (fun _ => .done)))]

/-- the hypotheses of `C09_set_get` are met by setting argument 3 (not used by the style) and
argument 1 of "s 1" -/
example : setArgument exampleStyles [115, 32, 49] 3 [53] = some [115, 32, 49, 32, 51, 48, 48, 32, 53] ∧
    setArgument exampleStyles [115, 32, 49] 1 [53] = some [115, 32, 53] ∧
    getArgument exampleStyles [115, 32, 53] 2 = .val [51, 48, 48] := by decide

/-- a style of the kind `builtin`: the first two arguments select the style, which then reads its own
arguments from position 3 on; setting any of those does not influence the selection -/
example (styleOf : Text → Text → Prog) (hst : ∀ a b n off, Indep n (styleOf a b) off) (n : Nat) (hn : 3 ≤ n) :
    Indep n (.get 0 [48] (fun a => .get 1 [49] (fun b => .shift 2 (styleOf a b)))) 0 := by
  simp only [Indep]
  refine ⟨fun h => by omega, fun w => ⟨fun h => by omega, fun w' => hst _ _ _ _⟩⟩

/-- What `C09_set_get` excludes by `NoTrailing`: with a blank at the end of the style string the value
ends up at the wrong position. -/
theorem C09_trailing_blank_counterexample :
    ∃ styles s arg v s', findStyle styles s ≠ none ∧ setArgument styles s arg v = some s' ∧ getArgument styles s' arg ≠ .val v :=
  ⟨[([115], .done)], [115, 32], 2, [53], [115, 32, 32, 53], by decide, by decide, by decide⟩

end Verif.Str
