import Verif.Str.SortedLemmas
set_option linter.unusedSimpArgs false
/-!
# C15: the sorted menu shows the n-th smallest line

Specification side: `s` is *the* sorted arrangement of the lines (a permutation of the output,
strictly increasing in the case-insensitive order of C11); the menu shows the entries below the
current value, the current value itself, and the entries above it.
-/
namespace Verif.Str

/-- `s` is a strictly sorted arrangement of the lines -/
def SortedArrangement (s lines : List Text) : Prop := s.Perm lines ∧ s.Pairwise (fun a b => cmp a b < 0)

/-- what the menu should show -/
def menuOf (s : List Text) (cur : Text) : List Text :=
  s.filter (fun l => cmp l cur < 0) ++ [cur] ++ s.filter (fun l => cmp l cur > 0)

/-- output the helper can handle: no empty line (never delivered by the capture helper), and every
line before the end marker, a text of one byte 127 -/
def Sortable (lines : List Text) : Prop := ∀ l ∈ lines, l ≠ [] ∧ cmp l [127] < 0

theorem SortedArrangement.distinct {s lines} (h : SortedArrangement s lines) : Distinct lines := by
  have : Distinct s := h.2.imp (fun {a b} hab => by omega)
  unfold Distinct at *
  refine (h.1.pairwise_iff ?_).1 this
  intro a b hab hba
  rw [cmp_swap] at hba
  omega

theorem countP_lt_sorted {s : List Text} (h : s.Pairwise (fun a b => cmp a b < 0)) :
    ∀ k (hk : k < s.length), s.countP (fun l => decide (cmp l s[k] < 0)) = k := by
  induction s with
  | nil => intro k hk; simp at hk
  | cons a t ih =>
    rw [List.pairwise_cons] at h
    intro k hk
    rw [List.countP_cons]
    cases k with
    | zero =>
      simp only [List.getElem_cons_zero]
      have : t.countP (fun l => decide (cmp l a < 0)) = 0 := by
        rw [List.countP_eq_zero]
        intro x hx
        have := h.1 x hx
        have h2 := cmp_swap x a
        simp only [decide_eq_true_eq]; omega
      rw [this]; simp [cmp_self]
    | succ k =>
      simp only [List.getElem_cons_succ]
      have hk' : k < t.length := by simpa using hk
      rw [ih h.2 k hk']
      have := h.1 t[k] (List.getElem_mem _)
      simp [this]

theorem rank_unique {s lines : List Text} (h : SortedArrangement s lines) {t : Text} (ht : t ∈ lines) {k : Nat}
    (hk : nLt lines t = k) : s[k]? = some t := by
  have hs : t ∈ s := (h.1.mem_iff).2 ht
  obtain ⟨i, hi, rfl⟩ := List.getElem_of_mem hs
  have h1 := countP_lt_sorted h.2 i hi
  have h2 : nLt lines s[i] = i := by
    unfold nLt
    rw [← h.1.countP_eq]
    exact h1
  have : i = k := by omega
  subst this
  exact List.getElem?_eq_getElem hi

theorem nLe_nil {lines : List Text} (h : Sortable lines) : nLe lines [] = 0 := by
  unfold nLe
  rw [List.countP_eq_zero]
  intro l hl
  have := (h l hl).1
  cases l with
  | nil => exact absurd rfl this
  | cons a l => simp [cmp]

theorem nLt_end {lines : List Text} (h : Sortable lines) : nLt lines [127] = lines.length := by
  unfold nLt
  rw [List.countP_eq_length]
  intro l hl
  simpa using (h l hl).2

theorem cmp_nil_lt {t : Text} (h : t ≠ []) : cmp [] t < 0 := by
  cases t with
  | nil => exact absurd rfl h
  | cons a l => simp [cmp]

/-- the line remembered from the last query: none, or a right one -/
def LineOk (lines : List Text) (l : Line) : Prop :=
  (l.num = -1) ∨ (l.text ∈ lines ∧ (nLt lines l.text : Int) = l.num)

theorem findStart_inv {lines : List Text} (hs : Sortable lines) (hd : Distinct lines) {prev : Line} (hp : LineOk lines prev)
    {n : Int} (h0 : 0 ≤ n) (hn : n < lines.length) (hne : prev.num ≠ n) : SearchInv lines n (findStart lines.length prev n) := by
  have e1 := nLe_nil hs
  have e2 := nLt_end hs
  have e3 : cmp [] [127] < 0 := by decide
  unfold findStart
  rcases hp with hp | ⟨hp, hr⟩
  · rw [if_neg (by omega)]
    refine ⟨?_, ?_, ?_, ?_, e3, ?_⟩
    · show ((nLe lines [] : Nat) : Int) = -1 + 1; omega
    · show -1 < n; omega
    · right; show (lines.length : Int) + 1 = nLt lines [127] + 1; omega
    · show n < nLt lines [127]; omega
    · show -1 ≤ (-1 : Int); omega
  · rw [if_pos (by omega)]
    have e4 := nLe_eq hd hp
    split
    · refine ⟨?_, ?_, ?_, ?_, cmp_nil_lt (hs _ hp).1, ?_⟩
      · show ((nLe lines [] : Nat) : Int) = -1 + 1; omega
      · show -1 < n; omega
      · left; exact hr.symm
      · show n < nLt lines prev.text; omega
      · show -1 ≤ (-1 : Int); omega
    · refine ⟨?_, ?_, ?_, ?_, (hs _ hp).2, ?_⟩
      · show ((nLe lines prev.text : Nat) : Int) = prev.num + 1; omega
      · show prev.num < n; omega
      · right; show (lines.length : Int) + 1 = nLt lines [127] + 1; omega
      · show n < nLt lines [127]; omega
      · show -1 ≤ prev.num; omega

/-- **C15** (the search).  For every output without duplicates, in whatever order the command prints
it, and whatever line was found last: asking for index `n` ends after at most one more run of the
command than there are lines, and unless the shift of the step width overflows, it ends with the
`n`-th smallest line. -/
theorem C15_search_partial {lines s : List Text} (hs : Sortable lines) (ha : SortedArrangement s lines)
    {prev : Line} (hp : LineOk lines prev) {n : Nat} (hn : n < lines.length) (hne : prev.num ≠ n)
    {fuel : Nat} (hf : lines.length + 1 ≤ fuel) :
    (∃ l, find lines lines.length prev n fuel = .line l ∧ l.num = n ∧ s[n]? = some l.text) ∨
      find lines lines.length prev n fuel = .overflow := by
  have hd := ha.distinct
  have hinv := findStart_inv hs hd hp (n := n) (by omega) (by omega) hne
  have hret : (findStart lines.length prev n).ret.num ≠ n := by
    unfold findStart
    split
    · split <;> exact hne
    · exact hne
  have hgap : ((nLt lines (findStart lines.length prev n).mx.text : Int) - (findStart lines.length prev n).mn.num) ≤ fuel := by
    have := hinv.mnGe
    have h2 : nLt lines (findStart lines.length prev n).mx.text ≤ lines.length := List.countP_le_length
    omega
  rcases findLoop_spec (fun x hx => (hs x hx).1) hd fuel _ hinv hret hgap with ⟨l, h1, h2, h3, h4⟩ | h
  · exact Or.inl ⟨l, h1, h2, rank_unique ha h3 (by omega)⟩
  · exact Or.inr h

/-- **C15** (no overflow).  With at most 27 lines the search never overflows: it always returns the
`n`-th smallest line. -/
theorem C15_search_small {lines s : List Text} (hs : Sortable lines) (ha : SortedArrangement s lines)
    (h27 : lines.length ≤ 27) {prev : Line} (hp : LineOk lines prev) {n : Nat} (hn : n < lines.length) (hne : prev.num ≠ n)
    {fuel : Nat} (hf : lines.length + 1 ≤ fuel) :
    ∃ l, find lines lines.length prev n fuel = .line l ∧ l.num = n ∧ s[n]? = some l.text := by
  rcases C15_search_partial hs ha hp hn hne hf with h | h
  · exact h
  · exfalso
    have hd := ha.distinct
    have hinv := findStart_inv hs hd hp (n := n) (by omega) (by omega) hne
    refine findLoop_no_overflow (B := 26) (fun x hx => (hs x hx).1) hd ?_ fuel _ hinv ?_ h
    · omega
    · have h1 := hinv.mnGe
      have h2 : nLt lines (findStart lines.length prev n).mx.text ≤ lines.length := List.countP_le_length
      have h3 : (findStart lines.length prev n).shift = 0 := by
        unfold findStart
        split
        · split <;> rfl
        · rfl
      omega

/-- what stays true of the helper between two queries -/
structure HelperOk (h : Helper) (lines : List Text) (cur : Text) : Prop where
  pos : h.curPos = nLt lines cur
  ex : h.curExists = decide (∃ l ∈ lines, cmp l cur = 0)
  num : h.numLines = lines.length
  line : LineOk lines h.line

theorem init_ok {lines : List Text} (hd : Distinct lines) (cur : Text) : HelperOk (Helper.init lines cur) lines cur := by
  have hlow : lines.countP (fun l => decide (¬ cmp l cur > 0 ∧ cmp l cur < 0)) = nLt lines cur := by
    unfold nLt
    apply List.countP_congr
    intro x _
    simp only [decide_eq_true_eq]
    omega
  refine ⟨?_, ?_, rfl, Or.inl rfl⟩
  · show ((lines.countP _ : Nat) : Int) = _
    rw [hlow]
  · show decide (lines.countP _ + lines.countP _ + 1 = lines.length) = _
    rw [hlow]
    have h1 : lines.countP (fun _ => true) = nLe lines cur + lines.countP (fun l => decide (cmp l cur > 0)) := by
      apply countP_split
      intro x _; simp only [decide_eq_true_eq, true_iff]; omega
    have h2 : nLe lines cur = nLt lines cur + lines.countP (fun l => decide (cmp l cur = 0)) := by
      apply countP_split
      intro x _; simp only [decide_eq_true_eq]; omega
    have h3 : lines.countP (fun _ => true) = lines.length := by simp
    rw [decide_eq_decide]
    constructor
    · intro h
      have : 0 < lines.countP (fun l => decide (cmp l cur = 0)) := by omega
      rw [List.countP_pos_iff] at this
      obtain ⟨l, hl, hc⟩ := this
      exact ⟨l, hl, by simpa using hc⟩
    · rintro ⟨l, hl, hc⟩
      have he : lines.countP (fun x => decide (cmp x cur = 0)) = lines.countP (fun x => decide (cmp x l = 0)) := by
        apply List.countP_congr
        intro x _
        simp only [decide_eq_true_eq, cmp_zero_iff] at *
        rw [hc]
      rw [countP_eq_one hd hl] at he
      omega

theorem filter_lt_sorted {s : List Text} (h : s.Pairwise (fun a b => cmp a b < 0)) (cur : Text) (n : Nat)
    (hn : n < s.countP (fun l => decide (cmp l cur < 0))) : (s.filter (fun l => cmp l cur < 0))[n]? = s[n]? := by
  induction s generalizing n with
  | nil => rfl
  | cons a t ih =>
    rw [List.pairwise_cons] at h
    rw [List.countP_cons] at hn
    by_cases ha : cmp a cur < 0
    · rw [List.filter_cons_of_pos (by simpa using ha)]
      cases n with
      | zero => rfl
      | succ n =>
        simp only [List.getElem?_cons_succ]
        apply ih h.2
        simp [ha] at hn
        exact hn
    · exfalso
      have : t.countP (fun l => decide (cmp l cur < 0)) = 0 := by
        rw [List.countP_eq_zero]
        intro x hx hc
        exact ha (cmp_lt_trans (h.1 x hx) (by simpa using hc))
      rw [this] at hn
      simp [ha] at hn

theorem filter_gt_sorted {s : List Text} (h : s.Pairwise (fun a b => cmp a b < 0)) (cur : Text) (n : Nat) :
    (s.filter (fun l => cmp l cur > 0))[n]? = s[n + s.countP (fun l => decide (cmp l cur ≤ 0))]? := by
  induction s generalizing n with
  | nil => rfl
  | cons a t ih =>
    rw [List.pairwise_cons] at h
    rw [List.countP_cons]
    by_cases ha : cmp a cur ≤ 0
    · rw [List.filter_cons_of_neg (by simp; omega), if_pos (by simpa using ha), ← Nat.add_assoc, List.getElem?_cons_succ]
      exact ih h.2 n
    · have hall : ∀ x ∈ t, ¬ cmp x cur ≤ 0 := by
        intro x hx hc
        exact ha (by have := cmp_lt_le (h.1 x hx) hc; omega)
      have : t.countP (fun l => decide (cmp l cur ≤ 0)) = 0 := by
        rw [List.countP_eq_zero]
        intro x hx
        simpa using hall x hx
      rw [this, if_neg (by simpa using ha)]
      have e : (a :: t).filter (fun l => decide (cmp l cur > 0)) = a :: t := by
        rw [List.filter_eq_self]
        intro x hx
        rcases List.mem_cons.1 hx with rfl | hx
        · simp; omega
        · have := hall x hx; simp; omega
      rw [e]
      rfl

/-- **C15** (one query).  In any state the helper can be in, asking for entry `n` of the menu shows the
`n`-th entry of the sorted menu and leaves the helper in such a state again; the only other outcome is
the overflow of C15_overflow. -/
theorem C15_get_partial {lines s : List Text} (hs : Sortable lines) (ha : SortedArrangement s lines) {cur : Text}
    {h : Helper} (hok : HelperOk h lines cur) {n : Nat} (hn : n < (menuOf s cur).length)
    {fuel : Nat} (hf : lines.length + 1 ≤ fuel) :
    (∃ t h', h.get lines cur n fuel = .ok t h' ∧ (menuOf s cur)[n]? = some t ∧ HelperOk h' lines cur) ∨
      (h.get lines cur n fuel = .overflow ∧ 27 < lines.length) := by
  obtain ⟨hpos, hex, hnum, hline⟩ := hok
  have hd := ha.distinct
  have hlow : (s.filter (fun l => decide (cmp l cur < 0))).length = nLt lines cur := by
    rw [← List.countP_eq_length_filter, ha.1.countP_eq]; rfl
  have hhigh : (s.filter (fun l => decide (cmp l cur > 0))).length = s.length - nLe lines cur := by
    rw [← List.countP_eq_length_filter]
    have h1 : s.countP (fun _ => true) = s.countP (fun l => decide (cmp l cur ≤ 0)) + s.countP (fun l => decide (cmp l cur > 0)) := by
      apply countP_split
      intro x _; simp only [decide_eq_true_eq, true_iff]; omega
    have h3 : s.countP (fun _ => true) = s.length := by simp
    have h4 : s.countP (fun l => decide (cmp l cur ≤ 0)) = nLe lines cur := ha.1.countP_eq _
    omega
  have hsl : s.length = lines.length := ha.1.length_eq
  have hle2 : nLe lines cur ≤ lines.length := List.countP_le_length
  have hle : nLe lines cur = nLt lines cur + if h.curExists then 1 else 0 := by
    have h2 : nLe lines cur = nLt lines cur + lines.countP (fun l => decide (cmp l cur = 0)) := by
      apply countP_split
      intro x _; simp only [decide_eq_true_eq]; omega
    rw [h2, hex]
    congr 1
    by_cases hc : ∃ l ∈ lines, cmp l cur = 0
    · rw [if_pos (by simpa using hc)]
      obtain ⟨l, hl, hc⟩ := hc
      have he : lines.countP (fun x => decide (cmp x cur = 0)) = lines.countP (fun x => decide (cmp x l = 0)) := by
        apply List.countP_congr
        intro x _
        simp only [decide_eq_true_eq, cmp_zero_iff] at *
        rw [hc]
      rw [he, countP_eq_one hd hl]
    · rw [if_neg (by simpa using hc), List.countP_eq_zero]
      intro x hx hxc
      exact hc ⟨x, hx, by simpa using hxc⟩
  have hml : n < nLt lines cur + 1 + (lines.length - nLe lines cur) := by
    rw [menuOf, List.length_append, List.length_append, hlow, hhigh, hsl] at hn
    exact hn
  unfold Helper.get
  by_cases hcur : (n : Int) = h.curPos
  · rw [if_pos hcur]
    left
    refine ⟨cur, h, rfl, ?_, ⟨hpos, hex, hnum, hline⟩⟩
    have : n = nLt lines cur := by omega
    rw [menuOf, List.append_assoc, List.getElem?_append_right (by omega), hlow, this, Nat.sub_self]
    rfl
  · rw [if_neg hcur]
    -- the index among the lines
    obtain ⟨m, hm, hmN, hmenu⟩ : ∃ m : Nat, (if (n : Int) ≥ h.curPos ∧ ¬ h.curExists = true then (n : Int) - 1 else n) = m ∧
        m < lines.length ∧ (menuOf s cur)[n]? = s[m]? := by
      by_cases hlt : (n : Int) < h.curPos
      · refine ⟨n, by rw [if_neg (by omega)], by omega, ?_⟩
        rw [menuOf, List.append_assoc, List.getElem?_append_left (by omega)]
        apply filter_lt_sorted ha.2
        have h4 : s.countP (fun l => decide (cmp l cur < 0)) = nLt lines cur := ha.1.countP_eq _
        omega
      · have hgt : nLt lines cur < n := by omega
        have hm1 : (menuOf s cur)[n]? = s[n - (nLt lines cur + 1) + nLe lines cur]? := by
          rw [menuOf, List.getElem?_append_right (by rw [List.length_append, hlow]; simp; omega), List.length_append, hlow,
            filter_gt_sorted ha.2]
          have h4 : s.countP (fun l => decide (cmp l cur ≤ 0)) = nLe lines cur := ha.1.countP_eq _
          rw [h4]
          rfl
        by_cases hx : h.curExists = true
        · refine ⟨n, by rw [if_neg (by simp [hx])], ?_, ?_⟩
          · rw [hx] at hle; simp at hle; omega
          · rw [hm1]; rw [hx] at hle; simp at hle
            congr 1; omega
        · refine ⟨n - 1, by rw [if_pos ⟨by omega, hx⟩]; omega, ?_, ?_⟩
          · rw [if_neg hx] at hle; omega
          · rw [hm1]; rw [if_neg hx] at hle
            congr 1; omega
    simp only [hm]
    rw [hmenu]
    by_cases hsame : (m : Int) ≠ h.line.num
    · rw [if_pos hsame, hnum]
      rcases C15_search_partial hs ha hline hmN (fun e => hsame e.symm) hf with ⟨l, h1, h2, h3⟩ | h1
      · left
        rw [h1]
        refine ⟨l.text, _, rfl, h3, hpos, hex, rfl, ?_⟩
        right
        have hml' : l.text ∈ s := List.mem_of_getElem? h3
        refine ⟨(ha.1.mem_iff).1 hml', ?_⟩
        show ((nLt lines l.text : Nat) : Int) = l.num
        obtain ⟨hlt, hEq⟩ := List.getElem?_eq_some_iff.1 h3
        have h5 := countP_lt_sorted ha.2 m hlt
        rw [hEq, ha.1.countP_eq] at h5
        rw [h2]
        exact_mod_cast h5
      · right
        rw [h1]
        refine ⟨rfl, ?_⟩
        by_cases h27 : lines.length ≤ 27
        · obtain ⟨l, h5, _⟩ := C15_search_small hs ha h27 hline hmN (fun e => hsame e.symm) hf
          rw [h1] at h5
          cases h5
        · omega
    · rw [if_neg hsame]
      left
      refine ⟨_, h, rfl, ?_, ⟨hpos, hex, hnum, hline⟩⟩
      rcases hline with hl | ⟨hl, hr⟩
      · omega
      · exact rank_unique ha hl (by omega)

/-- a session: open the menu, then ask for the entries `ns` one after the other; `none` is the overflow
(or running out of fuel) -/
def session (lines : List Text) (cur : Text) (fuel : Nat) : Helper → List Nat → Option (List Text)
  | _, [] => some []
  | h, n :: ns =>
    match h.get lines cur n fuel with
    | .ok t h' => (session lines cur fuel h' ns).map (t :: ·)
    | _ => none

/-- **C15** (whole sessions).  For every output of at most 27 different lines, in whatever order the
command prints them, every current value and every sequence of queries: each query shows the entry of
the sorted menu at that index. -/
theorem C15_session {lines s : List Text} (hs : Sortable lines) (ha : SortedArrangement s lines) (h27 : lines.length ≤ 27)
    {cur : Text} {fuel : Nat} (hf : lines.length + 1 ≤ fuel) {ns : List Nat} (hns : ∀ n ∈ ns, n < (menuOf s cur).length) :
    session lines cur fuel (Helper.init lines cur) ns = some (ns.map (fun n => (menuOf s cur)[n]?.getD [])) := by
  have key : ∀ (ns : List Nat) (h : Helper), HelperOk h lines cur → (∀ n ∈ ns, n < (menuOf s cur).length) →
      session lines cur fuel h ns = some (ns.map (fun n => (menuOf s cur)[n]?.getD [])) := by
    intro ns
    induction ns with
    | nil => intro h _ _; rfl
    | cons n ns ih =>
      intro h hok hns
      rcases C15_get_partial hs ha hok (hns n (by simp)) hf with ⟨t, h', h1, h2, h3⟩ | ⟨_, h4⟩
      · unfold session
        rw [h1]
        simp only
        rw [ih h' h3 (fun m hm => hns m (by simp [hm]))]
        simp [h2]
      · omega
  exact key ns _ (init_ok ha.distinct cur) hns

/-- a concrete session: lines `b`, `D`, `a` with current value `c` -/
example : SortedArrangement [[97], [98], [68]] [[98], [68], [97]] ∧ Sortable [[98], [68], [97]] ∧
    session [[98], [68], [97]] [99] 4 (Helper.init [[98], [68], [97]] [99]) [3, 0, 2, 1] = some [[68], [97], [99], [98]] := by
  refine ⟨⟨by decide, by decide⟩, by unfold Sortable; decide, by decide +kernel⟩

/-- two-digit lines `00`, `01`, ... -/
def digits (i : Nat) : Text := [48 + i / 10, 48 + i % 10]

/-- `00` to `83` in order, except that `12` and `55` have changed places -/
def nearlySorted : List Text := (((List.range 84).map digits).set 12 (digits 55)).set 55 (digits 12)

/-- The bound on the number of lines in C15_session is needed: with 84 nearly sorted lines the step
width overflows, which is undefined behaviour in the code. -/
theorem C15_overflow : find nearlySorted 84 ⟨-1, []⟩ 28 100 = .overflow := by decide +kernel

/-- Duplicate lines are not handled: for the lines `c`, `a`, `c`, `b` entry 2 is shown as `b` (it
should be `c`), and for `c`, `c`, `b` entry 1 is shown empty. -/
theorem C15_duplicates_counterexample :
    find [[99], [97], [99], [98]] 4 ⟨-1, []⟩ 2 5 = .line ⟨2, [98]⟩ ∧
    find [[99], [99], [98]] 3 ⟨-1, []⟩ 1 4 = .line ⟨1, []⟩ := by decide +kernel

end Verif.Str
