import Verif.Str.Sorted
import Verif.Str.Lemmas
set_option linter.unusedSimpArgs false
namespace Verif.Str

/-! ### the order -/

theorem cmp_lt_trans {a b c : Text} (h1 : cmp a b < 0) (h2 : cmp b c < 0) : cmp a c < 0 := by
  rw [cmp_neg_iff] at *
  exact List.lt_trans h1 h2

theorem cmp_le_iff (a b : Text) : cmp a b ≤ 0 ↔ a.map toLower ≤ b.map toLower := by
  rw [← List.not_lt, ← cmp_neg_iff, cmp_swap a b]
  omega

theorem cmp_le_lt {a b c : Text} (h1 : cmp a b ≤ 0) (h2 : cmp b c < 0) : cmp a c < 0 := by
  rw [cmp_le_iff] at h1
  rw [cmp_neg_iff] at *
  exact List.lt_of_le_of_lt h1 h2

theorem cmp_lt_le {a b c : Text} (h1 : cmp a b < 0) (h2 : cmp b c ≤ 0) : cmp a c < 0 := by
  rw [cmp_le_iff] at h2
  rw [cmp_neg_iff] at *
  rw [← List.not_lt] at h2
  by_cases h : a.map toLower < c.map toLower
  · exact h
  · rw [List.not_lt] at h
    exact absurd (List.lt_of_le_of_lt h h1) h2

theorem cmp_le_trans {a b c : Text} (h1 : cmp a b ≤ 0) (h2 : cmp b c ≤ 0) : cmp a c ≤ 0 := by
  rw [cmp_le_iff] at *
  exact List.le_trans h1 h2

theorem cmp_self (a : Text) : cmp a a = 0 := (cmp_zero_iff a a).2 rfl

/-! ### counting -/

/-- lines before `x` -/
def nLt (L : List Text) (x : Text) : Nat := L.countP (fun l => decide (cmp l x < 0))
/-- lines up to `x` -/
def nLe (L : List Text) (x : Text) : Nat := L.countP (fun l => decide (cmp l x ≤ 0))
/-- the lines are pairwise different, also up to case -/
def Distinct (L : List Text) : Prop := L.Pairwise (fun a b => cmp a b ≠ 0)

theorem countP_split {α} {p q r : α → Bool} {L : List α}
    (h : ∀ l ∈ L, (p l = true ↔ q l = true ∨ r l = true) ∧ ¬ (q l = true ∧ r l = true)) :
    L.countP p = L.countP q + L.countP r := by
  induction L with
  | nil => rfl
  | cons a t ih =>
    have ha := h a (by simp)
    have ih := ih (fun l hl => h l (by simp [hl]))
    rw [List.countP_cons, List.countP_cons, List.countP_cons, ih]
    by_cases hq : q a = true <;> by_cases hr : r a = true <;> by_cases hp : p a = true <;> simp_all <;> omega

theorem Distinct.eq_of_cmp {L : List Text} (h : Distinct L) {a b : Text} (ha : a ∈ L) (hb : b ∈ L) (hc : cmp a b = 0) : a = b := by
  induction L with
  | nil => simp at ha
  | cons x t ih =>
    rw [Distinct, List.pairwise_cons] at h
    rcases List.mem_cons.1 ha with rfl | ha <;> rcases List.mem_cons.1 hb with rfl | hb
    · rfl
    · exact absurd hc (h.1 b hb)
    · exact absurd (by rw [cmp_swap]; omega) (h.1 a (by assumption))
    · exact ih h.2 ha hb

theorem countP_eq_one {L : List Text} (h : Distinct L) {g : Text} (hg : g ∈ L) :
    L.countP (fun l => decide (cmp l g = 0)) = 1 := by
  induction L with
  | nil => simp at hg
  | cons x t ih =>
    have h' := h
    rw [Distinct, List.pairwise_cons] at h
    rw [List.countP_cons]
    rcases List.mem_cons.1 hg with rfl | hg
    · have : t.countP (fun l => decide (cmp l g = 0)) = 0 := by
        rw [List.countP_eq_zero]
        intro l hl
        have := h.1 l hl
        rw [cmp_swap] at this
        simp
        omega
      rw [this]; simp [cmp_self]
    · rw [ih h.2 hg]
      have : cmp x g ≠ 0 := h.1 g hg
      simp [this]

theorem nLe_eq {L : List Text} (h : Distinct L) {g : Text} (hg : g ∈ L) : nLe L g = nLt L g + 1 := by
  rw [← countP_eq_one h hg]
  apply countP_split
  intro l _
  simp only [decide_eq_true_eq]
  omega

/-- the lines strictly between two texts -/
def cands (L : List Text) (mn mx : Text) : List Text := L.filter (fun l => decide (¬ cmp l mn ≤ 0 ∧ ¬ cmp l mx ≥ 0))

theorem mem_cands {L mn mx l} : l ∈ cands L mn mx ↔ l ∈ L ∧ cmp mn l < 0 ∧ cmp l mx < 0 := by
  unfold cands
  rw [List.mem_filter]
  have := cmp_swap mn l
  simp only [decide_eq_true_eq]
  constructor <;> rintro ⟨h1, h2, h3⟩ <;> refine ⟨h1, ?_, ?_⟩ <;> omega

theorem nLt_cand {L mn mx g} (h1 : cmp mn g < 0) (h2 : cmp g mx < 0) :
    nLt L g = nLe L mn + (cands L mn mx).countP (fun l => decide (cmp l g < 0)) := by
  unfold cands
  rw [List.countP_filter]
  apply countP_split
  intro l _
  simp only [decide_eq_true_eq, Bool.and_eq_true]
  have hs := cmp_swap mn l
  refine ⟨⟨fun h => ?_, ?_⟩, ?_⟩
  · by_cases hl : cmp l mn ≤ 0
    · exact Or.inl hl
    · have := cmp_lt_trans h h2
      exact Or.inr ⟨h, hl, by omega⟩
  · rintro (h | h)
    · exact cmp_le_lt h h1
    · exact h.1
  · rintro ⟨h, h', h'', _⟩
    exact h'' h

theorem length_cands {L mn mx} (h : cmp mn mx < 0) : nLt L mx = nLe L mn + (cands L mn mx).length := by
  unfold cands
  rw [← List.countP_eq_length_filter]
  apply countP_split
  intro l _
  simp only [decide_eq_true_eq]
  refine ⟨⟨fun h' => ?_, ?_⟩, ?_⟩
  · by_cases hl : cmp l mn ≤ 0
    · exact Or.inl hl
    · exact Or.inr ⟨hl, by omega⟩
  · rintro (h' | h')
    · exact cmp_le_lt h' h
    · omega
  · rintro ⟨h', h'', _⟩
    exact h'' h'

theorem Distinct.filter {L : List Text} (h : Distinct L) (p : Text → Bool) : Distinct (L.filter p) :=
  List.Pairwise.filter p h

/-! ### one scan -/

/-- `gotLine` on a line between the bounds -/
def gotCand (first : Bool) (wanted : Int) (st : Scan) (l : Text) : Scan :=
  let ret :=
    if st.ret = [] then l
    else if first then (if cmp l st.ret < 0 then l else st.ret)
    else (if cmp l st.ret > 0 then l else st.ret)
  if st.guess = [] then { st with ret := ret, guess := l }
  else if cmp l st.guess ≥ 0 then
    if st.hi = 0 ∧ (st.lo : Int) < wanted then { st with ret := ret, guess := l, lo := st.lo + 1 }
    else { st with ret := ret, hi := st.hi + 1 }
  else { st with ret := ret, lo := st.lo + 1 }

theorem scan_cands (L : List Text) (mn mx : Text) (first : Bool) (wanted : Int) (st : Scan) :
    L.foldl (gotLine mn mx first wanted) st = (cands L mn mx).foldl (gotCand first wanted) st := by
  induction L generalizing st with
  | nil => rfl
  | cons l t ih =>
    rw [List.foldl_cons, ih]
    unfold cands
    rw [List.filter_cons]
    by_cases h1 : cmp l mn ≤ 0
    · rw [if_neg (by simp [h1])]
      have : gotLine mn mx first wanted st l = st := by unfold gotLine; rw [if_pos h1]
      rw [this]
    · by_cases h2 : cmp l mx ≥ 0
      · rw [if_neg (by simp [h2])]
        have : gotLine mn mx first wanted st l = st := by unfold gotLine; rw [if_neg h1, if_pos h2]
        rw [this]
      · rw [if_pos (by simp only [decide_eq_true_eq]; exact ⟨h1, h2⟩), List.foldl_cons]
        have : gotLine mn mx first wanted st l = gotCand first wanted st l := by
          unfold gotLine gotCand; rw [if_neg h1, if_neg h2]
        rw [this]

/-- what a scan knows after the candidates `P` -/
structure ScanInv (first : Bool) (wanted : Int) (P : List Text) (st : Scan) : Prop where
  retMem : st.ret ∈ P
  retMin : first = true → ∀ l ∈ P, cmp st.ret l ≤ 0
  retMax : first = false → ∀ l ∈ P, cmp l st.ret ≤ 0
  guessMem : st.guess ∈ P
  lo : st.lo = P.countP (fun l => decide (cmp l st.guess < 0))
  hi : st.hi = P.countP (fun l => decide (cmp l st.guess > 0))
  prog : st.hi = 0 ∨ wanted ≤ st.lo

theorem scanInv_step {first wanted P st l} (hi : ScanInv first wanted P st) (hne : ∀ x ∈ P, x ≠ [])
    (hd : Distinct (P ++ [l])) : ScanInv first wanted (P ++ [l]) (gotCand first wanted st l) := by
  have hret0 : st.ret ≠ [] := hne _ hi.retMem
  have hg0 : st.guess ≠ [] := hne _ hi.guessMem
  have hdl : ∀ x ∈ P, cmp x l ≠ 0 := by
    rw [Distinct, List.pairwise_append] at hd
    exact fun x hx => hd.2.2 x hx l (by simp)
  have hdP : Distinct P := by
    rw [Distinct, List.pairwise_append] at hd
    exact hd.1
  -- the new ret
  let ret := if first then (if cmp l st.ret < 0 then l else st.ret) else (if cmp l st.ret > 0 then l else st.ret)
  have hretM : ret ∈ P ++ [l] := by
    show (if first then (if cmp l st.ret < 0 then l else st.ret) else (if cmp l st.ret > 0 then l else st.ret)) ∈ P ++ [l]
    have h1 : st.ret ∈ P ++ [l] := List.mem_append_left _ hi.retMem
    have h2 : l ∈ P ++ [l] := by simp
    split
    · split
      · exact h2
      · exact h1
    · split
      · exact h2
      · exact h1
  have hretMin : first = true → ∀ x ∈ P ++ [l], cmp ret x ≤ 0 := by
    intro hf x hx
    show cmp (if first then (if cmp l st.ret < 0 then l else st.ret) else (if cmp l st.ret > 0 then l else st.ret)) x ≤ 0
    rw [hf]
    simp only [if_true]
    rcases List.mem_append.1 hx with hx | hx
    · split
      · rename_i h
        have := cmp_lt_le h (hi.retMin hf x hx); omega
      · exact hi.retMin hf x hx
    · have hx : x = l := by simpa using hx
      subst hx
      split
      · have := cmp_self x; omega
      · have := cmp_swap x st.ret; omega
  have hretMax : first = false → ∀ x ∈ P ++ [l], cmp x ret ≤ 0 := by
    intro hf x hx
    show cmp x (if first then (if cmp l st.ret < 0 then l else st.ret) else (if cmp l st.ret > 0 then l else st.ret)) ≤ 0
    rw [hf]
    simp only [Bool.false_eq_true, if_false]
    rcases List.mem_append.1 hx with hx | hx
    · split
      · rename_i h
        have h' : cmp st.ret l < 0 := by have := cmp_swap st.ret l; omega
        have := cmp_le_lt (hi.retMax hf x hx) h'; omega
      · exact hi.retMax hf x hx
    · have hx : x = l := by simpa using hx
      subst hx
      split
      · have := cmp_self x; omega
      · omega
  have hstep : gotCand first wanted st l =
      (if cmp l st.guess ≥ 0 then
        if st.hi = 0 ∧ (st.lo : Int) < wanted then { st with ret := ret, guess := l, lo := st.lo + 1 }
        else { st with ret := ret, hi := st.hi + 1 }
      else { st with ret := ret, lo := st.lo + 1 }) := by
    unfold gotCand
    simp only [hret0, hg0, if_false]
    rfl
  rw [hstep]
  have hlg : cmp l st.guess ≠ 0 := by
    have := hdl _ hi.guessMem
    rw [cmp_swap] at this
    omega
  have hgm : st.guess ∈ P ++ [l] := List.mem_append_left _ hi.guessMem
  split
  · rename_i hge
    have hgt : cmp l st.guess > 0 := by omega
    split
    · rename_i hc
      refine ⟨hretM, hretMin, hretMax, by simp, ?_, ?_, Or.inl ?_⟩
      · -- all of P is below l
        show st.lo + 1 = _
        have hall : ∀ x ∈ P, cmp x l < 0 := by
          intro x hx
          have h0 := hc.1
          rw [hi.hi, List.countP_eq_zero] at h0
          have := h0 x hx
          simp only [decide_eq_true_eq, Int.not_lt] at this
          have h' : cmp st.guess l < 0 := by have := cmp_swap st.guess l; omega
          exact cmp_le_lt (by omega) h'
        rw [List.countP_append]
        have e1 : P.countP (fun x => decide (cmp x l < 0)) = P.length := by
          rw [List.countP_eq_length]
          intro x hx; simpa using hall x hx
        have e2 : P.length = st.lo + st.hi + 1 := by
          have s1 : P.countP (fun l => decide (cmp l st.guess ≤ 0)) = st.lo + 1 := by
            rw [hi.lo]; exact nLe_eq hdP hi.guessMem
          have s2 : P.countP (fun _ => true) = P.countP (fun l => decide (cmp l st.guess ≤ 0)) + P.countP (fun l => decide (cmp l st.guess > 0)) := by
            apply countP_split
            intro x _; simp only [decide_eq_true_eq, true_iff]; omega
          have s3 : P.countP (fun _ => true) = P.length := by simp
          rw [hi.hi]; omega
        rw [e1, e2, hc.1]
        simp [cmp_self]
      · show st.hi = _
        rw [hc.1, eq_comm, List.countP_eq_zero]
        intro x hx
        rcases List.mem_append.1 hx with hx | hx
        · have h0 := hc.1
          rw [hi.hi, List.countP_eq_zero] at h0
          have := h0 x hx
          simp only [decide_eq_true_eq, Int.not_lt] at this
          have h' : cmp st.guess l < 0 := by have := cmp_swap st.guess l; omega
          have := cmp_le_lt (by omega) h'
          simp only [decide_eq_true_eq, Int.not_lt]
          omega
        · have hx : x = l := by simpa using hx
          subst hx
          simp [cmp_self]
      · exact hc.1
    · rename_i hc
      refine ⟨hretM, hretMin, hretMax, hgm, ?_, ?_, Or.inr ?_⟩
      · show st.lo = _
        rw [List.countP_append, ← hi.lo]
        simp; omega
      · show st.hi + 1 = _
        rw [List.countP_append, ← hi.hi]
        simp; omega
      · show wanted ≤ (st.lo : Int)
        rcases hi.prog with h | h
        · by_cases h' : (st.lo : Int) < wanted
          · exact absurd ⟨h, h'⟩ hc
          · omega
        · exact h
  · rename_i hlt
    refine ⟨hretM, hretMin, hretMax, hgm, ?_, ?_, ?_⟩
    · show st.lo + 1 = _
      rw [List.countP_append, ← hi.lo]
      simp; omega
    · show st.hi = _
      rw [List.countP_append, ← hi.hi]
      simp; omega
    · show st.hi = 0 ∨ wanted ≤ ((st.lo + 1 : Nat) : Int)
      rcases hi.prog with h | h
      · exact Or.inl h
      · right; omega

theorem scanInv_fold {first wanted} (C : List Text) :
    ∀ P st, ScanInv first wanted P st → (∀ x ∈ P ++ C, x ≠ []) → Distinct (P ++ C) →
      ScanInv first wanted (P ++ C) (C.foldl (gotCand first wanted) st) := by
  induction C with
  | nil => intro P st h _ _; simpa using h
  | cons l C ih =>
    intro P st h hne hd
    rw [List.foldl_cons]
    have e : P ++ l :: C = (P ++ [l]) ++ C := by simp
    rw [e] at hne hd ⊢
    apply ih
    · apply scanInv_step h
      · intro x hx; exact hne x (by simp [hx])
      · rw [Distinct, List.pairwise_append] at hd; exact hd.1
    · exact hne
    · exact hd

/-- What one run of the command finds out. -/
theorem scan_spec {L : List Text} (hne : ∀ x ∈ L, x ≠ []) (hd : Distinct L) {mn mx : Text} {first : Bool} {wanted : Int}
    (hc : cands L mn mx ≠ []) : ScanInv first wanted (cands L mn mx) (scan L mn mx first wanted) := by
  unfold scan
  rw [scan_cands]
  have hne' : ∀ x ∈ cands L mn mx, x ≠ [] := fun x hx => hne x (mem_cands.1 hx).1
  have hd' : Distinct (cands L mn mx) := hd.filter _
  generalize cands L mn mx = C at *
  obtain ⟨l, C, rfl⟩ := List.exists_cons_of_ne_nil hc
  rw [List.foldl_cons]
  have h1 : gotCand first wanted {} l = { ret := l, guess := l, lo := 0, hi := 0 } := by simp [gotCand]
  rw [h1]
  apply scanInv_fold C [l]
  · refine ⟨by simp, ?_, ?_, by simp, ?_, ?_, Or.inl rfl⟩
    · intro _ x hx; have hx : x = l := by simpa using hx
      subst hx; have := cmp_self x; show cmp x x ≤ 0; omega
    · intro _ x hx; have hx : x = l := by simpa using hx
      subst hx; have := cmp_self x; show cmp x x ≤ 0; omega
    · simp [cmp_self]
    · simp [cmp_self]
  · simpa using hne'
  · simpa using hd'

/-! ### the search -/

/-- the loop invariant: both bounds are right up to the known slack, and the line wanted is between
them -/
structure SearchInv (L : List Text) (n : Int) (st : Search) : Prop where
  mnLe : (nLe L st.mn.text : Int) = st.mn.num + 1
  mnLt : st.mn.num < n
  mxNum : st.mx.num = nLt L st.mx.text ∨ st.mx.num = nLt L st.mx.text + 1
  mxGt : n < nLt L st.mx.text
  ord : cmp st.mn.text st.mx.text < 0
  mnGe : -1 ≤ st.mn.num

/-- the search is over, with the right line -/
def Done (L : List Text) (n : Int) (st : Search) : Prop :=
  st.ret.num = n ∧ st.ret.text ∈ L ∧ (nLt L st.ret.text : Int) = n

theorem findStep_spec {L : List Text} (hne : ∀ x ∈ L, x ≠ []) (hd : Distinct L) {n : Int} {st st' : Search}
    (hi : SearchInv L n st) (hs : findStep L n st = some st') :
    Done L n st' ∨ (st'.ret.num ≠ n ∧ SearchInv L n st' ∧
      (nLt L st'.mx.text : Int) - st'.mn.num < nLt L st.mx.text - st.mn.num) ∧ st'.shift ≤ st.shift - 1 + 2 := by
  obtain ⟨mnLe, mnLt, mxNum, mxGt, ord, mnGe⟩ := hi
  have hlen := length_cands (L := L) ord
  have hC : cands L st.mn.text st.mx.text ≠ [] := by
    intro h; rw [h] at hlen; simp at hlen; omega
  have hdC : Distinct (cands L st.mn.text st.mx.text) := hd.filter _
  generalize hw : (n - st.mn.num) * 2 ^ (st.shift - 1) = wanted at *
  have hwge : n - st.mn.num ≤ wanted := by
    rw [← hw]
    have h1 : (1 : Int) ≤ 2 ^ (st.shift - 1) := by
      have := Nat.one_le_two_pow (n := st.shift - 1)
      exact_mod_cast this
    have h2 : (n - st.mn.num) * 1 ≤ (n - st.mn.num) * 2 ^ (st.shift - 1) :=
      Int.mul_le_mul_of_nonneg_left h1 (by omega)
    omega
  generalize hfirst : decide (n - st.mn.num < st.mx.num - n) = first at *
  have hsc := scan_spec hne hd hC (first := first) (wanted := wanted)
  unfold findStep at hs
  simp only [hw, hfirst] at hs
  split at hs
  · cases hs
  · simp only [Option.some.injEq] at hs
    generalize hr : scan L st.mn.text st.mx.text first wanted = r at *
    generalize hsh : (if Int.tdiv (st.mx.num - st.mn.num - wanted) 2 > (r.lo : Int) - wanted then st.shift - 1 + 2 else st.shift - 1) = sh at *
    have hshle : sh ≤ st.shift - 1 + 2 := by
      rw [← hsh]
      split <;> omega
    obtain ⟨retM, retMin, retMax, guessM, hlo, hhi, prog⟩ := hsc
    obtain ⟨gL, g1, g2⟩ := mem_cands.1 guessM
    obtain ⟨rL, r1, r2⟩ := mem_cands.1 retM
    have hgn := nLt_cand (L := L) g1 g2
    rw [← hlo] at hgn
    have hrn := nLt_cand (L := L) r1 r2
    have hgle := nLe_eq hd gL
    have hrle := nLe_eq hd rL
    -- lo, hi and the number of candidates
    have hcount : (cands L st.mn.text st.mx.text).length = r.lo + 1 + r.hi := by
      have s1 := nLe_eq hdC guessM
      unfold nLe nLt at s1
      rw [← hlo] at s1
      have s2 : (cands L st.mn.text st.mx.text).countP (fun _ => true) =
          (cands L st.mn.text st.mx.text).countP (fun l => decide (cmp l r.guess ≤ 0)) +
          (cands L st.mn.text st.mx.text).countP (fun l => decide (cmp l r.guess > 0)) := by
        apply countP_split
        intro x _; simp only [decide_eq_true_eq, true_iff]; omega
      rw [s1, ← hhi] at s2
      have s3 : (cands L st.mn.text st.mx.text).countP (fun _ => true) = (cands L st.mn.text st.mx.text).length := by simp
      omega
    cases first with
    | true =>
      have hfirst : n - st.mn.num < st.mx.num - n := by simpa using hfirst
      have hr0 : (cands L st.mn.text st.mx.text).countP (fun l => decide (cmp l r.ret < 0)) = 0 := by
        rw [List.countP_eq_zero]
        intro x hx
        have := retMin rfl x hx
        have h2 := cmp_swap x r.ret
        simp only [decide_eq_true_eq, Int.not_lt]; omega
      rw [hr0] at hrn
      simp only [if_true] at hs
      have hgt : st.mn.num + 1 + 1 + (r.lo : Int) > n := by omega
      rw [if_pos hgt] at hs
      subst hs
      by_cases hfin : st.mn.num + 1 = n
      · left
        exact ⟨hfin, rL, by show ((nLt L r.ret : Nat) : Int) = n; omega⟩
      · right
        refine ⟨⟨hfin, ⟨?_, ?_, ?_, ?_, ?_, ?_⟩, ?_⟩, hshle⟩
        · show ((nLe L r.ret : Nat) : Int) = st.mn.num + 1 + 1; omega
        · show st.mn.num + 1 < n; omega
        · right; show st.mn.num + 1 + 1 + (r.lo : Int) = nLt L r.guess + 1; omega
        · show n < nLt L r.guess; omega
        · show cmp r.ret r.guess < 0
          have h1 := retMin rfl _ guessM
          have hne' : cmp r.ret r.guess ≠ 0 := by
            intro h0
            have := hd.eq_of_cmp rL gL h0
            rw [this] at hrn
            omega
          omega
        · show -1 ≤ st.mn.num + 1; omega
        · show ((nLt L r.guess : Nat) : Int) - (st.mn.num + 1) < nLt L st.mx.text - st.mn.num; omega
    | false =>
      have hfirst : ¬ (n - st.mn.num < st.mx.num - n) := by simpa using hfirst
      have hr0 : (cands L st.mn.text st.mx.text).countP (fun l => decide (cmp l r.ret < 0)) + 1 = (cands L st.mn.text st.mx.text).length := by
        have s1 := nLe_eq hdC retM
        unfold nLe nLt at s1
        rw [← s1, List.countP_eq_length]
        intro x hx
        simpa using retMax rfl x hx
      simp only [Bool.false_eq_true, if_false] at hs
      by_cases hgt : st.mn.num + 1 + (r.lo : Int) > n
      · rw [if_pos hgt] at hs
        subst hs
        by_cases hfin : st.mx.num - 1 = n
        · left
          exact ⟨hfin, rL, by show ((nLt L r.ret : Nat) : Int) = n; omega⟩
        · right
          refine ⟨⟨hfin, ⟨mnLe, mnLt, ?_, ?_, g1, mnGe⟩, ?_⟩, hshle⟩
          · left; show st.mn.num + 1 + (r.lo : Int) = nLt L r.guess; omega
          · show n < nLt L r.guess; omega
          · show ((nLt L r.guess : Nat) : Int) - st.mn.num < nLt L st.mx.text - st.mn.num; omega
      · rw [if_neg hgt] at hs
        by_cases hlt : st.mn.num + 1 + (r.lo : Int) < n
        · rw [if_pos hlt] at hs
          subst hs
          right
          refine ⟨⟨?_, ⟨?_, hlt, ?_, ?_, ?_, ?_⟩, ?_⟩, Nat.zero_le _⟩
          · show st.mx.num - 1 ≠ n; omega
          · show ((nLe L r.guess : Nat) : Int) = st.mn.num + 1 + r.lo + 1; omega
          · show st.mx.num - 1 = nLt L r.ret ∨ st.mx.num - 1 = nLt L r.ret + 1; omega
          · show n < nLt L r.ret; omega
          · show cmp r.guess r.ret < 0
            have h1 := retMax rfl _ guessM
            have hne' : cmp r.guess r.ret ≠ 0 := by
              intro h0
              have := hd.eq_of_cmp gL rL h0
              rw [this] at hgn
              omega
            omega
          · show -1 ≤ st.mn.num + 1 + (r.lo : Int); omega
          · show ((nLt L r.ret : Nat) : Int) - (st.mn.num + 1 + r.lo) < nLt L st.mx.text - st.mn.num; omega
        · rw [if_neg hlt] at hs
          subst hs
          left
          exact ⟨by show st.mn.num + 1 + (r.lo : Int) = n; omega, gL, by show ((nLt L r.guess : Nat) : Int) = n; omega⟩

theorem findLoop_spec {L : List Text} (hne : ∀ x ∈ L, x ≠ []) (hd : Distinct L) {n : Int} :
    ∀ (f : Nat) st, SearchInv L n st → st.ret.num ≠ n → (nLt L st.mx.text : Int) - st.mn.num ≤ f →
      (∃ l, findLoop L n f st = .line l ∧ l.num = n ∧ l.text ∈ L ∧ (nLt L l.text : Int) = n) ∨ findLoop L n f st = .overflow := by
  intro f
  induction f with
  | zero =>
    intro st hi _ hm
    have := hi.mnLt
    have := hi.mxGt
    omega
  | succ f ih =>
    intro st hi hr hm
    unfold findLoop
    rw [if_neg hr]
    simp only
    cases hs : findStep L n st with
    | none => right; rfl
    | some st' =>
      simp only
      rcases findStep_spec hne hd hi hs with h | ⟨⟨h1, h2, h3⟩, _⟩
      · left
        refine ⟨st'.ret, ?_, h⟩
        unfold findLoop
        rw [if_pos h.1]
      · exact ih st' h2 h1 (by omega)

/-- With few enough lines the shift never overflows. -/
theorem findLoop_no_overflow {L : List Text} (hne : ∀ x ∈ L, x ≠ []) (hd : Distinct L) {n : Int} {B : Nat}
    (hB : (n + 1) * 2 ^ B < 2 ^ 31) :
    ∀ f st, SearchInv L n st → (st.shift - 1) + ((nLt L st.mx.text : Int) - st.mn.num).toNat ≤ B + 2 →
      findLoop L n f st ≠ .overflow := by
  intro f
  induction f with
  | zero =>
    intro st _ _
    unfold findLoop
    split <;> simp
  | succ f ih =>
    intro st hi hm
    unfold findLoop
    split
    · simp
    · simp only
      have hgap : 2 ≤ ((nLt L st.mx.text : Int) - st.mn.num).toNat := by
        have := hi.mnLt
        have := hi.mxGt
        omega
      have hnn : 0 ≤ n := by have := hi.mnLt; have := hi.mnGe; omega
      cases hs : findStep L n st with
      | none =>
        exfalso
        unfold findStep at hs
        simp only at hs
        split at hs
        · rename_i hov
          have h1 : (2 : Int) ^ (st.shift - 1) ≤ 2 ^ B := by
            have := Nat.pow_le_pow_right (n := 2) (by omega) (show st.shift - 1 ≤ B by omega)
            exact_mod_cast this
          have h2 : (n - st.mn.num) * 2 ^ (st.shift - 1) ≤ (n + 1) * 2 ^ B := by
            have a : (n - st.mn.num) ≤ n + 1 := by have := hi.mnGe; omega
            have b : (0 : Int) ≤ 2 ^ (st.shift - 1) := by
              have := Nat.zero_le (2 ^ (st.shift - 1)); exact_mod_cast this
            exact Int.mul_le_mul a h1 b (by omega)
          omega
        · cases hs
      | some st' =>
        simp only
        rcases findStep_spec hne hd hi hs with h | ⟨⟨h1, h2, h3⟩, h4⟩
        · unfold findLoop
          rw [if_pos h.1]
          simp
        · apply ih st' h2
          omega

end Verif.Str
