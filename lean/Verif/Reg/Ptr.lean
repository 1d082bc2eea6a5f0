import Verif.Reg.Model
set_option linter.unusedSimpArgs false
/-!
# C24: shared pointers free their target exactly once

Specification: every construction or assignment from a raw pointer starts a new *group*; copies and
assignments put an object into the group of the other one.
-/
namespace Verif.Reg
open Classical

/-- the group of every live object and the raw pointers the groups were started with -/
structure LSpec where
  held : Nat → Option Nat
  created : List (Option Nat)

/-- what an operation is supposed to do -/
def LOp.spec (s : LSpec) : LOp → LSpec
  | .create i p => ⟨upd s.held i (some s.created.length), s.created ++ [p]⟩
  | .copy i o => ⟨upd s.held i (s.held o), s.created⟩
  | .assign i o => ⟨upd s.held i (s.held o), s.created⟩
  | .assignRaw i p => ⟨upd s.held i (some s.created.length), s.created ++ [p]⟩
  | .destroy i => ⟨upd s.held i none, s.created⟩

/-- a raw pointer that was never handed over before -/
def LSpec.fresh (s : LSpec) (p : Option Nat) : Prop := p = none ∨ p ∉ s.created

/-- the operations C++ allows (construct dead objects, use live ones, do not hand over the same raw
pointer twice); a raw pointer is only assigned to an object that shares its group with nobody -/
def LOp.ok (s : LSpec) : LOp → Prop
  | .create i p => s.held i = none ∧ s.fresh p
  | .copy i o => s.held i = none ∧ s.held o ≠ none
  | .assign i o => s.held i ≠ none ∧ s.held o ≠ none
  | .assignRaw i p => s.held i ≠ none ∧ s.fresh p ∧ ∀ j, s.held j = s.held i → j = i
  | .destroy i => s.held i ≠ none

/-- reachable by following the links -/
inductive Reach (next : Nat → Nat) (a : Nat) : Nat → Prop
  | refl : Reach next a a
  | step {b : Nat} : Reach next a b → Reach next a (next b)

theorem Reach.trans {next : Nat → Nat} {a b c : Nat} (h1 : Reach next a b) (h2 : Reach next b c) : Reach next a c := by
  induction h2 with
  | refl => exact h1
  | step _ ih => exact ih.step

/-- the structural part of the invariant -/
structure LStr (h : LHeap) (s : LSpec) : Prop where
  lt : ∀ i g, s.held i = some g → g < s.created.length
  ptr : ∀ i g, s.held i = some g → s.created[g]? = some (h.ptr i)
  nextHeld : ∀ i, s.held i ≠ none → s.held (h.next i) = s.held i
  prevHeld : ∀ i, s.held i ≠ none → s.held (h.prev i) = s.held i
  prevNext : ∀ i, s.held i ≠ none → h.prev (h.next i) = i
  nextPrev : ∀ i, s.held i ≠ none → h.next (h.prev i) = i
  reach : ∀ i j, s.held i ≠ none → s.held i = s.held j → Reach h.next i j

theorem upd_same {β : Type} (f : Nat → β) (i : Nat) (v : β) : upd f i v i = v := by simp [upd]
theorem upd_ne {β : Type} (f : Nat → β) {i j : Nat} (v : β) (h : j ≠ i) : upd f i v j = f j := by simp [upd, h]

/-- the spec state after an object has left its group -/
def LSpec.drop (s : LSpec) (i : Nat) : LSpec := ⟨upd s.held i none, s.created⟩

theorem reach_self {next : Nat → Nat} {i : Nat} (h : next i = i) : ∀ {j}, Reach next i j → j = i := by
  intro j hr
  induction hr with
  | refl => rfl
  | step _ ih => rw [ih, h]

theorem leave_str {h : LHeap} {s : LSpec} (hs : LStr h s) {i : Nat} (hi : s.held i ≠ none) :
    LStr (h.leave i) (s.drop i) := by
  have hd : ∀ j, (s.drop i).held j = if j = i then none else s.held j := fun j => rfl
  have hlive : ∀ j, (s.drop i).held j ≠ none → j ≠ i ∧ s.held j ≠ none := by
    intro j hj
    rw [hd] at hj
    by_cases e : j = i
    · simp [e] at hj
    · rw [if_neg e] at hj; exact ⟨e, hj⟩
  by_cases h1 : h.next i = i
  · have hl : h.leave i = { h with freed := h.ptr i :: h.freed } := by unfold LHeap.leave; rw [if_pos h1]
    rw [hl]
    have alone : ∀ j, s.held j = s.held i → j = i := fun j hj => reach_self h1 (hs.reach i j hi hj.symm)
    have key : ∀ j k, j ≠ i → s.held k = s.held j → k ≠ i := by
      rintro j k hj hk rfl
      exact hj (alone j hk.symm)
    refine ⟨?_, ?_, ?_, ?_, ?_, ?_, ?_⟩
    · intro j g hj
      have := hlive j (by rw [hj]; simp)
      rw [hd, if_neg this.1] at hj
      exact hs.lt j g hj
    · intro j g hj
      have := hlive j (by rw [hj]; simp)
      rw [hd, if_neg this.1] at hj
      exact hs.ptr j g hj
    · intro j hj
      obtain ⟨e, hj⟩ := hlive j hj
      have := hs.nextHeld j hj
      rw [hd, hd, if_neg e, if_neg (key j _ e this)]
      exact this
    · intro j hj
      obtain ⟨e, hj⟩ := hlive j hj
      have := hs.prevHeld j hj
      rw [hd, hd, if_neg e, if_neg (key j _ e this)]
      exact this
    · intro j hj; exact hs.prevNext j (hlive j hj).2
    · intro j hj; exact hs.nextPrev j (hlive j hj).2
    · intro j k hj hjk
      obtain ⟨e, hj'⟩ := hlive j hj
      rw [hd, hd, if_neg e] at hjk
      by_cases ek : k = i
      · rw [if_pos ek] at hjk; exact absurd hjk hj'
      · rw [if_neg ek] at hjk
        exact hs.reach j k hj' hjk
  · generalize hA : h.next i = a at h1
    generalize hB : h.prev i = b
    have hb1 : b ≠ i := by
      intro e
      have := hs.nextPrev i hi
      rw [hB, e] at this
      exact h1 (hA ▸ this)
    have hnb : h.next b = i := by rw [← hB]; exact hs.nextPrev i hi
    have hpa : h.prev a = i := by rw [← hA]; exact hs.prevNext i hi
    have hprev : (h.leave i).prev = upd h.prev a b := by
      unfold LHeap.leave; rw [if_neg (by rw [hA]; exact h1), hA, hB]
    have hnext : (h.leave i).next = upd h.next b a := by
      unfold LHeap.leave
      rw [if_neg (by rw [hA]; exact h1)]
      simp only [hA, hB]
      rw [upd_ne _ _ (fun e => h1 e.symm), hB]
    have hptr : (h.leave i).ptr = h.ptr := by
      unfold LHeap.leave
      rw [if_neg (by rw [hA]; exact h1)]
    have hha : s.held a = s.held i := by rw [← hA]; exact hs.nextHeld i hi
    have hhb : s.held b = s.held i := by rw [← hB]; exact hs.prevHeld i hi
    have nextne : ∀ j, s.held j ≠ none → j ≠ b → h.next j ≠ i := by
      intro j hj hjb e
      have := hs.prevNext j hj
      rw [e, hB] at this
      exact hjb this.symm
    have prevne : ∀ j, s.held j ≠ none → j ≠ a → h.prev j ≠ i := by
      intro j hj hja e
      have := hs.nextPrev j hj
      rw [e, hA] at this
      exact hja this.symm
    refine ⟨?_, ?_, ?_, ?_, ?_, ?_, ?_⟩
    · intro j g hj
      have := hlive j (by rw [hj]; simp)
      rw [hd, if_neg this.1] at hj
      exact hs.lt j g hj
    · intro j g hj
      have := hlive j (by rw [hj]; simp)
      rw [hd, if_neg this.1] at hj
      rw [hptr]
      exact hs.ptr j g hj
    · intro j hj
      obtain ⟨e, hj⟩ := hlive j hj
      rw [hnext]
      by_cases ejb : j = b
      · subst ejb; rw [upd_same, hd, hd, if_neg h1, if_neg e, hha, hhb]
      · rw [upd_ne _ _ ejb, hd, hd, if_neg (nextne j hj ejb), if_neg e]; exact hs.nextHeld j hj
    · intro j hj
      obtain ⟨e, hj⟩ := hlive j hj
      rw [hprev]
      by_cases eja : j = a
      · subst eja; rw [upd_same, hd, hd, if_neg hb1, if_neg e, hha, hhb]
      · rw [upd_ne _ _ eja, hd, hd, if_neg (prevne j hj eja), if_neg e]; exact hs.prevHeld j hj
    · intro j hj
      obtain ⟨e, hj⟩ := hlive j hj
      rw [hnext, hprev]
      by_cases ejb : j = b
      · rw [ejb, upd_same, upd_same]
      · rw [upd_ne _ _ ejb, upd_ne]
        · exact hs.prevNext j hj
        · intro e2
          have := hs.prevNext j hj
          rw [e2, hpa] at this
          exact e this.symm
    · intro j hj
      obtain ⟨e, hj⟩ := hlive j hj
      rw [hnext, hprev]
      by_cases eja : j = a
      · rw [eja, upd_same, upd_same]
      · rw [upd_ne _ _ eja, upd_ne]
        · exact hs.nextPrev j hj
        · intro e2
          have := hs.nextPrev j hj
          rw [e2, hnb] at this
          exact e this.symm
    · intro j k hj hjk
      obtain ⟨e, hj'⟩ := hlive j hj
      have hk : k ≠ i := by
        intro ek
        rw [hd, hd, if_neg e, if_pos ek] at hjk
        exact hj' hjk
      rw [hd, hd, if_neg e, if_neg hk] at hjk
      have hr := hs.reach j k hj' hjk
      rw [hnext]
      have gen : ∀ m, Reach h.next j m → s.held m ≠ none ∧ (m ≠ i → Reach (upd h.next b a) j m) ∧ (m = i → Reach (upd h.next b a) j b) := by
        intro m hm
        induction hm with
        | refl => exact ⟨hj', fun _ => .refl, fun h => absurd h e⟩
        | @step c _ ih =>
          obtain ⟨ih0, ih1, ih2⟩ := ih
          refine ⟨by rw [hs.nextHeld c ih0]; exact ih0, ?_, ?_⟩
          · intro hne
            by_cases ec : c = i
            · have := (ih2 ec).step
              rw [upd_same] at this
              rw [ec, hA]; exact this
            · have hcb : c ≠ b := by rintro rfl; exact hne hnb
              have := (ih1 ec).step
              rw [upd_ne _ _ hcb] at this
              exact this
          · intro heq
            have : c = b := by
              have h3 := hs.prevNext c ih0
              rw [heq, hB] at h3; exact h3.symm
            have h4 := ih1 (by rw [this]; exact hb1)
            rw [this] at h4
            exact h4
      exact (gen k hr).2.1 hk

theorem join_str {h : LHeap} {s : LSpec} (hs : LStr h s) {i o : Nat} (hi : s.held i = none) (ho : s.held o ≠ none) :
    LStr (h.join i o) ⟨upd s.held i (s.held o), s.created⟩ := by
  have hio : i ≠ o := by rintro rfl; exact ho hi
  generalize hN : h.next o = n
  have hn : s.held n ≠ none := by rw [← hN, hs.nextHeld o ho]; exact ho
  have hni : n ≠ i := by rintro rfl; exact hn hi
  have hpn : h.prev n = o := by rw [← hN]; exact hs.prevNext o ho
  have hptr : (h.join i o).ptr = upd h.ptr i (h.ptr o) := by unfold LHeap.join; simp
  have hnext : (h.join i o).next = upd (upd h.next i n) o i := by
    unfold LHeap.join
    simp only [upd_same, hN]
    rw [upd_ne _ _ (Ne.symm hni), upd_same]
  have hprev : (h.join i o).prev = upd (upd h.prev i o) n i := by
    unfold LHeap.join
    simp only [upd_same, hN]
  have hd : ∀ j, upd s.held i (s.held o) j = if j = i then s.held o else s.held j := fun j => rfl
  have hnx : ∀ j, s.held j ≠ none → h.next j ≠ i := by
    intro j hj e
    have := hs.nextHeld j hj
    rw [e, hi] at this
    exact hj this.symm
  have hpx : ∀ j, s.held j ≠ none → h.prev j ≠ i := by
    intro j hj e
    have := hs.prevHeld j hj
    rw [e, hi] at this
    exact hj this.symm
  have hld : ∀ j, upd s.held i (s.held o) j ≠ none → j ≠ i → s.held j ≠ none := by
    intro j hj e; rw [hd, if_neg e] at hj; exact hj
  refine ⟨?_, ?_, ?_, ?_, ?_, ?_, ?_⟩
  · intro j g hj
    have hj : upd s.held i (s.held o) j = some g := hj
    rw [hd] at hj
    by_cases e : j = i
    · rw [if_pos e] at hj; exact hs.lt o g hj
    · rw [if_neg e] at hj; exact hs.lt j g hj
  · intro j g hj
    have hj : upd s.held i (s.held o) j = some g := hj
    rw [hd] at hj
    rw [hptr]
    by_cases e : j = i
    · rw [if_pos e] at hj; rw [e, upd_same]; exact hs.ptr o g hj
    · rw [if_neg e] at hj; rw [upd_ne _ _ e]; exact hs.ptr j g hj
  · intro j hj
    rw [hnext]
    show upd s.held i (s.held o) _ = upd s.held i (s.held o) _
    by_cases e : j = i
    · subst e
      rw [upd_ne _ _ hio, upd_same, hd, hd, if_neg hni, if_pos rfl, ← hN]
      exact hs.nextHeld o ho
    · have hl := hld j hj e
      by_cases eo : j = o
      · rw [eo, upd_same, hd, hd, if_pos rfl, if_neg (Ne.symm hio)]
      · rw [upd_ne _ _ eo, upd_ne _ _ e, hd, hd, if_neg (hnx j hl), if_neg e]
        exact hs.nextHeld j hl
  · intro j hj
    rw [hprev]
    show upd s.held i (s.held o) _ = upd s.held i (s.held o) _
    by_cases e : j = i
    · subst e
      rw [upd_ne _ _ (Ne.symm hni), upd_same, hd, hd, if_neg (Ne.symm hio), if_pos rfl]
    · have hl := hld j hj e
      by_cases en : j = n
      · rw [en, upd_same, hd, hd, if_pos rfl, if_neg hni, ← hN]; exact (hs.nextHeld o ho).symm
      · rw [upd_ne _ _ en, upd_ne _ _ e, hd, hd, if_neg (hpx j hl), if_neg e]
        exact hs.prevHeld j hl
  · intro j hj
    rw [hprev, hnext]
    by_cases e : j = i
    · subst e
      rw [upd_ne _ _ hio, upd_same, upd_same]
    · have hl := hld j hj e
      by_cases eo : j = o
      · rw [eo, upd_same, upd_ne _ _ (Ne.symm hni), upd_same]
      · rw [upd_ne _ _ eo, upd_ne _ _ e]
        have h3 := hs.prevNext j hl
        rw [upd_ne _ _ (fun e2 => by rw [e2, hpn] at h3; exact eo h3.symm), upd_ne _ _ (hnx j hl)]
        exact h3
  · intro j hj
    rw [hprev, hnext]
    by_cases e : j = i
    · subst e
      rw [upd_ne _ _ (Ne.symm hni), upd_same, upd_same]
    · have hl := hld j hj e
      by_cases en : j = n
      · rw [en, upd_same, upd_ne _ _ hio, upd_same]
      · rw [upd_ne _ _ en, upd_ne _ _ e]
        have h3 := hs.nextPrev j hl
        rw [upd_ne _ _ (fun e2 => by rw [e2, hN] at h3; exact en h3.symm), upd_ne _ _ (hpx j hl)]
        exact h3
  · rw [hnext]
    have oi : Reach (upd (upd h.next i n) o i) o i := by
      have h0 : Reach (upd (upd h.next i n) o i) o o := .refl
      have := h0.step
      rw [upd_same] at this; exact this
    have iN : Reach (upd (upd h.next i n) o i) i n := by
      have h0 : Reach (upd (upd h.next i n) o i) i i := .refl
      have := h0.step
      rw [upd_ne _ _ hio, upd_same] at this; exact this
    have lift : ∀ j k, s.held j ≠ none → Reach h.next j k → s.held k ≠ none ∧ Reach (upd (upd h.next i n) o i) j k := by
      intro j k hj hr
      induction hr with
      | refl => exact ⟨hj, .refl⟩
      | @step c _ ih =>
        obtain ⟨i0, i1⟩ := ih
        refine ⟨by rw [hs.nextHeld c i0]; exact i0, ?_⟩
        by_cases eo : c = o
        · rw [eo, hN]
          rw [eo] at i1
          exact (i1.trans oi).trans iN
        · have := i1.step
          rw [upd_ne _ _ eo, upd_ne _ _ (by rintro rfl; exact i0 hi)] at this
          exact this
    intro j k hj hjk
    have hj : upd s.held i (s.held o) j ≠ none := hj
    have hjk : upd s.held i (s.held o) j = upd s.held i (s.held o) k := hjk
    rw [hd] at hj
    rw [hd, hd] at hjk
    by_cases e : j = i
    · rw [if_pos e] at hj hjk
      rw [e]
      by_cases ek : k = i
      · rw [ek]; exact .refl
      · rw [if_neg ek] at hjk
        have hnk : s.held n = s.held k := by rw [← hN, hs.nextHeld o ho]; exact hjk
        exact iN.trans (lift n k hn (hs.reach n k hn hnk)).2
    · rw [if_neg e] at hj hjk
      by_cases ek : k = i
      · rw [if_pos ek] at hjk
        rw [ek]
        exact (lift j o hj (hs.reach j o hj hjk)).2.trans oi
      · rw [if_neg ek] at hjk
        exact (lift j k hj (hs.reach j k hj hjk)).2

theorem create_str {h : LHeap} {s : LSpec} (hs : LStr h s) {i : Nat} (hi : s.held i = none) (p : Option Nat) :
    LStr (h.create i p) ⟨upd s.held i (some s.created.length), s.created ++ [p]⟩ := by
  have hd : ∀ j, upd s.held i (some s.created.length) j = if j = i then some s.created.length else s.held j := fun j => rfl
  have hnx : ∀ j, s.held j ≠ none → h.next j ≠ i := by
    intro j hj e
    have := hs.nextHeld j hj
    rw [e, hi] at this
    exact hj this.symm
  have hpx : ∀ j, s.held j ≠ none → h.prev j ≠ i := by
    intro j hj e
    have := hs.prevHeld j hj
    rw [e, hi] at this
    exact hj this.symm
  have hld : ∀ j, upd s.held i (some s.created.length) j ≠ none → j ≠ i → s.held j ≠ none := by
    intro j hj e; rw [hd, if_neg e] at hj; exact hj
  have e1 : (h.create i p).next = upd h.next i i := rfl
  have e2 : (h.create i p).prev = upd h.prev i i := rfl
  have e3 : (h.create i p).ptr = upd h.ptr i p := rfl
  refine ⟨?_, ?_, ?_, ?_, ?_, ?_, ?_⟩
  · intro j g hj
    have hj : upd s.held i (some s.created.length) j = some g := hj
    rw [hd] at hj
    simp only [List.length_append, List.length_singleton]
    by_cases e : j = i
    · rw [if_pos e] at hj; have := Option.some.inj hj; omega
    · rw [if_neg e] at hj; have := hs.lt j g hj; omega
  · intro j g hj
    have hj : upd s.held i (some s.created.length) j = some g := hj
    rw [hd] at hj
    rw [e3]
    by_cases e : j = i
    · rw [if_pos e] at hj; have := Option.some.inj hj; subst this; rw [e, upd_same]; simp
    · rw [if_neg e] at hj
      rw [upd_ne _ _ e]
      show (s.created ++ [p])[g]? = _
      rw [List.getElem?_append_left (hs.lt j g hj)]
      exact hs.ptr j g hj
  · intro j hj
    rw [e1]
    show upd s.held i _ _ = upd s.held i _ _
    by_cases e : j = i
    · rw [e, upd_same]
    · have hl := hld j hj e
      rw [upd_ne _ _ e, hd, hd, if_neg (hnx j hl), if_neg e]; exact hs.nextHeld j hl
  · intro j hj
    rw [e2]
    show upd s.held i _ _ = upd s.held i _ _
    by_cases e : j = i
    · rw [e, upd_same]
    · have hl := hld j hj e
      rw [upd_ne _ _ e, hd, hd, if_neg (hpx j hl), if_neg e]; exact hs.prevHeld j hl
  · intro j hj
    rw [e1, e2]
    by_cases e : j = i
    · rw [e, upd_same, upd_same]
    · have hl := hld j hj e
      rw [upd_ne _ _ e, upd_ne _ _ (hnx j hl)]; exact hs.prevNext j hl
  · intro j hj
    rw [e1, e2]
    by_cases e : j = i
    · rw [e, upd_same, upd_same]
    · have hl := hld j hj e
      rw [upd_ne _ _ e, upd_ne _ _ (hpx j hl)]; exact hs.nextPrev j hl
  · intro j k hj hjk
    have hj : upd s.held i (some s.created.length) j ≠ none := hj
    have hjk : upd s.held i (some s.created.length) j = upd s.held i (some s.created.length) k := hjk
    rw [hd] at hj
    rw [hd, hd] at hjk
    by_cases e : j = i
    · rw [if_pos e] at hjk
      by_cases ek : k = i
      · rw [e, ek]; exact .refl
      · rw [if_neg ek] at hjk
        have := hs.lt k _ hjk.symm; omega
    · rw [if_neg e] at hj hjk
      by_cases ek : k = i
      · rw [if_pos ek] at hjk
        have := hs.lt j _ hjk; omega
      · rw [if_neg ek] at hjk
        have hr := hs.reach j k hj hjk
        rw [e1]
        have lift : ∀ m, Reach h.next j m → s.held m ≠ none ∧ Reach (upd h.next i i) j m := by
          intro m hm
          induction hm with
          | refl => exact ⟨hj, .refl⟩
          | @step c _ ih =>
            refine ⟨by rw [hs.nextHeld c ih.1]; exact ih.1, ?_⟩
            have := ih.2.step
            rw [upd_ne _ _ (by rintro rfl; exact ih.1 hi)] at this
            exact this
        exact (lift k hr).2

theorem if_iff {p q : Prop} [Decidable p] [Decidable q] (h : p ↔ q) : (if p then 1 else 0 : Nat) = if q then 1 else 0 := by
  by_cases hp : p
  · rw [if_pos hp, if_pos (h.1 hp)]
  · rw [if_neg hp, if_neg (fun x => hp (h.2 x))]

/-- the freed part of the invariant -/
def LFreed (h : LHeap) (s : LSpec) : Prop :=
  ∀ p, h.freed.count (some p) = if ∃ g, s.created[g]? = some (some p) ∧ ∀ i, s.held i ≠ some g then 1 else 0

/-- raw pointers are distinct -/
def LDistinct (s : LSpec) : Prop := ∀ (a b : Nat) (p : Nat), s.created[a]? = some (some p) → s.created[b]? = some (some p) → a = b

theorem leave_freed {h : LHeap} {s : LSpec} (hs : LStr h s) (hd : LDistinct s) (hf : LFreed h s) {i : Nat} (hi : s.held i ≠ none) :
    LFreed (h.leave i) (s.drop i) := by
  obtain ⟨g, hg⟩ := Option.ne_none_iff_exists'.1 hi
  intro p
  by_cases h1 : h.next i = i
  · have hl : (h.leave i).freed = h.ptr i :: h.freed := by unfold LHeap.leave; rw [if_pos h1]
    have alone : ∀ j, s.held j = s.held i → j = i := fun j hj => reach_self h1 (hs.reach i j hi hj.symm)
    have hp := hs.ptr i g hg
    rw [hl, List.count_cons, hf p]
    by_cases e : h.ptr i = some p
    · have hb : (h.ptr i == some p) = true := by simp [e]
      rw [hb, if_pos (rfl : true = true), if_neg, if_pos]
      · refine ⟨g, by show s.created[g]? = _; rw [hp, e], ?_⟩
        intro j hj
        have hj : upd s.held i none j = some g := hj
        unfold upd at hj
        by_cases ej : j = i
        · rw [if_pos ej] at hj; cases hj
        · rw [if_neg ej] at hj; exact ej (alone j (by rw [hj, hg]))
      · rintro ⟨g', h2, h3⟩
        have : g = g' := hd g g' p (by rw [hp, e]) h2
        subst this
        exact h3 i hg
    · have hb : (h.ptr i == some p) = false := by simpa using e
      rw [hb]
      simp only [Nat.add_zero, Bool.false_eq_true, if_false]
      apply if_iff
      constructor
      · rintro ⟨g', h2, h3⟩
        refine ⟨g', h2, fun j hj => ?_⟩
        have hj : upd s.held i none j = some g' := hj
        unfold upd at hj
        by_cases ej : j = i
        · rw [if_pos ej] at hj; cases hj
        · rw [if_neg ej] at hj; exact h3 j hj
      · rintro ⟨g', h2, h3⟩
        refine ⟨g', h2, fun j hj => ?_⟩
        have h4 := h3 j
        by_cases ej : j = i
        · rw [ej, hg] at hj
          have : g = g' := Option.some.inj hj
          subst this
          have h2 : s.created[g]? = some (some p) := h2
          rw [hp] at h2
          exact e (Option.some.inj h2)
        · exact h4 (by show upd s.held i none j = _; rw [upd_ne _ _ ej, hj])
  · have hl : (h.leave i).freed = h.freed := by unfold LHeap.leave; rw [if_neg h1]
    rw [hl, hf p]
    apply if_iff
    have other : ∃ j, j ≠ i ∧ s.held j = some g := ⟨h.next i, h1, by rw [hs.nextHeld i hi, hg]⟩
    constructor
    · rintro ⟨g', h2, h3⟩
      refine ⟨g', h2, fun j hj => ?_⟩
      have hj : upd s.held i none j = some g' := hj
      unfold upd at hj
      by_cases ej : j = i
      · rw [if_pos ej] at hj; cases hj
      · rw [if_neg ej] at hj; exact h3 j hj
    · rintro ⟨g', h2, h3⟩
      refine ⟨g', h2, fun j hj => ?_⟩
      by_cases ej : j = i
      · rw [ej, hg] at hj
        have : g = g' := Option.some.inj hj
        subst this
        obtain ⟨k, k1, k2⟩ := other
        exact h3 k (by show upd s.held i none k = _; rw [upd_ne _ _ k1, k2])
      · exact h3 j (by show upd s.held i none j = _; rw [upd_ne _ _ ej, hj])

theorem join_freed_eq (h : LHeap) (i o : Nat) : (h.join i o).freed = h.freed := rfl

theorem join_freed {h : LHeap} {s : LSpec} (hf : LFreed h s) {i o : Nat} (hi : s.held i = none) (ho : s.held o ≠ none) :
    LFreed (h.join i o) ⟨upd s.held i (s.held o), s.created⟩ := by
  intro p
  rw [join_freed_eq, hf p]
  apply if_iff
  have hio : i ≠ o := by rintro rfl; exact ho hi
  constructor
  · rintro ⟨g, h2, h3⟩
    refine ⟨g, h2, fun j hj => ?_⟩
    have hj : upd s.held i (s.held o) j = some g := hj
    by_cases ej : j = i
    · rw [ej, upd_same] at hj; exact h3 o hj
    · rw [upd_ne _ _ ej] at hj; exact h3 j hj
  · rintro ⟨g, h2, h3⟩
    refine ⟨g, h2, fun j hj => ?_⟩
    have ej : j ≠ i := by rintro rfl; rw [hi] at hj; cases hj
    exact h3 j (by show upd s.held i (s.held o) j = _; rw [upd_ne _ _ ej, hj])

theorem created_freed {h : LHeap} {s : LSpec} (hf : LFreed h s) {i : Nat} (hi : s.held i = none) (p : Option Nat) (h' : LHeap)
    (he : h'.freed = h.freed) :
    LFreed h' ⟨upd s.held i (some s.created.length), s.created ++ [p]⟩ := by
  intro q
  rw [he, hf q]
  apply if_iff
  constructor
  · rintro ⟨g, h2, h3⟩
    have hlt : g < s.created.length := by
      rcases Nat.lt_or_ge g s.created.length with h | h
      · exact h
      · rw [List.getElem?_eq_none h] at h2; cases h2
    refine ⟨g, by show (s.created ++ [p])[g]? = _; rw [List.getElem?_append_left hlt]; exact h2, fun j hj => ?_⟩
    have hj : upd s.held i (some s.created.length) j = some g := hj
    by_cases ej : j = i
    · rw [ej, upd_same] at hj; have := Option.some.inj hj; omega
    · rw [upd_ne _ _ ej] at hj; exact h3 j hj
  · rintro ⟨g, h2, h3⟩
    have h2 : (s.created ++ [p])[g]? = _ := h2
    have hlt : g < s.created.length := by
      rcases Nat.lt_trichotomy g s.created.length with h | h | h
      · exact h
      · exact absurd (by show upd s.held i _ i = _; rw [upd_same, h]) (h3 i)
      · rw [List.getElem?_eq_none (by simp; omega)] at h2; cases h2
    rw [List.getElem?_append_left hlt] at h2
    refine ⟨g, h2, fun j hj => ?_⟩
    have ej : j ≠ i := by rintro rfl; rw [hi] at hj; cases hj
    exact h3 j (by show upd s.held i _ j = _; rw [upd_ne _ _ ej, hj])

theorem created_distinct {s : LSpec} (hd : LDistinct s) {p : Option Nat} (hp : s.fresh p) (f : Nat → Option Nat) :
    LDistinct ⟨f, s.created ++ [p]⟩ := by
  intro a b q ha hb
  have ha : (s.created ++ [p])[a]? = _ := ha
  have hb : (s.created ++ [p])[b]? = _ := hb
  have split : ∀ c : Nat, (s.created ++ [p])[c]? = some (some q) → (s.created[c]? = some (some q)) ∨ (c = s.created.length ∧ p = some q) := by
    intro c hc
    rcases Nat.lt_trichotomy c s.created.length with h | h | h
    · rw [List.getElem?_append_left h] at hc; exact Or.inl hc
    · right; refine ⟨h, ?_⟩; rw [h] at hc; simpa using hc
    · rw [List.getElem?_eq_none (by simp; omega)] at hc; cases hc
  have nofresh : ∀ c : Nat, s.created[c]? = some (some q) → p ≠ some q := by
    rintro c hc rfl
    rcases hp with hp | hp
    · cases hp
    · exact hp (List.mem_of_getElem? hc)
  rcases split a ha with h1 | ⟨h1, h1'⟩ <;> rcases split b hb with h2 | ⟨h2, h2'⟩
  · exact hd a b q h1 h2
  · exact absurd h2' (nofresh a h1)
  · exact absurd h1' (nofresh b h2)
  · omega

/-- the whole invariant -/
def LGood (h : LHeap) (s : LSpec) : Prop := LStr h s ∧ LDistinct s ∧ LFreed h s

theorem drop_upd (s : LSpec) (i : Nat) (v : Option Nat) : upd (s.drop i).held i v = upd s.held i v := by
  funext j
  unfold LSpec.drop upd
  simp only
  split <;> rfl

theorem lop_good {h : LHeap} {s : LSpec} (hg : LGood h s) {o : LOp} (ho : o.ok s) : LGood (o.run h) (o.spec s) := by
  obtain ⟨hs, hd, hf⟩ := hg
  cases o with
  | create i p =>
    exact ⟨create_str hs ho.1 p, created_distinct hd ho.2 _, created_freed hf ho.1 p _ rfl⟩
  | copy i o => exact ⟨join_str hs ho.1 ho.2, hd, join_freed hf ho.1 ho.2⟩
  | destroy i => exact ⟨leave_str hs ho, hd, leave_freed hs hd hf ho⟩
  | assign i o =>
    by_cases e : o = i
    · subst e
      have e1 : (LOp.assign o o).run h = h := by simp [LOp.run]
      have e2 : (LOp.assign o o).spec s = s := by
        have : upd s.held o (s.held o) = s.held := by
          funext j; unfold upd; split
          · rename_i e; rw [e]
          · rfl
        show (⟨upd s.held o (s.held o), s.created⟩ : LSpec) = s
        rw [this]
      rw [e1, e2]; exact ⟨hs, hd, hf⟩
    · have e1 : (LOp.assign i o).run h = (h.leave i).join i o := by simp [LOp.run, e]
      have hs1 := leave_str hs ho.1
      have hf1 := leave_freed hs hd hf ho.1
      have hi : (s.drop i).held i = none := upd_same _ _ _
      have hoo : (s.drop i).held o = s.held o := upd_ne _ _ e
      have hol : (s.drop i).held o ≠ none := by rw [hoo]; exact ho.2
      have a := join_str hs1 hi hol
      have b := join_freed hf1 hi hol
      rw [hoo, drop_upd] at a b
      rw [e1]
      exact ⟨a, hd, b⟩
  | assignRaw i p =>
    obtain ⟨hi, hp, halone⟩ := ho
    have hs1 := leave_str hs hi
    have hf1 := leave_freed hs hd hf hi
    have hi1 : (s.drop i).held i = none := upd_same _ _ _
    have hnx : h.next i = i := halone _ (hs.nextHeld i hi)
    have hpx : h.prev i = i := halone _ (hs.prevHeld i hi)
    have hl : h.leave i = { h with freed := h.ptr i :: h.freed } := by unfold LHeap.leave; rw [if_pos hnx]
    have a := create_str hs1 hi1 p
    have b := created_freed hf1 hi1 p ((LOp.assignRaw i p).run h) rfl
    have e2 : (LOp.assignRaw i p).run h = (h.leave i).create i p := by
      show ({ h.leave i with ptr := upd (h.leave i).ptr i p } : LHeap) = _
      rw [hl]
      unfold LHeap.create
      have e3 : upd h.prev i i = h.prev := by
        funext j; unfold upd; split
        · rename_i e; rw [e, hpx]
        · rfl
      have e4 : upd h.next i i = h.next := by
        funext j; unfold upd; split
        · rename_i e; rw [e, hnx]
        · rfl
      simp only [e3, e4]
    rw [← e2, drop_upd] at a
    rw [drop_upd] at b
    exact ⟨a, created_distinct hd hp _, b⟩

/-- every operation of a history is allowed when it happens -/
def okLHistory : LSpec → List LOp → Prop
  | _, [] => True
  | s, o :: os => o.ok s ∧ okLHistory (o.spec s) os

theorem lhistory_good (ops : List LOp) : ∀ {h : LHeap} {s : LSpec}, LGood h s → okLHistory s ops →
    LGood (ops.foldl LOp.run h) (ops.foldl LOp.spec s) := by
  induction ops with
  | nil => intro h s hg _; exact hg
  | cons o os ih => intro h s hg hok; exact ih (lop_good hg hok.1) hok.2

/-- no objects yet, nothing freed; the memory of the objects holds anything -/
def LHeap.start (ptr : Nat → Option Nat) (prev next : Nat → Nat) : LHeap := ⟨ptr, prev, next, []⟩

/-- nothing held, nothing created -/
def LSpec.start : LSpec := ⟨fun _ => none, []⟩

/-- **C24** (linked pointers, proved part).  For every allowed history of constructing, copying,
assigning and destroying `LinkedPtr` objects: every live object holds the pointer its group was started
with, and every raw pointer that was handed over has been freed exactly once if no live object of its
group is left, and not at all while there is one.  Missing: assigning a raw pointer to an object that
shares its pointer with others (see `C24_raw_assign_counterexample`). -/
theorem C24_linked_partial (ptr : Nat → Option Nat) (prev next : Nat → Nat) (ops : List LOp) (hok : okLHistory LSpec.start ops) :
    let h := ops.foldl LOp.run (LHeap.start ptr prev next)
    let s := ops.foldl LOp.spec LSpec.start
    (∀ i g, s.held i = some g → s.created[g]? = some (h.ptr i)) ∧
    ∀ p, h.freed.count (some p) = if ∃ g, s.created[g]? = some (some p) ∧ ∀ i, s.held i ≠ some g then 1 else 0 := by
  intro h s
  have h0 : LGood (LHeap.start ptr prev next) LSpec.start := by
    refine ⟨⟨?_, ?_, ?_, ?_, ?_, ?_, ?_⟩, ?_, ?_⟩
    all_goals simp [LSpec.start, LDistinct, LFreed, LHeap.start]
  have := lhistory_good ops h0 hok
  exact ⟨this.1.ptr, this.2.2⟩

/-- concrete: 1 is constructed from pointer 10, copied to 2 and 3, 4 is constructed from 20 and then
assigned from 1 (20 is freed), 1, 2, 3 are destroyed (10 is still held by 4) -/
example : okLHistory LSpec.start [.create 1 (some 10), .copy 2 1, .copy 3 2, .create 4 (some 20), .assign 4 1, .destroy 1, .destroy 2, .destroy 3] ∧
    (([.create 1 (some 10), .copy 2 1, .copy 3 2, .create 4 (some 20), .assign 4 1, .destroy 1, .destroy 2, .destroy 3] : List LOp).foldl LOp.run
      (LHeap.start (fun _ => none) id id)).freed = [some 20] := by
  refine ⟨?_, by decide⟩
  simp [okLHistory, LOp.ok, LOp.spec, LSpec.start, LSpec.fresh, upd]

/-- Assigning a raw pointer to an object that shares its target: 1 and 2 share pointer 10, 1 is assigned
pointer 20 and both are destroyed.  Pointer 20 is never freed: `operator=(T*)` keeps the ring links of
the old group. -/
theorem C24_raw_assign_counterexample :
    (([.create 1 (some 10), .copy 2 1, .assignRaw 1 (some 20), .destroy 1, .destroy 2] : List LOp).foldl LOp.run
      (LHeap.start (fun _ => none) id id)).freed = [some 10] := by decide

/-! ## RefPtr -/

/-- how many objects point to `p`; `objs` lists the objects of the program -/
def holders (objs : List Nat) (h : RHeap) (p : Nat) : Nat := objs.countP (fun i => h.ptr i == some p)

/-- the operations C++ allows: construct objects that do not exist (dead objects hold nothing), within
the program's objects -/
def ROp.ok (objs : List Nat) (h : RHeap) : ROp → Prop
  | .create i _ => i ∈ objs ∧ h.ptr i = none
  | .copy i o => i ∈ objs ∧ o ∈ objs ∧ h.ptr i = none
  | .move i o => i ∈ objs ∧ o ∈ objs ∧ h.ptr i = none ∧ i ≠ o
  | .assign i o => i ∈ objs ∧ o ∈ objs
  | .free i => i ∈ objs

/-- the counts are right -/
def RGood (objs : List Nat) (h : RHeap) : Prop := ∀ p, h.refs p = (holders objs h p : Int)

theorem holders_upd {objs : List Nat} (hn : objs.Nodup) {h : RHeap} {i : Nat} (hi : i ∈ objs) (v : Option Nat) (refs released) (p : Nat) :
    (holders objs ⟨upd h.ptr i v, refs, released⟩ p : Int) = holders objs h p + (if v = some p then 1 else 0) - (if h.ptr i = some p then 1 else 0) := by
  unfold holders
  induction objs with
  | nil => simp at hi
  | cons x t ih =>
    rw [List.countP_cons, List.countP_cons]
    obtain ⟨hx, ht⟩ := List.nodup_cons.1 hn
    by_cases e : x = i
    · subst e
      have hc : t.countP (fun j => upd h.ptr x v j == some p) = t.countP (fun j => h.ptr j == some p) := by
        apply List.countP_congr
        intro j hj
        rw [upd_ne _ _ (by rintro rfl; exact hx hj)]
      simp only [hc, upd_same, beq_iff_eq]
      by_cases e1 : v = some p <;> by_cases e2 : h.ptr x = some p <;> simp [e1, e2] <;> omega
    · have := ih ht (by simpa [fun h => e (Eq.symm h), Ne.symm e] using hi)
      simp only [upd_ne _ _ e]
      rw [Int.natCast_add, Int.natCast_add, this]
      omega

/-- the change of the counts and releases in one step, in terms of the holders -/
def RStep (objs : List Nat) (h h' : RHeap) : Prop :=
  RGood objs h' ∧ ∀ p, h'.released.count p = h.released.count p + if 0 < holders objs h p ∧ holders objs h' p = 0 then 1 else 0

theorem rfree_step {objs : List Nat} (hn : objs.Nodup) {h : RHeap} (hg : RGood objs h) {i : Nat} (hi : i ∈ objs) :
    RStep objs h (h.free i) ∧ (h.free i).ptr = upd h.ptr i none := by
  unfold RHeap.free
  cases hp : h.ptr i with
  | none =>
    simp only
    refine ⟨⟨hg, fun p => ?_⟩, ?_⟩
    · rw [if_neg (by omega)]; rfl
    · funext j; unfold upd; split
      · rename_i e; rw [e, hp]
      · rfl
  | some q =>
    have key : ∀ refs rel p, (holders objs ⟨upd h.ptr i none, refs, rel⟩ p : Int) = holders objs h p - (if q = p then 1 else 0) := by
      intro refs rel p
      rw [holders_upd hn hi, hp]
      simp
    have hpos : 0 < holders objs h q := by
      unfold holders
      rw [List.countP_pos_iff]
      exact ⟨i, hi, by simp [hp]⟩
    have hrefs : ∀ p, upd h.refs q (h.refs q - 1) p = (holders objs h p : Int) - (if q = p then 1 else 0) := by
      intro p
      by_cases e : p = q
      · subst e; rw [upd_same, hg p]; simp
      · rw [upd_ne _ _ e, hg p, if_neg (fun h => e h.symm)]; omega
    simp only [upd_same]
    split
    · rename_i h0
      refine ⟨⟨?_, ?_⟩, rfl⟩
      · intro p
        show upd h.refs q (h.refs q - 1) p = _
        rw [hrefs, key]
      · intro p
        show (q :: h.released).count p = _
        rw [List.count_cons]
        congr 1
        have k := key (upd h.refs q (h.refs q - 1)) (q :: h.released) p
        have hq := hg q
        by_cases e : q = p
        · subst e
          rw [if_pos rfl] at k
          rw [if_pos (by simp), if_pos ⟨hpos, by omega⟩]
        · rw [if_neg e] at k
          rw [if_neg (by simpa using e), if_neg (by omega)]
    · rename_i h0
      refine ⟨⟨?_, ?_⟩, rfl⟩
      · intro p
        show upd h.refs q (h.refs q - 1) p = _
        rw [hrefs, key]
      · intro p
        show h.released.count p = _
        have k := key (upd h.refs q (h.refs q - 1)) h.released p
        have hq := hg q
        rw [if_neg]; · rfl
        rintro ⟨h1, h2⟩
        by_cases e : q = p
        · subst e; rw [if_pos rfl] at k; omega
        · rw [if_neg e] at k; omega

theorem radd_step {objs : List Nat} (hn : objs.Nodup) {h : RHeap} (hg : RGood objs h) {i : Nat} (hi : i ∈ objs) (h0 : h.ptr i = none) (v : Option Nat) :
    let h' := RHeap.addRef { h with ptr := upd h.ptr i v } i
    RGood objs h' ∧ h'.ptr = upd h.ptr i v ∧ h'.released = h.released ∧ ∀ p, holders objs h p ≤ holders objs h' p := by
  intro h'
  have key : ∀ refs rel p, (holders objs ⟨upd h.ptr i v, refs, rel⟩ p : Int) = holders objs h p + (if v = some p then 1 else 0) := by
    intro refs rel p
    rw [holders_upd hn hi, h0]
    simp
  have hh : h' = match v with
      | none => { h with ptr := upd h.ptr i none }
      | some q => ⟨upd h.ptr i (some q), upd h.refs q (h.refs q + 1), h.released⟩ := by
    show RHeap.addRef { h with ptr := upd h.ptr i v } i = _
    unfold RHeap.addRef
    simp only [upd_same]
    cases v <;> rfl
  cases v with
  | none =>
    simp only at hh
    rw [hh]
    refine ⟨?_, rfl, rfl, ?_⟩
    · intro p; show h.refs p = _; rw [key, hg p]; simp
    · intro p; have := key h.refs h.released p; simp at this; omega
  | some q =>
    simp only at hh
    rw [hh]
    refine ⟨?_, rfl, rfl, ?_⟩
    · intro p
      show upd h.refs q (h.refs q + 1) p = _
      rw [key]
      by_cases e : p = q
      · subst e; rw [upd_same, hg p]; simp
      · rw [upd_ne _ _ e, hg p, if_neg (by simpa using fun h => e h.symm)]; omega
    · intro p
      have := key (upd h.refs q (h.refs q + 1)) h.released p
      split at this <;> omega

theorem rop_step {objs : List Nat} (hn : objs.Nodup) {h : RHeap} (hg : RGood objs h) {o : ROp} (ho : o.ok objs h) : RStep objs h (o.run h) := by
  cases o with
  | create i v =>
    obtain ⟨a, b, c, d⟩ := radd_step hn hg ho.1 ho.2 v
    refine ⟨a, fun p => ?_⟩
    show (RHeap.addRef _ i).released.count p = _
    rw [c, if_neg]; · rfl
    rintro ⟨h1, h2⟩
    have := d p
    have h2 : holders objs (RHeap.addRef { h with ptr := upd h.ptr i v } i) p = 0 := h2
    omega
  | copy i o =>
    obtain ⟨a, b, c, d⟩ := radd_step hn hg ho.1 ho.2.2 (h.ptr o)
    refine ⟨a, fun p => ?_⟩
    show (RHeap.addRef _ i).released.count p = _
    rw [c, if_neg]; · rfl
    rintro ⟨h1, h2⟩
    have := d p
    have h2 : holders objs (RHeap.addRef { h with ptr := upd h.ptr i (h.ptr o) } i) p = 0 := h2
    omega
  | move i o =>
    obtain ⟨hi, hoo, h0, hne⟩ := ho
    have key : ∀ p, holders objs ((ROp.move i o).run h) p = holders objs h p := by
      intro p
      have k1 := holders_upd (h := h) hn hi (h.ptr o) h.refs h.released p
      have k2 := holders_upd (h := ⟨upd h.ptr i (h.ptr o), h.refs, h.released⟩) hn hoo none h.refs h.released p
      have e : (upd h.ptr i (h.ptr o)) o = h.ptr o := upd_ne _ _ (Ne.symm hne)
      simp only [e, h0] at k1 k2
      have : (ROp.move i o).run h = ⟨upd (upd h.ptr i (h.ptr o)) o none, h.refs, h.released⟩ := rfl
      rw [this]
      simp at k1 k2
      omega
    refine ⟨fun p => ?_, fun p => ?_⟩
    · rw [key]; exact hg p
    · rw [key, if_neg (by omega)]; rfl
  | free i => exact (rfree_step hn hg ho).1
  | assign i o =>
    show RStep objs h (if h.ptr o ≠ h.ptr i then RHeap.addRef { h.free i with ptr := upd (h.free i).ptr i ((h.free i).ptr o) } i else h)
    split
    · rename_i hne
      obtain ⟨⟨a1, a2⟩, a3⟩ := rfree_step hn hg ho.1
      have hoi : o ≠ i := by rintro rfl; exact hne rfl
      obtain ⟨b1, b2, b3, b4⟩ := radd_step hn a1 ho.1 (by rw [a3, upd_same]) ((h.free i).ptr o)
      refine ⟨b1, fun p => ?_⟩
      rw [b3, a2 p]
      congr 1
      apply if_iff
      -- the new target already had a holder (`o`), so adding one more changes no "is zero"
      have hsame : holders objs (h.free i) p = 0 ↔ holders objs (RHeap.addRef { h.free i with ptr := upd (h.free i).ptr i ((h.free i).ptr o) } i) p = 0 := by
        constructor
        · intro hz
          have hz' := hz
          unfold holders at hz ⊢
          rw [b2]
          rw [List.countP_eq_zero] at hz ⊢
          intro j hj
          by_cases e : j = i
          · rw [e, upd_same]; exact hz o ho.2
          · rw [upd_ne _ _ e]; exact hz j hj
        · intro hz
          have := b4 p
          exact Nat.le_zero.1 (hz ▸ this)
      rw [hsame]
    · refine ⟨hg, fun p => ?_⟩
      rw [if_neg (by omega)]; rfl

/-- every operation is allowed when it happens -/
def okRHistory (objs : List Nat) : RHeap → List ROp → Prop
  | _, [] => True
  | h, o :: os => o.ok objs h ∧ okRHistory objs (o.run h) os

/-- **C24** (counted pointers).  After every allowed history the reference count of every target is the
number of `RefPtr` objects that point to it, and the next operation releases a target exactly when it
takes away its last holder. -/
theorem C24_refcount (objs : List Nat) (hn : objs.Nodup) (ops : List ROp) (o : ROp)
    (hok : okRHistory objs ⟨fun _ => none, fun _ => 0, []⟩ (ops ++ [o])) :
    let h := ops.foldl ROp.run ⟨fun _ => none, fun _ => 0, []⟩
    (∀ p, h.refs p = (holders objs h p : Int)) ∧
    ∀ p, (o.run h).released.count p = h.released.count p + if 0 < holders objs h p ∧ holders objs (o.run h) p = 0 then 1 else 0 := by
  have gen : ∀ (ops : List ROp) (h : RHeap), RGood objs h → okRHistory objs h (ops ++ [o]) →
      RGood objs (ops.foldl ROp.run h) ∧ o.ok objs (ops.foldl ROp.run h) := by
    intro ops
    induction ops with
    | nil => intro h hg hok; exact ⟨hg, hok.1⟩
    | cons a t ih => intro h hg hok; exact ih (a.run h) (rop_step hn hg hok.1).1 hok.2
  have h0 : RGood objs ⟨fun _ => none, fun _ => 0, []⟩ := by
    intro p
    have : holders objs ⟨fun _ => none, fun _ => 0, []⟩ p = 0 := by
      unfold holders
      rw [List.countP_eq_zero]
      intro a _; simp
    rw [this]; rfl
  obtain ⟨a, b⟩ := gen ops _ h0 hok
  exact ⟨a, (rop_step hn a b).2⟩

/-- concrete: 1 takes player 7, 2 copies it, 3 moves it from 1, 2 is freed, 3 is assigned from 4 which
holds player 8: player 7 is released in that last step -/
example : okRHistory [1, 2, 3, 4] ⟨fun _ => none, fun _ => 0, []⟩ [.create 1 (some 7), .copy 2 1, .move 3 1, .free 2, .create 4 (some 8), .assign 3 4] ∧
    (([.create 1 (some 7), .copy 2 1, .move 3 1, .free 2, .create 4 (some 8), .assign 3 4] : List ROp).foldl ROp.run ⟨fun _ => none, fun _ => 0, []⟩).released = [7] := by
  refine ⟨?_, by decide⟩
  simp [okRHistory, ROp.ok, ROp.run, RHeap.addRef, RHeap.free, upd]

end Verif.Reg
