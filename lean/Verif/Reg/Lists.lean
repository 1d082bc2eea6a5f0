import Verif.Reg.Model
set_option linter.unusedSimpArgs false
/-!
# C22 and C23: registries

Specification: the registry is two plain lists, the normal members (newest first) and the
high-frequency members (oldest first); together they are called in this order.
-/
namespace Verif.Reg

/-- the pointer `p` starts a null-terminated list of exactly the objects `l` -/
def Seg (next : Nat → Option Nat) : Option Nat → List Nat → Prop
  | p, [] => p = none
  | p, x :: t => p = some x ∧ Seg next (next x) t

/-- the specification state: normal members and high-frequency members -/
abbrev Reg := List Nat × List Nat

/-- all members in calling order -/
def Reg.all (S : Reg) : List Nat := S.1 ++ S.2

/-- what an operation is supposed to do -/
def Op.spec (S : Reg) : Op → Reg
  | .link x => (x :: S.1, S.2)
  | .hfLink x => (S.1, S.2 ++ [x])
  | .unlink x => (S.1.erase x, S.2.erase x)

/-- registering is only allowed for objects that are not registered -/
def Op.ok (S : Reg) : Op → Prop
  | .link x | .hfLink x => x ∉ S.all
  | .unlink _ => True

/-- the heap represents the registry -/
structure Rep (h : Heap) (S : Reg) : Prop where
  seg : Seg h.next h.head S.all
  nodup : S.all.Nodup
  hf : h.hf = S.2.head?

theorem seg_head {next p l} (h : Seg next p l) : p = l.head? := by
  cases l with
  | nil => exact h
  | cons x t => exact h.1

theorem seg_congr {next next' : Nat → Option Nat} {l : List Nat} : ∀ {p}, (∀ x ∈ l, next x = next' x) → Seg next p l → Seg next' p l := by
  induction l with
  | nil => intro p _ h; exact h
  | cons x t ih =>
    intro p he h
    refine ⟨h.1, ?_⟩
    rw [← he x (by simp)]
    exact ih (fun y hy => he y (by simp [hy])) h.2

theorem seg_append {next : Nat → Option Nat} {A B : List Nat} : ∀ {p}, Seg next p (A ++ B) → Seg next B.head? B := by
  induction A with
  | nil => intro p h; have h' : Seg next p B := h; rw [← seg_head h']; exact h'
  | cons x t ih => intro p h; exact ih h.2

/-- the cell behind the objects `A` -/
def lastCell (A : List Nat) : Cell :=
  match A.getLast? with
  | none => .head
  | some z => .next z

theorem lastCell_concat (A : List Nat) (z : Nat) : lastCell (A ++ [z]) = .next z := by
  simp [lastCell]

theorem seg_splice {next : Nat → Option Nat} {A R R' : List Nat} {z : Nat} {v : Option Nat} :
    ∀ {p}, Seg next p (A ++ z :: R) → z ∉ A → z ∉ R' → Seg next v R' →
      Seg (fun m => if m = z then v else next m) p (A ++ z :: R') := by
  induction A with
  | nil =>
    intro p h _ hR hv
    refine ⟨h.1, ?_⟩
    simp only [if_true]
    apply seg_congr _ hv
    intro x hx
    rw [if_neg]; rintro rfl; exact hR hx
  | cons x t ih =>
    intro p h hA hR hv
    have hx : x ≠ z := by rintro rfl; simp at hA
    refine ⟨h.1, ?_⟩
    simp only [hx, if_false]
    exact ih h.2 (fun hz => hA (by simp [hz])) hR hv

/-- writing the pointer behind `A` replaces the rest of the list -/
theorem splice {h : Heap} {A R R' : List Nat} {v : Option Nat} (hs : Seg h.next h.head (A ++ R)) (hA : A.Nodup)
    (hR : ∀ a ∈ A, a ∉ R') (hv : Seg h.next v R') :
    Seg (h.write (lastCell A) v).next (h.write (lastCell A) v).head (A ++ R') ∧ (h.write (lastCell A) v).hf = h.hf := by
  rcases List.eq_nil_or_concat A with rfl | ⟨A', z, rfl⟩
  · exact ⟨hv, rfl⟩
  · rw [List.concat_eq_append] at *
    rw [lastCell_concat]
    refine ⟨?_, rfl⟩
    show Seg (fun m => if m = z then v else h.next m) h.head (A' ++ [z] ++ R')
    rw [List.append_assoc]
    rw [List.append_assoc] at hs
    apply seg_splice hs
    · intro hz
      rw [List.nodup_append] at hA
      exact hA.2.2 z hz z (by simp) rfl
    · exact hR z (by simp)
    · exact hv

theorem read_lastCell {h : Heap} {A R : List Nat} (hs : Seg h.next h.head (A ++ R)) : h.read (lastCell A) = R.head? := by
  rcases List.eq_nil_or_concat A with rfl | ⟨A', z, rfl⟩
  · exact seg_head hs
  · rw [List.concat_eq_append] at *
    rw [lastCell_concat]
    show h.next z = R.head?
    rw [List.append_assoc] at hs
    have := seg_append hs
    exact seg_head this.2

theorem findEnd_spec {h : Heap} : ∀ (R A : List Nat) (f : Nat), Seg h.next h.head (A ++ R) → R.length ≤ f →
    h.findEnd f (lastCell A) = some (lastCell (A ++ R)) := by
  intro R
  induction R with
  | nil =>
    intro A f hs _
    unfold Heap.findEnd
    rw [read_lastCell hs]
    simp
  | cons x t ih =>
    intro A f hs hf
    unfold Heap.findEnd
    rw [read_lastCell hs]
    simp only [List.head?_cons]
    cases f with
    | zero => simp at hf
    | succ f =>
      have e : A ++ x :: t = (A ++ [x]) ++ t := by simp
      rw [e] at hs ⊢
      rw [← ih (A ++ [x]) f hs (by simpa using hf), lastCell_concat]

theorem findSlot_none {h : Heap} {x : Nat} : ∀ (R A : List Nat) (f : Nat), Seg h.next h.head (A ++ R) → R.length ≤ f → x ∉ R →
    h.findSlot x f (lastCell A) = some none := by
  intro R
  induction R with
  | nil =>
    intro A f hs _ _
    unfold Heap.findSlot
    rw [read_lastCell hs]
    rfl
  | cons y t ih =>
    intro A f hs hf hx
    unfold Heap.findSlot
    rw [read_lastCell hs]
    simp only [List.head?_cons]
    rw [if_neg (by rintro rfl; simp at hx)]
    cases f with
    | zero => simp at hf
    | succ f =>
      have e : A ++ y :: t = (A ++ [y]) ++ t := by simp
      rw [e] at hs
      have := ih (A ++ [y]) f hs (by simpa using hf) (fun h => hx (by simp [h]))
      rw [lastCell_concat] at this
      exact this

theorem findSlot_some {h : Heap} {x : Nat} : ∀ (B A C : List Nat) (f : Nat), Seg h.next h.head (A ++ (B ++ x :: C)) → B.length ≤ f → x ∉ B →
    h.findSlot x f (lastCell A) = some (some (lastCell (A ++ B))) := by
  intro B
  induction B with
  | nil =>
    intro A C f hs _ _
    unfold Heap.findSlot
    rw [read_lastCell hs]
    simp
  | cons y t ih =>
    intro A C f hs hf hx
    unfold Heap.findSlot
    rw [read_lastCell hs]
    simp only [List.cons_append, List.head?_cons]
    rw [if_neg (by rintro rfl; simp at hx)]
    cases f with
    | zero => simp at hf
    | succ f =>
      have e : A ++ (y :: t ++ x :: C) = (A ++ [y]) ++ (t ++ x :: C) := by simp
      rw [e] at hs
      have := ih (A ++ [y]) C f hs (by simpa using hf) (fun h => hx (by simp [h]))
      rw [lastCell_concat] at this
      simp only at this ⊢
      rw [this]
      simp

theorem link_rep {h : Heap} {S : Reg} (hr : Rep h S) {x : Nat} (hx : x ∉ S.all) : Rep (h.link x) (x :: S.1, S.2) := by
  refine ⟨⟨rfl, ?_⟩, ?_, hr.hf⟩
  · show Seg (fun m => if m = x then h.head else h.next m) (if x = x then h.head else h.next x) (S.1 ++ S.2)
    rw [if_pos rfl]
    apply seg_congr _ hr.seg
    intro y hy
    rw [if_neg]; rintro rfl; exact hx hy
  · show (x :: (S.1 ++ S.2)).Nodup
    exact List.nodup_cons.2 ⟨hx, hr.nodup⟩

theorem hfLink_rep {h : Heap} {S : Reg} (hr : Rep h S) {x : Nat} (hx : x ∉ S.all) :
    ∃ h', (∀ fuel, S.all.length ≤ fuel → h.hfLink fuel x = some h') ∧ Rep h' (S.1, S.2 ++ [x]) := by
  let h1 := h.write (.next x) none
  let h2 := h1.write (lastCell S.all) (some x)
  refine ⟨if h2.hf = none then { h2 with hf := some x } else h2, ?_, ?_⟩
  · intro fuel hf
    unfold Heap.hfLink
    have := findEnd_spec (h := h) S.all [] fuel hr.seg hf
    have e : lastCell [] = .head := rfl
    rw [e] at this
    rw [this]
    rfl
  · have hs1 : Seg h1.next h1.head (S.all ++ []) := by
      rw [List.append_nil]
      apply seg_congr _ hr.seg
      intro y hy
      show _ = if y = x then none else h.next y
      rw [if_neg]; rintro rfl; exact hx hy
    have hv : Seg h1.next (some x) [x] := ⟨rfl, by show (if x = x then none else h.next x) = none; rw [if_pos rfl]⟩
    obtain ⟨k1, k2⟩ := splice (R' := [x]) hs1 hr.nodup (by intro a ha; simp; rintro rfl; exact hx ha) hv
    have k3 : h2.hf = S.2.head? := k2.trans hr.hf
    have hnd : (S.1 ++ (S.2 ++ [x])).Nodup := by
      rw [← List.append_assoc, List.nodup_append]
      refine ⟨hr.nodup, by simp, ?_⟩
      intro a ha b hb hab
      have : b = x := by simpa using hb
      subst this; subst hab
      exact hx ha
    have hseg : Seg h2.next h2.head (S.1 ++ (S.2 ++ [x])) := by rw [← List.append_assoc]; exact k1
    split
    · rename_i h0
      refine ⟨hseg, hnd, ?_⟩
      rw [k3] at h0
      have : S.2 = [] := by simpa using h0
      show some x = (S.2 ++ [x]).head?
      rw [this]; rfl
    · rename_i h0
      refine ⟨hseg, hnd, ?_⟩
      show h2.hf = (S.2 ++ [x]).head?
      rw [k3] at h0 ⊢
      cases hS : S.2 with
      | nil => rw [hS] at h0; simp at h0
      | cons a t => rfl

theorem unlinkLoop_rep {h : Heap} {l : List Nat} (hs : Seg h.next h.head l) (hn : l.Nodup) (x : Nat) :
    ∃ h', (∀ fuel, l.length ≤ fuel → h.unlinkLoop fuel x = some h') ∧ Seg h'.next h'.head (l.erase x) ∧ h'.hf = h.hf ∧
      (∀ y, y ∉ l ∨ y = x → h'.next y = h.next y) := by
  by_cases hx : x ∈ l
  · obtain ⟨B, C, rfl, hxB⟩ : ∃ B C, l = B ++ x :: C ∧ x ∉ B := by
      have := List.append_of_mem hx
      obtain ⟨B, C, e⟩ := this
      refine ⟨B, C, e, ?_⟩
      rw [e, List.nodup_append] at hn
      intro hB
      exact hn.2.2 x hB x (by simp) rfl
    have hnB : B.Nodup := (List.nodup_append.1 hn).1
    have hdis : ∀ a ∈ B, a ∉ C := by
      intro a ha hC
      exact (List.nodup_append.1 hn).2.2 a ha a (by simp [hC]) rfl
    have hxs : Seg h.next (h.next x) C := (seg_append hs).2
    obtain ⟨k1, k2⟩ := splice (R' := C) hs hnB hdis hxs
    refine ⟨h.write (lastCell B) (h.next x), ?_, ?_, k2, ?_⟩
    · intro fuel hf
      unfold Heap.unlinkLoop
      have := findSlot_some (h := h) B [] C fuel hs (by rw [List.length_append] at hf; omega) hxB
      have e : lastCell [] = .head := rfl
      rw [e] at this
      rw [this]
      rfl
    · have e : (B ++ x :: C).erase x = B ++ C := by
        rw [List.erase_append_right _ hxB]; simp
      rw [e]; exact k1
    · intro y hy
      rcases List.eq_nil_or_concat B with rfl | ⟨A', z, rfl⟩
      · rfl
      · rw [List.concat_eq_append] at *
        rw [lastCell_concat]
        show (if y = z then h.next x else h.next y) = h.next y
        rw [if_neg]
        rintro rfl
        rcases hy with hy | hy
        · exact hy (by simp)
        · subst hy; exact hxB (by simp)
  · refine ⟨h, ?_, ?_, rfl, fun _ _ => rfl⟩
    · intro fuel hf
      unfold Heap.unlinkLoop
      have := findSlot_none (h := h) (x := x) l [] fuel hs hf hx
      have e : lastCell [] = .head := rfl
      rw [e] at this
      rw [this]
      rfl
    · rw [List.erase_of_not_mem hx]; exact hs

theorem erase_all {S : Reg} (hn : S.all.Nodup) (x : Nat) : S.all.erase x = S.1.erase x ++ S.2.erase x := by
  unfold Reg.all at *
  by_cases hx : x ∈ S.1
  · have h2 : x ∉ S.2 := by
      intro h; exact (List.nodup_append.1 hn).2.2 x hx x h rfl
    rw [List.erase_append_left _ hx, List.erase_of_not_mem h2]
  · rw [List.erase_append_right _ hx, List.erase_of_not_mem hx]

theorem unlink_rep {h : Heap} {S : Reg} (hr : Rep h S) (x : Nat) :
    ∃ h', (∀ fuel, S.all.length ≤ fuel → h.unlink fuel x = some h') ∧ Rep h' (S.1.erase x, S.2.erase x) ∧
      (∀ y, y ∉ S.all ∨ y = x → h'.next y = h.next y) := by
  let h1 : Heap := if h.hf = some x then { h with hf := h.next x } else h
  have e1 : h1.next = h.next := by show (if _ then _ else _ : Heap).next = _; split <;> rfl
  have e2 : h1.head = h.head := by show (if _ then _ else _ : Heap).head = _; split <;> rfl
  obtain ⟨h', k1, k2, k3, k4⟩ := unlinkLoop_rep (h := h1) (l := S.all) (by rw [e1, e2]; exact hr.seg) hr.nodup x
  refine ⟨h', k1, ⟨?_, ?_, ?_⟩, by rw [e1] at k4; exact k4⟩
  · rw [erase_all hr.nodup] at k2; exact k2
  · show (S.1.erase x ++ S.2.erase x).Nodup
    rw [← erase_all hr.nodup]
    exact hr.nodup.erase x
  · rw [k3]
    show (if h.hf = some x then { h with hf := h.next x } else h : Heap).hf = (S.2.erase x).head?
    split
    · rename_i hx
      show h.next x = _
      rw [hr.hf] at hx
      cases hS : S.2 with
      | nil => rw [hS] at hx; simp at hx
      | cons a t =>
        rw [hS] at hx
        have : a = x := by simpa using hx
        subst this
        have hseg := hr.seg
        unfold Reg.all at hseg
        rw [hS] at hseg
        have := (seg_append hseg).2
        simp only [List.erase_cons_head]
        exact seg_head this
    · rename_i hx
      rw [hr.hf] at hx ⊢
      cases hS : S.2 with
      | nil => rfl
      | cons a t =>
        rw [hS] at hx
        have : a ≠ x := by rintro rfl; simp at hx
        rw [List.erase_cons_tail (by simpa using this)]
        rfl

theorem op_rep {h : Heap} {S : Reg} (hr : Rep h S) {o : Op} (ho : o.ok S) :
    ∃ h', (∀ fuel, S.all.length ≤ fuel → o.run fuel h = some h') ∧ Rep h' (o.spec S) := by
  cases o with
  | link x => exact ⟨h.link x, fun _ _ => rfl, link_rep hr ho⟩
  | hfLink x => exact hfLink_rep hr ho
  | unlink x =>
    obtain ⟨h', h1, h2, _⟩ := unlink_rep hr x
    exact ⟨h', h1, h2⟩

/-- every operation of a history is allowed when it happens -/
def okHistory : Reg → List Op → Prop
  | _, [] => True
  | S, o :: os => o.ok S ∧ okHistory (o.spec S) os

theorem spec_length (S : Reg) (o : Op) : (o.spec S).all.length ≤ S.all.length + 1 := by
  unfold Reg.all
  cases o with
  | link x => simp [Op.spec]
  | hfLink x => simp only [Op.spec, List.length_append, List.length_singleton]; omega
  | unlink x =>
    have := List.length_erase_le (a := x) (l := S.1)
    have := List.length_erase_le (a := x) (l := S.2)
    simp [Op.spec]; omega

theorem history_rep (ops : List Op) : ∀ {h : Heap} {S : Reg}, Rep h S → okHistory S ops →
    ∃ h', (∀ fuel, S.all.length + ops.length ≤ fuel → ops.foldlM (fun h (o : Op) => o.run fuel h) h = some h') ∧ Rep h' (ops.foldl Op.spec S) := by
  induction ops with
  | nil => intro h S hr _; exact ⟨h, fun _ _ => rfl, hr⟩
  | cons o os ih =>
    intro h S hr hok
    obtain ⟨h1, k1, k2⟩ := op_rep hr hok.1
    obtain ⟨h2, m1, m2⟩ := ih k2 hok.2
    refine ⟨h2, ?_, m2⟩
    intro fuel hf
    have := spec_length S o
    simp only [List.length_cons] at hf
    rw [List.foldlM_cons, k1 fuel (by omega)]
    exact m1 fuel (by omega)

/-- the empty registry, whatever the link fields contain -/
def Heap.empty (junk : Nat → Option Nat) : Heap := ⟨none, none, junk⟩

theorem empty_rep (junk : Nat → Option Nat) : Rep (Heap.empty junk) ([], []) := ⟨rfl, by simp [Reg.all], rfl⟩

/-! ### a round of calls -/

/-- objects that do nothing to the registry when called -/
theorem round_quiet {h : Heap} {fuel : Nat} : ∀ (l : List Nat) (f i : Nat) (p : Option Nat), Seg h.next p l → l.length ≤ f →
    h.round fuel (fun _ _ => []) f i p = some (h, l) := by
  intro l
  induction l with
  | nil => intro f i p hs _; rw [show p = none from hs]; unfold Heap.round; rfl
  | cons x t ih =>
    intro f i p hs hf
    rw [hs.1]
    cases f with
    | zero => simp at hf
    | succ f =>
      unfold Heap.round
      simp only [List.foldlM_nil]
      show Option.bind (some h) _ = _
      rw [Option.bind_some, ih f (i + 1) _ hs.2 (by simpa using hf)]
      rfl

/-- **C22** (a round).  After every allowed history of registrations and unregistrations, starting from
the empty registry with arbitrary link fields: no list walk runs forever, a round calls exactly the
registered objects, each once, and a high-frequency round exactly the registered high-frequency
objects, each once. -/
theorem C22_round (junk : Nat → Option Nat) (ops : List Op) (hok : okHistory ([], []) ops) :
    let S := ops.foldl Op.spec ([], [])
    ∃ h, (∀ fuel, ops.length ≤ fuel → ops.foldlM (fun h (o : Op) => o.run fuel h) (Heap.empty junk) = some h) ∧ S.all.Nodup ∧
      ∀ fuel, S.all.length ≤ fuel →
        h.doLoop fuel (fun _ _ => []) = some (h, S.all) ∧ h.doHFLoop fuel (fun _ _ => []) = some (h, S.2) := by
  intro S
  obtain ⟨h, k1, k2⟩ := history_rep ops (empty_rep junk) hok
  refine ⟨h, fun fuel hf => k1 fuel (by simpa [Reg.all] using hf), k2.nodup, fun fuel hf => ⟨?_, ?_⟩⟩
  · exact round_quiet S.all fuel 0 _ k2.seg hf
  · have hs : Seg h.next h.hf S.2 := by rw [k2.hf]; exact seg_append k2.seg
    exact round_quiet S.2 fuel 0 _ hs (by have : S.all = S.1 ++ S.2 := rfl; rw [this, List.length_append] at hf; omega)

/-- the members of the specification: registered and not unregistered since -/
theorem spec_mem (S : Reg) (hn : S.all.Nodup) (o : Op) (x : Nat) :
    x ∈ (o.spec S).all ↔ match o with
      | .link y | .hfLink y => x = y ∨ x ∈ S.all
      | .unlink y => x ≠ y ∧ x ∈ S.all := by
  cases o with
  | link y => simp [Op.spec, Reg.all]
  | hfLink y => simp only [Op.spec, Reg.all, List.mem_append, List.mem_singleton]; grind
  | unlink y =>
    have := erase_all hn y
    show x ∈ S.1.erase y ++ S.2.erase y ↔ _
    rw [← this, hn.mem_erase_iff]

/-- concrete: register 1 and 2, 9 as high-frequency, 3, unregister 1, register 8 as high-frequency -/
example : okHistory ([], []) [.link 1, .link 2, .hfLink 9, .link 3, .unlink 1, .hfLink 8] ∧
    ([.link 1, .link 2, .hfLink 9, .link 3, .unlink 1, .hfLink 8] : List Op).foldl Op.spec ([], []) = ([3, 2], [9, 8]) := by
  refine ⟨?_, by decide⟩
  simp [okHistory, Op.ok, Op.spec, Reg.all]

/-! ### objects that change the registry while they are called -/

/-- Object `c` behaves well while it is called: it registers only objects that are not registered (not
itself), as normal members, it may unregister any object, and once it has unregistered itself it only
registers others. -/
def Polite (c : Nat) : Reg → List Op → Prop
  | _, [] => True
  | S, .link y :: os => y ∉ S.all ∧ y ≠ c ∧ Polite c ((Op.link y).spec S) os
  | _, .hfLink _ :: _ => False
  | S, .unlink z :: os => (z = c → ∀ o ∈ os, ∃ y, o = .link y) ∧ Polite c ((Op.unlink z).spec S) os

/-- `c` has been called, `B` is still to come -/
structure Pending (h : Heap) (S : Reg) (c : Nat) (B : List Nat) : Prop where
  rep : Rep h S
  split : ∃ A, (S.all = A ++ c :: B) ∨ (S.all = A ++ B ∧ c ∉ S.all ∧ h.next c = B.head?)

theorem polite_ops {c : Nat} (ops : List Op) : ∀ {h : Heap} {S : Reg} {B : List Nat}, Pending h S c B →
    (c ∈ S.all ∨ ∀ o ∈ ops, ∃ y, o = Op.link y) → Polite c S ops →
    ∃ h', (∀ fuel, S.all.length + ops.length ≤ fuel → ops.foldlM (fun h (o : Op) => o.run fuel h) h = some h') ∧
      Pending h' (ops.foldl Op.spec S) c (B.filter (fun z => decide (Op.unlink z ∉ ops))) := by
  induction ops with
  | nil => intro h S B hp _ _; exact ⟨h, fun _ _ => rfl, by rw [List.filter_eq_self.2 (by simp)]; exact hp⟩
  | cons o os ih =>
    intro h S B hp hc hpol
    cases o with
    | hfLink y => exact absurd hpol id
    | link y =>
      obtain ⟨hy, hyc, hpol⟩ := hpol
      have hr := link_rep hp.rep hy
      have hp' : Pending (h.link y) ((Op.link y).spec S) c B := by
        refine ⟨hr, ?_⟩
        obtain ⟨A, hA | ⟨hA, hcn, hnx⟩⟩ := hp.split
        · exact ⟨y :: A, Or.inl (by show y :: S.all = _; rw [hA]; rfl)⟩
        · refine ⟨y :: A, Or.inr ⟨by show y :: S.all = _; rw [hA]; rfl, ?_, ?_⟩⟩
          · show c ∉ y :: S.all
            simp only [List.mem_cons, not_or]
            exact ⟨fun h => hyc h.symm, hcn⟩
          · show (if c = y then h.head else h.next c) = B.head?
            rw [if_neg (fun h => hyc h.symm)]; exact hnx
      have hc' : c ∈ ((Op.link y).spec S).all ∨ ∀ o ∈ os, ∃ y, o = Op.link y := by
        rcases hc with hc | hc
        · left; show c ∈ y :: S.all; simp [hc]
        · right; exact fun o ho => hc o (by simp [ho])
      obtain ⟨h', k1, k2⟩ := ih hp' hc' hpol
      refine ⟨h', ?_, ?_⟩
      · intro fuel hf
        rw [List.foldlM_cons]
        simp only [List.length_cons] at hf
        exact k1 fuel (by have := spec_length S (.link y); omega)
      · have e : B.filter (fun z => decide (Op.unlink z ∉ Op.link y :: os)) = B.filter (fun z => decide (Op.unlink z ∉ os)) := by
          apply List.filter_congr
          intro z _
          simp
        rw [e]; exact k2
    | unlink z =>
      obtain ⟨hself, hpol⟩ := hpol
      have hcm : c ∈ S.all := by
        rcases hc with hc | hc
        · exact hc
        · obtain ⟨y, hy⟩ := hc (.unlink z) (by simp)
          cases hy
      obtain ⟨A, hA⟩ : ∃ A, S.all = A ++ c :: B := by
        obtain ⟨A, hA | ⟨_, hcn, _⟩⟩ := hp.split
        · exact ⟨A, hA⟩
        · exact absurd hcm hcn
      have hnd := hp.rep.nodup
      obtain ⟨h1, k1, k2, k3⟩ := unlink_rep hp.rep z
      have hall : ((Op.unlink z).spec S).all = S.all.erase z := (erase_all hnd z).symm
      have hnd' := hnd
      rw [hA] at hnd'
      have hcA : c ∉ A := fun h => (List.nodup_append.1 hnd').2.2 c h c (by simp) rfl
      have hcB : c ∉ B := (List.nodup_cons.1 (List.nodup_append.1 hnd').2.1).1
      have hBn : B.Nodup := (List.nodup_cons.1 (List.nodup_append.1 hnd').2.1).2
      have hp' : Pending h1 ((Op.unlink z).spec S) c (B.erase z) := by
        refine ⟨k2, ?_⟩
        rw [hall, hA]
        by_cases hzc : z = c
        · subst hzc
          refine ⟨A, Or.inr ⟨?_, ?_, ?_⟩⟩
          · rw [List.erase_append_right _ hcA, List.erase_of_not_mem hcB]; simp
          · rw [List.erase_append_right _ hcA]; simp; exact ⟨hcA, hcB⟩
          · rw [k3 z (Or.inr rfl), List.erase_of_not_mem hcB]
            have hs := hp.rep.seg
            rw [hA] at hs
            exact seg_head (seg_append hs).2
        · by_cases hzA : z ∈ A
          · have hzB : z ∉ B := fun h => (List.nodup_append.1 hnd').2.2 z hzA z (by simp [h]) rfl
            exact ⟨A.erase z, Or.inl (by rw [List.erase_append_left _ hzA, List.erase_of_not_mem hzB])⟩
          · exact ⟨A, Or.inl (by rw [List.erase_append_right _ hzA, List.erase_cons_tail (by simpa using fun h => hzc h.symm)])⟩
      have hc' : c ∈ ((Op.unlink z).spec S).all ∨ ∀ o ∈ os, ∃ y, o = Op.link y := by
        by_cases hzc : z = c
        · exact Or.inr (hself hzc)
        · left; rw [hall, hnd.mem_erase_iff]; exact ⟨fun h => hzc h.symm, hcm⟩
      obtain ⟨h', m1, m2⟩ := ih hp' hc' hpol
      refine ⟨h', ?_, ?_⟩
      · intro fuel hf
        simp only [List.length_cons] at hf
        rw [List.foldlM_cons]
        show (h.unlink fuel z).bind _ = _
        rw [k1 fuel (by omega)]
        exact m1 fuel (by have := spec_length S (.unlink z); omega)
      · have e : B.filter (fun y => decide (Op.unlink y ∉ Op.unlink z :: os)) = (B.erase z).filter (fun y => decide (Op.unlink y ∉ os)) := by
          rw [hBn.erase_eq_filter, List.filter_filter]
          apply List.filter_congr
          intro y _
          by_cases hyz : y = z <;> simp [hyz]
        rw [e]; exact m2

/-- everything that is called in the round behaves well -/
def PoliteRound (call : Nat → Nat → List Op) : Nat → Nat → Reg → List Nat → Prop
  | _, _, _, [] => True
  | 0, _, _, _ :: _ => True
  | f + 1, i, S, c :: B =>
    Polite c S (call i c) ∧
      PoliteRound call f (i + 1) ((call i c).foldl Op.spec S) (B.filter (fun z => decide (Op.unlink z ∉ call i c)))

theorem round_polite (call : Nat → Nat → List Op) : ∀ (f i : Nat) (h : Heap) (S : Reg) (A l : List Nat), Rep h S → S.all = A ++ l →
    l.length ≤ f → PoliteRound call f i S l →
    ∃ h' S' vis F, (∀ fuel, F ≤ fuel → ∀ g, f ≤ g → h.round fuel call g i l.head? = some (h', vis)) ∧ Rep h' S' ∧ vis.Sublist l ∧
      ∀ x ∈ l, x ∉ vis → ∃ j c, c ∈ vis ∧ Op.unlink x ∈ call j c := by
  intro f
  induction f with
  | zero =>
    intro i h S A l hr _ hl _
    have : l = [] := List.length_eq_zero_iff.1 (by omega)
    subst this
    exact ⟨h, S, [], 0, fun fuel _ g _ => by unfold Heap.round; rfl, hr, by simp, by simp⟩
  | succ f ih =>
    intro i h S A l hr hA hl hpol
    cases l with
    | nil => exact ⟨h, S, [], 0, fun fuel _ g _ => by unfold Heap.round; rfl, hr, by simp, by simp⟩
    | cons c B =>
      obtain ⟨hp1, hp2⟩ := hpol
      have hp : Pending h S c B := ⟨hr, A, Or.inl hA⟩
      obtain ⟨h1, k1, k2⟩ := polite_ops (call i c) hp (Or.inl (by rw [hA]; simp)) hp1
      obtain ⟨A', hA'⟩ := k2.split
      have hnext : h1.next c = (B.filter (fun z => decide (Op.unlink z ∉ call i c))).head? := by
        rcases hA' with hA' | ⟨_, _, h3⟩
        · have hs := k2.rep.seg
          rw [hA'] at hs
          exact seg_head (seg_append hs).2
        · exact h3
      obtain ⟨A'', hA''⟩ : ∃ A'', ((call i c).foldl Op.spec S).all = A'' ++ B.filter (fun z => decide (Op.unlink z ∉ call i c)) := by
        rcases hA' with hA' | ⟨hA', _, _⟩
        · exact ⟨A' ++ [c], by rw [hA']; simp⟩
        · exact ⟨A', hA'⟩
      have hlen : (B.filter (fun z => decide (Op.unlink z ∉ call i c))).length ≤ f := by
        have := List.length_filter_le (fun z => decide (Op.unlink z ∉ call i c)) B
        simp only [List.length_cons] at hl
        omega
      obtain ⟨h', S', vis, F, m1, m2, m3, m4⟩ := ih (i + 1) h1 _ A'' _ k2.rep hA'' hlen hp2
      refine ⟨h', S', c :: vis, max F (S.all.length + (call i c).length), ?_, m2, ?_, ?_⟩
      · intro fuel hF g hg
        cases g with
        | zero => omega
        | succ g =>
          rw [List.head?_cons]
          unfold Heap.round
          rw [k1 fuel (by omega), Option.bind_some, hnext, m1 fuel (by omega) g (by omega)]
          rfl
      · exact (m3.trans List.filter_sublist).cons_cons c
      · intro x hx hnv
        rcases List.mem_cons.1 hx with rfl | hx
        · simp at hnv
        · by_cases hu : Op.unlink x ∈ call i c
          · exact ⟨i, c, by simp, hu⟩
          · obtain ⟨j, c', h1, h2⟩ := m4 x (by rw [List.mem_filter]; exact ⟨hx, by simpa using hu⟩) (fun h => hnv (by simp [h]))
            exact ⟨j, c', by simp [h1], h2⟩

/-- **C22** (changes during a round).  When the called objects themselves register and unregister
objects (each well-behaved in the sense of `Polite`), the round still ends, calls no object twice,
calls only objects that were registered when it started, in order, and leaves out only objects that one
of the called objects unregistered. -/
theorem C22_round_dynamic {h : Heap} {S : Reg} (hr : Rep h S) (call : Nat → Nat → List Op)
    (hpol : PoliteRound call S.all.length 0 S S.all) :
    ∃ h' S' vis F, (∀ fuel, F ≤ fuel → h.doLoop fuel call = some (h', vis)) ∧ Rep h' S' ∧ vis.Sublist S.all ∧ vis.Nodup ∧
      ∀ x ∈ S.all, x ∉ vis → ∃ j c, c ∈ vis ∧ Op.unlink x ∈ call j c := by
  obtain ⟨h', S', vis, F, m1, m2, m3, m4⟩ := round_polite call S.all.length 0 h S [] S.all hr rfl (Nat.le_refl _) hpol
  refine ⟨h', S', vis, max F S.all.length, ?_, m2, m3, hr.nodup.sublist m3, m4⟩
  intro fuel hf
  unfold Heap.doLoop
  rw [seg_head hr.seg]
  exact m1 fuel (by omega) fuel (by omega)

/-- concrete: with members 3, 2, 1, object 3 unregisters itself and registers 7, object 2 unregisters 1 -/
example : PoliteRound (fun _ c => if c = 3 then [.unlink 3, .link 7] else if c = 2 then [.unlink 1] else []) 3 0 ([3, 2, 1], []) [3, 2, 1] := by
  simp [PoliteRound, Polite, Op.spec, Reg.all]

/-- Why objects must not unregister the following object after themselves: object 3 unregisters itself
and then object 2, which is called all the same although it is not registered any more. -/
theorem C22_stale_counterexample :
    ((⟨some 3, none, fun n => if n = 3 then some 2 else if n = 2 then some 1 else none⟩ : Heap).doLoop 5
      (fun _ c => if c = 3 then [.unlink 3, .unlink 2] else [])).map (·.2) = some [3, 2, 1] := by decide

/-! ## C23 -/

/-- **C23** (dispatch).  After every allowed history of handler registrations and unregistrations: a
command is offered to the registered handlers, newest first, up to and including the first one that
accepts it; the answer is whether one accepted it; unregistered handlers are never asked. -/
theorem C23_dispatch (junk : Nat → Option Nat) (ops : List Op) (hok : okHistory ([], []) ops)
    (hnohf : ∀ o ∈ ops, ∀ x, o ≠ .hfLink x) (accepts : Nat → Bool) :
    let L := (ops.foldl Op.spec ([], [])).1
    ∃ h, (∀ fuel, ops.length ≤ fuel →
        ops.foldlM (fun h o => match o with | .link x => some (h.link x) | .unlink x => h.unlinkLoop fuel x | .hfLink _ => none) (Heap.empty junk) = some h) ∧
      ∀ fuel, L.length ≤ fuel → ∃ asked, h.doParse accepts fuel h.head = some (L.any accepts, asked) ∧
        asked <+: L ∧ (∀ n ∈ asked.dropLast, accepts n = false) ∧
        (if L.any accepts then ∃ n, asked.getLast? = some n ∧ accepts n = true else asked = L) := by
  intro L
  have key : ∀ (ops : List Op) (h : Heap) (l : List Nat), Seg h.next h.head l → l.Nodup → okHistory (l, []) ops → (∀ o ∈ ops, ∀ x, o ≠ .hfLink x) →
      ∃ h', (∀ fuel, l.length + ops.length ≤ fuel →
        ops.foldlM (fun h o => match o with | .link x => some (h.link x) | .unlink x => h.unlinkLoop fuel x | .hfLink _ => none) h = some h') ∧
        Seg h'.next h'.head (ops.foldl Op.spec (l, [])).1 := by
    intro ops
    induction ops with
    | nil => intro h l hs _ _ _; exact ⟨h, fun _ _ => rfl, hs⟩
    | cons o os ih =>
      intro h l hs hn hok hno
      have hno' : ∀ o ∈ os, ∀ x, o ≠ .hfLink x := fun o ho => hno o (by simp [ho])
      cases o with
      | hfLink x => exact absurd rfl (hno _ (by simp) x)
      | link x =>
        have hx : x ∉ l := by have := hok.1; simpa [Op.ok, Reg.all] using this
        have hs' : Seg (h.link x).next (h.link x).head (x :: l) := by
          refine ⟨rfl, ?_⟩
          show Seg (fun m => if m = x then h.head else h.next m) (if x = x then h.head else h.next x) l
          rw [if_pos rfl]
          apply seg_congr _ hs
          intro y hy
          rw [if_neg]; rintro rfl; exact hx hy
        obtain ⟨h', k1, k2⟩ := ih (h.link x) (x :: l) hs' (List.nodup_cons.2 ⟨hx, hn⟩) hok.2 hno'
        refine ⟨h', ?_, k2⟩
        intro fuel hf
        rw [List.foldlM_cons]
        exact k1 fuel (by simp only [List.length_cons] at *; omega)
      | unlink x =>
        obtain ⟨h1, k1, k2, _, _⟩ := unlinkLoop_rep hs hn x
        obtain ⟨h', m1, m2⟩ := ih h1 (l.erase x) k2 (hn.erase x) hok.2 hno'
        refine ⟨h', ?_, m2⟩
        intro fuel hf
        simp only [List.length_cons] at hf
        have := List.length_erase_le (a := x) (l := l)
        rw [List.foldlM_cons]
        show (h.unlinkLoop fuel x).bind _ = _
        rw [k1 fuel (by omega)]
        exact m1 fuel (by omega)
  obtain ⟨h, k1, k2⟩ := key ops (Heap.empty junk) [] rfl (by simp) hok hnohf
  refine ⟨h, fun fuel hf => k1 fuel (by simpa using hf), ?_⟩
  have parse : ∀ (l : List Nat) (f : Nat) (p : Option Nat), Seg h.next p l → l.length ≤ f →
      ∃ asked, h.doParse accepts f p = some (l.any accepts, asked) ∧ asked <+: l ∧ (∀ n ∈ asked.dropLast, accepts n = false) ∧
        (if l.any accepts then ∃ n, asked.getLast? = some n ∧ accepts n = true else asked = l) := by
    intro l
    induction l with
    | nil => intro f p hs _; rw [show p = none from hs]; exact ⟨[], by unfold Heap.doParse; rfl, by simp, by simp, by simp⟩
    | cons x t ih =>
      intro f p hs hf
      rw [hs.1]
      cases f with
      | zero => simp at hf
      | succ f =>
        unfold Heap.doParse
        by_cases hx : accepts x = true
        · rw [if_pos hx]
          refine ⟨[x], by simp [hx], ⟨t, rfl⟩, by simp, by simp [hx]⟩
        · rw [if_neg hx]
          obtain ⟨asked, a1, a2, a3, a4⟩ := ih f _ hs.2 (by simpa using hf)
          refine ⟨x :: asked, by rw [a1]; simp [hx], List.cons_prefix_cons.2 ⟨rfl, a2⟩, ?_, ?_⟩
          · cases asked with
            | nil => simp
            | cons y t' =>
              intro n hn
              rw [List.dropLast_cons_cons] at hn
              rcases List.mem_cons.1 hn with rfl | hn
              · simpa using hx
              · exact a3 n hn
          · simp only [List.any_cons, hx, Bool.false_or]
            split
            · rename_i h1
              rw [if_pos h1] at a4
              obtain ⟨n, h2, h3⟩ := a4
              refine ⟨n, ?_, h3⟩
              rw [List.getLast?_cons, h2]; rfl
            · rename_i h1
              rw [if_neg h1] at a4
              rw [a4]
  exact fun fuel hf => parse L fuel h.head k2 hf

/-- concrete: handlers 1, 2, 3 registered in this order, 2 unregistered; 1 accepts -/
example : okHistory ([], []) [.link 1, .link 2, .link 3, .unlink 2] ∧
    (([.link 1, .link 2, .link 3, .unlink 2] : List Op).foldl Op.spec ([], [])).1 = [3, 1] := by
  refine ⟨?_, by decide⟩
  simp [okHistory, Op.ok, Op.spec, Reg.all]

end Verif.Reg
