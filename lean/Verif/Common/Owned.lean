import Mathlib.Data.List.Basic
import Mathlib.Data.List.Perm.Basic
/-!
# Strings that are freed when no longer needed

Model of `LSPtr`, `LSFree`, `IsHeap` and `mkstr`, common/malloc_helper.h: the strings of the current preset (common/current_preset.h:15-20) and
style strings under edit are held by objects which free them, unless they are constants in flash.  The heap is the list of blocks in use;
freeing a block that is not in use has no defined outcome (`none`).
-/
namespace Verif.Common.Owned

/-- What a pointer may be: null, a constant, or a block from `malloc`. -/
inductive P
  | null
  | const (n : Nat)
  | heap (id : Nat)
  deriving DecidableEq

/-- The heap, and the pointers held by `LSPtr` objects (`ptr_`, common/malloc_helper.h:103); an object that does not exist holds null. -/
structure H where
  live : List Nat
  fresh : Nat
  slot : Nat → P

/-- `IsHeap` for the Proffieboard, common/malloc_helper.h:25-29 -/
def isHeap : P → Bool
  | .heap _ => true
  | _ => false

/-- `IsHeap` for the Teensy, common/malloc_helper.h:8-13: anything but the null pointer is said not to be, and null is below the heap. -/
def isHeapTeensy : P → Bool
  | .null => false
  | _ => false

/-- `free` -/
def release (live : List Nat) : P → Option (List Nat)
  | .heap id => if id ∈ live then some (live.erase id) else none
  | .null => some live
  | .const _ => none

/-- `LSFree`, common/malloc_helper.h:52-55 -/
def lsFree (test : P → Bool) (live : List Nat) (p : P) : Option (List Nat) := if test p then release live p else some live

/-- function update -/
def upd (f : Nat → P) (i : Nat) (x : P) : Nat → P := fun j => if j = i then x else f j

/-- What is done with the objects: assigning a string just made by `mkstr` (common/malloc_helper.h:106-111), for which there may be no memory;
assigning a constant; assigning from another object (92-95) or making a new one from it (97); the end of an object (77); and `Free` (78). -/
inductive Op
  | make (i : Nat) (memory : Bool)
  | const (i n : Nat)
  | moveAssign (i j : Nat)
  | moveNew (i j : Nat)
  | destroy (i : Nat)
  | free (i : Nat)
  deriving DecidableEq

/-- `LSPtr`, common/malloc_helper.h:71-103 -/
def step (test : P → Bool) (h : H) : Op → Option H
  | .make i true => (lsFree test (h.fresh :: h.live) (h.slot i)).map fun l => ⟨l, h.fresh + 1, upd h.slot i (.heap h.fresh)⟩
  | .make i false => (lsFree test h.live (h.slot i)).map fun l => ⟨l, h.fresh, upd h.slot i (.const 0)⟩
  | .const i n => (lsFree test h.live (h.slot i)).map fun l => ⟨l, h.fresh, upd h.slot i (.const n)⟩
  | .moveAssign i j => some { h with slot := upd (upd h.slot i (h.slot j)) j (h.slot i) }
  | .moveNew i j => some { h with slot := upd (upd h.slot i (h.slot j)) j .null }
  | .destroy i => (lsFree test h.live (h.slot i)).map fun l => ⟨l, h.fresh, upd h.slot i .null⟩
  | .free i => (lsFree test h.live (h.slot i)).map fun l => { h with live := l }

/-- any history -/
def run (test : P → Bool) (h : H) : List Op → Option H
  | [] => some h
  | o :: l => (step test h o).bind fun h => run test h l

/-- at first -/
def h0 : H := ⟨[], 0, fun _ => .null⟩

/-- What the code keeps to: a new object is not one that exists, and `Free` is not called. -/
def ok (h : H) : Op → Prop
  | .moveNew i j => i ≠ j ∧ h.slot i = .null
  | .free _ => False
  | _ => True

/-- all steps of a history are so -/
def okAll (test : P → Bool) (h : H) : List Op → Prop
  | [] => True
  | o :: l => ok h o ∧ ∀ h', step test h o = some h' → okAll test h' l

/-- Each block in use is held by exactly one object, and each object holds a block in use. -/
def Inv (h : H) : Prop :=
  h.live.Nodup ∧ (∀ id ∈ h.live, id < h.fresh) ∧ (∀ id, id ∈ h.live ↔ ∃ i, h.slot i = .heap id) ∧
  (∀ i j id, h.slot i = .heap id → h.slot j = .heap id → i = j)

theorem free_ok (h : H) (hi : Inv h) (i : Nat) :
    ∃ l, lsFree isHeap h.live (h.slot i) = some l ∧ l.Nodup ∧ (∀ id, id ∈ l ↔ ∃ j, j ≠ i ∧ h.slot j = .heap id) := by
  obtain ⟨h1, h2, h3, h4⟩ := hi
  cases hs : h.slot i with
  | null =>
    refine ⟨h.live, rfl, h1, fun id => (h3 id).trans ⟨fun ⟨j, hj⟩ => ⟨j, ?_, hj⟩, fun ⟨j, _, hj⟩ => ⟨j, hj⟩⟩⟩
    rintro rfl; rw [hs] at hj; cases hj
  | const n =>
    refine ⟨h.live, rfl, h1, fun id => (h3 id).trans ⟨fun ⟨j, hj⟩ => ⟨j, ?_, hj⟩, fun ⟨j, _, hj⟩ => ⟨j, hj⟩⟩⟩
    rintro rfl; rw [hs] at hj; cases hj
  | heap id =>
    have hm : id ∈ h.live := (h3 id).2 ⟨i, hs⟩
    refine ⟨h.live.erase id, by simp [lsFree, isHeap, release, hm], h1.erase id, fun id' => ?_⟩
    rw [h1.mem_erase_iff, h3 id']
    constructor
    · rintro ⟨hne, j, hj⟩
      refine ⟨j, ?_, hj⟩
      rintro rfl; rw [hs] at hj; cases hj; exact hne rfl
    · rintro ⟨j, hne, hj⟩
      refine ⟨?_, j, hj⟩
      rintro rfl; exact hne (h4 j i id' hj hs)

theorem upd_eq (f : Nat → P) (i : Nat) (x : P) : upd f i x i = x := by simp [upd]

theorem upd_ne (f : Nat → P) (i j : Nat) (x : P) (h : j ≠ i) : upd f i x j = f j := by simp [upd, h]

theorem inv_set (h : H) (hi : Inv h) (i : Nat) (p : P) (hp : ∀ id, p ≠ .heap id) (l : List Nat) (hl : lsFree isHeap h.live (h.slot i) = some l) :
    Inv ⟨l, h.fresh, upd h.slot i p⟩ := by
  obtain ⟨l', e, n, m⟩ := free_ok h hi i
  rw [hl] at e; cases e
  have hof : ∀ j id, upd h.slot i p j = .heap id → j ≠ i ∧ h.slot j = .heap id := by
    intro j id hj
    by_cases hji : j = i
    · subst hji; rw [upd_eq] at hj; exact absurd hj (hp id)
    · rw [upd_ne _ _ _ _ hji] at hj; exact ⟨hji, hj⟩
  refine ⟨n, fun id hid => ?_, fun id => ?_, fun j k id hj hk => hi.2.2.2 j k id (hof j id hj).2 (hof k id hk).2⟩
  · obtain ⟨j, _, hj⟩ := (m id).1 hid
    exact hi.2.1 id ((hi.2.2.1 id).2 ⟨j, hj⟩)
  · rw [m id]
    exact ⟨fun ⟨j, hne, hj⟩ => ⟨j, (upd_ne h.slot i j p hne).trans hj⟩, fun ⟨j, hj⟩ => ⟨j, hof j id hj⟩⟩

theorem lsFree_cons (h : H) (hi : Inv h) (i : Nat) (l : List Nat) (hl : lsFree isHeap (h.fresh :: h.live) (h.slot i) = some l) :
    ∃ l', lsFree isHeap h.live (h.slot i) = some l' ∧ l = h.fresh :: l' := by
  cases hs : h.slot i with
  | null => rw [hs] at hl; exact ⟨h.live, rfl, by simpa [lsFree, isHeap] using hl.symm⟩
  | const n => rw [hs] at hl; exact ⟨h.live, rfl, by simpa [lsFree, isHeap] using hl.symm⟩
  | heap id =>
    rw [hs] at hl
    have hm : id ∈ h.live := (hi.2.2.1 id).2 ⟨i, hs⟩
    have hne : h.fresh ≠ id := by have := hi.2.1 id hm; omega
    refine ⟨h.live.erase id, by simp [lsFree, isHeap, release, hm], ?_⟩
    have : (h.fresh :: h.live).erase id = h.fresh :: h.live.erase id := by
      rw [List.erase_cons_tail]; simpa using hne
    simp only [lsFree, isHeap, if_true, release] at hl
    rw [if_pos (List.mem_cons_of_mem _ hm), this] at hl
    exact (Option.some.inj hl).symm

theorem inv_step (h h' : H) (o : Op) (hi : Inv h) (hok : ok h o) (hs : step isHeap h o = some h') : Inv h' := by
  have perm : ∀ i j : Nat, ∀ f : Nat → P, (∀ k id, f k = .heap id ↔ ∃ k', h.slot k' = .heap id ∧ k = (if k' = j then i else if k' = i then j else k')) →
      Inv ⟨h.live, h.fresh, f⟩ := by
    intro i j f hf
    obtain ⟨h1, h2, h3, h4⟩ := hi
    refine ⟨h1, h2, fun id => ?_, fun a b id ha hb => ?_⟩
    · rw [h3 id]
      constructor
      · rintro ⟨k, hk⟩; exact ⟨_, (hf _ id).2 ⟨k, hk, rfl⟩⟩
      · rintro ⟨k, hk⟩; obtain ⟨k', h5, _⟩ := (hf k id).1 hk; exact ⟨k', h5⟩
    · obtain ⟨a', ha1, rfl⟩ := (hf a id).1 ha
      obtain ⟨b', hb1, rfl⟩ := (hf b id).1 hb
      rw [h4 a' b' id ha1 hb1]
  cases o with
  | make i m =>
    cases m with
    | false =>
      simp only [step, Option.map_eq_some_iff] at hs
      obtain ⟨l, hl, rfl⟩ := hs
      exact inv_set h hi i _ (fun id e => by cases e) l hl
    | true =>
      simp only [step, Option.map_eq_some_iff] at hs
      obtain ⟨l, hl, rfl⟩ := hs
      obtain ⟨l', hl', rfl⟩ := lsFree_cons h hi i l hl
      obtain ⟨n1, n2, n3, n4⟩ := inv_set h hi i .null (fun id e => by cases e) l' hl'
      have hfr : h.fresh ∉ l' := fun hm => Nat.lt_irrefl _ (n2 _ hm)
      have hof : ∀ j id, upd h.slot i (.heap h.fresh) j = .heap id → (j = i ∧ id = h.fresh) ∨ (j ≠ i ∧ upd h.slot i .null j = .heap id ∧ id ∈ l') := by
        intro j id hj
        by_cases hji : j = i
        · subst hji; rw [upd_eq] at hj; cases hj; exact .inl ⟨rfl, rfl⟩
        · have : upd h.slot i .null j = .heap id := by rw [upd_ne _ _ _ _ hji] at hj ⊢; exact hj
          exact .inr ⟨hji, this, (n3 id).2 ⟨j, this⟩⟩
      refine ⟨List.nodup_cons.2 ⟨hfr, n1⟩, fun id hid => ?_, fun id => ⟨fun hid => ?_, fun ⟨j, hj⟩ => ?_⟩, fun a b id ha hb => ?_⟩
      · rcases List.mem_cons.1 hid with rfl | hid
        · exact Nat.lt_succ_self _
        · exact Nat.lt_succ_of_lt (n2 id hid)
      · rcases List.mem_cons.1 hid with rfl | hid
        · exact ⟨i, upd_eq _ _ _⟩
        · obtain ⟨j, hj⟩ := (n3 id).1 hid
          have hj : upd h.slot i .null j = .heap id := hj
          have hji : j ≠ i := by rintro rfl; rw [upd_eq] at hj; cases hj
          exact ⟨j, by show upd h.slot i _ j = _; rw [upd_ne _ _ _ _ hji] at hj ⊢; exact hj⟩
      · rcases hof j id hj with ⟨_, rfl⟩ | ⟨_, _, hm⟩
        · simp
        · exact List.mem_cons_of_mem _ hm
      · rcases hof a id ha with ⟨ea, e1⟩ | ⟨_, e1, m1⟩ <;> rcases hof b id hb with ⟨eb, e2⟩ | ⟨_, e2, m2⟩
        · rw [ea, eb]
        · subst e1; exact absurd m2 hfr
        · subst e2; exact absurd m1 hfr
        · exact n4 a b id e1 e2
  | const i n =>
    simp only [step, Option.map_eq_some_iff] at hs
    obtain ⟨l, hl, rfl⟩ := hs
    exact inv_set h hi i _ (fun id e => by cases e) l hl
  | destroy i =>
    simp only [step, Option.map_eq_some_iff] at hs
    obtain ⟨l, hl, rfl⟩ := hs
    exact inv_set h hi i _ (fun id e => by cases e) l hl
  | free i => exact absurd hok id
  | moveAssign i j =>
    simp only [step, Option.some.injEq] at hs
    subst hs
    refine perm i j _ fun k id => ?_
    by_cases hkj : k = j
    · subst hkj
      rw [upd_eq]
      constructor
      · intro hk
        by_cases hik : i = k
        · exact ⟨i, hk, by simp [hik]⟩
        · exact ⟨i, hk, by simp [hik]⟩
      · rintro ⟨k', hk', e⟩
        by_cases h1 : k' = k
        · rw [if_pos h1] at e; rw [← e, ← h1]; exact hk'
        · rw [if_neg h1] at e
          by_cases h2 : k' = i
          · rw [← h2]; exact hk'
          · rw [if_neg h2] at e; exact absurd e.symm h1
    · rw [upd_ne _ _ _ _ hkj]
      by_cases hki : k = i
      · subst hki
        rw [upd_eq]
        constructor
        · intro hk; exact ⟨j, hk, by simp⟩
        · rintro ⟨k', hk', e⟩
          by_cases h1 : k' = j
          · rw [← h1]; exact hk'
          · rw [if_neg h1] at e
            by_cases h2 : k' = k
            · rw [if_pos h2] at e; exact absurd e hkj
            · rw [if_neg h2] at e; exact absurd e.symm h2
      · rw [upd_ne _ _ _ _ hki]
        constructor
        · intro hk; exact ⟨k, hk, by simp [hkj, hki]⟩
        · rintro ⟨k', hk', e⟩
          by_cases h1 : k' = j
          · rw [if_pos h1] at e; exact absurd e hki
          · rw [if_neg h1] at e
            by_cases h2 : k' = i
            · rw [if_pos h2] at e; exact absurd e hkj
            · rw [if_neg h2] at e; rw [e]; exact hk'
  | moveNew i j =>
    obtain ⟨hij, hnull⟩ := hok
    simp only [step, Option.some.injEq] at hs
    subst hs
    refine perm i j _ fun k id => ?_
    by_cases hkj : k = j
    · subst hkj
      rw [upd_eq]
      constructor
      · intro hk; cases hk
      · rintro ⟨k', hk', e⟩
        by_cases h1 : k' = k
        · rw [if_pos h1] at e; exact absurd e.symm hij
        · rw [if_neg h1] at e
          by_cases h2 : k' = i
          · rw [h2, hnull] at hk'; cases hk'
          · rw [if_neg h2] at e; exact absurd e.symm h1
    · rw [upd_ne _ _ _ _ hkj]
      by_cases hki : k = i
      · subst hki
        rw [upd_eq]
        constructor
        · intro hk; exact ⟨j, hk, by simp⟩
        · rintro ⟨k', hk', e⟩
          by_cases h1 : k' = j
          · rw [← h1]; exact hk'
          · rw [if_neg h1] at e
            by_cases h2 : k' = k
            · rw [if_pos h2] at e; exact absurd e hkj
            · rw [if_neg h2] at e; exact absurd e.symm h2
      · rw [upd_ne _ _ _ _ hki]
        constructor
        · intro hk; exact ⟨k, hk, by simp [hkj, hki]⟩
        · rintro ⟨k', hk', e⟩
          by_cases h1 : k' = j
          · rw [if_pos h1] at e; exact absurd e hki
          · rw [if_neg h1] at e
            by_cases h2 : k' = i
            · rw [if_pos h2] at e; exact absurd e hkj
            · rw [if_neg h2] at e; rw [e]; exact hk'

theorem step_some (h : H) (o : Op) (hi : Inv h) : ∃ h', step isHeap h o = some h' := by
  obtain ⟨l0, e0, -⟩ : ∃ l, lsFree isHeap h.live (h.slot 0) = some l ∧ True := by
    obtain ⟨l, e, -⟩ := free_ok h hi 0; exact ⟨l, e, trivial⟩
  cases o with
  | make i m =>
    cases m with
    | false => obtain ⟨l, e, -⟩ := free_ok h hi i; exact ⟨_, by simp only [step, e]; rfl⟩
    | true =>
      cases hs : h.slot i with
      | null => exact ⟨_, by simp only [step, hs, lsFree, isHeap]; rfl⟩
      | const n => exact ⟨_, by simp only [step, hs, lsFree, isHeap]; rfl⟩
      | heap id =>
        have hm : id ∈ h.fresh :: h.live := List.mem_cons_of_mem _ ((hi.2.2.1 id).2 ⟨i, hs⟩)
        exact ⟨_, by simp only [step, hs, lsFree, isHeap, if_true, release, if_pos hm]; rfl⟩
  | const i n => obtain ⟨l, e, -⟩ := free_ok h hi i; exact ⟨_, by simp only [step, e]; rfl⟩
  | destroy i => obtain ⟨l, e, -⟩ := free_ok h hi i; exact ⟨_, by simp only [step, e]; rfl⟩
  | free i => obtain ⟨l, e, -⟩ := free_ok h hi i; exact ⟨_, by simp only [step, e]; rfl⟩
  | moveAssign i j => exact ⟨_, rfl⟩
  | moveNew i j => exact ⟨_, rfl⟩

theorem run_inv (l : List Op) (h : H) (hi : Inv h) (hok : okAll isHeap h l) : ∃ h', run isHeap h l = some h' ∧ Inv h' := by
  induction l generalizing h with
  | nil => exact ⟨h, rfl, hi⟩
  | cons o l ih =>
    obtain ⟨h1, e⟩ := step_some h o hi
    obtain ⟨h2, e2, i2⟩ := ih h1 (inv_step h h1 o hi hok.1 e) (hok.2 h1 e)
    exact ⟨h2, by simp only [run, e, Option.bind_some]; exact e2, i2⟩

theorem inv_h0 : Inv h0 := ⟨List.nodup_nil, fun id h => by (cases h), fun id => ⟨fun h => by (cases h), fun ⟨i, h⟩ => by (cases h)⟩, fun i j id h => by (cases h)⟩

/-- In any history of making, assigning, moving and ending such objects, with or without memory, nothing is freed twice and no constant is
freed; each block in use is held by one object and no two objects hold the same; and each object holds a block in use. -/
theorem C136_owned (l : List Op) (hok : okAll isHeap h0 l) :
    ∃ h, run isHeap h0 l = some h ∧ (∀ id, id ∈ h.live ↔ ∃ i, h.slot i = .heap id) ∧ (∀ i j id, h.slot i = .heap id → h.slot j = .heap id → i = j) := by
  obtain ⟨h, e, i⟩ := run_inv l h0 inv_h0 hok
  exact ⟨h, e, i.2.2⟩

/-- When all objects have ended, all memory is free. -/
theorem C136_no_leak (l : List Op) (hok : okAll isHeap h0 l) (h : H) (he : run isHeap h0 l = some h) (hend : ∀ i, h.slot i = .null) : h.live = [] := by
  obtain ⟨h', e, i⟩ := run_inv l h0 inv_h0 hok
  rw [he] at e; cases e
  refine List.eq_nil_iff_forall_not_mem.2 fun id hid => ?_
  obtain ⟨j, hj⟩ := (i.2.2.1 id).1 hid
  rw [hend j] at hj; cases hj

/-- A string made, moved into another object, replaced by another and by a constant; then both objects end. -/
example : (run isHeap h0 [.make 0 true, .moveNew 1 0, .make 0 true, .moveAssign 0 1, .make 1 true, .const 0 7, .destroy 1, .destroy 0]).map (·.live) = some [] := by
  decide

/-- Calling `Free` leaves the pointer, so that the end of the object, or assigning to it, frees the same block again. -/
theorem C136_free_counterexample (h : H) (hi : Inv h) (i id : Nat) (hs : h.slot i = .heap id) : run isHeap h [.free i, .destroy i] = none := by
  have hm : id ∈ h.live := (hi.2.2.1 id).2 ⟨i, hs⟩
  have hn : id ∉ h.live.erase id := fun hh => absurd rfl ((hi.1.mem_erase_iff).1 hh).1
  simp only [run, step, lsFree, isHeap, hs, if_true, release, if_pos hm, Option.map_some, Option.bind_some, if_neg hn, Option.map_none, Option.bind_none]

example : run isHeap h0 [.make 0 true, .free 0, .destroy 0] = none := by decide

/-- On the Teensy nothing is ever freed, as the test of the null pointer is the wrong way around: after `n` assignments to one object there are
`n` blocks in use, of which only one is held. -/
theorem C136_teensy_counterexample (n : Nat) : ∃ h, run isHeapTeensy h0 (List.replicate n (.make 0 true)) = some h ∧ h.live.length = n := by
  have key : ∀ n h, ∃ h', run isHeapTeensy h (List.replicate n (.make 0 true)) = some h' ∧ h'.live.length = h.live.length + n := by
    intro n
    induction n with
    | zero => intro h; exact ⟨h, rfl, rfl⟩
    | succ n ih =>
      intro h
      have hf : isHeapTeensy (h.slot 0) = false := by cases h.slot 0 <;> rfl
      obtain ⟨h', e, hl⟩ := ih ⟨h.fresh :: h.live, h.fresh + 1, upd h.slot 0 (.heap h.fresh)⟩
      refine ⟨h', ?_, by rw [hl]; simp only [List.length_cons]; omega⟩
      rw [List.replicate_succ]
      simp only [run, step, lsFree, hf, Bool.false_eq_true, if_false, Option.map_some, Option.bind_some]
      exact e
  obtain ⟨h, e, hl⟩ := key n h0
  exact ⟨h, e, by rw [hl]; simp [h0]⟩

end Verif.Common.Owned
