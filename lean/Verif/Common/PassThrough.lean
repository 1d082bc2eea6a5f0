/-!
# Swing sounds put in front of a font (C151)

Model of common/saber_base_passthrough.h and the list of listeners, common/saber_base.h:253-275: a wrapper takes the place of a font and passes on to it
what happens.  Simplified: listeners are numbers, and what each does with an event is left out.
-/
namespace Verif.Common.PassThrough

/-- the list `saberbases`, and the `delegate_` of each wrapper -/
structure S where
  linked : List Nat
  del : Nat → Option Nat

/-- function update -/
def upd (f : Nat → Option Nat) (i : Nat) (x : Option Nat) : Nat → Option Nat := fun j => if j = i then x else f j

/-- `Link`, common/saber_base.h:253-260 -/
def link (x : Nat) (l : List Nat) : List Nat := x :: l

/-- `Unlink`, common/saber_base.h:261-271: the first is taken out, if there is any. -/
def unlink (x : Nat) (l : List Nat) : List Nat := l.erase x

/-- `SetDelegate`, common/saber_base_passthrough.h:8-18 -/
def setDelegate (w : Nat) (d : Option Nat) (s : S) : S :=
  let l := unlink w s.linked
  let l := match s.del w with
    | none => l
    | some o => link o l
  match d with
  | none => ⟨l, upd s.del w none⟩
  | some x => ⟨link w (unlink x l), upd s.del w (some x)⟩

/-- Who receives an event, in order, common/saber_base.h:388-392: wrappers pass it on, common/saber_base_passthrough.h:19-22; none is a call of nobody. -/
def receive (isW : Nat → Bool) (s : S) : List (Option Nat) := s.linked.map fun x => if isW x then s.del x else some x

/-- who receives the second round of an event, common/saber_base.h:393-395, which wrappers do not pass on -/
def receive2 (isW : Nat → Bool) (s : S) : List Nat := s.linked.filter fun x => !isW x

/-- A wrapper is put in front of a listener that is in the list or that it is in front of already, or in front of nobody. -/
def Legal (isW : Nat → Bool) (s : S) (w : Nat) (d : Option Nat) : Prop :=
  isW w = true ∧ ∀ x, d = some x → isW x = false ∧ (x ∈ s.linked ∨ s.del w = some x)

/-- the states that come about -/
inductive Reach (isW : Nat → Bool) (base : List Nat) : S → Prop
  | start : Reach isW base ⟨base, fun _ => none⟩
  | set (s : S) (w : Nat) (d : Option Nat) : Reach isW base s → Legal isW s w d → Reach isW base (setDelegate w d s)

/-! ## Lemmas -/

/-- what holds at every point -/
def Inv (isW : Nat → Bool) (base : List Nat) (s : S) : Prop :=
  s.linked.Nodup ∧ (∀ w, isW w = true → (w ∈ s.linked ↔ s.del w ≠ none)) ∧ (∀ w o, s.del w = some o → isW o = false) ∧
  (receive isW s).Perm (base.map some)

theorem map_upd (isW : Nat → Bool) (f : Nat → Option Nat) (w : Nat) (v : Option Nat) (l : List Nat) (h : w ∉ l) :
    (l.map fun x => if isW x then upd f w v x else some x) = l.map fun x => if isW x then f x else some x := by
  apply List.map_congr_left
  intro x hx
  have : x ≠ w := fun e => h (e ▸ hx)
  simp [upd, this]

theorem middle (isW : Nat → Bool) (base : List Nat) (hb : base.Nodup) (s : S) (w : Nat) (hw : isW w = true) (h : Inv isW base s) (l : List Nat)
    (hl : l = match s.del w with | none => unlink w s.linked | some o => link o (unlink w s.linked)) :
    l.Nodup ∧ w ∉ l ∧ (∀ v, isW v = true → v ≠ w → (v ∈ l ↔ s.del v ≠ none)) ∧
    (l.map fun x => if isW x then s.del x else some x).Perm (base.map some) ∧ (∀ x, isW x = false → (x ∈ s.linked ∨ s.del w = some x) → x ∈ l) := by
  obtain ⟨h1, h2, h3, h4⟩ := h
  unfold unlink link at hl
  cases hd : s.del w with
  | none =>
    rw [hd] at hl
    have hnot : w ∉ s.linked := fun hm => (h2 w hw).mp hm hd
    dsimp only at hl
    rw [List.erase_of_not_mem hnot] at hl
    subst hl
    refine ⟨h1, hnot, fun v hv _ => h2 v hv, h4, fun x _ hx => ?_⟩
    rcases hx with hx | hx
    · exact hx
    · cases hx
  | some o =>
    rw [hd] at hl
    dsimp only at hl
    subst hl
    have ho := h3 w o hd
    have hin : w ∈ s.linked := (h2 w hw).mpr (by rw [hd]; exact fun e => by (cases e))
    have hperm : s.linked.Perm (w :: s.linked.erase w) := List.perm_cons_erase hin
    have hwn : w ∉ s.linked.erase w := fun hm => by
      have := (List.Nodup.mem_erase_iff h1).mp hm
      exact this.1 rfl
    have hp : (some o :: (s.linked.erase w).map fun x => if isW x then s.del x else some x).Perm (base.map some) := by
      refine List.Perm.trans ?_ h4
      have := (hperm.map fun x => if isW x then s.del x else some x).symm
      simpa [hw, hd, receive] using this
    have hnd : (some o :: (s.linked.erase w).map fun x => if isW x then s.del x else some x).Nodup := by
      refine hp.nodup_iff.mpr ?_
      rw [List.nodup_iff_pairwise_ne, List.pairwise_map]
      exact List.Pairwise.imp (fun hne e => hne (Option.some.inj e)) (List.nodup_iff_pairwise_ne.mp hb)
    have hon : o ∉ s.linked.erase w := fun hm => by
      have := (List.nodup_cons.mp hnd).1
      exact this (List.mem_map.mpr ⟨o, hm, by simp [ho]⟩)
    have how : o ≠ w := fun e => by rw [e, hw] at ho; cases ho
    refine ⟨List.nodup_cons.mpr ⟨hon, h1.erase w⟩, ?_, fun v hv hvw => ?_, ?_, fun x hx hm => ?_⟩
    · intro hm
      rcases List.mem_cons.mp hm with e | hm
      · exact how e.symm
      · exact hwn hm
    · have hvo : v ≠ o := fun e => by rw [e, ho] at hv; cases hv
      rw [List.mem_cons, List.mem_erase_of_ne hvw, h2 v hv]
      simp [hvo]
    · simpa [ho] using hp
    · rcases hm with hm | hm
      · have hxw : x ≠ w := fun e => by rw [e, hw] at hx; cases hx
        exact List.mem_cons.mpr (Or.inr ((List.mem_erase_of_ne hxw).mpr hm))
      · cases hm; exact List.mem_cons.mpr (Or.inl rfl)

theorem set_inv (isW : Nat → Bool) (base : List Nat) (hb : base.Nodup) (s : S) (w : Nat) (d : Option Nat) (h : Inv isW base s) (hl : Legal isW s w d) :
    Inv isW base (setDelegate w d s) := by
  obtain ⟨hw, hd⟩ := hl
  have hm := middle isW base hb s w hw h _ rfl
  have h3 := h.2.2.1
  unfold setDelegate
  dsimp only
  generalize (match s.del w with | none => unlink w s.linked | some o => link o (unlink w s.linked)) = l at hm ⊢
  obtain ⟨m1, m2, m3, m4, m5⟩ := hm
  cases d with
  | none =>
    refine ⟨m1, fun v hv => ?_, fun v o hv => ?_, ?_⟩
    · by_cases hvw : v = w
      · subst hvw; simp [upd, m2]
      · simpa [upd, hvw] using m3 v hv hvw
    · by_cases hvw : v = w
      · subst hvw; simp [upd] at hv
      · exact h3 v o (by simpa [upd, hvw] using hv)
    · show (l.map fun x => if isW x then upd s.del w none x else some x).Perm _
      rw [map_upd isW s.del w none l m2]; exact m4
  | some x =>
    obtain ⟨hx, hxm⟩ := hd x rfl
    have hxl := m5 x hx hxm
    have hwe : w ∉ l.erase x := fun hm => m2 (List.mem_of_mem_erase hm)
    refine ⟨List.nodup_cons.mpr ⟨hwe, m1.erase x⟩, fun v hv => ?_, fun v o hv => ?_, ?_⟩
    · by_cases hvw : v = w
      · subst hvw; simp [upd, link]
      · have hvx : v ≠ x := fun e => by rw [e, hx] at hv; cases hv
        have := m3 v hv hvw
        simp only [link, unlink, List.mem_cons, hvw, false_or, List.mem_erase_of_ne hvx, this, upd, if_false]
    · by_cases hvw : v = w
      · subst hvw; simp [upd] at hv; rw [← hv]; exact hx
      · exact h3 v o (by simpa [upd, hvw] using hv)
    · show ((w :: l.erase x).map fun y => if isW y then upd s.del w (some x) y else some y).Perm _
      rw [List.map_cons, map_upd isW s.del w (some x) _ hwe]
      refine List.Perm.trans ?_ m4
      have := ((List.perm_cons_erase hxl).map fun y => if isW y then s.del y else some y).symm
      simpa [hw, hx, upd] using this

theorem reach_inv (isW : Nat → Bool) (base : List Nat) (hb : base.Nodup) (hbase : ∀ x ∈ base, isW x = false) (s : S) (h : Reach isW base s) :
    Inv isW base s := by
  induction h with
  | start =>
    refine ⟨hb, fun w hw => ?_, fun w o h => by (cases h), ?_⟩
    · constructor
      · intro hm; rw [hbase w hm] at hw; cases hw
      · intro hn; exact absurd rfl hn
    · have : receive isW ⟨base, fun _ => none⟩ = base.map some := by
        apply List.map_congr_left
        intro x hx
        simp [hbase x hx]
      rw [this]
  | set s w d _ hl ih => exact set_inv isW base hb s w d ih hl

/-! ## Claims -/

/-- **C151.** However swing sounds are put in front of fonts and taken away again, any number of them and in any order, every event reaches every listener
exactly once, and nobody is called who is not there. -/
theorem C151_once (isW : Nat → Bool) (base : List Nat) (hb : base.Nodup) (hbase : ∀ x ∈ base, isW x = false) (s : S) (h : Reach isW base s) :
    (∀ x ∈ base, (receive isW s).count (some x) = 1) ∧ none ∉ receive isW s ∧ (receive isW s).length = base.length := by
  obtain ⟨_, _, _, h4⟩ := reach_inv isW base hb hbase s h
  refine ⟨fun x hx => ?_, fun hn => ?_, by rw [h4.length_eq, List.length_map]⟩
  · rw [h4.count_eq]
    have hnd : (base.map some).Nodup := by
      rw [List.nodup_iff_pairwise_ne, List.pairwise_map]
      exact List.Pairwise.imp (fun hne e => hne (Option.some.inj e)) (List.nodup_iff_pairwise_ne.mp hb)
    have h1 : (base.map some).count (some x) ≤ 1 := List.nodup_iff_count.mp hnd _
    have h2 : 0 < (base.map some).count (some x) := List.count_pos_iff.mpr (List.mem_map.mpr ⟨x, hx, rfl⟩)
    omega
  · have := h4.mem_iff.mp hn
    simp at this

/-- **C151.** Once taken away, a wrapper is out of the list, and the font it was in front of is first in it again. -/
theorem C151_back (isW : Nat → Bool) (base : List Nat) (hb : base.Nodup) (hbase : ∀ x ∈ base, isW x = false) (s : S) (h : Reach isW base s) (w x : Nat)
    (hw : isW w = true) (hx : s.del w = some x) :
    (setDelegate w none s).linked.head? = some x ∧ w ∉ (setDelegate w none s).linked ∧ (setDelegate w none s).del w = none := by
  have hi := reach_inv isW base hb hbase s h
  have hm := middle isW base hb s w hw hi _ rfl
  simp only [hx] at hm
  unfold setDelegate
  simp only [hx]
  exact ⟨rfl, hm.2.1, by simp [upd]⟩

/-- **C151.** Counterexample: a font with a wrapper in front of it does not get the second round of events. -/
theorem C151_second_counterexample (isW : Nat → Bool) (w x : Nat) (l : List Nat) (hw : isW w = true) (hb : (x :: l).Nodup) (hx : isW x = false) (hl : w ∉ l) :
    x ∉ receive2 isW (setDelegate w (some x) ⟨x :: l, fun _ => none⟩) := by
  have hxw : x ≠ w := fun e => by rw [e, hw] at hx; cases hx
  have hxl := (List.nodup_cons.mp hb).1
  have he : (x :: l).erase w = x :: l := List.erase_of_not_mem (by simp [Ne.symm hxw, hl])
  simp [receive2, setDelegate, link, unlink, he, hw, hxl]

/-- **C151.** Counterexample: when two wrappers are put in front of the same font, it gets everything twice. -/
theorem C151_two_counterexample (isW : Nat → Bool) (v w x : Nat) (hv : isW v = true) (hw : isW w = true) (hvw : v ≠ w) (hx : isW x = false) :
    receive isW (setDelegate v (some x) (setDelegate w (some x) ⟨[x], fun _ => none⟩)) = [some x, some x] := by
  have hxw : x ≠ w := fun e => by rw [e, hw] at hx; cases hx
  simp [receive, setDelegate, link, unlink, upd, hv, hw, hvw, hxw, hvw.symm, hxw.symm]

/-- The claims apply: three listeners, a wrapper put in front of one of them and then of another. -/
example : ∃ s, Reach (fun n => decide (10 ≤ n)) [1, 2, 3] s ∧ s.linked = [10, 2, 1] ∧ s.del 10 = some 3 :=
  ⟨setDelegate 10 (some 3) (setDelegate 10 (some 2) ⟨[1, 2, 3], fun _ => none⟩),
    .set _ 10 (some 3) (.set _ 10 (some 2) .start ⟨rfl, fun x h => by (cases h; exact ⟨rfl, Or.inl (by decide)⟩)⟩)
      ⟨rfl, fun x h => by (cases h; exact ⟨rfl, Or.inl (by decide)⟩)⟩, by decide, by decide⟩

end Verif.Common.PassThrough
