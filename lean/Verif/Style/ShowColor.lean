import Mathlib.Logic.Basic
/-!
# Showing a colour for a while (C139)

Model of styles/show_color.h: menus put another style on one or all blades while a colour or a length is chosen, and put the old ones back after.
Styles are objects that are deleted by whoever takes them off a blade; deleting one that does not exist (any more) has no defined outcome (`none`).
-/
namespace Verif.Style.ShowColor

/-- Which style each blade has, which style each helper object keeps for each blade (`style1_`, `style2_`, …, styles/show_color.h:43-45, 84), which styles exist, and the next new one. -/
structure S where
  style : Nat → Option Nat
  saved : Nat → Nat → Option Nat
  live : Nat → Bool
  fresh : Nat

/-- function update -/
def upd {α : Type} (f : Nat → α) (i : Nat) (x : α) : Nat → α := fun j => if j = i then x else f j

/-- `SHOW_COLOR_STYLE_START`, styles/show_color.h:31-33, and `SetStyle`, 51-60: keep the style and put on a new one. -/
def start1 (h a : Nat) (s : S) : S :=
  ⟨upd s.style a (some s.fresh), upd s.saved h (upd (s.saved h) a (s.style a)), upd s.live s.fresh true, s.fresh + 1⟩

/-- `delete` -/
def del (live : Nat → Bool) : Option Nat → Option (Nat → Bool)
  | none => some live
  | some t => if live t then some (upd live t false) else none

/-- `SHOW_COLOR_STYLE_STOP`, styles/show_color.h:38-40, 73-77 -/
def stop1 (h a : Nat) (s : S) : Option S := (del s.live (s.style a)).map fun l => { s with style := upd s.style a (s.saved h a), live := l }

/-- `Start`, styles/show_color.h:30-35, 61-70, for the blades listed, from the last. -/
def start (h : Nat) : List Nat → S → S
  | [], s => s
  | a :: l, s => start1 h a (start h l s)

/-- `Stop`, styles/show_color.h:37-42, 72-82 -/
def stop (h : Nat) : List Nat → S → Option S
  | [], s => some s
  | a :: l, s => (stop1 h a s).bind (stop h l)

/-- What is done: well nested uses of helper objects; `wrap h l p` is to start `h` for blades `l`, do `p`, and stop it. -/
inductive Prog
  | skip
  | seq (p q : Prog)
  | wrap (h : Nat) (l : List Nat) (p : Prog)

/-- running it -/
def Prog.run : Prog → S → Option S
  | .skip, s => some s
  | .seq p q, s => (p.run s).bind q.run
  | .wrap h l p, s => (p.run (start h l s)).bind (stop h l)

/-- the helper objects used -/
def Prog.uses (h : Nat) : Prog → Prop
  | .skip => False
  | .seq p q => p.uses h ∨ q.uses h
  | .wrap g _ p => g = h ∨ p.uses h

/-- no helper object is used again while in use, and blades are listed once -/
def Prog.ok : Prog → Prop
  | .skip => True
  | .seq p q => p.ok ∧ q.ok
  | .wrap h l p => l.Nodup ∧ ¬ p.uses h ∧ p.ok

/-- new styles are new -/
def WF (s : S) : Prop := ∀ t, s.live t = true → t < s.fresh

/-- the blades listed have new styles, and the helper keeps those of before -/
def Held (o : S) (h : Nat) (l : List Nat) (s : S) : Prop :=
  (∀ x, x ∉ l → s.style x = o.style x) ∧
  (∀ a ∈ l, s.saved h a = o.style a ∧ ∃ t, s.style a = some t ∧ o.live t = false ∧ s.live t = true) ∧
  (∀ a ∈ l, ∀ b ∈ l, s.style a = s.style b → a = b) ∧
  (∀ t, o.live t = true → s.live t = true) ∧
  (∀ t, s.live t = true → o.live t = true ∨ ∃ a ∈ l, s.style a = some t)

theorem upd_eq {α : Type} (f : Nat → α) (i : Nat) (x : α) : upd f i x i = x := by simp [upd]
theorem upd_ne {α : Type} (f : Nat → α) (i j : Nat) (x : α) (h : j ≠ i) : upd f i x j = f j := by simp [upd, h]

theorem start_held (h : Nat) (l : List Nat) (o : S) (hl : l.Nodup) (hw : WF o) :
    Held o h l (start h l o) ∧ WF (start h l o) ∧ o.fresh ≤ (start h l o).fresh ∧ ∀ g, g ≠ h → (start h l o).saved g = o.saved g := by
  induction l with
  | nil =>
    exact ⟨⟨fun _ _ => rfl, fun _ h => by (cases h), fun _ h => by (cases h), fun _ h => h, fun _ h => .inl h⟩, hw, Nat.le_refl _, fun _ _ => rfl⟩
  | cons a l ih =>
    obtain ⟨hal, hl⟩ := List.nodup_cons.1 hl
    obtain ⟨⟨h1, h2, h3, h4, h5⟩, w, hf, hg⟩ := ih hl
    rw [show start h (a :: l) o = start1 h a (start h l o) from rfl]
    generalize start h l o = s at h1 h2 h3 h4 h5 w hf hg ⊢
    have hfr : s.live s.fresh = false := by
      cases hc : s.live s.fresh with
      | false => rfl
      | true => exact absurd (w _ hc) (Nat.lt_irrefl _)
    have hne : ∀ b ∈ l, b ≠ a := fun b hb e => hal (e ▸ hb)
    have hold : ∀ b ∈ l, s.style b ≠ some s.fresh := by
      intro b hb e
      obtain ⟨_, t, e1, _, e2⟩ := h2 b hb
      rw [e] at e1; cases e1
      rw [hfr] at e2; cases e2
    have hst : ∀ b, b ≠ a → (start1 h a s).style b = s.style b := fun b hb => upd_ne _ _ _ _ hb
    have hsa : (start1 h a s).style a = some s.fresh := upd_eq _ _ _
    have hlv : ∀ t, (start1 h a s).live t = true ↔ t = s.fresh ∨ s.live t = true := by
      intro t
      by_cases ht : t = s.fresh
      · subst ht; simp [start1, upd_eq]
      · simp [start1, upd_ne _ _ _ _ ht, ht]
    have hsv : ∀ b, (start1 h a s).saved h b = if b = a then s.style a else s.saved h b := by
      intro b; simp only [start1, upd_eq]; rfl
    refine ⟨⟨fun x hx => ?_, fun b hb => ?_, fun b hb c hc e => ?_, fun t ht => (hlv t).2 (.inr (h4 t ht)), fun t ht => ?_⟩, fun t ht => ?_, ?_, fun g hgh => ?_⟩
    · rw [List.mem_cons, not_or] at hx
      rw [hst x hx.1]; exact h1 x hx.2
    · rcases List.mem_cons.1 hb with rfl | hb
      · refine ⟨by rw [hsv, if_pos rfl]; exact h1 b hal, s.fresh, hsa, ?_, (hlv _).2 (.inl rfl)⟩
        cases hc : o.live s.fresh with
        | false => rfl
        | true => have := h4 _ hc; rw [hfr] at this; cases this
      · obtain ⟨e1, t, e2, e3, e4⟩ := h2 b hb
        refine ⟨by rw [hsv, if_neg (hne b hb)]; exact e1, t, by rw [hst b (hne b hb)]; exact e2, e3, (hlv t).2 (.inr e4)⟩
    · rcases List.mem_cons.1 hb with hb | hb <;> rcases List.mem_cons.1 hc with hc | hc
      · rw [hb, hc]
      · rw [hb, hsa, hst c (hne c hc)] at e; exact absurd e.symm (hold c hc)
      · rw [hc, hsa, hst b (hne b hb)] at e; exact absurd e (hold b hb)
      · rw [hst b (hne b hb), hst c (hne c hc)] at e; exact h3 b hb c hc e
    · rcases (hlv t).1 ht with rfl | ht
      · exact .inr ⟨a, List.mem_cons_self .., hsa⟩
      · rcases h5 t ht with h | ⟨b, hb, e⟩
        · exact .inl h
        · exact .inr ⟨b, List.mem_cons_of_mem _ hb, by rw [hst b (hne b hb)]; exact e⟩
    · rcases (hlv t).1 ht with rfl | ht
      · exact Nat.lt_succ_self _
      · exact Nat.lt_succ_of_lt (w t ht)
    · exact Nat.le_succ_of_le hf
    · rw [← hg g hgh]; exact upd_ne _ _ _ _ hgh

theorem stop_held (o : S) (h : Nat) (l : List Nat) (s : S) (hl : l.Nodup) (hh : Held o h l s) :
    ∃ s', stop h l s = some s' ∧ s'.style = o.style ∧ s'.live = o.live ∧ s'.saved = s.saved ∧ s'.fresh = s.fresh := by
  induction l generalizing s with
  | nil =>
    obtain ⟨h1, h2, h3, h4, h5⟩ := hh
    refine ⟨s, rfl, funext fun x => h1 x (by simp), funext fun t => ?_, rfl, rfl⟩
    cases hc : o.live t with
    | true => exact h4 t hc
    | false =>
      cases hs : s.live t with
      | false => rfl
      | true =>
        rcases h5 t hs with h | ⟨a, ha, -⟩
        · rw [hc] at h; cases h
        · cases ha
  | cons a l ih =>
    obtain ⟨hal, hl⟩ := List.nodup_cons.1 hl
    obtain ⟨h1, h2, h3, h4, h5⟩ := hh
    obtain ⟨e1, t, e2, e3, e4⟩ := h2 a (List.mem_cons_self ..)
    have hne : ∀ b ∈ l, b ≠ a := fun b hb e => hal (e ▸ hb)
    have hs1 : stop1 h a s = some { s with style := upd s.style a (s.saved h a), live := upd s.live t false } := by
      simp only [stop1, e2, del, e4, if_true, Option.map_some]
    have hst : ∀ b, b ≠ a → upd s.style a (s.saved h a) b = s.style b := fun b hb => upd_ne _ _ _ _ hb
    obtain ⟨s', r1, r2⟩ := ih { s with style := upd s.style a (s.saved h a), live := upd s.live t false } hl
      ⟨fun x hx => by
        by_cases hxa : x = a
        · subst hxa; exact (upd_eq _ _ _).trans e1
        · exact (hst x hxa).trans (h1 x (by simp [hxa, hx])),
      fun b hb => by
        obtain ⟨f1, u, f2, f3, f4⟩ := h2 b (List.mem_cons_of_mem _ hb)
        have hut : u ≠ t := by
          rintro rfl
          exact hne b hb (h3 b (List.mem_cons_of_mem _ hb) a (List.mem_cons_self ..) (f2.trans e2.symm))
        exact ⟨f1, u, (hst b (hne b hb)).trans f2, f3, (upd_ne _ _ _ _ hut).trans f4⟩,
      fun b hb c hc e => by
        have e : upd s.style a (s.saved h a) b = upd s.style a (s.saved h a) c := e
        rw [hst b (hne b hb), hst c (hne c hc)] at e
        exact h3 b (List.mem_cons_of_mem _ hb) c (List.mem_cons_of_mem _ hc) e,
      fun u hu => by
        have hut : u ≠ t := by rintro rfl; rw [e3] at hu; cases hu
        exact (upd_ne _ _ _ _ hut).trans (h4 u hu),
      fun u hu => by
        have hu : upd s.live t false u = true := hu
        have hut : u ≠ t := by rintro rfl; rw [upd_eq] at hu; cases hu
        rw [upd_ne _ _ _ _ hut] at hu
        rcases h5 u hu with h | ⟨b, hb, e⟩
        · exact .inl h
        · rcases List.mem_cons.1 hb with rfl | hb
          · rw [e2] at e; cases e; exact absurd rfl hut
          · exact .inr ⟨b, hb, (hst b (hne b hb)).trans e⟩⟩
    exact ⟨s', by rw [stop, hs1]; exact r1, r2⟩

/-- While it is shown, each blade named has a style of its own that is not one of before, and the others keep theirs. -/
theorem C139_shown (h : Nat) (l : List Nat) (s : S) (hl : l.Nodup) (hw : WF s) :
    (∀ x, x ∉ l → (start h l s).style x = s.style x) ∧ (∀ a ∈ l, ∃ t, (start h l s).style a = some t ∧ s.live t = false) ∧
    (∀ t, s.live t = true → (start h l s).live t = true) := by
  obtain ⟨⟨h1, h2, -, h4, -⟩, -⟩ := start_held h l s hl hw
  exact ⟨h1, fun a ha => let ⟨_, t, e1, e2, _⟩ := h2 a ha; ⟨t, e1, e2⟩, h4⟩

/-- However deep helper objects are used within each other, on whatever blades, afterwards each blade has the style it had, no style was deleted
but those put on since, and those all were. -/
theorem C139_restore (p : Prog) (hp : p.ok) (s : S) (hw : WF s) :
    ∃ s', p.run s = some s' ∧ s'.style = s.style ∧ s'.live = s.live ∧ WF s' ∧ ∀ h, ¬ p.uses h → s'.saved h = s.saved h := by
  induction p generalizing s with
  | skip => exact ⟨s, rfl, rfl, rfl, hw, fun _ _ => rfl⟩
  | seq p q ihp ihq =>
    obtain ⟨s1, a1, a2, a3, a4, a5⟩ := ihp hp.1 s hw
    obtain ⟨s2, b1, b2, b3, b4, b5⟩ := ihq hp.2 s1 a4
    refine ⟨s2, by rw [Prog.run, a1]; exact b1, b2.trans a2, b3.trans a3, b4, fun h hh => ?_⟩
    have hh : ¬ (p.uses h ∨ q.uses h) := hh
    rw [not_or] at hh
    rw [b5 h hh.2, a5 h hh.1]
  | wrap h l p ih =>
    obtain ⟨hl, hu, hp⟩ := hp
    obtain ⟨c1, c2, c3, c4⟩ := start_held h l s hl hw
    obtain ⟨s1, a1, a2, a3, a4, a5⟩ := ih hp (start h l s) c2
    have hheld : Held s h l s1 := by
      obtain ⟨h1, h2, h3, h4, h5⟩ := c1
      refine ⟨?_, ?_, ?_, ?_, ?_⟩
      · rw [a2]; exact h1
      · rw [a2, a3, a5 h hu]; exact h2
      · rw [a2]; exact h3
      · rw [a3]; exact h4
      · rw [a2, a3]; exact h5
    obtain ⟨s2, b1, b2, b3, b4, b5⟩ := stop_held s h l s1 hl hheld
    have hfr : s.fresh ≤ s1.fresh := by
      -- the styles that were there still are, so what is new is beyond them
      exact Nat.le_of_not_lt fun hlt => by
        have := Prog_fresh p (start h l s) s1 a1
        omega
    refine ⟨s2, by rw [Prog.run, a1]; exact b1, b2, b3, fun t ht => ?_, fun g hg => ?_⟩
    · rw [b3] at ht; rw [b5]; exact Nat.lt_of_lt_of_le (hw t ht) hfr
    · have hg : ¬ (h = g ∨ p.uses g) := hg
      rw [not_or] at hg
      rw [b4, a5 g hg.2, c4 g (fun e => hg.1 e.symm)]
where
  stop_fresh (h : Nat) (l : List Nat) (s s' : S) (hs : stop h l s = some s') : s'.fresh = s.fresh := by
    induction l generalizing s with
    | nil => cases hs; rfl
    | cons a l ih =>
      simp only [stop, Option.bind_eq_some_iff, stop1, Option.map_eq_some_iff] at hs
      obtain ⟨t, ⟨v, _, rfl⟩, hs⟩ := hs
      exact ih { s with style := upd s.style a (s.saved h a), live := v } hs
  start_fresh (h : Nat) (l : List Nat) (s : S) : s.fresh ≤ (start h l s).fresh := by
    induction l with
    | nil => exact Nat.le_refl _
    | cons a l ih => exact Nat.le_succ_of_le ih
  Prog_fresh (p : Prog) (s s' : S) (hs : p.run s = some s') : s.fresh ≤ s'.fresh := by
    induction p generalizing s s' with
    | skip => cases hs; exact Nat.le_refl _
    | seq p q ihp ihq =>
      simp only [Prog.run, Option.bind_eq_some_iff] at hs
      obtain ⟨t, h1, h2⟩ := hs
      exact Nat.le_trans (ihp _ _ h1) (ihq _ _ h2)
    | wrap h l p ih =>
      simp only [Prog.run, Option.bind_eq_some_iff] at hs
      obtain ⟨t, h1, h2⟩ := hs
      rw [stop_fresh h l t s' h2]
      exact Nat.le_trans (start_fresh h l s) (ih _ _ h1)

/-- three blades with styles 0, 1, 2 -/
def demo : S := ⟨fun a => if a < 3 then some a else none, fun _ _ => none, fun t => decide (t < 3), 3⟩

/-- A colour shown on all blades, and within it a length on blade 1, twice. -/
example : WF demo ∧ (Prog.wrap 0 [2, 1, 0] (.seq (.wrap 1 [1] .skip) (.wrap 1 [1] .skip))).ok := by
  refine ⟨fun t h => by simpa [demo] using h, by decide, ?_, ⟨by decide, id, trivial⟩, ⟨by decide, id, trivial⟩⟩
  simp [Prog.uses]

/-- Starting a helper object again before it is stopped loses the style: after as many stops, the blade has a deleted style, and the one it
had is not deleted. -/
theorem C139_again_counterexample (h a t : Nat) (s : S) (hw : WF s) (ht : s.style a = some t) (hl : s.live t = true) :
    ∃ s' d, (stop1 h a (start1 h a (start1 h a s))).bind (stop1 h a) = some s' ∧ s'.style a = some d ∧ s'.live d = false ∧ s.style a = some t ∧ s'.live t = true := by
  have hlt : t < s.fresh := hw t hl
  refine ⟨⟨upd (upd (upd (upd s.style a (some s.fresh)) a (some (s.fresh + 1))) a (some s.fresh)) a (some s.fresh),
    upd (upd s.saved h (upd (s.saved h) a (s.style a))) h (upd (upd (s.saved h) a (s.style a)) a (some s.fresh)),
    upd (upd (upd (upd s.live s.fresh true) (s.fresh + 1) true) (s.fresh + 1) false) s.fresh false, s.fresh + 2⟩, s.fresh, ?_, ?_, ?_, ht, ?_⟩
  · have e : s.fresh ≠ s.fresh + 1 := by omega
    simp only [stop1, start1, upd_eq, del, if_true, Option.map_some, Option.bind_some, upd_ne _ (s.fresh + 1) s.fresh _ e]
  · simp [upd]
  · simp [upd]
  · have e1 : t ≠ s.fresh := by omega
    have e2 : t ≠ s.fresh + 1 := by omega
    simp [upd, e1, e2, hl]

/-- Changing the preset, which deletes the styles on the blades and puts on new ones (props/prop_base.h, `FreeBladeStyles`, `AllocateBladeStyles`), while a colour is
shown, then stopping: the blade has the style of the preset before. -/
theorem C139_preset_counterexample (h a t : Nat) (s : S) (hw : WF s) (ht : s.style a = some t) (hl : s.live t = true) :
    ∃ l s', del (start1 h a s).live ((start1 h a s).style a) = some l ∧
      stop1 h a ⟨upd (start1 h a s).style a (some (s.fresh + 1)), (start1 h a s).saved, upd l (s.fresh + 1) true, s.fresh + 2⟩ = some s' ∧
      s'.style a = some t ∧ s'.live (s.fresh + 1) = false := by
  have hlt : t < s.fresh := hw t hl
  refine ⟨upd (upd s.live s.fresh true) s.fresh false,
    ⟨upd (upd (upd s.style a (some s.fresh)) a (some (s.fresh + 1))) a (s.style a), upd s.saved h (upd (s.saved h) a (s.style a)),
      upd (upd (upd (upd s.live s.fresh true) s.fresh false) (s.fresh + 1) true) (s.fresh + 1) false, s.fresh + 2⟩, by simp [start1, upd_eq, del], ?_, ?_, ?_⟩
  · simp only [stop1, start1, upd_eq, del, if_true, Option.map_some]
  · simp [upd, ht]
  · simp [upd]

end Verif.Style.ShowColor
