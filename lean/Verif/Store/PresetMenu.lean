import Verif.Store.PresetProps
/-!
# The preset menu (C116)

Model of the menu entries that move, copy and delete presets (modes/preset_modes.h:24-165), on top of what
`SaveAt` and `SetPreset` do to the stored list (`edit`, C06; `loadSpec`, C07).
-/
namespace Verif.Store.Menu

/-- The stored presets, the preset in memory with its number, `menu_selected_preset`. -/
structure S where
  ps : List Preset
  cur : Preset
  num : Int
  sel : Int

/-- The sounds said by the entries. -/
inductive Say
  | select | buzz | noPreset | inserted | cantDelete
  deriving DecidableEq

/-- `MovePreset(position)`, props/prop_base.h:1793-1795, that is `SaveAt`. -/
def S.saveAt (s : S) (pos : Int) : S := { s with ps := edit s.ps s.num s.cur pos, num := pos }

/-- `set_preset`, props/prop_base.h:1661-1666: if the number is not stored a preset of the configuration would be taken; `none`. -/
def S.goto (s : S) (i : Int) : Option S := (loadSpec s.ps i).map fun x => { s with cur := x.1, num := x.2 }

/-- `MovePresetUpEntry::select`, modes/preset_modes.h:76-85. -/
def up (s : S) : S × Say := if s.num > 0 then ({ s with sel := -1 }.saveAt (s.num - 1), .select) else ({ s with sel := -1 }, .buzz)

/-- `MovePresetDownEntry::select`, modes/preset_modes.h:93-105; `none` as for `goto`. -/
def down (s : S) : Option (S × Say) :=
  match loadSpec s.ps (s.num + 1) with
  | none => none
  | some (_, n) => if (n : Int) = s.num + 1 then some ({ s with sel := -1 }.saveAt (s.num + 1), .select) else some ({ s with sel := -1 }, .buzz)

/-- `SelectPresetEntry::select`, modes/preset_modes.h:130-133. -/
def select (s : S) : S := { s with sel := s.num }

/-- `InsertSelectedPresetEntry::select`, modes/preset_modes.h:141-161. -/
def insert (s : S) : Option (S × Say) :=
  if s.sel = -1 then some (s, .noPreset)
  else
    match loadSpec s.ps s.sel with
    | none => none
    | some (p, _) =>
      match { s with ps := edit s.ps (-1000) p s.num }.goto s.num with
      | none => none
      | some s' => some ({ s' with sel := if s.num ≤ s.sel then s.sel + 1 else s.sel }, .inserted)

/-- Choosing "delete preset" and confirming, modes/preset_modes.h:26-64; `delete_preset` is `SaveAt(-1)`
(props/prop_base.h:1569-1572). -/
def delete (s : S) : Option (S × Say) :=
  if s.num = 0 then
    match loadSpec s.ps 1 with
    | none => none
    | some (_, n) => if n = 0 then some (s, .cantDelete) else some (s.saveAt (-1), .select)
  else some (s.saveAt (-1), .select)

/-- The preset in memory is the stored one with its number. -/
def Synced (s : S) : Prop := ∃ n : Nat, s.num = n ∧ s.ps[n]? = some s.cur

theorem loadSpec_at (ps : List Preset) (n : Nat) (p : Preset) (h : ps[n]? = some p) : loadSpec ps n = some (p, n) := by
  have hl : n < ps.length := by
    rcases Nat.lt_or_ge n ps.length with h1 | h1
    · exact h1
    · rw [List.getElem?_eq_none h1] at h; cases h
  unfold loadSpec
  rw [if_neg (by omega), if_neg (by omega), if_pos (by omega), Int.toNat_natCast, h]; rfl

theorem loadSpec_wrap (ps : List Preset) (p : Preset) (h : ps[0]? = some p) : loadSpec ps ps.length = some (p, 0) := by
  unfold loadSpec
  rw [if_neg (by omega), if_pos rfl, List.head?_eq_getElem?, h]; rfl

theorem edit_move (ps : List Preset) (a b : Nat) (p : Preset) : edit ps a p b = (ps.eraseIdx a).insertIdx b p := by
  unfold edit
  simp only
  rw [if_neg (by omega), if_neg (by omega), Int.toNat_natCast, Int.toNat_natCast]

theorem edit_copy (ps : List Preset) (b : Nat) (p : Preset) : edit ps (-1000) p b = ps.insertIdx b p := by
  simp [edit]; omega

theorem lt_of_some {ps : List Preset} {n : Nat} {p : Preset} (h : ps[n]? = some p) : n < ps.length := by
  rcases Nat.lt_or_ge n ps.length with h1 | h1
  · exact h1
  · rw [List.getElem?_eq_none h1] at h; cases h

/-- After the deletion of `a` and insertion of `p` at `b` the number `b` is `p`. -/
theorem get_move (ps : List Preset) (a b : Nat) (p : Preset) (ha : a < ps.length) (hb : b < ps.length) :
    ((ps.eraseIdx a).insertIdx b p)[b]? = some p := by
  rw [List.getElem?_insertIdx_self]
  rw [if_pos (by rw [List.length_eraseIdx_of_lt ha]; omega)]

/-- Two neighbours swapped, everything else unchanged. -/
def Swapped (ps qs : List Preset) (i : Nat) : Prop :=
  qs.length = ps.length ∧ qs[i]? = ps[i + 1]? ∧ qs[i + 1]? = ps[i]? ∧ ∀ j, j ≠ i → j ≠ i + 1 → qs[j]? = ps[j]?

theorem swap_up (ps : List Preset) (i : Nat) (p : Preset) (h : ps[i + 1]? = some p) : Swapped ps ((ps.eraseIdx (i + 1)).insertIdx i p) i := by
  have hl := lt_of_some h
  have he : (ps.eraseIdx (i + 1)).length = ps.length - 1 := List.length_eraseIdx_of_lt hl
  refine ⟨?_, ?_, ?_, ?_⟩
  · rw [List.length_insertIdx_of_le_length (by omega)]; omega
  · rw [get_move _ _ _ _ hl (by omega), h]
  · rw [List.getElem?_insertIdx_of_gt (by omega), List.getElem?_eraseIdx_of_lt (by omega)]
    rfl
  · intro j h1 h2
    by_cases hj : j < i
    · rw [List.getElem?_insertIdx_of_lt hj, List.getElem?_eraseIdx_of_lt (by omega)]
    · rw [List.getElem?_insertIdx_of_gt (by omega), List.getElem?_eraseIdx_of_ge (by omega)]
      congr 1; omega

theorem swap_down (ps : List Preset) (i : Nat) (p : Preset) (h : ps[i]? = some p) (h2 : i + 1 < ps.length) :
    Swapped ps ((ps.eraseIdx i).insertIdx (i + 1) p) i := by
  have hl := lt_of_some h
  have he : (ps.eraseIdx i).length = ps.length - 1 := List.length_eraseIdx_of_lt hl
  refine ⟨?_, ?_, ?_, ?_⟩
  · rw [List.length_insertIdx_of_le_length (by omega)]; omega
  · rw [List.getElem?_insertIdx_of_lt (by omega), List.getElem?_eraseIdx_of_ge (by omega)]
  · rw [get_move _ _ _ _ hl (by omega), h]
  · intro j h1 h2
    by_cases hj : j < i
    · rw [List.getElem?_insertIdx_of_lt (by omega), List.getElem?_eraseIdx_of_lt (by omega)]
    · rw [List.getElem?_insertIdx_of_gt (by omega), List.getElem?_eraseIdx_of_ge (by omega)]
      congr 1; omega

/-- Moving up swaps the preset with the one before; the first stays where it is and the saber buzzes. The saber stays with the same
preset. -/
theorem C116_up (s : S) (h : Synced s) : Synced (up s).1 ∧ (up s).1.cur = s.cur ∧
    (s.num = 0 → up s = ({ s with sel := -1 }, .buzz)) ∧
    (∀ i : Nat, s.num = i + 1 → (up s).2 = .select ∧ (up s).1.num = i ∧ Swapped s.ps (up s).1.ps i) := by
  obtain ⟨n, hn, hp⟩ := h
  unfold up
  cases n with
  | zero =>
    rw [if_neg (by omega)]
    exact ⟨⟨0, hn, hp⟩, rfl, fun _ => rfl, fun i hi => by omega⟩
  | succ n =>
    rw [if_pos (by omega)]
    have hl := lt_of_some hp
    have e1 : s.num - 1 = (n : Int) := by omega
    have e : edit s.ps s.num s.cur (s.num - 1) = (s.ps.eraseIdx (n + 1)).insertIdx n s.cur := by
      rw [e1, hn]; exact edit_move s.ps (n + 1) n s.cur
    refine ⟨⟨n, by simp only [S.saveAt]; omega, ?_⟩, rfl, fun h0 => by omega, fun i hi => ⟨rfl, by simp only [S.saveAt]; omega, ?_⟩⟩
    · simp only [S.saveAt]; rw [e]; exact get_move _ _ _ _ hl (by omega)
    · have : i = n := by omega
      subst this
      simp only [S.saveAt]; rw [e]; exact swap_up _ _ _ hp

/-- Moving down swaps it with the one behind; the last stays where it is. -/
theorem C116_down (s : S) (h : Synced s) : ∃ r, down s = some r ∧ Synced r.1 ∧ r.1.cur = s.cur ∧
    ((s.num + 1 = s.ps.length) → r = ({ s with sel := -1 }, .buzz)) ∧
    (∀ i : Nat, s.num = i → i + 1 < s.ps.length → r.2 = .select ∧ r.1.num = i + 1 ∧ Swapped s.ps r.1.ps i) := by
  obtain ⟨n, hn, hp⟩ := h
  have hl := lt_of_some hp
  unfold down
  by_cases hlast : n + 1 = s.ps.length
  · have h0 : s.ps[0]? = some (s.ps[0]'(by omega)) := List.getElem?_eq_getElem (by omega)
    have e : loadSpec s.ps (s.num + 1) = some (s.ps[0]'(by omega), 0) := by
      rw [show s.num + 1 = (s.ps.length : Int) by omega]; exact loadSpec_wrap _ _ h0
    rw [e]
    simp only
    rw [if_neg (by omega)]
    exact ⟨_, rfl, ⟨n, hn, hp⟩, rfl, fun _ => rfl, fun i hi hl => by omega⟩
  · have h1 : s.ps[n + 1]? = some (s.ps[n + 1]'(by omega)) := List.getElem?_eq_getElem (by omega)
    have e : loadSpec s.ps (s.num + 1) = some (s.ps[n + 1]'(by omega), n + 1) := by
      rw [show s.num + 1 = ((n + 1 : Nat) : Int) by omega]; exact loadSpec_at _ _ _ h1
    rw [e]
    simp only
    rw [if_pos (by omega)]
    have e2 : edit s.ps s.num s.cur (s.num + 1) = (s.ps.eraseIdx n).insertIdx (n + 1) s.cur := by
      rw [hn]; exact edit_move s.ps n (n + 1) s.cur
    refine ⟨_, rfl, ⟨n + 1, by simp only [S.saveAt]; omega, ?_⟩, rfl, fun h0 => by omega, fun i hi hl2 => ⟨rfl, by simp only [S.saveAt]; omega, ?_⟩⟩
    · simp only [S.saveAt]; rw [e2]; exact get_move _ _ _ _ hl (by omega)
    · have : i = n := by omega
      subst this
      simp only [S.saveAt]; rw [e2]; exact swap_down _ _ _ hp (by omega)

/-- Deleting takes out exactly the current preset, and the last one is never deleted. -/
theorem C116_delete (s : S) (h : Synced s) : ∃ r, delete s = some r ∧
    (s.ps.length = 1 → r = (s, .cantDelete)) ∧
    (1 < s.ps.length → ∃ n : Nat, s.num = n ∧ r.2 = .select ∧ r.1.ps = s.ps.eraseIdx n ∧ r.1.ps ≠ [] ∧ r.1.num = -1) := by
  obtain ⟨n, hn, hp⟩ := h
  have hl := lt_of_some hp
  have hd : edit s.ps s.num s.cur (-1) = s.ps.eraseIdx n := by rw [hn]; exact C06_delete _ _ _
  have hne : 1 < s.ps.length → s.ps.eraseIdx n ≠ [] := by
    intro h1 h2
    have := congrArg List.length h2
    rw [List.length_eraseIdx_of_lt hl, List.length_nil] at this
    omega
  unfold delete
  by_cases h0 : s.num = 0
  · rw [if_pos h0]
    by_cases h1 : s.ps.length = 1
    · have hz : n = 0 := by omega
      subst hz
      have e : loadSpec s.ps 1 = some (s.cur, 0) := by
        have := loadSpec_wrap s.ps s.cur hp
        rw [h1] at this; exact this
      rw [e]
      simp only
      rw [if_pos trivial]
      exact ⟨_, rfl, fun _ => rfl, fun h2 => by omega⟩
    · have h2 : s.ps[1]? = some (s.ps[1]'(by omega)) := List.getElem?_eq_getElem (by omega)
      have e : loadSpec s.ps 1 = some (s.ps[1]'(by omega), 1) := loadSpec_at s.ps 1 _ h2
      rw [e]
      simp only
      rw [if_neg (by omega)]
      exact ⟨_, rfl, fun h3 => by omega, fun h3 => ⟨n, hn, rfl, hd, by simp only [S.saveAt]; rw [hd]; exact hne h3, rfl⟩⟩
  · rw [if_neg h0]
    exact ⟨_, rfl, fun h3 => by omega, fun h3 => ⟨n, hn, rfl, hd, by simp only [S.saveAt]; rw [hd]; exact hne h3, rfl⟩⟩

/-! ## Copying -/

/-- What the user does between selecting a preset and inserting it: go to another preset, insert it already. -/
inductive Op
  | goto (i : Nat)
  | insert
  | select

def step (s : S) : Op → Option S
  | .goto i => s.goto i
  | .insert => (insert s).map (·.1)
  | .select => some (select s)

/-- The preset selected: the current one when `select` was chosen last. -/
def chosen (s : S) (v : Option Preset) : Op → Option Preset
  | .select => some s.cur
  | _ => v

/-- `menu_selected_preset` still is the number of the preset selected. -/
def Holds (s : S) (v : Option Preset) : Prop := match v with
  | none => s.sel = -1
  | some p => ∃ n : Nat, s.sel = n ∧ s.ps[n]? = some p

theorem insert_get (ps : List Preset) (b : Nat) (p q : Preset) (n : Nat) (h : ps[n]? = some q) :
    (ps.insertIdx b p)[if b ≤ n then n + 1 else n]? = some q := by
  split
  · rw [List.getElem?_insertIdx_of_gt (by omega)]; exact h
  · rw [List.getElem?_insertIdx_of_lt (by omega)]; exact h

/-- Inserting puts a copy of the preset selected before the current one, goes to it, changes nothing else, and keeps it selected. -/
theorem C116_insert (s : S) (v : Preset) (h : Synced s) (hv : Holds s (some v)) :
    ∃ r, insert s = some r ∧ r.2 = .inserted ∧ (∃ n : Nat, s.num = n ∧ r.1.ps = s.ps.insertIdx n v) ∧ r.1.cur = v ∧ r.1.num = s.num ∧
      Synced r.1 ∧ Holds r.1 (some v) := by
  obtain ⟨n, hn, hp⟩ := h
  obtain ⟨k, hk, hq⟩ := hv
  have hl := lt_of_some hp
  unfold insert
  rw [if_neg (by omega)]
  have e1 : loadSpec s.ps s.sel = some (v, k) := by rw [hk]; exact loadSpec_at _ _ _ hq
  have e2 : edit s.ps (-1000) v s.num = s.ps.insertIdx n v := by rw [hn]; exact edit_copy _ _ _
  have hg : (s.ps.insertIdx n v)[n]? = some v := by
    rw [List.getElem?_insertIdx_self, if_pos (by omega)]
  have e3 : S.goto { s with ps := edit s.ps (-1000) v s.num } s.num = some { s with ps := s.ps.insertIdx n v, cur := v, num := n } := by
    unfold S.goto
    simp only
    rw [e2, hn, loadSpec_at _ _ _ hg]
    rfl
  rw [e1]
  simp only
  rw [e3]
  refine ⟨_, rfl, rfl, ⟨n, hn, rfl⟩, rfl, hn.symm, ⟨n, rfl, hg⟩, ?_⟩
  refine ⟨if n ≤ k then k + 1 else k, ?_, insert_get _ _ _ _ _ hq⟩
  simp only
  rw [hn, hk]
  by_cases h1 : n ≤ k
  · rw [if_pos h1, if_pos (by omega)]; rfl
  · rw [if_neg h1, if_neg (by omega)]

theorem goto_some (s : S) (i : Nat) (hi : i < s.ps.length) : ∃ s', s.goto i = some s' ∧ Synced s' ∧ s'.ps = s.ps ∧ s'.sel = s.sel := by
  have h1 : s.ps[i]? = some (s.ps[i]) := List.getElem?_eq_getElem hi
  refine ⟨{ s with cur := s.ps[i], num := i }, ?_, ⟨i, rfl, h1⟩, rfl, rfl⟩
  unfold S.goto
  rw [loadSpec_at _ _ _ h1]; rfl

/-- However the user goes about and inserts, what "insert" inserts is the preset that was selected, until another one is selected. -/
theorem C116_selected (s s' : S) (v : Option Preset) (o : Op) (h : Synced s) (hv : Holds s v) (hg : ∀ i, o = .goto i → i < s.ps.length)
    (e : step s o = some s') : Synced s' ∧ Holds s' (chosen s v o) := by
  cases o with
  | goto i =>
    obtain ⟨t, e1, e2, e3, e4⟩ := goto_some s i (hg i rfl)
    have : s' = t := by
      have : s.goto i = some s' := e
      rw [e1] at this; exact (Option.some.inj this).symm
    subst this
    refine ⟨e2, ?_⟩
    unfold chosen Holds at *
    cases v with
    | none => simp only at *; rw [e4]; exact hv
    | some p => simp only at *; rw [e3, e4]; exact hv
  | insert =>
    cases v with
    | none =>
      have : insert s = some (s, .noPreset) := by unfold insert; rw [if_pos (show s.sel = -1 from hv)]
      have e2 : (insert s).map (·.1) = some s' := e
      rw [this] at e2
      have : s = s' := Option.some.inj e2
      subst this
      exact ⟨h, hv⟩
    | some p =>
      obtain ⟨r, e1, _, _, _, _, e3, e4⟩ := C116_insert s p h hv
      have e2 : (insert s).map (·.1) = some s' := e
      rw [e1] at e2
      have : r.1 = s' := Option.some.inj e2
      subst this
      exact ⟨e3, e4⟩
  | select =>
    have : select s = s' := Option.some.inj e
    subst this
    obtain ⟨n, hn, hp⟩ := h
    exact ⟨⟨n, hn, hp⟩, n, hn, hp⟩

/-- Anything the user can do in the menu. -/
inductive Any
  | up | down | delete
  | op (o : Op)

def any (s : S) : Any → Option S
  | .up => some (up s).1
  | .down => (down s).map (·.1)
  | .delete => (delete s).map (·.1)
  | .op o => step s o

def run : S → List Any → Option S
  | s, [] => some s
  | s, o :: os => (any s o).bind fun s' => run s' os

/-- At a stored preset or, after deleting, at none. -/
def Fine (s : S) : Prop := s.ps ≠ [] ∧ (Synced s ∨ s.num = -1)

theorem synced_fine {s : S} (h : Synced s) : Fine s := by
  obtain ⟨n, hn, hp⟩ := h
  refine ⟨?_, Or.inl ⟨n, hn, hp⟩⟩
  intro h0; rw [h0] at hp; simp at hp

theorem edit_negs (ps : List Preset) (num : Int) (p : Preset) (h : num < 0) : edit ps num p (-1) = ps := by
  unfold edit
  simp only
  rw [if_pos (by omega), if_pos h]

theorem load_synced (s s' : S) (i : Int) (h : s.goto i = some s') : Synced s' ∧ s'.ps = s.ps := by
  unfold S.goto at h
  cases hl : loadSpec s.ps i with
  | none => rw [hl] at h; cases h
  | some x =>
    rw [hl] at h
    have : { s with cur := x.1, num := x.2 } = s' := Option.some.inj h
    subst this
    refine ⟨⟨x.2, rfl, ?_⟩, rfl⟩
    simp only
    unfold loadSpec at hl
    split at hl
    · cases hg : s.ps.getLast? with
      | none => rw [hg] at hl; cases hl
      | some q =>
        rw [hg] at hl
        have : (q, s.ps.length - 1) = x := Option.some.inj hl
        subst this
        simp only
        rw [← hg, List.getLast?_eq_getElem?]
    · split at hl
      · cases hg : s.ps.head? with
        | none => rw [hg] at hl; cases hl
        | some q =>
          rw [hg] at hl
          have : (q, 0) = x := Option.some.inj hl
          subst this
          simp only
          rw [← hg, List.head?_eq_getElem?]
      · split at hl
        · cases hg : s.ps[i.toNat]? with
          | none => rw [hg] at hl; cases hl
          | some q =>
            rw [hg] at hl
            have : (q, i.toNat) = x := Option.some.inj hl
            subst this
            exact hg
        · cases hl

theorem any_fine (s s' : S) (o : Any) (h : Fine s) (e : any s o = some s') : Fine s' := by
  obtain ⟨hne, hs⟩ := h
  cases o with
  | up =>
    have e' : (up s).1 = s' := Option.some.inj e
    subst e'
    rcases hs with hs | hs
    · exact synced_fine (C116_up s hs).1
    · unfold up; rw [if_neg (by omega)]; exact ⟨hne, Or.inr hs⟩
  | down =>
    have e' : (down s).map (·.1) = some s' := e
    rcases hs with hs | hs
    · obtain ⟨r, e1, e2, _⟩ := C116_down s hs
      rw [e1] at e'
      have : r.1 = s' := Option.some.inj e'
      subst this
      exact synced_fine e2
    · obtain ⟨p, ps, hps⟩ := List.exists_cons_of_ne_nil hne
      have e1 : loadSpec s.ps (s.num + 1) = some (p, 0) := by
        rw [show s.num + 1 = ((0 : Nat) : Int) by omega]; exact loadSpec_at s.ps 0 p (by rw [hps]; rfl)
      unfold down at e'
      rw [e1] at e'
      simp only at e'
      rw [if_pos (by omega)] at e'
      have : S.saveAt { s with sel := -1 } (s.num + 1) = s' := Option.some.inj e'
      subst this
      apply synced_fine
      refine ⟨0, by simp only [S.saveAt]; omega, ?_⟩
      simp only [S.saveAt]
      rw [show s.num + 1 = ((0 : Nat) : Int) by omega, hs, C06_duplicate]
      rfl
  | delete =>
    have e' : (delete s).map (·.1) = some s' := e
    rcases hs with hs | hs
    · obtain ⟨r, e1, e2, e3⟩ := C116_delete s hs
      rw [e1] at e'
      have : r.1 = s' := Option.some.inj e'
      subst this
      have : 0 < s.ps.length := List.length_pos_iff.2 hne
      by_cases h1 : s.ps.length = 1
      · rw [e2 h1]; exact ⟨hne, Or.inl hs⟩
      · obtain ⟨n, _, _, _, a, b⟩ := e3 (by omega)
        exact ⟨a, Or.inr b⟩
    · unfold delete at e'
      rw [if_neg (by omega)] at e'
      have : s.saveAt (-1) = s' := Option.some.inj e'
      subst this
      refine ⟨?_, Or.inr rfl⟩
      simp only [S.saveAt]
      rw [edit_negs _ _ _ (by omega)]; exact hne
  | op o =>
    cases o with
    | goto i => exact synced_fine (load_synced s s' i e).1
    | select =>
      have : select s = s' := Option.some.inj e
      subst this
      exact ⟨hne, hs⟩
    | insert =>
      have e' : (insert s).map (·.1) = some s' := e
      unfold insert at e'
      split at e'
      · have : s = s' := Option.some.inj e'
        subst this
        exact ⟨hne, hs⟩
      · split at e'
        · cases e'
        · split at e'
          · cases e'
          · rename_i t ht
            obtain ⟨⟨n, hn, hp⟩, _⟩ := load_synced _ _ _ ht
            have : { t with sel := if s.num ≤ s.sel then s.sel + 1 else s.sel } = s' := Option.some.inj e'
            subst this
            exact synced_fine ⟨n, hn, hp⟩

/-- Whatever the user does in the menu, and in whatever order, at least one preset remains. -/
theorem C116_never_empty (os : List Any) (s s' : S) (h : Synced s) (e : run s os = some s') : s'.ps ≠ [] := by
  have key : ∀ (os : List Any) (s : S), Fine s → run s os = some s' → Fine s' := by
    intro os
    induction os with
    | nil => intro s h e; have : s = s' := Option.some.inj e; subst this; exact h
    | cons o os ih =>
      intro s h e
      unfold run at e
      cases ha : any s o with
      | none => rw [ha] at e; cases e
      | some t => rw [ha] at e; exact ih t (any_fine s t o h ha) e
  exact (key os s (synced_fine h) e).1

/-- Deleting a preset before the selected one makes "insert" insert another one than was selected. -/
theorem C116_delete_counterexample (a b c : Preset) :
    (delete ⟨[a, b, c], a, 0, 1⟩).map (·.1) = some ⟨[b, c], a, -1, 1⟩ ∧ S.goto ⟨[b, c], a, -1, 1⟩ 0 = some ⟨[b, c], b, 0, 1⟩ ∧
    (insert ⟨[b, c], b, 0, 1⟩).map (·.1) = some ⟨[c, b, c], c, 0, 2⟩ := ⟨rfl, rfl, rfl⟩

/-- After deleting, the saber still is at the deleted preset: moving it down puts it back, as the first one. -/
theorem C116_zombie_counterexample (a b c : Preset) :
    (delete ⟨[a, b, c], b, 1, -1⟩).map (·.1) = some ⟨[a, c], b, -1, -1⟩ ∧ (down ⟨[a, c], b, -1, -1⟩).map (·.1) = some ⟨[b, a, c], b, 0, -1⟩ :=
  ⟨rfl, rfl⟩

/-- And all changes to it are lost: saving it stores nothing. -/
theorem C116_lost_counterexample (ps : List Preset) (p : Preset) (sel : Int) : (S.saveAt ⟨ps, p, -1, sel⟩ (-1)).ps = ps := by
  simp [S.saveAt, edit]

example (a b c : Preset) : Synced ⟨[a, b, c], b, 1, 2⟩ ∧ Holds ⟨[a, b, c], b, 1, 2⟩ (some c) ∧ (insert ⟨[a, b, c], b, 1, 2⟩).map (·.1) = some ⟨[a, c, b, c], c, 1, 3⟩ :=
  ⟨⟨1, rfl, rfl⟩, ⟨2, rfl, rfl⟩, rfl⟩

end Verif.Store.Menu
