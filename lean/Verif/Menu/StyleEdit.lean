import Mathlib.Data.Rat.Floor
import Mathlib.Tactic.Linarith
import Mathlib.Tactic.Ring
/-!
# The menu that edits a style (C130)

Model of modes/style_option_modes.h: what the entries for copying and resetting settings do to the blades, which kind of menu
opens for a setting, and the setting of a time. The functions that copy the arguments of one style to another are parameters.
-/
namespace Verif.Menu.StyleEdit

variable {St : Type}

/-- The styles of the preset in use, `0` to `blades - 1` for blades 1 to `blades`, those saved, and the variables of the menus:
`menu_selected_preset` (`none` is −1) and `menu_selected_blade`, modes/preset_modes.h:69, modes/style_option_modes.h:135;
`menu_current_blade`. -/
structure E (St : Type) where
  styles : List St
  saved : Nat → List St
  preset : Option Nat
  blade : Nat
  current : Nat

/-- `GetStyle`, common/current_preset.h:447-453: `current_style_[blade-1]`, which for 0 is out of bounds. -/
def get (l : List St) (blade : Nat) : Option St := if blade = 0 then none else l[blade - 1]?

/-- `SetStyle` of the preset in use. -/
def put (e : E St) (blade : Nat) (s : St) : E St := { e with styles := e.styles.set (blade - 1) s }

/-- `SelectStyleEntry::select`, modes/style_option_modes.h:143-147: `pos` is `prop_GetPresetPosition`. -/
def selectStyle (e : E St) (pos : Nat) : E St := { e with preset := some pos, blade := e.current }

/-- `ApplyColorsFromSelectedStyleEntry::select`, modes/style_option_modes.h:155-166, and with the copy of all arguments
`ApplyStyleArumentsFromSelectedStyleEntry::select`, 189-200; `none` when out of bounds. -/
def applySelected (copy : St → St → St) (e : E St) : Option (E St) :=
  match e.preset with
  | none => some e
  | some p => match get (e.saved p) e.blade, get e.styles e.blade with
    | some src, some dst => some (put e e.blade (copy src dst))
    | _, _ => none

/-- `ApplyColorsToAllBladesEntry::select`, modes/style_option_modes.h:174-181. -/
def applyAll (copy : St → St → St) (e : E St) : Option (E St) :=
  match get e.styles e.blade with
  | none => none
  | some src => some { e with styles := e.styles.mapIdx fun i s => if i + 1 = e.blade then s else copy src s }

/-- `ResetColorsEntry::select`, modes/style_option_modes.h:209-219; `reset` is the copy from `builtin 0 0`. -/
def resetColors (reset : St → St) (e : E St) : Option (E St) :=
  match e.preset with
  | none => some e
  | some _ => match get e.styles e.blade with
    | some dst => some (put e e.blade (reset dst))
    | none => none

/-- `ResetStyleArgumentsEntry::select`, modes/style_option_modes.h:227-233. -/
def resetArguments (reset : St → St) (e : E St) : Option (E St) :=
  match get e.styles e.blade with
  | some dst => some (put e e.blade (reset dst))
  | none => none

theorem get_put (e : E St) (b b' : Nat) (s : St) (hb : 0 < b) (hl : b ≤ e.styles.length) :
    get (put e b s).styles b' = if b' = b then some s else get e.styles b' := by
  unfold get put
  simp only
  by_cases h0 : b' = 0
  · rw [if_pos h0, if_neg (by omega), if_pos h0]
  · rw [if_neg h0, if_neg h0, List.getElem?_set]
    by_cases h : b' = b
    · subst h; rw [if_pos rfl, if_pos rfl, if_pos (by omega)]
    · rw [if_neg (by omega), if_neg h]

theorem get_some (l : List St) (b : Nat) (hb : 0 < b) (hl : b ≤ l.length) : ∃ s, get l b = some s := by
  unfold get
  rw [if_neg (by omega), List.getElem?_eq_getElem (by omega)]
  exact ⟨_, rfl⟩

/-- With a style selected on the blade that is edited, applying its settings changes just that blade: it gets the settings of the
selected style; all other blades stay as they are. -/
theorem C130_apply_partial (copy : St → St → St) (e : E St) (p : Nat) (src dst : St) (hp : e.preset = some p) (hcur : e.blade = e.current)
    (hsrc : get (e.saved p) e.current = some src) (hdst : get e.styles e.current = some dst) :
    ∃ e', applySelected copy e = some e' ∧ get e'.styles e.current = some (copy src dst) ∧
      ∀ b, b ≠ e.current → get e'.styles b = get e.styles b := by
  have hb : 0 < e.blade := by
    rcases Nat.eq_zero_or_pos e.blade with h | h
    · rw [hcur] at h; rw [h] at hdst; simp [get] at hdst
    · exact h
  have hl : e.blade ≤ e.styles.length := by
    rw [hcur] at hb ⊢
    unfold get at hdst
    rw [if_neg (by omega)] at hdst
    obtain ⟨h, _⟩ := List.getElem?_eq_some_iff.1 hdst
    omega
  refine ⟨put e e.blade (copy src dst), ?_, ?_, ?_⟩
  · unfold applySelected
    rw [hp]
    simp only
    rw [hcur, hsrc, hdst]
  · rw [get_put e _ _ _ hb hl, if_pos hcur.symm]
  · intro b hbne
    rw [get_put e _ _ _ hb hl, if_neg (by rw [hcur]; exact hbne)]

/-- With a style selected on another blade, it is the other blade that changes, and the one being edited stays as it is. -/
theorem C130_apply_counterexample (copy : St → St → St) (e : E St) (p : Nat) (src dst : St) (hp : e.preset = some p) (hcur : e.blade ≠ e.current)
    (hsrc : get (e.saved p) e.blade = some src) (hdst : get e.styles e.blade = some dst) :
    ∃ e', applySelected copy e = some e' ∧ get e'.styles e.current = get e.styles e.current ∧ get e'.styles e.blade = some (copy src dst) := by
  have hb : 0 < e.blade := by
    rcases Nat.eq_zero_or_pos e.blade with h | h
    · rw [h] at hdst; simp [get] at hdst
    · exact h
  have hl : e.blade ≤ e.styles.length := by
    unfold get at hdst
    rw [if_neg (by omega)] at hdst
    obtain ⟨h, _⟩ := List.getElem?_eq_some_iff.1 hdst
    omega
  refine ⟨put e e.blade (copy src dst), ?_, ?_, ?_⟩
  · unfold applySelected
    rw [hp]
    simp only
    rw [hsrc, hdst]
  · rw [get_put e _ _ _ hb hl, if_neg (Ne.symm hcur)]
  · rw [get_put e _ _ _ hb hl, if_pos rfl]

/-- Colours to all blades: the selected blade keeps its style, and each other one gets its colours. -/
theorem C130_all (copy : St → St → St) (e : E St) (src : St) (hsrc : get e.styles e.blade = some src) :
    ∃ e', applyAll copy e = some e' ∧ e'.styles.length = e.styles.length ∧
      ∀ b, get e'.styles b = if b = e.blade then get e.styles b else (get e.styles b).map (copy src) := by
  refine ⟨_, by unfold applyAll; rw [hsrc], by simp, ?_⟩
  intro b
  unfold get
  simp only
  by_cases h0 : b = 0
  · rw [if_pos h0, if_pos h0]; split <;> rfl
  · rw [if_neg h0, if_neg h0, List.getElem?_mapIdx]
    by_cases h : b = e.blade
    · rw [if_pos h]
      cases e.styles[b - 1]? with
      | none => rfl
      | some s => show some (if _ then _ else _) = _; rw [if_pos (by omega)]
    · rw [if_neg h]
      cases e.styles[b - 1]? with
      | none => rfl
      | some s => show some (if _ then _ else _) = _; rw [if_neg (by omega)]; rfl

/-- Until a style has been selected the blade is number 0, and colours to all blades and resetting all settings read before the beginning of
the array. -/
theorem C130_unselected_counterexample (copy : St → St → St) (reset : St → St) (e : E St) (h : e.blade = 0) :
    applyAll copy e = none ∧ resetArguments reset e = none := by
  have : get e.styles e.blade = none := by unfold get; rw [if_pos h]
  unfold applyAll resetArguments
  rw [this]
  exact ⟨rfl, rfl⟩

/-- And resetting the colours does nothing without a selection, which it has no use for. -/
theorem C130_reset_counterexample (reset : St → St) (e : E St) (h : e.preset = none) : resetColors reset e = some e := by
  unfold resetColors; rw [h]

/-- After selecting the style of the blade being edited, all entries are in bounds and act on it. -/
theorem C130_selected (reset : St → St) (e : E St) (pos : Nat) (dst : St) (hdst : get e.styles e.current = some dst) :
    resetArguments reset (selectStyle e pos) = some (put (selectStyle e pos) e.current (reset dst)) ∧
    resetColors reset (selectStyle e pos) = some (put (selectStyle e pos) e.current (reset dst)) := by
  unfold resetArguments resetColors selectStyle
  simp only
  rw [hdst]
  exact ⟨rfl, rfl⟩

/-! ## Which menu opens -/

inductive Kind | colour | percent | time | number
deriving DecidableEq

/-- `SelectArgMode::select`, modes/style_option_modes.h:112-127. -/
def kind (isColour isTime : Bool) (maxArg : Int) : Kind :=
  if isColour then .colour
  else if maxArg = 32768 ∨ maxArg = 32767 then .percent
  else if maxArg ≤ 0 ∧ isTime = true then .time
  else .number

/-- The size of the number menu, modes/style_option_modes.h:57-59. -/
def numberSize (maxArg : Int) : Nat := (if maxArg < 0 then 32768 else maxArg).toNat % 65536

/-- A setting with `n` choices opens a menu with as many entries; a colour opens that for colours; a time with no known maximum that for
times. -/
theorem C130_kind (isTime : Bool) (n : Nat) (h0 : 0 < n) (h : n < 32767) :
    kind false isTime n = .number ∧ numberSize n = n ∧ (∀ m, kind true isTime m = .colour) ∧ kind false true (-1) = .time := by
  refine ⟨?_, ?_, fun m => rfl, rfl⟩
  · unfold kind
    rw [if_neg (by decide), if_neg (by omega), if_neg (by omega)]
  · unfold numberSize
    rw [if_neg (by omega), Int.toNat_natCast, Nat.mod_eq_of_lt (by omega)]

/-- The number reported for the transparency of a layer, 32769 (styles/get_arg_max.h:80-83), is none of the two for which the menu in
percent opens: it is set by going through a menu of 32769 numbers. -/
theorem C130_alpha_counterexample (isTime : Bool) : kind false isTime 32769 = .number ∧ numberSize 32769 = 32769 := by
  constructor
  · cases isTime <;> decide
  · decide

/-! ## Setting a time -/

/-- `SelectArgTime`, modes/style_option_modes.h:31-45: the milliseconds stored for the place `x` of the menu. -/
def stored (x : Nat) : Nat := ⌊((x : Rat) / 32768) ^ 2 * 30 * 1000⌋.toNat

/-- The place at which the menu opens for a stored time, modes/style_option_modes.h:30. -/
def opened (ms : Nat) : Nat := ms

/-- Each time the menu can be set to is between nothing and half a minute, and a place further on never means a shorter time. -/
theorem C130_time (x y : Nat) (hxy : x ≤ y) (hy : y ≤ 32768) : stored x ≤ stored y ∧ stored y ≤ 30000 := by
  have hx0 : (0 : Rat) ≤ x := Nat.cast_nonneg _
  have h1 : (x : Rat) ≤ y := by exact_mod_cast hxy
  have h2 : (y : Rat) ≤ 32768 := by exact_mod_cast hy
  constructor
  · apply Int.toNat_le_toNat
    apply Int.floor_le_floor
    have : ((x : Rat) / 32768) ^ 2 ≤ ((y : Rat) / 32768) ^ 2 := by
      rw [div_pow, div_pow]
      apply div_le_div_of_nonneg_right _ (by norm_num)
      nlinarith
    linarith
  · unfold stored
    have h : ((y : Rat) / 32768) ^ 2 * 30 * 1000 ≤ ((30000 : Int) : Rat) := by
      have : ((y : Rat) / 32768) ^ 2 ≤ 1 := by
        rw [div_pow, div_le_one (by norm_num)]
        nlinarith
      push_cast; linarith
    have := Int.floor_le_floor h
    rw [Int.floor_intCast] at this
    omega

/-- But the menu does not open at the time that is set: opening it and confirming without a change makes any time shorter. -/
theorem C130_time_counterexample (ms : Nat) (h0 : 0 < ms) (h : ms ≤ 30000) : stored (opened ms) < ms := by
  have hp : (0 : Rat) < ms := by exact_mod_cast h0
  have hl : (ms : Rat) ≤ 30000 := by exact_mod_cast h
  have hlt : ((ms : Rat) / 32768) ^ 2 * 30 * 1000 < ((ms : Int) : Rat) := by
    push_cast
    rw [div_pow, div_mul_eq_mul_div, div_mul_eq_mul_div, div_lt_iff₀ (by norm_num)]
    nlinarith
  have := Int.floor_lt.2 hlt
  unfold stored opened
  omega

example : ∃ e : E Nat, e.blade ≠ e.current ∧ e.preset = some 0 ∧ get (e.saved 0) e.blade = some 5 ∧ get e.styles e.blade = some 7 :=
  ⟨⟨[7, 8], fun _ => [5, 6], some 0, 1, 2⟩, by decide, rfl, rfl, rfl⟩
example : (applyAll (fun a b => a * 100 + b) (⟨[7, 8, 9], fun _ => [], none, 2, 1⟩ : E Nat)).map E.styles = some [807, 8, 809] := by decide

end Verif.Menu.StyleEdit
