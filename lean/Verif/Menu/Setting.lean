import Verif.Menu.Menu
/-
  Changing a setting and cancelling: colour variation (modes/color_change_modes.h,
  modes/smooth_mode.h) and blade length (modes/settings_menues.h:79-123).

  Not modelled: settings which go through floating point (volume, dimming, clash
  threshold); which twist of the saber gives which angle.
-/
namespace Verif.Menu.Setting

/-! ## Colour variation -/

/-- `ChangeType` notices (saber_base.h, `DoChange`). -/
inductive Notice
  | enter | exit | color
deriving DecidableEq, Repr

/-- `current_variation_` (32 bit unsigned) and whether a colour change mode is
    active (`color_change_mode_ != COLOR_CHANGE_MODE_NONE`), saber_base.h:538-575;
    `saved` is the mode's `int saved_`. -/
structure St where
  variation : Nat
  changing : Bool
  saved : Int
  notices : List Notice
deriving DecidableEq, Repr

/-- `uint32_t` to `int` and back. -/
def toInt (u : Nat) : Int := if u < 2147483648 then u else (u : Int) - 4294967296
def ofInt (i : Int) : Nat := (i % 4294967296).toNat

/-- `SetColorChangeMode` (saber_base.h:567-575). -/
def setMode (on : Bool) (s : St) : St :=
  if on = false then { s with changing := false, notices := s.notices ++ [.exit] }
  else if s.changing = false then { s with changing := true, notices := s.notices ++ [.enter] }
  else { s with changing := true }

/-- `UpdateVariation` (saber_base.h:543-546). -/
def update (d : Int) (s : St) : St :=
  { s with variation := ofInt ((s.variation : Int) + d), notices := s.notices ++ [.color] }

/-- `SetVariation` (saber_base.h:548-550) via `set(int)`. -/
def set (x : Int) (s : St) : St := { s with variation := ofInt x }

/-- `SteppedVariationMode::mode_activate` (color_change_modes.h:13-17) and
    `SmoothVariationMode::mode_activate` (37-40, smooth_mode.h:31-35). -/
def activate (s : St) : St := setMode true { s with saved := toInt s.variation }

/-- Stepping: `next`/`prev` (color_change_modes.h:27-28). -/
def stepped : List Bool → St → St
  | [], s => s
  | b :: bs, s => stepped bs (update (if b then 1 else -1) s)

/-- `Angle::fixed()` of whatever angle the saber has: clamped (angle.h:80-84);
    SmoothWraparoundMode::mode_Loop (smooth_mode.h:70-73) sets it every loop. -/
def clamp (x : Int) : Int := if x < 0 then 0 else if x > 32767 then 32767 else x
def smooth : List Int → St → St
  | [], s => s
  | x :: xs, s => smooth xs (set (clamp x) s)

/-- `SteppedVariationMode::exit` (color_change_modes.h:18-22). -/
def exitStepped (s : St) : St := setMode false (set s.saved s)
/-- `SteppedVariationMode::select` (23-26). -/
def selectStepped (s : St) : St := setMode false s
/-- `SmoothBase::exit` (smooth_mode.h:37-40), then popMode deactivates
    (color_change_modes.h:41-43). -/
def exitSmooth (s : St) : St := setMode false (set s.saved s)
/-- `SmoothBase::select` (smooth_mode.h:41-43). -/
def selectSmooth (s : St) : St := setMode false s

/-! ### Lemmas -/

theorem roundtrip (u : Nat) (h : u < 4294967296) : ofInt (toInt u) = u := by
  unfold ofInt toInt
  split
  · rw [Int.emod_eq_of_lt (by omega) (by omega)]; omega
  · have : (u : Int) - 4294967296 = u + 4294967296 * (-1) := by omega
    rw [this, Int.add_mul_emod_self_left, Int.emod_eq_of_lt (by omega) (by omega)]; omega

theorem stepped_frame : ∀ (bs : List Bool) (s : St),
    (stepped bs s).saved = s.saved ∧ (stepped bs s).changing = s.changing ∧
    (stepped bs s).notices = s.notices ++ List.replicate bs.length .color
  | [], s => by simp [stepped]
  | b :: bs, s => by
      obtain ⟨h1, h2, h3⟩ := stepped_frame bs (update (if b then 1 else -1) s)
      simp only [stepped]
      refine ⟨by rw [h1]; rfl, by rw [h2]; rfl, ?_⟩
      rw [h3]
      simp [update, List.replicate_succ]

theorem smooth_frame : ∀ (xs : List Int) (s : St),
    (smooth xs s).saved = s.saved ∧ (smooth xs s).changing = s.changing ∧
    (smooth xs s).notices = s.notices
  | [], s => by simp [smooth]
  | x :: xs, s => by
      obtain ⟨h1, h2, h3⟩ := smooth_frame xs (set (clamp x) s)
      simp only [smooth]
      exact ⟨by rw [h1]; rfl, by rw [h2]; rfl, by rw [h3]; rfl⟩

theorem stepped_value : ∀ (bs : List Bool) (s : St), s.variation < 4294967296 →
    ((stepped bs s).variation : Int) = ((s.variation : Int) + Menu.net bs) % 4294967296
  | [], s, h => by simp only [stepped, Menu.net]; omega
  | b :: bs, s, h => by
      have hv : (update (if b then 1 else -1) s).variation =
          ofInt ((s.variation : Int) + (if b then 1 else -1)) := rfl
      have hlt : (update (if b then 1 else -1) s).variation < 4294967296 := by
        rw [hv]; unfold ofInt; omega
      simp only [stepped]
      rw [stepped_value bs _ hlt, hv]
      simp only [Menu.net]
      generalize Menu.net bs = n
      generalize (if b = true then (1 : Int) else -1) = d
      unfold ofInt
      omega

/-! ### C73 -/

/-- C73: entering colour change, changing the colour in any way, and cancelling
    leaves the colour exactly as it was, ends colour change, and blade styles get
    one "enter" and one "exit" notice around the changes. -/
theorem C73_cancel (s : St) (hv : s.variation < 4294967296) (hc : s.changing = false)
    (steps : List Bool) (twists : List Int) :
    (exitStepped (stepped steps (activate s))).variation = s.variation ∧
    (exitSmooth (smooth twists (activate s))).variation = s.variation ∧
    (exitStepped (stepped steps (activate s))).changing = false ∧
    (exitSmooth (smooth twists (activate s))).changing = false ∧
    (exitStepped (stepped steps (activate s))).notices =
      s.notices ++ .enter :: (List.replicate steps.length .color ++ [.exit]) ∧
    (exitSmooth (smooth twists (activate s))).notices = s.notices ++ [.enter, .exit] := by
  have ha : activate s = ⟨s.variation, true, toInt s.variation, s.notices ++ [.enter]⟩ := by
    unfold activate setMode
    rw [if_neg (by simp), if_pos hc]
  have hexit : ∀ t : St, setMode false t =
      { t with changing := false, notices := t.notices ++ [.exit] } := fun t => by
    unfold setMode; rw [if_pos rfl]
  obtain ⟨a1, a2, a3⟩ := stepped_frame steps (activate s)
  obtain ⟨b1, b2, b3⟩ := smooth_frame twists (activate s)
  unfold exitStepped exitSmooth
  rw [hexit, hexit]
  simp only [set]
  rw [a1, b1, a3, b3, ha]
  simp [roundtrip _ hv]

/-- C73: accepting keeps the last colour shown. -/
theorem C73_select (s : St) (hv : s.variation < 4294967296)
    (steps : List Bool) (twists : List Int) :
    (((selectStepped (stepped steps (activate s))).variation : Int) =
      ((s.variation : Int) + Menu.net steps) % 4294967296) ∧
    ((selectSmooth (smooth twists (activate s))).variation =
      match twists.getLast? with
      | none => s.variation
      | some x => (max 0 (min 32767 x)).toNat) := by
  have hcl : ∀ x, clamp x = max 0 (min 32767 x) := fun x => by unfold clamp; repeat' split <;> omega
  have hact : (activate s).variation = s.variation := by
    unfold activate setMode; simp only [Bool.true_eq_false, if_false]; split <;> rfl
  have hexit : ∀ t : St, (setMode false t).variation = t.variation := fun t => by
    unfold setMode; rw [if_pos rfl]
  constructor
  · unfold selectStepped
    rw [hexit, stepped_value _ _ (by rw [hact]; exact hv), hact]
  · unfold selectSmooth
    rw [hexit]
    have key : ∀ (xs : List Int) (t : St), (smooth xs t).variation =
        match xs.getLast? with
        | none => t.variation
        | some x => (clamp x).toNat := by
      intro xs
      induction xs with
      | nil => intro t; rfl
      | cons x xs ih =>
        intro t
        simp only [smooth]
        rw [ih]
        cases xs with
        | nil =>
          simp only [List.getLast?_nil, List.getLast?_singleton, set]
          have : 0 ≤ clamp x ∧ clamp x ≤ 32767 := by unfold clamp; repeat' split <;> omega
          unfold ofInt
          rw [Int.emod_eq_of_lt (by omega) (by omega)]
        | cons y ys =>
          rw [List.getLast?_cons_cons]
          cases h : (y :: ys).getLast? with
          | none => simp at h
          | some z => rfl
    rw [key, hact]
    cases twists.getLast? with
    | none => rfl
    | some x => simp only [hcl]

example : (exitStepped (stepped [true, true, false, true] (activate ⟨4294967295, false, 0, []⟩))).variation
    = 4294967295 := by decide
example : (selectStepped (stepped [true, true, false, true] (activate ⟨4294967295, false, 0, []⟩))).variation
    = 1 := by decide
example : (selectSmooth (smooth [5, -3, 99999] (activate ⟨77, false, 0, []⟩))).variation = 32767 := by
  decide

/-! ## Blade length -/

/-- The stored length of a blade (−1: not set) and the menu's own fields. -/
structure Len where
  len : Int
  pos : Nat
  saved : Int
deriving DecidableEq, Repr

/-- `ChangeBladeLengthBlade1::mode_activate` (settings_menues.h:97-106). -/
def lenActivate (max : Nat) (s : Len) : Len :=
  let l := if s.len = -1 then (max : Int) else s.len
  { saved := s.len, pos := Menu.u16 (l - 1), len := max }

/-- Stepping moves only the position (menu_base.h:30-35). -/
def lenWalk (max : Nat) (steps : List Bool) (s : Len) : Option Len :=
  (Menu.walk max steps s.pos).map fun p => { s with pos := p }

/-- `select` (settings_menues.h:117-121). -/
def lenSelect (s : Len) : Len := { s with len := (s.pos : Int) + 1 }
/-- `exit` (122-125). -/
def lenExit (s : Len) : Len := { s with len := s.saved }

/-- C73: the blade length menu: cancelling restores the stored length (also "not
    set"), accepting stores a length between 1 and the number of LEDs, namely the
    length before plus the net number of steps, counted round. -/
theorem C73_length (max : Nat) (h0 : 0 < max) (h1 : max < 65536) (s : Len)
    (hs : s.len = -1 ∨ (1 ≤ s.len ∧ s.len ≤ max)) (steps : List Bool) :
    ∃ t, lenWalk max steps (lenActivate max s) = some t ∧
      (lenExit t).len = s.len ∧
      1 ≤ (lenSelect t).len ∧ (lenSelect t).len ≤ max ∧
      ((lenSelect t).len - ((if s.len = -1 then (max : Int) else s.len) + Menu.net steps)) % max = 0 := by
  obtain ⟨l, hl⟩ : ∃ l : Int, l = if s.len = -1 then (max : Int) else s.len := ⟨_, rfl⟩
  have hl2 : 1 ≤ l ∧ l ≤ max := by
    rw [hl]; split
    · omega
    · rcases hs with h | h
      · contradiction
      · exact h
  have hpos : (lenActivate max s).pos = (l - 1).toNat := by
    simp only [lenActivate, ← hl]
    exact Menu.u16_small _ (by omega) (by omega)
  obtain ⟨p, hp1, hp2, hp3⟩ := Menu.C55_walk max h0 h1 steps (l - 1).toNat (by omega)
  refine ⟨{ lenActivate max s with pos := p }, ?_, rfl, ?_, ?_, ?_⟩
  · unfold lenWalk; rw [hpos, hp1]; rfl
  · simp only [lenSelect]; omega
  · simp only [lenSelect]; omega
  · simp only [lenSelect]
    rw [← hl]
    have : ((p : Int) + 1 - (l + Menu.net steps)) =
        (p : Int) - (((l - 1).toNat : Int) + Menu.net steps) := by omega
    rw [this]; exact hp3

example : lenWalk 144 [true, true] (lenActivate 144 ⟨-1, 0, 0⟩) = some ⟨144, 1, -1⟩ := by decide

end Verif.Menu.Setting
