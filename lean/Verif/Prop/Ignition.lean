/-
  Turning blades on and off and switching presets: props/prop_base.h:128-189 (`IsOn`,
  `On`, `FastOn`, `SB_On`, `Off`), 356-367 (`BladeOff`), 400-418 (`SetPreset`), 1057-1063
  (`LowBatteryOff`), 1798-1812 (`CommonIgnition`); common/saber_base.h:136-197 (`BladeSet`),
  286-320 (`TurnOn`, `TurnOff`); sound/hybrid_font.h:171, 195-201, 390-404, 427-436,
  475-535, 786-793 (the part of its state which waits for the pre-on sound).

  A `BladeSet` is a bit vector of any width.  Not modelled: sounds, colour change mode
  (left by `Off`), muting (see Verif.Prop.Mute), and turning blades on and off past the
  prop (developer commands, the blade length menu).
-/
namespace Verif.Prop.Ignition

/-! ## Model -/

variable {w : Nat}

/-- `SaberBase::on_`, `on_pending_`, `state_ == STATE_WAIT_FOR_ON` and `saved_location_`
    of the sound font, whether a lockup is going on; `announced` counts the ignition
    effects started (`DoOn`). -/
structure St (w : Nat) where
  on : BitVec w
  pending : Bool
  wait : Bool
  saved : BitVec w
  lockup : Bool
  announced : Nat
  deriving DecidableEq, Repr

def St.init (w : Nat) : St w := ⟨0#w, false, false, 0#w, false, 0⟩

/-- `PropBase::IsOn` (prop_base.h:130-132). -/
def isOn (s : St w) : Bool := s.on != 0#w || s.pending

/-- `SaberBase::TurnOn(location)` (saber_base.h:297-306); `DoOn` reaches the prop's
    `SB_On` (prop_base.h:152-154) and the font's (hybrid_font.h:425-436), which leaves
    the waiting state. -/
def turnOn (s : St w) (loc : BitVec w) : St w :=
  if loc &&& ~~~ s.on = 0#w then s
  else { s with on := s.on ||| (loc &&& ~~~ s.on), pending := false, wait := false,
                announced := s.announced + 1 }

/-- `CommonIgnition` (prop_base.h:1798-1812): may these blades be turned on?  `noOnOff`:
    the style can't be turned on and off. -/
def common (s : St w) (loc : BitVec w) (noOnOff : Bool) : Bool :=
  !(loc &&& ~~~ s.on == 0#w) && !noOnOff

/-- `On` (prop_base.h:134-144) with `SB_Preon` (hybrid_font.h:390-404). -/
def turnOnSlow (s : St w) (loc : BitVec w) (noOnOff : Bool) : St w :=
  if common s loc noOnOff then { s with saved := loc, wait := true, pending := true } else s

/-- `FastOn` (prop_base.h:146-150). -/
def fastOn (s : St w) (loc : BitVec w) (noOnOff : Bool) : St w :=
  if common s loc noOnOff then turnOn s loc else s

/-- `SaberBase::TurnOff(off_type, location)` (saber_base.h:312-321) for the normal kind;
    the font's `SB_Off` (hybrid_font.h:475-524) leaves the waiting state. -/
def turnOff (s : St w) (loc : BitVec w) : St w :=
  if loc &&& s.on = 0#w then s
  else { s with on := s.on &&& ~~~ (loc &&& s.on), wait := false }

/-- `Off` (prop_base.h:156-189).  Cancelling: `SaberBase::TurnOff(OFF_CANCEL_PREON)`
    (saber_base.h:307-311, hybrid_font.h:478-482). -/
def off (s : St w) (loc : BitVec w) : St w :=
  if s.pending then { s with pending := false, on := 0#w, wait := false }
  else if s.on = 0#w then s
  else turnOff { s with lockup := false } loc

/-- `BladeOff` (prop_base.h:356-367): also returns the blades which were on. -/
def bladeOff (s : St w) : St w × BitVec w :=
  if isOn s then (off s (BitVec.allOnes w), if s.on = 0#w then BitVec.allOnes w else s.on)
  else (s, s.on)

/-- The font's part of `chdir` (prop_base.h:260-262, 290; hybrid_font.h:171, 195-201). -/
def chdir (s : St w) : St w := { s with wait := false }

/-- `SetPreset` (prop_base.h:400-418); `noOnOff` is about the new preset's style. -/
def setPreset (s : St w) (noOnOff : Bool) : St w :=
  let r := bladeOff s
  let s1 := chdir r.1
  if r.2 = 0#w then s1 else fastOn s1 r.2 noOnOff

/-- The font's `Loop` when no pre-on sound is playing (any more)
    (hybrid_font.h:787-792). -/
def preonOver (s : St w) : St w := if s.wait then turnOn s s.saved else s

/-- `LowBatteryOff` (prop_base.h:1057-1063). -/
def lowBattery (s : St w) : St w := if s.on = 0#w then s else off s (BitVec.allOnes w)

inductive Op (w : Nat)
  | on (loc : BitVec w) (noOnOff : Bool)
  | fastOn (loc : BitVec w) (noOnOff : Bool)
  | off (loc : BitVec w)
  | setPreset (noOnOff : Bool)
  | preonOver
  | lowBattery
  | lockup (b : Bool)

def step (s : St w) : Op w → St w
  | .on loc n => turnOnSlow s loc n
  | .fastOn loc n => fastOn s loc n
  | .off loc => off s loc
  | .setPreset n => setPreset s n
  | .preonOver => preonOver s
  | .lowBattery => lowBattery s
  | .lockup b => { s with lockup := b }

def run (s : St w) (l : List (Op w)) : St w := l.foldl step s

/-! ## Lemmas -/

/-- The prop waits for the font exactly when the font waits for the sound. -/
def Inv (s : St w) : Prop := s.wait = s.pending

theorem turnOn_inv {s : St w} {loc : BitVec w} (h : Inv s) : Inv (turnOn s loc) := by
  unfold turnOn; split
  · exact h
  · rfl

theorem fastOn_inv {s : St w} {loc : BitVec w} {n : Bool} (h : Inv s) : Inv (fastOn s loc n) := by
  unfold fastOn; split
  · exact turnOn_inv h
  · exact h

theorem off_inv {s : St w} {loc : BitVec w} (h : Inv s) : Inv (off s loc) := by
  unfold off
  split
  · rfl
  · rename_i hp
    split
    · exact h
    · unfold turnOff
      split
      · exact h
      · simp only [Inv]
        simpa using hp

theorem off_pending {s : St w} {loc : BitVec w} : (off s loc).pending = false := by
  unfold off
  split
  · rfl
  · rename_i hp
    have hp : s.pending = false := by simpa using hp
    split
    · exact hp
    · unfold turnOff
      split <;> exact hp

theorem isOn_false {s : St w} (h : isOn s = false) : s.on = 0#w ∧ s.pending = false := by
  unfold isOn at h
  rw [Bool.or_eq_false_iff] at h
  refine ⟨?_, h.2⟩
  simpa using h.1

theorem bladeOff_pending {s : St w} : (bladeOff s).1.pending = false := by
  unfold bladeOff
  split
  · exact off_pending
  · rename_i h
    exact (isOn_false (by simpa using h)).2

theorem setPreset_inv {s : St w} {n : Bool} : Inv (setPreset s n) := by
  have : Inv (chdir (bladeOff s).1) := by
    unfold chdir Inv
    exact bladeOff_pending.symm
  simp only [setPreset]
  split
  · exact this
  · exact fastOn_inv this

theorem step_inv {s : St w} {o : Op w} (h : Inv s) : Inv (step s o) := by
  cases o with
  | on loc n =>
    simp only [step, turnOnSlow]
    split
    · rfl
    · exact h
  | fastOn loc n => exact fastOn_inv h
  | off loc => exact off_inv h
  | setPreset n => exact setPreset_inv
  | preonOver =>
    simp only [step, preonOver]
    split
    · exact turnOn_inv h
    · exact h
  | lowBattery =>
    simp only [step, lowBattery]
    split
    · exact h
    · exact off_inv h
  | lockup b => exact h

theorem run_inv : ∀ (l : List (Op w)) (s : St w), Inv s → Inv (run s l)
  | [], _, h => h
  | _ :: l, _, h => run_inv l _ (step_inv h)

theorem off_all {s : St w} : (off s (BitVec.allOnes w)).on = 0#w := by
  unfold off
  split
  · rfl
  · split
    · assumption
    · unfold turnOff
      split
      · rename_i h
        simpa using h
      · simp

theorem bladeOff_on {s : St w} : (bladeOff s).1.on = 0#w := by
  unfold bladeOff
  split
  · exact off_all
  · rename_i h
    exact (isOn_false (by simpa using h)).1

/-! ## C82 -/

/-- Does an operation ask for ignition? -/
def Op.ignites : Op w → Bool
  | .on _ _ => true
  | .fastOn _ _ => true
  | _ => false

theorem dark_step {s : St w} {o : Op w} (h : Inv s) (ho : s.on = 0#w) (hp : s.pending = false)
    (hi : o.ignites = false) : (step s o).on = 0#w ∧ (step s o).pending = false := by
  have hw : s.wait = false := h.trans hp
  cases o with
  | on loc n => simp [Op.ignites] at hi
  | fastOn loc n => simp [Op.ignites] at hi
  | off loc => simp only [step, off, hp]; simp [ho, hp]
  | setPreset n =>
    have hb : bladeOff s = (s, s.on) := by
      unfold bladeOff
      rw [if_neg (by simp [isOn, ho, hp])]
    simp only [step, setPreset, hb]
    rw [if_pos ho]
    exact ⟨ho, hp⟩
  | preonOver => simp only [step, preonOver, hw]; simp [ho, hp]
  | lowBattery =>
    simp only [step, lowBattery]
    rw [if_pos ho]
    exact ⟨ho, hp⟩
  | lockup b => exact ⟨ho, hp⟩

theorem dark_run : ∀ (l : List (Op w)) (s : St w), Inv s → s.on = 0#w → s.pending = false →
    (∀ o ∈ l, o.ignites = false) → (run s l).on = 0#w ∧ (run s l).pending = false
  | [], _, _, ho, hp, _ => ⟨ho, hp⟩
  | o :: l, s, h, ho, hp, hi => by
      obtain ⟨a, b⟩ := dark_step h ho hp (hi o (by simp))
      exact dark_run l _ (step_inv h) a b (fun x hx => hi x (by simp [hx]))

/-- C82 (off stays off): in every history, once everything is turned off — even in the
    middle of an ignition — no blade is on and none comes on, whatever sounds end and
    presets are chosen, until ignition is asked for again. -/
theorem C82_off (l1 l2 : List (Op w)) (h : ∀ o ∈ l2, o.ignites = false) :
    (run (St.init w) (l1 ++ .off (BitVec.allOnes w) :: l2)).on = 0#w ∧
    isOn (run (St.init w) (l1 ++ .off (BitVec.allOnes w) :: l2)) = false := by
  have hi := run_inv l1 (St.init w) rfl
  have hr : run (St.init w) (l1 ++ .off (BitVec.allOnes w) :: l2) =
      run (off (run (St.init w) l1) (BitVec.allOnes w)) l2 := by
    simp [run, step]
  rw [hr]
  obtain ⟨a, b⟩ := dark_run l2 _ (off_inv (loc := BitVec.allOnes w) hi) off_all off_pending h
  exact ⟨a, by simp [isOn, a, b]⟩

/-- C82 (presets): switching presets leaves exactly the blades on which were on, unless
    the new style can't be turned on; nothing is left waiting. -/
theorem C82_preset (l : List (Op w)) (hp : (run (St.init w) l).pending = false) :
    (setPreset (run (St.init w) l) false).on = (run (St.init w) l).on ∧
    (setPreset (run (St.init w) l) true).on = 0#w ∧
    (∀ n, (setPreset (run (St.init w) l) n).pending = false ∧
      ((run (St.init w) l).on ≠ 0#w → (setPreset (run (St.init w) l) n).lockup = false)) := by
  generalize run (St.init w) l = s at *
  have hpend : ∀ n, (setPreset s n).pending = false := by
    intro n
    simp only [setPreset]
    split
    · exact bladeOff_pending
    · unfold fastOn turnOn
      repeat' split
      all_goals first | exact bladeOff_pending | rfl
  by_cases h : s.on = 0#w
  · have hb : bladeOff s = (s, s.on) := by
      unfold bladeOff
      rw [if_neg (by simp [isOn, h, hp])]
    refine ⟨?_, ?_, fun n => ⟨hpend n, fun h' => absurd h h'⟩⟩ <;>
      simp only [setPreset, hb] <;> rw [if_pos h]
    · rfl
    · exact h
  · have hb : (bladeOff s).2 = s.on := by
      unfold bladeOff
      rw [if_pos (by simp [isOn, h]), if_neg h]
    have hl : (bladeOff s).1.lockup = false := by
      unfold bladeOff
      rw [if_pos (by simp [isOn, h])]
      unfold off
      rw [if_neg (by simp [hp]), if_neg h]
      unfold turnOff
      split <;> rfl
    have h0 : (chdir (bladeOff s).1).on = 0#w := bladeOff_on
    refine ⟨?_, ?_, fun n => ⟨hpend n, fun _ => ?_⟩⟩
    · simp only [setPreset, hb]
      rw [if_neg h]
      unfold fastOn
      rw [if_pos (by simp [common, h0, h])]
      unfold turnOn
      rw [if_neg (by simp [h0, h])]
      simp [h0]
    · simp only [setPreset, hb]
      rw [if_neg h]
      unfold fastOn
      rw [if_neg (by simp [common])]
      exact h0
    · simp only [setPreset, hb]
      rw [if_neg h]
      unfold fastOn turnOn
      repeat' split
      all_goals exact hl

/-- C82 (ignition): asked to ignite blades of which at least one is off, the
    prop counts as on at once; the blades come on, together with
    those which already were, exactly when the pre-on sound is over, and this is announced
    once. -/
theorem C82_ignite (l : List (Op w)) (loc : BitVec w) (hl : loc &&& ~~~ (run (St.init w) l).on ≠ 0#w) :
    isOn (run (St.init w) (l ++ [.on loc false])) = true ∧
    (run (St.init w) (l ++ [.on loc false])).on = (run (St.init w) l).on ∧
    (run (St.init w) (l ++ [.on loc false, .preonOver])).on = (run (St.init w) l).on ||| loc ∧
    (run (St.init w) (l ++ [.on loc false, .preonOver])).announced = (run (St.init w) l).announced + 1 ∧
    run (St.init w) (l ++ [.on loc false, .preonOver, .preonOver]) =
      run (St.init w) (l ++ [.on loc false, .preonOver]) := by
  have hr : ∀ l2, run (St.init w) (l ++ l2) = run (run (St.init w) l) l2 := by
    intro l2; simp [run]
  rw [hr, hr, hr]
  generalize run (St.init w) l = s at *
  have h1 : turnOnSlow s loc false = { s with saved := loc, wait := true, pending := true } := by
    unfold turnOnSlow
    rw [if_pos (by simp [common, hl])]
  have h2 : preonOver (turnOnSlow s loc false) =
      { s with saved := loc, wait := false, pending := false, on := s.on ||| (loc &&& ~~~ s.on),
               announced := s.announced + 1 } := by
    rw [h1]
    unfold preonOver turnOn
    rw [if_pos rfl, if_neg hl]
  refine ⟨?_, ?_, ?_, ?_, ?_⟩
  · simp only [run, List.foldl_cons, List.foldl_nil, step, h1, isOn, Bool.or_true]
  · simp only [run, List.foldl_cons, List.foldl_nil, step, h1]
  · simp only [run, List.foldl_cons, List.foldl_nil, step, h2]
    ext i hi
    simp
    cases s.on[i] <;> simp
  · simp only [run, List.foldl_cons, List.foldl_nil, step, h2]
  · simp only [run, List.foldl_cons, List.foldl_nil, step, h2]
    unfold preonOver
    rw [if_neg (by simp)]

/-- C82 (turning some blades off): with no ignition under way exactly those go off. -/
theorem C82_some (l : List (Op w)) (loc : BitVec w) (hp : (run (St.init w) l).pending = false) :
    (run (St.init w) (l ++ [.off loc])).on = (run (St.init w) l).on &&& ~~~ loc := by
  have hr : run (St.init w) (l ++ [.off loc]) = off (run (St.init w) l) loc := by simp [run, step]
  rw [hr]
  generalize run (St.init w) l = s at *
  unfold off
  rw [if_neg (by simp [hp])]
  split
  · rename_i h; rw [h]; simp
  · unfold turnOff
    split
    · rename_i h
      have hb : ∀ i (hi : i < w), (loc[i] && s.on[i]) = false := by
        intro i hi
        have := congrArg (fun x : BitVec w => x[i]) h
        simpa using this
      ext i hi
      have := hb i hi
      simp only [BitVec.getElem_and, BitVec.getElem_not]
      revert this
      cases loc[i] <;> cases s.on[i] <;> simp
    · ext i hi
      simp only [BitVec.getElem_and, BitVec.getElem_not]
      cases loc[i] <;> cases s.on[i] <;> simp

example : (run (St.init 8) [.on 0b10#8 false, .preonOver, .lockup true]).pending = false ∧
    0b101#8 &&& ~~~ (run (St.init 8) [.on 0b10#8 false, .preonOver]).on ≠ 0#8 := by decide +kernel
example : (setPreset (run (St.init 8) [.on 0b10#8 false, .preonOver]) false).on = 0b10#8 := by decide +kernel

/-! ### Defects -/

/-- Igniting a second blade while the first one waits for its pre-on sound: the first
    never comes on. -/
theorem C82_second_counterexample :
    (run (St.init 8) [.on 0b10#8 false, .on 0b100#8 false, .preonOver, .preonOver]).on = 0b100#8 := by
  decide +kernel

/-- Turning off a blade which waits for its pre-on sound turns off the others too, and a
    lockup goes on. -/
theorem C82_cancel_counterexample :
    (run (St.init 8) [.on 0b10#8 false, .preonOver, .lockup true, .on 0b100#8 false, .off 0b100#8]).on = 0#8 ∧
    (run (St.init 8) [.on 0b10#8 false, .preonOver, .lockup true, .on 0b100#8 false,
      .off 0b100#8]).lockup = true := by decide +kernel

/-- Switching presets while one blade waits for its pre-on sound turns on all blades. -/
theorem C82_preset_counterexample :
    (run (St.init 8) [.on 0b10#8 false, .setPreset false]).on = BitVec.allOnes 8 := by decide +kernel

/-- The command `cd` (or choosing a font in the menu) during the pre-on sound loses the
    ignition: the prop counts as on for ever but the blade never lights. -/
theorem C82_cd_counterexample :
    isOn (preonOver (chdir (run (St.init 8) [.on 0b10#8 false]))) = true ∧
    (preonOver (chdir (run (St.init 8) [.on 0b10#8 false]))).on = 0#8 := by decide +kernel

end Verif.Prop.Ignition
