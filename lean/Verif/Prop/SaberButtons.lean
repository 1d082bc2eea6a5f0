/-
  The buttons of the standard saber: props/saber.h:42-241 (`Saber::Event2`), for one or two
  buttons, with the code in between: buttons/button_base.h:49-119 (`Send`, `SendClick`,
  `Loop`), props/prop_base.h:130-189 (`IsOn`, `On`, `SB_On`, `Off`), 212-227 (`Clash2`),
  1057-1063 (`LowBatteryOff`), 1735-1757 (`Event`), common/events.h:5-41, 125 (buttons,
  `EVENTID`).

  What is done (turning on, effects, presets, tracks) appears as a list of actions.  A
  press and a release are single operations here; that debouncing and polling turn
  contacts into such presses is C33 and C34, when a contact of the blade is a clash is
  C80.  Not modelled: latching buttons, blade detect, zero buttons, MENU_SPEC_TEMPLATE
  (the double click of AUX), muting (C81: only the request appears), sounds off
  (`On` waits for the pre-on sound).  While a menu is open it gets the events; whether
  it takes one is an arbitrary function.
-/
namespace Verif.Prop.SaberButtons

/-! ## Model -/

/-- BUTTON_NONE, BUTTON_POWER, BUTTON_AUX (events.h:6-8) -/
inductive B
  | none | power | aux
  deriving DecidableEq, Repr

/-- SaberBase::LockupType, those used here -/
inductive Lk
  | none | normal | drag | melt | lightning
  deriving DecidableEq, Repr

/-- What the prop makes happen. -/
inductive Act
  | ignite | retract | cancelPreon | force | blast | clash | stab
  | beginLockup (l : Lk) | endLockup
  | nextPreset | previousPreset | track | motion | colorMenu | mute
  deriving DecidableEq, Repr

/-- events.h:51-104: EVENT_PRESSED, EVENT_RELEASED, EVENT_HELD + k, EVENT_CLICK_SHORT,
    EVENT_SAVED_CLICK_SHORT, EVENT_CLICK_LONG; the counted ones are 8, 16, 24, 32 higher. -/
def pressed : Nat := 1
def released : Nat := 2
def held (k : Nat) : Nat := 3 + k
def clickShort : Nat := 6
def savedClickShort : Nat := 7
def clickLong : Nat := 8
def firstClickShort : Nat := 14
/-- EVENT_DOUBLE_CLICK = EVENT_SECOND_PRESSED (events.h:117) -/
def doubleClick : Nat := 17
def stabEv : Nat := 43
def twistEv : Nat := 46
def clashEv : Nat := 49

/-- Modifiers: BUTTON_POWER, BUTTON_AUX, MODE_ANY_BUTTON, MODE_ON. -/
structure M where
  power : Bool := false
  aux : Bool := false
  any : Bool := false
  on : Bool := false
  deriving DecidableEq, Repr

/-- Build options: NUM_BUTTONS == 1, DUAL_POWER_BUTTONS; the style can't be turned on and
    off (`NoOnOff`); what the open menu takes. -/
structure Cfg where
  one : Bool
  dual : Bool
  noOnOff : Bool
  menu : B → Nat → M → Bool

/-- `SaberBase::on_`, `on_pending_`, `lockup_`, `pointing_down_`, `aux_on_`, `activated_`,
    a menu is open, and the buttons in `current_modifiers`. -/
structure S where
  on : Bool := false
  pending : Bool := false
  lk : Lk := .none
  pointing : Bool := false
  auxOn : Bool := true
  activated : Nat := 0
  menu : Bool := false
  power : Bool := false
  aux : Bool := false
  deriving DecidableEq, Repr

/-- `PropBase::IsOn` (prop_base.h:130-132). -/
def isOn (s : S) : Bool := s.on || s.pending

/-- `EVENTID(button, event, modifiers)` (events.h:125) as a tuple: the event, the
    compressed button (NONE and POWER are both 0), the modifiers without the button. -/
def eid (b : B) (e : Nat) (m : M) : Nat × Nat × M :=
  (e, if b = .aux then 1 else 0,
   { m with power := m.power && decide (b ≠ .power), aux := m.aux && decide (b ≠ .aux) })

/-- `now - then` for `uint32_t` -/
def since (now start : Nat) : Nat := (now % 4294967296 + 4294967296 - start % 4294967296) % 4294967296

/-- `On()` (prop_base.h:134-144, 1798-1812) called at `now`. -/
def turnOn (c : Cfg) (s : S) (now : Nat) : S × List Act :=
  if s.on then (s, []) else if c.noOnOff then (s, [])
  else ({ s with pending := true, activated := now }, [.ignite])

/-- `Off()` (prop_base.h:156-189); no colour change mode is on while no menu is open. -/
def turnOff (s : S) : S × List Act :=
  if s.pending then ({ s with pending := false }, [.cancelPreon])
  else if !s.on then (s, [])
  else if s.lk = .none then ({ s with on := false }, [.retract])
  else ({ s with on := false, lk := .none }, [.endLockup, .retract])

/-- saber.h:44-49: the buttons are meant to be swapped. -/
def swap (c : Cfg) (s : S) (b : B) : B :=
  if c.dual && s.on && s.auxOn then
    let b := if b = .power then .aux else b
    if b = .aux then .power else b
  else b

/-- `Saber::Event2` (saber.h:42-241) at time `now`; `down`: `accel_.x < -0.15`.  `none`:
    not handled (nothing happened). -/
def ev2 (c : Cfg) (now : Nat) (down : Bool) (s : S) (b0 : B) (e : Nat) (m : M) : Option (S × List Act) :=
  let b := swap c s b0
  let is := fun (b' : B) (e' : Nat) (m' : M) => decide (eid b e m = eid b' e' m')
  if is .power pressed { on := true } || is .aux pressed { on := true } then
    some ({ s with pointing := down }, [])
  else if is .power clickShort {} then
    let s := { s with auxOn := false }
    some (turnOn c s now)
  else if is .aux clickShort {} then
    if c.dual then
      let s := { s with auxOn := true }
      some (turnOn c s now)
    else some (s, [.nextPreset])
  else if is .power doubleClick {} then
    if s.pending then some (s, [.mute]) else none
  else if is .power doubleClick { on := true } then
    some (s, if since now s.activated < 500 then [.mute] else [])
  else if is .power firstClickShort { on := true } then
    some (turnOff s)
  else if is .power clickLong { on := true } then some (s, [.force])
  else if is .aux clickShort { on := true } || is .aux doubleClick { on := true } then
    some (s, [.blast])
  else if (c.one && is .none twistEv { on := true, power := true }) ||
      is .power clickShort { on := true, aux := true } then
    some ({ s with menu := true }, [.colorMenu])
  else if is .none clashEv { on := true, power := true } || is .none clashEv { on := true, aux := true } then
    if s.lk = .none then
      let l := if s.pointing then .drag else .normal
      some ({ s with lk := l }, [.beginLockup l])
    else none
  else if is .aux clickShort { on := true, power := true } then
    some ({ s with lk := .lightning }, [.beginLockup .lightning])
  else if is .none stabEv { on := true, power := true } || is .none stabEv { on := true, aux := true } then
    if s.lk = .none then some ({ s with lk := .melt }, [.beginLockup .melt]) else none
  else if is .power clickLong {} then some (s, [.track])
  else if is .power pressed {} then some (s, [.motion])
  else if is .none clashEv { power := true } then some (s, [.nextPreset])
  else if is .power clickShort { aux := true } then some (s, [.previousPreset])
  else if is .power released { any := true, on := true } || is .aux released { any := true, on := true } then
    if s.lk = .none then none
    else some ({ s with lk := .none }, [.endLockup])
  else none

/-- `current_mode->mode_Event2`: the menu, if one is open, else the saber. -/
def modeEv2 (c : Cfg) (now : Nat) (down : Bool) (s : S) (b : B) (e : Nat) (m : M) : Option (S × List Act) :=
  if s.menu then (if c.menu b e m then some (s, []) else none) else ev2 c now down s b e m

/-- `PropBase::Event` (prop_base.h:1735-1757): with the modifiers, then with
    MODE_ANY_BUTTON; an event taken the first way uses up all modifiers. -/
def event (c : Cfg) (now : Nat) (down : Bool) (s : S) (b : B) (e : Nat) : S × List Act × Bool :=
  match modeEv2 c now down s b e { power := s.power, aux := s.aux, on := isOn s } with
  | some (s', a) => ({ s' with power := false, aux := false }, a, true)
  | none =>
    match modeEv2 c now down s b e { any := true, on := isOn s } with
    | some (s', a) =>
      ({ s' with power := s'.power && decide (b ≠ .power), aux := s'.aux && decide (b ≠ .aux) }, a, true)
    | none => (s, [], false)

/-- A button: is it down, `push_millis_`, `press_count_`, `saved_event_` (button_base.h). -/
structure Bt where
  down : Bool := false
  push : Nat := 0
  cnt : Nat := 0
  saved : Bool := false
  deriving DecidableEq, Repr

/-- `Send` (button_base.h:53-59): the counted event, then the plain one. -/
def send (c : Cfg) (now : Nat) (acc : Bool) (s : S) (b : B) (cnt e : Nat) : S × List Act × Bool :=
  let r := event c now acc s b (e + 8 * cnt)
  if r.2.2 then r
  else
    let q := event c now acc r.1 b e
    (q.1, r.2.1 ++ q.2.1, q.2.2)

/-- The prop and its two buttons. -/
structure W where
  s : S := {}
  p : Bt := {}
  a : Bt := {}
  deriving DecidableEq, Repr

def W.bt (w : W) (b : B) : Bt := if b = .aux then w.a else w.p
def W.setBt (w : W) (b : B) (x : Bt) : W := if b = .aux then { w with a := x } else { w with p := x }
/-- `current_modifiers & button` -/
def S.mod (s : S) (b : B) : Bool := if b = .aux then s.aux else s.power
def S.setMod (s : S) (b : B) (x : Bool) : S := if b = .aux then { s with aux := x } else { s with power := x }

/-- button_base.h:77-86: the button goes down. -/
def press (c : Cfg) (w : W) (b : B) (now : Nat) (acc : Bool) : W × List Act :=
  let x := w.bt b
  let cnt := if since now x.push < 500 then (if x.cnt < 4 then x.cnt + 1 else x.cnt) else 1
  let r := send c now acc w.s b cnt pressed
  (W.setBt { w with s := S.setMod r.1 b true } b ⟨true, now, cnt, false⟩, r.2.1)

/-- button_base.h:87-103: it is still down, and the `k`-th time limit has passed; nothing
    is sent once the modifier was used up. -/
def hold (c : Cfg) (w : W) (b : B) (k : Nat) (now : Nat) (acc : Bool) : W × List Act :=
  if w.s.mod b then
    let r := send c now acc w.s b (w.bt b).cnt (held k)
    ({ w with s := r.1 }, r.2.1)
  else (w, [])

/-- button_base.h:105-118: it goes up. -/
def release (c : Cfg) (w : W) (b : B) (now : Nat) (acc : Bool) : W × List Act :=
  let x := w.bt b
  let r := send c now acc w.s b x.cnt released
  if r.1.mod b then
    let s := S.setMod r.1 b false
    if since now x.push < 500 then
      let q := send c now acc s b x.cnt clickShort
      (W.setBt { w with s := q.1 } b { x with down := false, saved := !q.2.2 }, r.2.1 ++ q.2.1)
    else if since now x.push < 2500 then
      let q := send c now acc s b x.cnt clickLong
      (W.setBt { w with s := q.1 } b { x with down := false, saved := false }, r.2.1 ++ q.2.1)
    else (W.setBt { w with s := s } b { x with down := false, saved := false }, r.2.1)
  else
    (W.setBt { w with s := r.1 } b { x with down := false, push := now + 4294967296 - 10000, saved := false },
      r.2.1)

/-- button_base.h:70-74: the saved click, when no double click came. -/
def savedClick (c : Cfg) (w : W) (b : B) (now : Nat) (acc : Bool) : W × List Act :=
  let x := w.bt b
  if x.saved then
    let r := send c now acc w.s b x.cnt savedClickShort
    (W.setBt { w with s := r.1 } b { x with saved := false }, r.2.1)
  else (w, [])

/-- `Clash2` (prop_base.h:212-227). -/
def contact (c : Cfg) (w : W) (stab : Bool) (now : Nat) (acc : Bool) : W × List Act :=
  let r := event c now acc w.s .none (if stab then stabEv else clashEv)
  if r.2.2 then ({ w with s := r.1 }, r.2.1)
  else if r.1.on && decide (r.1.lk = .none) then
    ({ w with s := r.1 }, r.2.1 ++ [if stab then .stab else .clash])
  else ({ w with s := r.1 }, r.2.1)

/-- What can happen: buttons (only a button that is up can go down, and the other way
    round), the blade hitting something, a twist, the end of the pre-on sound, the
    battery running low, the menu being left. -/
inductive Op
  | press (b : B) (now : Nat) (acc : Bool)
  | hold (b : B) (k now : Nat) (acc : Bool)
  | release (b : B) (now : Nat) (acc : Bool)
  | saved (b : B) (now : Nat) (acc : Bool)
  | contact (stab : Bool) (now : Nat) (acc : Bool)
  | twist (now : Nat) (acc : Bool)
  | preonDone
  | lowBattery
  | leaveMenu
  deriving Repr

/-- One of them; buttons are POWER and AUX. -/
def step (c : Cfg) (w : W) : Op → W × List Act
  | .press b now acc => if b = .none ∨ (w.bt b).down then (w, []) else press c w b now acc
  | .hold b k now acc => if b = .none ∨ (w.bt b).down = false then (w, []) else hold c w b (k % 3) now acc
  | .release b now acc => if b = .none ∨ (w.bt b).down = false then (w, []) else release c w b now acc
  | .saved b now acc => if b = .none ∨ (w.bt b).down then (w, []) else savedClick c w b now acc
  | .contact stab now acc => contact c w stab now acc
  | .twist now acc =>
    let r := event c now acc w.s .none twistEv
    ({ w with s := r.1 }, r.2.1)
  | .preonDone =>
    ({ w with s := if w.s.pending then { w.s with pending := false, on := true } else w.s }, [])
  | .lowBattery =>
    if w.s.on then
      let r := turnOff w.s
      ({ w with s := r.1 }, r.2)
    else (w, [])
  | .leaveMenu => ({ w with s := { w.s with menu := false } }, [])

def run (c : Cfg) : W → List Op → W × List Act
  | w, [] => (w, [])
  | w, op :: ops =>
    let r := step c w op
    let q := run c r.1 ops
    (q.1, r.2 ++ q.2)

end Verif.Prop.SaberButtons
