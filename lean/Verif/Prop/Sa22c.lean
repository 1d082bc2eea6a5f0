import Mathlib.Tactic.Linarith
/-!
# The SA22C buttons (C117)

Model of `SaberSA22CButtons` (props/saber_sa22c_buttons.h:199-840) from the events to the actions: `Event2`, the parts of `Loop` for
swings and automatic lockups, the volume menu. An event comes with the other buttons held (`EVENTID` leaves out the button of
the event itself). Turning on is at once here (the delay of a preon is C16). The detection of thrust and push in `Loop` is given as
events.
-/
namespace Verif.Prop.Sa22c

inductive B | none | power | aux | aux2
  deriving DecidableEq

inductive E
  | pressed | released | clickShort1 | savedShort1 | savedShort2 | short3 | savedShort3 | long1
  | held1 | heldMedium1 | heldLong1 | held2 | held3 | clash | stab | swing | twist | thrust | push | other
  deriving DecidableEq

/-- The other buttons: none, power only, aux only, anything else, or the second call with `MODE_ANY_BUTTON`. -/
inductive Md | plain | power | aux | other | any
  deriving DecidableEq

inductive Lk | none | normal | drag | melt | lightning
  deriving DecidableEq

inductive Act
  | on | fastOn | off | beginLockup | endLockup | blast | multi (b : Bool) | force | next | prev | track | volume (v : Nat) | volumeEnd
  | battle (b : Bool) | menu (b : Bool) | color | battery | push | mute
  deriving DecidableEq

/-- The defines of the configuration. -/
structure Cfg where
  nb : Nat := 2
  noHold : Bool := false
  swingOn : Bool := false
  twistOn : Bool := false
  twistOff : Bool := false
  stabOn : Bool := false
  thrustOn : Bool := false
  forcePush : Bool := false
  autoBattle : Bool := false
  color : Bool := true
  volume : Nat := 1800

structure S where
  on : Bool := false
  lk : Lk := .none
  color : Bool := false
  pointing : Bool := false
  swingBlast : Bool := false
  volMode : Bool := false
  autoLock : Bool := false
  autoMelt : Bool := false
  battle : Bool := false
  swinging : Bool := false
  volume : Nat := 1800
  clashAt : Nat := 0
  lastTwist : Nat := 0
  lastPush : Nat := 0
  offTime : Nat := 0
  deriving DecidableEq

/-- What the sensors say at an event: time, `accel_.x < -0.15`, `fusor.angle1() < -M_PI/4`, whether muting works. -/
structure In where
  now : Nat
  down : Bool := false
  stabDown : Bool := false
  canMute : Bool := true

/-- The cases of `Event2`, props/saber_sa22c_buttons.h:360-787. -/
inductive Cmd
  | point | battle | autoLock | autoMelt | swingOn | twistOn | twistOff | gestureOn | push | power | longOff | auxClick | prev | muted
  | turnOff | forceOrColor | force | color | blast | multi | swing | lockup | lightning | melt | track | wake | menu | battery | release
  deriving DecidableEq

/-- The `case` labels, props/saber_sa22c_buttons.h:361-784. -/
def decode (c : Cfg) : Bool → E → B → Md → Option Cmd
  | true, .pressed, .power, .plain => some .point
  | true, .pressed, .aux, .plain => some .point
  | true, .pressed, .aux2, .plain => some .point
  | true, .held2, .aux2, .plain => if c.nb = 3 then some .battle else none
  | true, .held3, .power, .plain => if c.nb = 3 then none else some .battle
  | true, .clash, .none, .plain => some .autoLock
  | true, .stab, .none, .plain => some .autoMelt
  | false, .swing, .none, .plain => if c.swingOn then some .swingOn else none
  | false, .twist, .none, .plain => if c.twistOn then some .twistOn else none
  | true, .twist, .none, .plain => if c.twistOff then some .twistOff else none
  | false, .stab, .none, .plain => if c.stabOn then some .gestureOn else none
  | false, .thrust, .none, .plain => if c.thrustOn then some .gestureOn else none
  | true, .push, .none, .plain => if c.forcePush then some .push else none
  | false, .savedShort1, .power, .plain => some .power
  | false, .long1, .power, .plain => if c.nb = 1 then some .longOff else some .track
  | false, .clickShort1, .aux, .plain => some .auxClick
  | false, .clickShort1, .aux2, .plain => if c.nb = 3 then some .prev else none
  | false, .heldLong1, .power, .plain => if c.nb = 3 then none else some .prev
  | false, .held2, .power, .plain => some .muted
  | true, .heldMedium1, .power, .plain => if c.nb > 1 then some .turnOff else none
  | true, .heldLong1, .power, .plain => if c.nb > 1 then none else some .turnOff
  | true, .twist, .none, .power => if c.nb = 1 then some .forceOrColor else none
  | true, .savedShort2, .power, .plain => if c.nb = 1 then some .blast else some .force
  | true, .clickShort1, .aux, .power => if c.nb ≠ 1 ∧ c.color = true then some .color else none
  | true, .savedShort1, .power, .plain => if c.nb = 1 then some .blast else none
  | true, .short3, .power, .plain => if c.nb = 1 then some .blast else none
  | true, .savedShort1, .aux, .plain => if c.nb = 1 then none else some .blast
  | true, .savedShort2, .aux, .plain => if c.nb = 1 then none else some .blast
  | true, .short3, .aux, .plain => if c.nb = 1 then none else some .blast
  | true, .swing, .none, .power => if c.nb = 1 then some .multi else none
  | true, .held2, .aux, .plain => if c.nb ≠ 1 ∧ c.noHold = false then some .multi else none
  | true, .swing, .none, .aux => if c.nb ≠ 1 ∧ c.noHold = true then some .multi else none
  | true, .swing, .none, .plain => some .swing
  | true, .clash, .none, .power => if c.nb = 1 then some .lockup else none
  | true, .held1, .aux, .plain => if c.nb ≠ 1 ∧ c.noHold = false then some .lockup else none
  | true, .clash, .none, .aux => if c.nb ≠ 1 ∧ c.noHold = true then some .lockup else none
  | true, .held2, .power, .plain => if c.nb < 3 then some .lightning else none
  | true, .held1, .aux2, .plain => if c.nb < 3 then none else some .lightning
  | true, .stab, .none, .power => some .melt
  | false, .savedShort2, .power, .plain => if c.nb = 1 then some .track else none
  | false, .pressed, .power, .plain => some .wake
  | false, .pressed, .aux, .plain => some .wake
  | false, .pressed, .aux2, .plain => some .wake
  | false, .clash, .none, .power => if c.nb = 1 then some .menu else none
  | false, .long1, .aux, .plain => if c.nb = 1 then none else some .menu
  | false, .savedShort3, .power, .plain => if c.nb = 1 then some .battery else none
  | false, .heldLong1, .aux, .plain => if c.nb = 1 then none else some .battery
  | true, .released, .power, .any => some .release
  | true, .released, .aux, .any => some .release
  | true, .released, .aux2, .any => some .release
  | _, _, _, _ => none

/-- `millis() - t`. -/
def since (now t : Nat) : Nat := (now % 4294967296 + 4294967296 - t % 4294967296) % 4294967296

/-- `VolumeUp`, props/saber_sa22c_buttons.h:271-320, without `VOLUME_MENU_CYCLE`; ten times the volume is computed exactly
and the result cut by `std::min<int>`. -/
def volUp (c : Cfg) (v : Nat) : Option Nat := if v < c.volume then some (min (11 * c.volume / 10) ((10 * v + c.volume) / 10)) else none

/-- `VolumeDown`, props/saber_sa22c_buttons.h:322-364. -/
def volDown (c : Cfg) (v : Nat) : Option Nat := if 10 * v > c.volume then some (max (c.volume / 10) ((10 * v - c.volume) / 10)) else none

def setVol (s : S) : Option Nat → S × List Act
  | some v => ({ s with volume := v }, [.volume v])
  | none => (s, [.volumeEnd])

/-- `PropBase::Off`, props/prop_base.h:156-189. -/
def turnOff (s : S) : S × List Act :=
  ({ s with on := false, lk := .none, color := false },
   (if s.lk = .none then [] else [Act.endLockup]) ++ (if s.color then [Act.color] else []) ++ [Act.off])

def beginLk (s : S) (l : Lk) : S := { s with lk := l }

/-- The bodies of the cases; `none` is `return false`. -/
def exec (c : Cfg) (i : In) (s : S) : Cmd → Option (S × List Act)
  | .point => some ({ s with pointing := i.down }, [])
  | .battle => some ({ s with battle := !s.battle }, [.battle (!s.battle)])
  | .autoLock =>
    if s.battle = false then none
    else if s.swinging then none
    else some ({ s with clashAt := i.now, swingBlast := false, lk := .normal, autoLock := true }, [.beginLockup])
  | .autoMelt =>
    if s.battle = false then none
    else if s.swinging then some ({ s with clashAt := i.now, swingBlast := false }, [])
    else some ({ s with clashAt := i.now, swingBlast := false, lk := if i.stabDown then .drag else .melt, autoMelt := true }, [.beginLockup])
  | .swingOn => some (if i.now % 4294967296 > 3000 then ({ s with on := true, battle := s.battle || c.autoBattle }, [.fastOn]) else (s, []))
  | .twistOn => some (if since i.now s.lastTwist > 2000 ∧ since i.now s.offTime > 1000 then
      ({ s with on := true, battle := s.battle || c.autoBattle, lastTwist := i.now }, [.fastOn]) else (s, []))
  | .twistOff => some (if since i.now s.lastTwist > 3000 then
      ({ (turnOff s).1 with lastTwist := i.now, offTime := i.now, battle := false }, (turnOff s).2) else (s, []))
  | .gestureOn => some (if since i.now s.offTime > 1000 then ({ s with on := true, battle := s.battle || c.autoBattle }, [.fastOn]) else (s, []))
  | .push => some (if s.battle = true ∧ since i.now s.lastPush > 2000 then ({ s with lastPush := i.now }, [.push]) else (s, []))
  | .power => some (if s.volMode then setVol s (volUp c s.volume) else ({ s with on := true }, [.on]))
  | .longOff => some (if s.volMode then setVol s (volDown c s.volume) else (s, [.next]))
  | .auxClick => some (if s.volMode then setVol s (volDown c s.volume) else (s, [.next]))
  | .prev => some (if s.volMode then (s, []) else (s, [.prev]))
  | .muted => some (if i.canMute then ({ s with on := true }, [.mute, .on]) else (s, []))
  | .turnOff =>
    if s.lk = .none then
      if s.color then some ({ s with color := false }, [.color])
      else if s.battle then some ({ s with offTime := i.now, battle := false, swingBlast := false }, [])
      else some ({ (turnOff s).1 with offTime := i.now, battle := false, swingBlast := false }, (turnOff s).2)
    else some ({ s with offTime := i.now, battle := false, swingBlast := false }, [])
  | .forceOrColor => some (if c.color = true ∧ i.down = true then ({ s with color := !s.color }, [.color]) else (s, [.force]))
  | .force => some (s, [.force])
  | .color => some ({ s with color := !s.color }, [.color])
  | .blast => some ({ s with swingBlast := false }, [.blast])
  | .multi => some ({ s with swingBlast := !s.swingBlast }, [.multi (!s.swingBlast)])
  | .swing => some (s, if s.swingBlast then [.blast] else [])
  | .lockup =>
    if s.lk = .none ∧ s.battle = false then
      some ({ s with lk := if s.pointing then .drag else .normal, swingBlast := false }, [.beginLockup])
    else none
  | .lightning => if s.battle = false then some ({ s with lk := .lightning, swingBlast := false }, [.beginLockup]) else none
  | .melt => if s.lk = .none ∧ s.battle = false then some ({ s with lk := .melt, swingBlast := false }, [.beginLockup]) else none
  | .track => some (s, [.track])
  | .wake => some (s, [])
  | .menu => some ({ s with volMode := !s.volMode }, [.menu (!s.volMode)])
  | .battery => some (s, [.battery])
  | .release => if s.lk = .none then none else some ({ s with lk := .none }, [.endLockup])

/-- `clash_impact_millis_` and `swing_blast_` are set in battle mode also when the clash is not handled
(props/saber_sa22c_buttons.h:398-402). -/
def after (i : In) (s : S) : Option Cmd → S
  | some .autoLock => if s.battle = true then { s with clashAt := i.now, swingBlast := false } else s
  | _ => s

/-- `PropBase::Event`, props/prop_base.h:1732-1757: first with the other buttons held, then with any; true if handled. -/
def event (c : Cfg) (i : In) (s : S) (b : B) (e : E) (m : Md) : S × List Act × Bool :=
  match (decode c s.on e b m).bind (exec c i s) with
  | some (s', a) => (s', a, true)
  | none =>
    match (decode c s.on e b .any).bind (exec c i (after i s (decode c s.on e b m))) with
    | some (s', a) => (s', a, true)
    | none => (after i s (decode c s.on e b m), [], false)

/-- The part of `Loop` that ends automatic lockups, props/saber_sa22c_buttons.h:211-228. -/
def autoEnd (i : In) (speed : Nat) (s : S) : S × List Act :=
  if s.autoLock = true ∧ s.swinging = false ∧ speed > 120 ∧ since i.now s.clashAt > 200 ∧ s.lk ≠ .none then
    ({ s with lk := .none, autoLock := false }, [.endLockup])
  else if s.autoMelt = true ∧ s.swinging = false ∧ speed > 60 ∧ since i.now s.clashAt > 200 ∧ s.lk ≠ .none then
    ({ s with lk := .none, autoMelt := false }, [.endLockup])
  else (s, [])

/-- The beginning of `DetectSwing`, props/prop_base.h:1003-1007. -/
def detect (c : Cfg) (i : In) (speed : Nat) (m : Md) (s : S) : S × List Act :=
  if s.swinging = false ∧ speed > 250 then
    ((event c i { s with swinging := true } .none .swing m).1, (event c i { s with swinging := true } .none .swing m).2.1)
  else (s, [])

/-- The end of it, props/prop_base.h:1008-1010. -/
def calm (speed : Nat) (s : S) : S := if s.swinging = true ∧ speed < 100 then { s with swinging := false } else s

/-- `Loop` while on, props/saber_sa22c_buttons.h:207-228. -/
def loopOn (c : Cfg) (i : In) (speed : Nat) (m : Md) (s : S) : S × List Act :=
  ((autoEnd i speed (calm speed (detect c i speed m s).1)).1, (detect c i speed m s).2 ++ (autoEnd i speed (calm speed (detect c i speed m s).1)).2)

inductive Op
  | event (i : In) (b : B) (e : E) (m : Md)
  | loop (i : In) (speed : Nat) (m : Md)
  /-- Turned off by something else: a command, the blade taken out, another preset. -/
  | off

def step (c : Cfg) (s : S) : Op → S × List Act
  | .event i b e m => ((event c i s b e m).1, (event c i s b e m).2.1)
  | .loop i speed m => if s.on then loopOn c i speed m s else (s, [])
  | .off => if s.on then turnOff s else (s, [])

def run (c : Cfg) (s : S) (ops : List Op) : S := ops.foldl (fun s o => (step c s o).1) s

/-! ## Claims -/

/-- What an event may do. -/
theorem event_cases (c : Cfg) (i : In) (s : S) (b : B) (e : E) (m : Md) (P : S × List Act × Bool → Prop)
    (h1 : ∀ cmd r, decode c s.on e b m = some cmd → exec c i s cmd = some r → P (r.1, r.2, true))
    (h2 : ∀ cmd r, decode c s.on e b .any = some cmd → exec c i (after i s (decode c s.on e b m)) cmd = some r → P (r.1, r.2, true))
    (h3 : P (after i s (decode c s.on e b m), [], false)) : P (event c i s b e m) := by
  unfold event
  cases hd : (decode c s.on e b m).bind (exec c i s) with
  | some r =>
    obtain ⟨cmd, e1, e2⟩ := Option.bind_eq_some_iff.1 hd
    exact h1 cmd r e1 e2
  | none =>
    simp only
    cases hd2 : (decode c s.on e b .any).bind (exec c i (after i s (decode c s.on e b m))) with
    | some r =>
      obtain ⟨cmd, e1, e2⟩ := Option.bind_eq_some_iff.1 hd2
      exact h2 cmd r e1 e2
    | none => exact h3

theorem decode_any {c : Cfg} {on : Bool} {e : E} {b : B} {cmd : Cmd} (h : decode c on e b .any = some cmd) :
    cmd = .release ∧ e = .released ∧ b ≠ .none ∧ on = true := by
  cases on <;> cases e <;> cases b <;> simp_all [decode]

theorem after_lk (i : In) (s : S) (o : Option Cmd) : (after i s o).lk = s.lk ∧ (after i s o).on = s.on ∧ (after i s o).battle = s.battle ∧
    (after i s o).color = s.color ∧ (after i s o).volume = s.volume ∧ (after i s o).volMode = s.volMode ∧ (after i s o).lastPush = s.lastPush := by
  unfold after
  split
  · split <;> simp
  · simp

/-- Letting go of a button ends any lockup, whatever other buttons are held. -/
theorem C117_release (c : Cfg) (i : In) (s : S) (b : B) (m : Md) (hb : b ≠ .none) (hon : s.on = true) (hl : s.lk ≠ .none) :
    (event c i s b .released m).1.lk = .none ∧ (event c i s b .released m).2.1 = [.endLockup] := by
  have hd : decode c s.on .released b .any = some .release := by rw [hon]; cases b <;> simp_all [decode]
  have hm : decode c s.on .released b m = none ∨ decode c s.on .released b m = some .release := by
    rw [hon]; cases b <;> cases m <;> simp [decode]
  have hx : exec c i s .release = some ({ s with lk := .none }, [.endLockup]) := if_neg hl
  have ha : after i s (decode c s.on .released b m) = s := by rcases hm with h | h <;> rw [h] <;> rfl
  rcases hm with h | h
  · unfold event
    rw [ha, h, hd]
    simp only [Option.bind_none, Option.bind_some, hx]
    exact ⟨trivial, trivial⟩
  · unfold event
    rw [h]
    simp only [Option.bind_some, hx]
    exact ⟨trivial, trivial⟩

theorem exec_begin {c : Cfg} {i : In} {s s' : S} {cmd : Cmd} {a : List Act} (hx : exec c i s cmd = some (s', a)) (h : Act.beginLockup ∈ a) :
    ((cmd = .autoLock ∨ cmd = .autoMelt) ∧ s.battle = true ∧ s.swinging = false) ∨
    ((cmd = .lockup ∨ cmd = .lightning ∨ cmd = .melt) ∧ s.battle = false) := by
  cases cmd <;> simp only [exec, setVol, turnOff, Option.some.injEq, Prod.mk.injEq] at hx <;> (repeat' split at hx) <;> simp_all
  all_goals (try (obtain ⟨_, rfl⟩ := hx)) <;> simp_all

/-- The hold that turns the saber off: medium with more than one button, long with one. -/
def hold (c : Cfg) : E := if c.nb > 1 then .heldMedium1 else .heldLong1

set_option maxHeartbeats 2000000 in
theorem decode_spec {c : Cfg} {on : Bool} {e : E} {b : B} {m : Md} {cmd : Cmd} (h : decode c on e b m = some cmd) :
    (cmd = .autoLock ∨ cmd = .autoMelt → b = .none ∧ (e = .clash ∨ e = .stab) ∧ m = .plain) ∧
    (cmd = .turnOff → e = hold c ∧ b = .power ∧ m = .plain ∧ on = true) ∧
    (cmd = .twistOff → c.twistOff = true ∧ e = .twist ∧ b = .none ∧ m = .plain ∧ on = true) ∧
    (cmd = .push → e = .push ∧ on = true) := by
  unfold hold
  cases on <;> cases e <;> cases b <;> cases m <;>
    first
      | (cases h; done)
      | (cases h; simp; done)
      | (simp only [decode] at h; split at h <;> cases h <;> simp_all)

/-- In battle mode a button never begins a lockup: only a clash or a stab with no button held, and not during a swing. -/
theorem C117_battle (c : Cfg) (i : In) (s : S) (b : B) (e : E) (m : Md) (hbt : s.battle = true) (h : Act.beginLockup ∈ (event c i s b e m).2.1) :
    b = .none ∧ (e = .clash ∨ e = .stab) ∧ m = .plain ∧ s.swinging = false := by
  revert h
  refine event_cases c i s b e m (fun r => Act.beginLockup ∈ r.2.1 → b = .none ∧ (e = .clash ∨ e = .stab) ∧ m = .plain ∧ s.swinging = false) ?_ ?_ ?_
  · intro cmd r hd hx h
    rcases exec_begin (s' := r.1) (a := r.2) hx h with ⟨h1, h2, h3⟩ | ⟨h1, h2⟩
    · obtain ⟨a1, a2, a3⟩ := (decode_spec hd).1 h1
      exact ⟨a1, a2, a3, h3⟩
    · rw [hbt] at h2; simp at h2
  · intro cmd r hd hx h
    rcases exec_begin (s' := r.1) (a := r.2) hx h with ⟨h1, h2, h3⟩ | ⟨h1, h2⟩
    · have := (decode_any hd).1
      subst this; simp at h1
    · rw [(after_lk i s _).2.2.1, hbt] at h2; simp at h2
  · intro h; simp at h

/-- And it does: in battle mode a clash without a button, not in a swing, begins one. -/
theorem C117_clash (c : Cfg) (i : In) (s : S) (hbt : s.battle = true) (hon : s.on = true) (hs : s.swinging = false) :
    (event c i s .none .clash .plain).2.1 = [.beginLockup] ∧ (event c i s .none .clash .plain).1.lk = .normal ∧
    (event c i s .none .clash .plain).1.swingBlast = false := by
  have hd : decode c s.on .clash .none .plain = some .autoLock := by rw [hon]; rfl
  unfold event
  rw [hd]
  simp [exec, hbt, hs]

theorem decode_hold (c : Cfg) : decode c true (hold c) .power .plain = some .turnOff := by
  unfold hold
  by_cases h : c.nb > 1
  · rw [if_pos h]; simp [decode, h]
  · rw [if_neg h]; simp [decode, h]

theorem exec_off {c : Cfg} {i : In} {s s' : S} {cmd : Cmd} {a : List Act} (hx : exec c i s cmd = some (s', a)) (h : Act.off ∈ a) :
    (cmd = .turnOff ∧ s.lk = .none ∧ s.color = false ∧ s.battle = false) ∨ (cmd = .twistOff ∧ since i.now s.lastTwist > 3000) := by
  cases cmd <;> simp only [exec, setVol, turnOff, Option.some.injEq, Prod.mk.injEq] at hx <;> (repeat' split at hx) <;> simp_all
  all_goals (try (obtain ⟨_, rfl⟩ := hx)) <;> simp_all

/-- Nothing but a hold of the power button, out of lockups, colour change and battle mode, or a twist if chosen, turns the saber off. -/
theorem C117_off (c : Cfg) (i : In) (s : S) (b : B) (e : E) (m : Md) (h : Act.off ∈ (event c i s b e m).2.1) :
    (b = .power ∧ e = hold c ∧ m = .plain ∧ s.lk = .none ∧ s.color = false ∧ s.battle = false) ∨
    (c.twistOff = true ∧ b = .none ∧ e = .twist ∧ m = .plain ∧ since i.now s.lastTwist > 3000) := by
  revert h
  refine event_cases c i s b e m (fun r => Act.off ∈ r.2.1 →
    (b = .power ∧ e = hold c ∧ m = .plain ∧ s.lk = .none ∧ s.color = false ∧ s.battle = false) ∨
    (c.twistOff = true ∧ b = .none ∧ e = .twist ∧ m = .plain ∧ since i.now s.lastTwist > 3000)) ?_ ?_ ?_
  · intro cmd r hd hx h
    have hh := (decode_spec hd).2
    rcases exec_off (s' := r.1) (a := r.2) hx h with ⟨h1, h2⟩ | ⟨h1, h2⟩
    · obtain ⟨a1, a2, a3, a4⟩ := hh.1 h1
      exact Or.inl ⟨a2, a1, a3, h2⟩
    · obtain ⟨a1, a2, a3, a4, a5⟩ := hh.2.1 h1
      exact Or.inr ⟨a1, a3, a2, a4, h2⟩
  · intro cmd r hd hx h
    have := (decode_any hd).1
    subst this
    rcases exec_off (s' := r.1) (a := r.2) hx h with ⟨h1, h2⟩ | ⟨h1, h2⟩ <;> simp at h1
  · intro h; simp at h

/-- Press long enough, let go. -/
def holds (c : Cfg) (i j : In) (s : S) : S := (event c j (event c i s .power (hold c) .plain).1 .power .released .plain).1

theorem event_hold (c : Cfg) (i : In) (s : S) (hon : s.on = true) :
    (event c i s .power (hold c) .plain).1 =
      if s.lk = .none then
        if s.color then { s with color := false }
        else if s.battle then { s with offTime := i.now, battle := false, swingBlast := false }
        else { s with on := false, offTime := i.now, battle := false, swingBlast := false, lk := .none, color := false }
      else { s with offTime := i.now, battle := false, swingBlast := false } := by
  unfold event
  rw [hon, decode_hold]
  simp only [Option.bind_some, exec, turnOff]
  by_cases h1 : s.lk = .none
  · by_cases h2 : s.color = true
    · simp [h1, h2, hon]
    · by_cases h3 : s.battle = true
      · simp [h1, h2, h3, hon]
      · simp [h1, h2, h3]
  · simp [h1, hon]

theorem holds_on (c : Cfg) (i j : In) (s : S) (hon : s.on = true) :
    (s.lk ≠ .none → (holds c i j s).on = true ∧ (holds c i j s).lk = .none ∧ (holds c i j s).battle = false ∧ (holds c i j s).color = s.color) ∧
    (s.lk = .none → s.color = true → (holds c i j s).on = true ∧ (holds c i j s).lk = .none ∧ (holds c i j s).battle = s.battle ∧ (holds c i j s).color = false) ∧
    (s.lk = .none → s.color = false → s.battle = true → (holds c i j s).on = true ∧ (holds c i j s).lk = .none ∧ (holds c i j s).battle = false ∧ (holds c i j s).color = false) ∧
    (s.lk = .none → s.color = false → s.battle = false → (holds c i j s).on = false) := by
  unfold holds
  rw [event_hold c i s hon]
  refine ⟨fun h => ?_, fun h1 h2 => ?_, fun h1 h2 h3 => ?_, fun h1 h2 h3 => ?_⟩
  · rw [if_neg h]
    simp [event, decode, hon, exec, h, after]
  · rw [if_pos h1, if_pos h2]
    simp [event, decode, hon, exec, h1, after]
  · rw [if_pos h1, if_neg (by simp [h2]), if_pos h3]
    simp [event, decode, hon, exec, h1, h2, after]
  · rw [if_pos h1, if_neg (by simp [h2]), if_neg (by simp [h3])]
    simp [event, decode, after]

/-- Three holds always suffice to turn the saber off, whatever lockup, menu or battle mode it is in. -/
theorem C117_three_holds (c : Cfg) (i1 j1 i2 j2 i3 j3 : In) (s : S) (hon : s.on = true) :
    (holds c i1 j1 s).on = false ∨ (holds c i2 j2 (holds c i1 j1 s)).on = false ∨ (holds c i3 j3 (holds c i2 j2 (holds c i1 j1 s))).on = false := by
  obtain ⟨a1, a2, a3, a4⟩ := holds_on c i1 j1 s hon
  by_cases h1 : s.lk = .none
  · by_cases h2 : s.color = true
    · obtain ⟨b1, b2, b3, b4⟩ := a2 h1 h2
      obtain ⟨c1, c2, c3, c4⟩ := holds_on c i2 j2 (holds c i1 j1 s) b1
      by_cases h3 : s.battle = true
      · obtain ⟨d1, d2, d3, d4⟩ := c3 b2 b4 (b3.trans h3)
        exact Or.inr (Or.inr ((holds_on c i3 j3 _ d1).2.2.2 d2 d4 d3))
      · exact Or.inr (Or.inl (c4 b2 b4 (b3.trans (by simpa using h3))))
    · have h2' : s.color = false := by simpa using h2
      by_cases h3 : s.battle = true
      · obtain ⟨b1, b2, b3, b4⟩ := a3 h1 h2' h3
        exact Or.inr (Or.inl ((holds_on c i2 j2 _ b1).2.2.2 b2 b4 b3))
      · exact Or.inl (a4 h1 h2' (by simpa using h3))
  · obtain ⟨b1, b2, b3, b4⟩ := a1 h1
    obtain ⟨c1, c2, c3, c4⟩ := holds_on c i2 j2 (holds c i1 j1 s) b1
    by_cases h2 : s.color = true
    · obtain ⟨d1, d2, d3, d4⟩ := c2 b2 (b4.trans h2)
      exact Or.inr (Or.inr ((holds_on c i3 j3 _ d1).2.2.2 d2 d4 (d3.trans b3)))
    · exact Or.inr (Or.inl (c4 b2 (b4.trans (by simpa using h2)) b3))

/-- A swing without a button blasts exactly when multi blast is on, and then once. -/
theorem C117_swing (c : Cfg) (i : In) (speed : Nat) (s : S) (hon : s.on = true) :
    (detect c i speed .plain s).2 = (if s.swinging = false ∧ speed > 250 ∧ s.swingBlast = true then [.blast] else []) ∧
    (s.swinging = true → (detect c i speed .plain s).1 = s) ∧ (250 < speed → (detect c i speed .plain s).1.swinging = true) := by
  unfold detect
  by_cases h : s.swinging = false ∧ speed > 250
  · rw [if_pos h]
    have hd : event c i { s with swinging := true } .none .swing .plain =
        ({ s with swinging := true }, (if s.swingBlast then [.blast] else []), true) := by
      simp [event, decode, hon, exec]
    rw [hd]
    obtain ⟨h1, h2⟩ := h
    simp [h1, h2]
  · rw [if_neg h]
    refine ⟨?_, fun _ => rfl, fun hs => ?_⟩
    · rw [if_neg (fun x => h ⟨x.1, x.2.1⟩)]
    · cases hw : s.swinging
      · exact absurd ⟨hw, hs⟩ h
      · rfl

/-- Frames in which the saber is held still. -/
def still (c : Cfg) (m : Md) (s : S) (fs : List (In × Nat)) : S × List Act :=
  fs.foldl (fun r f => ((loopOn c f.1 f.2 m r.1).1, r.2 ++ (loopOn c f.1 f.2 m r.1).2)) (s, [])

theorem loop_still (c : Cfg) (m : Md) (s : S) (i : In) (v : Nat) (hs : s.swinging = false) (hv : v ≤ 60) : loopOn c i v m s = (s, []) := by
  have h1 : detect c i v m s = (s, []) := if_neg (by omega)
  have h2 : calm v s = s := if_neg (by simp [hs])
  have h3 : autoEnd i v s = (s, []) := by
    unfold autoEnd
    rw [if_neg (by omega), if_neg (by omega)]
  unfold loopOn
  rw [h1]
  simp only [h2, h3, List.append_nil]

/-- A lockup lasts while the saber is held still, however long; it ends by itself when it is moved, but never within 200 ms. -/
theorem C117_auto (c : Cfg) (m : Md) (s : S) (hs : s.swinging = false) :
    (∀ fs : List (In × Nat), (∀ f ∈ fs, f.2 ≤ 60) → still c m s fs = (s, [])) ∧
    (∀ i v, 120 < v → v ≤ 250 → s.autoLock = true → s.lk ≠ .none → 200 < since i.now s.clashAt →
      loopOn c i v m s = ({ s with lk := .none, autoLock := false }, [.endLockup])) ∧
    (∀ i v, v ≤ 250 → Act.endLockup ∈ (loopOn c i v m s).2 → 200 < since i.now s.clashAt ∧ s.lk ≠ .none ∧
      ((s.autoLock = true ∧ 120 < v) ∨ (s.autoMelt = true ∧ 60 < v))) := by
  refine ⟨fun fs h => ?_, fun i v h1 h2 ha hl ht => ?_, fun i v hv h => ?_⟩
  · induction fs with
    | nil => rfl
    | cons f t ih =>
      have : still c m s (f :: t) = still c m s t := by
        unfold still
        rw [List.foldl_cons, loop_still c m s f.1 f.2 hs (h f (by simp))]
        simp
      rw [this]
      exact ih (fun x hx => h x (List.mem_cons_of_mem _ hx))
  · have e1 : detect c i v m s = (s, []) := if_neg (by omega)
    have e2 : calm v s = s := if_neg (by simp [hs])
    have e3 : autoEnd i v s = ({ s with lk := .none, autoLock := false }, [.endLockup]) := if_pos ⟨ha, hs, h1, ht, hl⟩
    unfold loopOn
    rw [e1]
    simp only [e2, e3, List.nil_append]
  · have e1 : detect c i v m s = (s, []) := if_neg (by omega)
    have e2 : calm v s = s := if_neg (by simp [hs])
    unfold loopOn at h
    rw [e1] at h
    simp only [e2, List.nil_append] at h
    unfold autoEnd at h
    split at h
    · rename_i q; exact ⟨q.2.2.2.1, q.2.2.2.2, Or.inl ⟨q.1, q.2.2.1⟩⟩
    · split at h
      · rename_i q; exact ⟨q.2.2.2.1, q.2.2.2.2, Or.inr ⟨q.1, q.2.2.1⟩⟩
      · simp at h

/-- The volume stays within a tenth of the configured one and a tenth above it. -/
def VolOk (c : Cfg) (s : S) : Prop := c.volume / 10 ≤ s.volume ∧ s.volume ≤ 11 * c.volume / 10

theorem exec_vol {c : Cfg} {i : In} {s s' : S} {cmd : Cmd} {a : List Act} (hx : exec c i s cmd = some (s', a)) (h : VolOk c s) : VolOk c s' := by
  have up : VolOk c (setVol s (volUp c s.volume)).1 := by
    unfold volUp
    split
    · unfold VolOk setVol; simp only; unfold VolOk at h; omega
    · exact h
  have down : VolOk c (setVol s (volDown c s.volume)).1 := by
    unfold volDown
    split
    · unfold VolOk setVol; simp only; unfold VolOk at h; omega
    · exact h
  cases cmd <;> simp only [exec, turnOff, Option.some.injEq] at hx <;> (repeat' split at hx) <;>
    first
      | (cases hx; done)
      | (cases hx; exact h)
      | (rw [hx] at up; exact up)
      | (rw [hx] at down; exact down)

theorem event_vol (c : Cfg) (i : In) (s : S) (b : B) (e : E) (m : Md) (h : VolOk c s) : VolOk c (event c i s b e m).1 := by
  have ha : VolOk c (after i s (decode c s.on e b m)) := by
    unfold VolOk; rw [(after_lk i s _).2.2.2.2.1]; exact h
  apply event_cases c i s b e m (fun r => VolOk c r.1)
  · intro cmd r _ hx; exact exec_vol (s' := r.1) (a := r.2) hx h
  · intro cmd r _ hx; exact exec_vol (s' := r.1) (a := r.2) hx ha
  · exact ha

theorem autoEnd_vol (c : Cfg) (i : In) (v : Nat) (s : S) (h : VolOk c s) : VolOk c (autoEnd i v s).1 := by
  unfold autoEnd
  split
  · exact h
  · split <;> exact h

theorem calm_vol (c : Cfg) (v : Nat) (s : S) (h : VolOk c s) : VolOk c (calm v s) := by
  unfold calm; split <;> exact h

theorem step_vol (c : Cfg) (s : S) (o : Op) (h : VolOk c s) : VolOk c (step c s o).1 := by
  cases o with
  | event i b e m => exact event_vol c i s b e m h
  | loop i v m =>
    unfold step
    simp only
    split
    · unfold loopOn
      apply autoEnd_vol
      apply calm_vol
      unfold detect
      split
      · exact event_vol c i _ _ _ _ h
      · exact h
    · exact h
  | off =>
    unfold step
    simp only
    split
    · exact h
    · exact h

/-- Whatever happens, the volume stays between a tenth of the configured volume and a tenth above it; and only in its menu is it changed. -/
theorem C117_volume (c : Cfg) (s : S) (ops : List Op) (h : VolOk c s) : VolOk c (run c s ops) := by
  unfold run
  induction ops generalizing s with
  | nil => exact h
  | cons o t ih => exact ih (step c s o).1 (step_vol c s o h)

theorem exec_menu {c : Cfg} {i : In} {s s' : S} {cmd : Cmd} {a : List Act} (hx : exec c i s cmd = some (s', a)) :
    (s.volMode = true → Act.next ∉ a ∧ Act.prev ∉ a ∧ (cmd = .power → Act.on ∉ a)) ∧ (s.volMode = false → s'.volume = s.volume) := by
  cases cmd <;> simp only [exec, setVol, turnOff, Option.some.injEq, Prod.mk.injEq] at hx <;> (repeat' split at hx) <;> simp_all
  all_goals (try (obtain ⟨rfl, rfl⟩ := hx)) <;> simp_all

/-- In the volume menu no preset is changed and a click does not turn the saber on; out of it no event changes the volume. -/
theorem C117_menu (c : Cfg) (i : In) (s : S) (b : B) (e : E) (m : Md) :
    (s.volMode = true → Act.next ∉ (event c i s b e m).2.1 ∧ Act.prev ∉ (event c i s b e m).2.1 ∧
      (s.on = false → e = .savedShort1 → Act.on ∉ (event c i s b e m).2.1)) ∧
    (s.volMode = false → (event c i s b e m).1.volume = s.volume) := by
  have hv := (after_lk i s (decode c s.on e b m)).2.2.2.2.2.1
  have hv2 := (after_lk i s (decode c s.on e b m)).2.2.2.2.1
  apply event_cases c i s b e m (fun r => (s.volMode = true → Act.next ∉ r.2.1 ∧ Act.prev ∉ r.2.1 ∧
      (s.on = false → e = .savedShort1 → Act.on ∉ r.2.1)) ∧ (s.volMode = false → r.1.volume = s.volume))
  · intro cmd r hd hx
    have k := exec_menu (s' := r.1) (a := r.2) hx
    refine ⟨fun h => ⟨(k.1 h).1, (k.1 h).2.1, fun h1 h2 => (k.1 h).2.2 ?_⟩, k.2⟩
    rw [h1, h2] at hd
    cases b <;> cases m <;> simp_all [decode]
  · intro cmd r hd hx
    have k := exec_menu (s' := r.1) (a := r.2) hx
    obtain ⟨q1, q2, q3, q4⟩ := decode_any hd
    rw [hv, hv2] at k
    refine ⟨fun h => ⟨(k.1 h).1, (k.1 h).2.1, fun h1 h2 => ?_⟩, k.2⟩
    rw [q4] at h1; simp at h1
  · exact ⟨fun _ => by simp, fun _ => hv2⟩

/-- Each step up of the volume is a tenth of the configured volume, cut to whole numbers, until the configured volume is reached. -/
theorem C117_steps (c : Cfg) (v : Nat) :
    (v < c.volume → v ≤ 11 * c.volume / 10 → ∃ w, volUp c v = some w ∧ v + c.volume / 10 ≤ w ∧ w ≤ v + c.volume / 10 + 1) ∧
    (c.volume ≤ v → volUp c v = none) ∧
    (c.volume < 10 * v → c.volume / 10 ≤ v → ∃ w, volDown c v = some w ∧ w + c.volume / 10 ≤ max v (2 * (c.volume / 10)) ∧ c.volume / 10 ≤ w) := by
  refine ⟨fun h1 h2 => ⟨_, if_pos h1, by omega, by omega⟩, fun h => if_neg (by omega), fun h1 h2 => ?_⟩
  exact ⟨_, if_pos h1, by omega, by omega⟩

theorem exec_push {c : Cfg} {i : In} {s s' : S} {cmd : Cmd} {a : List Act} (hx : exec c i s cmd = some (s', a)) :
    (Act.push ∈ a → cmd = .push ∧ s.battle = true ∧ since i.now s.lastPush > 2000 ∧ s'.lastPush = i.now) ∧ (Act.push ∉ a → s'.lastPush = s.lastPush) := by
  cases cmd <;> simp only [exec, setVol, turnOff, Option.some.injEq, Prod.mk.injEq] at hx <;> (repeat' split at hx) <;> simp_all
  all_goals (try (obtain ⟨rfl, rfl⟩ := hx)) <;> simp_all

theorem event_push (c : Cfg) (i : In) (s : S) (b : B) (e : E) (m : Md) :
    (Act.push ∈ (event c i s b e m).2.1 → e = .push ∧ s.battle = true ∧ since i.now s.lastPush > 2000 ∧ (event c i s b e m).1.lastPush = i.now) ∧
    (Act.push ∉ (event c i s b e m).2.1 → (event c i s b e m).1.lastPush = s.lastPush) := by
  have hv := (after_lk i s (decode c s.on e b m)).2.2.2.2.2.2
  refine event_cases c i s b e m (fun r => (Act.push ∈ r.2.1 → e = .push ∧ s.battle = true ∧ since i.now s.lastPush > 2000 ∧ r.1.lastPush = i.now) ∧
    (Act.push ∉ r.2.1 → r.1.lastPush = s.lastPush)) ?_ ?_ ?_
  · intro cmd r hd hx
    have k := exec_push (s' := r.1) (a := r.2) hx
    refine ⟨fun h => ?_, k.2⟩
    obtain ⟨k1, k2⟩ := k.1 h
    exact ⟨((decode_spec hd).2.2.2 k1).1, k2⟩
  · intro cmd r hd hx
    have k := exec_push (s' := r.1) (a := r.2) hx
    rw [hv] at k
    refine ⟨fun h => ?_, k.2⟩
    have h1 := (k.1 h).1
    have h2 := (decode_any hd).1
    rw [h2] at h1
    cases h1
  · exact ⟨fun h => by simp at h, fun _ => hv⟩

theorem loop_push (c : Cfg) (i : In) (v : Nat) (m : Md) (s : S) : Act.push ∉ (loopOn c i v m s).2 ∧ (loopOn c i v m s).1.lastPush = s.lastPush := by
  have h1 : Act.push ∉ (detect c i v m s).2 ∧ (detect c i v m s).1.lastPush = s.lastPush := by
    unfold detect
    split
    · have k := event_push c i { s with swinging := true } .none .swing m
      have hn : Act.push ∉ (event c i { s with swinging := true } .none .swing m).2.1 := fun h => by have := (k.1 h).1; cases this
      exact ⟨hn, k.2 hn⟩
    · simp
  have h2 : ∀ t : S, (calm v t).lastPush = t.lastPush := by intro t; unfold calm; split <;> rfl
  have h3 : ∀ t : S, Act.push ∉ (autoEnd i v t).2 ∧ (autoEnd i v t).1.lastPush = t.lastPush := by
    intro t; unfold autoEnd
    split
    · simp
    · split <;> simp
  unfold loopOn
  refine ⟨?_, ?_⟩
  · simp only [List.mem_append, not_or]
    exact ⟨h1.1, (h3 _).1⟩
  · exact ((h3 _).2.trans (h2 _)).trans h1.2

/-- All actions of a history. -/
def acts (c : Cfg) : S → List Op → List Act
  | _, [] => []
  | s, o :: t => (step c s o).2 ++ acts c (step c s o).1 t

/-- The time of an event. -/
def Op.within (lo hi : Nat) : Op → Prop
  | .event i _ _ _ => lo ≤ i.now ∧ i.now ≤ hi
  | _ => True

theorem no_push (c : Cfg) (t : Nat) (ops : List Op) (s : S) (hs : s.lastPush = t) (h : ∀ o ∈ ops, o.within t (t + 2000)) : Act.push ∉ acts c s ops := by
  induction ops generalizing s with
  | nil => simp [acts]
  | cons o r ih =>
    have key : Act.push ∉ (step c s o).2 ∧ (step c s o).1.lastPush = t := by
      cases o with
      | event i b e m =>
        have k := event_push c i s b e m
        have hw : t ≤ i.now ∧ i.now ≤ t + 2000 := h (.event i b e m) (by simp)
        have hn : Act.push ∉ (event c i s b e m).2.1 := fun hp => by
          have := (k.1 hp).2.2.1
          rw [hs] at this
          unfold since at this
          omega
        exact ⟨hn, (k.2 hn).trans hs⟩
      | loop i v m =>
        unfold step
        simp only
        split
        · exact ⟨(loop_push c i v m s).1, (loop_push c i v m s).2.trans hs⟩
        · exact ⟨by simp, hs⟩
      | off =>
        unfold step
        simp only
        split
        · refine ⟨?_, hs⟩
          unfold turnOff
          simp only [List.mem_append, not_or]
          refine ⟨⟨?_, ?_⟩, by simp⟩
          · split <;> simp
          · split <;> simp
        · exact ⟨by simp, hs⟩
    unfold acts
    simp only [List.mem_append, not_or]
    exact ⟨key.1, ih _ key.2 (fun o ho => h o (List.mem_cons_of_mem _ ho))⟩

/-- The force push sounds only in battle mode, and never twice within two seconds, whatever is done in between. -/
theorem C117_push (c : Cfg) (i : In) (s : S) (b : B) (e : E) (m : Md) (h : Act.push ∈ (event c i s b e m).2.1) :
    s.battle = true ∧ ∀ ops : List Op, (∀ o ∈ ops, o.within i.now (i.now + 2000)) → Act.push ∉ acts c (event c i s b e m).1 ops := by
  have k := (event_push c i s b e m).1 h
  exact ⟨k.2.1, fun ops ho => no_push c i.now ops _ k.2.2.2 ho⟩

/-- An automatic lockup ended by letting go of a button is not forgotten: a later lockup, by holding the button out of battle mode,
ends when the saber is moved, with the button still held. -/
theorem C117_stale_counterexample :
    acts {} { on := true, battle := true }
      [.event ⟨1000, false, false, true⟩ .none .clash .plain,
       .event ⟨1100, false, false, true⟩ .power .released .plain,
       .event ⟨2000, false, false, true⟩ .power .held3 .plain,
       .event ⟨3000, false, false, true⟩ .aux .held1 .plain,
       .loop ⟨3500, false, false, true⟩ 130 .aux] =
    [.beginLockup, .endLockup, .battle false, .beginLockup, .endLockup] := by decide

/-- The documentation says that in battle mode lightning block is still triggered by the buttons
(props/saber_sa22c_buttons.h:34-36); no button begins it. -/
theorem C117_lightning_counterexample (c : Cfg) (i : In) (s : S) (b : B) (e : E) (m : Md) (hb : b ≠ .none) (hbt : s.battle = true) :
    Act.beginLockup ∉ (event c i s b e m).2.1 := fun h => hb (C117_battle c i s b e m hbt h).1

/-- A second clash in battle mode begins a lockup that has not ended: two beginnings for one end. -/
theorem C117_twice_counterexample :
    acts {} { on := true, battle := true }
      [.event ⟨1000, false, false, true⟩ .none .clash .plain, .event ⟨1050, false, false, true⟩ .none .clash .plain] =
    [.beginLockup, .beginLockup] := by decide

/-- Twisting the saber off keeps multi blast on: the first swing after turning it on again blasts. -/
theorem C117_twist_counterexample :
    acts { twistOff := true } { on := true, swingBlast := true }
      [.event ⟨5000, false, false, true⟩ .none .twist .plain, .event ⟨9000, false, false, true⟩ .power .savedShort1 .plain,
       .loop ⟨9500, false, false, true⟩ 300 .plain] = [.off, .on, .blast] := by decide

/-- In the volume menu a double click and hold still turns the saber on, muted. -/
theorem C117_menu_counterexample :
    acts {} { volMode := true } [.event ⟨5000, false, false, true⟩ .power .held2 .plain] = [.mute, .on] := by decide

/-- With one button a click turns the volume up and a long click down; the documentation says the reverse
(props/saber_sa22c_buttons.h:83-84). -/
theorem C117_doc_counterexample : acts { nb := 1 } { volMode := true, volume := 1000 } [.event ⟨5000, false, false, true⟩ .power .savedShort1 .plain,
    .event ⟨6000, false, false, true⟩ .power .long1 .plain] = [.volume 1180, .volume 1000] := by decide +kernel

/-- Turning the volume up may go beyond the configured volume. -/
theorem C117_volume_counterexample : volUp { volume := 1800 } 1799 = some 1979 := by decide +kernel

example : acts {} { on := true } [.event ⟨1000, false, false, true⟩ .aux .held1 .plain, .event ⟨1500, false, false, true⟩ .aux .released .plain] =
    [.beginLockup, .endLockup] := by decide
example : acts { forcePush := true } { on := true, battle := true } [.event ⟨5000, false, false, true⟩ .none .push .plain,
    .event ⟨6900, false, false, true⟩ .none .push .plain, .event ⟨7100, false, false, true⟩ .none .push .plain] = [.push, .push] := by decide
example : (run {} { on := true, battle := true, lk := .normal } [.event ⟨1000, false, false, true⟩ .power .heldMedium1 .plain]).on = true := by decide
example : VolOk {} {} := by unfold VolOk; decide

end Verif.Prop.Sa22c
