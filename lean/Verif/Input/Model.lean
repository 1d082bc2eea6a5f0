/-!
# Buttons, switches and rotary knobs

Model of buttons/debounced_button.h, buttons/button_base.h, buttons/latching_button.h,
buttons/floating_button.h and buttons/rotary.h.

Times are 32-bit millisecond counters.  The pseudo-threads (`STATE_MACHINE_BEGIN` ... `YIELD`) are
modelled as one step per call of the input function (`Read()` or `DebouncedRead()`); `YIELD` only
suspends the thread between two such calls and has no other effect.  The clock is taken as constant
between two calls of the input function.
-/
namespace Verif.Input

/-- the difference of two 32-bit counter values -/
def since (now start : Nat) : Nat := (now + 4294967296 - start) % 4294967296

/-! ## DebouncedButton -/

/-- the places where `Update` waits: the start, line 15, lines 17 and 20 of
buttons/debounced_button.h (the last two continue in the same way) -/
inductive DSt where
  | start | off | on
deriving DecidableEq

/-- buttons/debounced_button.h:35-37 -/
structure Deb where
  st : DSt
  pushed : Bool
  lastOff : Nat

/-- a new object, buttons/debounced_button.h:36 and common/state_machine.h:31; `lastOff` is not
initialised -/
def Deb.init (lastOff : Nat) : Deb := ⟨.start, false, lastOff⟩

/-- `Update`, buttons/debounced_button.h:10-24, at time `now` when `Read()` returns `raw` -/
def Deb.update (timeout : Nat) (d : Deb) (now : Nat) (raw : Bool) : Deb :=
  match d.st with
  | .start => ⟨.off, false, now⟩
  | .off => if raw then { d with st := .on } else ⟨.off, false, now⟩
  | .on => if raw then { d with pushed := since now d.lastOff > timeout } else ⟨.off, false, now⟩

/-- a sequence of calls of `DebouncedRead`, buttons/debounced_button.h:25-28: the object afterwards -/
def Deb.run (timeout : Nat) (d : Deb) (h : List (Nat × Bool)) : Deb := h.foldl (fun d (s : Nat × Bool) => d.update timeout s.1 s.2) d

/-- the results of a sequence of calls of `DebouncedRead` -/
def Deb.reads (timeout : Nat) (d : Deb) : List (Nat × Bool) → List Bool
  | [] => []
  | s :: h => (d.update timeout s.1 s.2).pushed :: (d.update timeout s.1 s.2).reads timeout h

/-! ## ButtonBase -/

/-- What a button object sees at one call of `DebouncedRead`: the time, the result, whether some other
code has cleared the button's bit in `current_modifiers` since the last call, and what the prop answers
to events. -/
structure Poll where
  now : Nat
  down : Bool
  eaten : Bool
  handled : Nat → Bool

/-- where `Loop` waits: line 76; lines 87-105, with the nesting depth of the loop; line 106 -/
inductive Pc where
  | idle | level (n : Nat) | wait
deriving DecidableEq

/-- buttons/button_base.h:168-171, and the button's bit of `current_modifiers` -/
structure Btn where
  pc : Pc
  push : Nat
  cnt : Nat
  saved : Nat
  mod : Bool

/-- event numbers, common/events.h:49 -/
def evPressed := 1
/-- common/events.h:50 -/
def evReleased := 2
/-- common/events.h:51-53: `EVENT_HELD`, `EVENT_HELD_MEDIUM`, `EVENT_HELD_LONG` -/
def evHeld (n : Nat) := 3 + n
/-- common/events.h:54 -/
def evClickShort := 6
/-- common/events.h:56 -/
def evClickLong := 8

/-- `Send`, buttons/button_base.h:50-56: the events given to the prop, and the result -/
def send (b : Btn) (p : Poll) (event : Nat) : List Nat × Bool :=
  if p.handled (event + 8 * b.cnt) then ([event + 8 * b.cnt], true)
  else ([event + 8 * b.cnt, event], p.handled event)

/-- the limits of the three held events, buttons/button_base.h:19-28 -/
def heldLimit : Nat → Nat
  | 0 => 300
  | 1 => 800
  | _ => 2000

/-- one step of `Loop`, buttons/button_base.h:67-122 -/
def Btn.step (b : Btn) (p : Poll) : Btn × List Nat :=
  match b.pc with
  | .idle =>
    if p.down then
      let b := { b with saved := 0 }
      let b := { b with cnt := if since p.now b.push < 500 then (if b.cnt < 4 then b.cnt + 1 else b.cnt) else 1 }
      let o := send b p evPressed
      ({ b with push := p.now, mod := true, pc := .level 0 }, o.1)
    else if b.saved ≠ 0 ∧ since p.now b.push > 500 then
      let o := send b p b.saved
      ({ b with saved := 0 }, o.1)
    else (b, [])
  | .level n =>
    let b := { b with mod := b.mod && !p.eaten }
    if p.down && b.mod then
      if n < 3 ∧ since p.now b.push > heldLimit n then
        let o := send b p (evHeld n)
        ({ b with pc := .level (n + 1) }, o.1)
      else (b, [])
    else
      match n with
      | 0 => ({ b with pc := .wait }, [])
      | n + 1 => ({ b with pc := .level n }, [])
  | .wait =>
    let b := { b with mod := b.mod && !p.eaten }
    if p.down then (b, [])
    else
      let o := send b p evReleased
      let b := { b with pc := .idle }
      if b.mod then
        let b := { b with mod := false }
        if since p.now b.push < 500 then
          let c := send b p evClickShort
          (if c.2 then b else { b with saved := evClickShort + 1 } /- `SendClick`, buttons/button_base.h:60-65 -/, o.1 ++ c.1)
        else if since p.now b.push < 2500 then
          let c := send b p evClickLong
          (b, o.1 ++ c.1)
        else (b, o.1)
      else ({ b with push := (p.now + 4294967296 - 10000) % 4294967296 }, o.1)

/-- a sequence of steps: the object afterwards and all events given to the prop -/
def Btn.run (b : Btn) : List Poll → Btn × List Nat
  | [] => (b, [])
  | p :: ps => let r := b.step p; let s := r.1.run ps; (s.1, r.2 ++ s.2)

/-! ## LatchingButton and FloatingButtonBase -/

/-- one step of `Loop`, buttons/latching_button.h:29-38; the state is whether it waits in line 34.
Events: `true` is `EVENT_LATCH_ON`, `false` is `EVENT_LATCH_OFF`. -/
def latchStep (on : Bool) (down : Bool) : Bool × List Bool :=
  if on then (if down then (true, []) else (false, [false]))
  else (if down then (true, [true]) else (false, []))

/-- a sequence of steps -/
def latchRun (on : Bool) : List Bool → Bool × List Bool
  | [] => (on, [])
  | d :: ds => let r := latchStep on d; let s := latchRun r.1 ds; (s.1, r.2 ++ s.2)

/-- buttons/floating_button.h:47-48 -/
structure Vote where
  floating : Bool
  votes : Nat

/-- `Vote`, buttons/floating_button.h:10-16; the counter has 8 bits -/
def Vote.vote (v : Vote) (floating : Bool) : Vote :=
  if floating ≠ v.floating then
    let n := (v.votes + 1) % 256
    if n ≤ 10 then { v with votes := n } else ⟨floating, 0⟩
  else { v with votes := 0 }

/-! ## Rotary -/

/-- the interrupt routine that is attached: `LO1` (0), `LO2` (1), `HI1` (2), `HI2` (3) -/
structure Rot where
  irq : Option (Fin 4)
  delta : Int

/-- conversion to `int8_t` -/
def toI8 (x : Int) : Int := (x + 128) % 256 - 128

/-- the pin levels at a knob position: position 0 has both pins high, and going up pin 1 falls, pin 2
falls, pin 1 rises, pin 2 rises -/
def pins (x : Int) : Bool × Bool := (x % 4 = 0 ∨ x % 4 = 3, x % 4 = 0 ∨ x % 4 = 1)

/-- `Setup`, buttons/rotary.h:53-56: no interrupt is attached -/
def Rot.setup : Rot := ⟨none, 0⟩

/-- `adjustPhaseAndAdd`, buttons/rotary.h:67-84 -/
def adjust (delta : Int) (p : Int) (d : Int) : Int :=
  let delta := match ((delta - p) % 4).toNat with
    | 0 => delta
    | 1 => delta - 1
    | 2 => if delta > 0 then delta - 2 else delta + 2
    | _ => delta + 1
  toI8 (delta + d)

/-- `Setup1`, buttons/rotary.h:85-94: the routine attached to pin 1 and the result -/
def setup1 (pin1 : Bool) : Fin 4 × Int := if pin1 then (0, 1) else (2, -1)

/-- `Setup2`, buttons/rotary.h:95-104 -/
def setup2 (pin2 : Bool) : Fin 4 × Int := if pin2 then (1, 1) else (3, -1)

/-- the four interrupt routines, buttons/rotary.h:106-109, run when the pins are as at position `x` -/
def Rot.isr (r : Rot) (x : Int) : Fin 4 → Rot
  | 0 => let s := setup2 (pins x).2; ⟨some s.1, adjust r.delta 0 s.2⟩
  | 1 => let s := setup1 (pins x).1; ⟨some s.1, adjust r.delta 1 (-s.2)⟩
  | 2 => let s := setup2 (pins x).2; ⟨some s.1, adjust r.delta 2 (-s.2)⟩
  | 3 => let s := setup1 (pins x).1; ⟨some s.1, adjust r.delta 3 s.2⟩

/-- whether going from position `x` to `y` makes the edge the routine is attached to -/
def edge (x y : Int) : Fin 4 → Bool
  | 0 => (pins x).1 && !(pins y).1
  | 1 => (pins x).2 && !(pins y).2
  | 2 => !(pins x).1 && (pins y).1
  | 3 => !(pins x).2 && (pins y).2

/-- the knob moves from `x` to `y`; the routine runs if it is attached to the edge that happens -/
def Rot.move (r : Rot) (x y : Int) : Rot :=
  match r.irq with
  | none => r
  | some i => if edge x y i then r.isr y i else r

/-- the first loop of `RotaryClass::Loop`, buttons/rotary.h:132-136; the position has 8 bits; the fuel
bounds the rounds -/
def upLoop (steps : Int) (delta : Int) : Nat → Int → Option (Int × List Int)
  | 0, _ => none
  | f + 1, pos => if delta - pos ≥ steps then (upLoop steps delta f (toI8 (pos + steps))).map fun r => (r.1, 1 :: r.2) else some (pos, [])

/-- the second loop, buttons/rotary.h:137-141 -/
def downLoop (steps : Int) (delta : Int) : Nat → Int → Option (Int × List Int)
  | 0, _ => none
  | f + 1, pos => if delta - pos ≤ -steps + 1 then (downLoop steps delta f (toI8 (pos - steps))).map fun r => (r.1, -1 :: r.2) else some (pos, [])

/-- `RotaryClass::Loop`, buttons/rotary.h:130-142: the new `pos_` and the calls of `Update` -/
def rotLoop (steps : Int) (delta : Int) (pos : Int) : Option (Int × List Int) := do
  let u ← upLoop steps delta 600 pos
  let d ← downLoop steps delta 600 u.1
  some (d.1, u.2 ++ d.2)

end Verif.Input
