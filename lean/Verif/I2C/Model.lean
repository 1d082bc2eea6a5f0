/-!
# The I2C bus lock

Model of common/i2cdevice.h: several devices (motion sensor, displays, ...) share one bus; they are served
from the main loop and from interrupts.  Each operation is atomic between `noInterrupts()` and
`interrupts()`; the call of `RunLocked()` comes after `interrupts()`, so other operations may come in
between.
-/
namespace Verif.I2C

/-- a `RunLocked()` call that is about to happen after `interrupts()`: on `this` (common/i2cdevice.h:53) or
on whatever `current_i2c_device` is by then (common/i2cdevice.h:66) -/
inductive Pend where
  | self (d : Nat)
  | current
deriving DecidableEq

/-- `current_i2c_device`, `last_i2c_device` and the members `next` of all devices
(common/i2cdevice.h:9-10, 17), and the `RunLocked()` calls to come -/
structure St where
  current : Option Nat := none
  last : Option Nat := none
  next : Nat → Option Nat := fun _ => none
  pend : List Pend := []

/-- what devices do; `inited` is the answer of `i2cbus.inited()`, and `run` the next `RunLocked()` call that
is about to happen -/
inductive Op where
  | lock (d : Nat) (recapture inited : Bool)
  | lockAndRun (d : Nat) (inited : Bool)
  | unlock (d : Nat)
  | run

/-- what can be observed: a request for the bus is accepted, a device gets the bus, a device gives it back -/
inductive Ev where
  | accept (d : Nat)
  | grant (d : Nat)
  | release (d : Nat)
deriving DecidableEq

/-- `I2CLock`, common/i2cdevice.h:19-32 -/
def lock (s : St) (d : Nat) (recapture inited : Bool) : St × Bool × List Ev :=
  if inited = false then (s, false, [])
  else match s.current with
    | some c => (s, recapture && c == d, [])
    | none => ({ s with current := some d, last := some d }, true, [.accept d, .grant d])

/-- `I2CLockAndRun`, common/i2cdevice.h:34-56; `none` is a null pointer access -/
def lockAndRun (s : St) (d : Nat) (inited : Bool) : Option (St × Bool × List Ev) :=
  if inited = false then some (s, false, [])
  else match s.current with
    | some c =>
      if c = d ∨ s.last = some d ∨ (s.next d).isSome then some (s, false, [])
      else match s.last with
        | none => none
        | some l => some ({ s with next := fun x => if x = l then some d else s.next x, last := some d }, true, [.accept d])
    | none => some ({ s with current := some d, last := some d, pend := .self d :: s.pend }, true, [.accept d])

/-- `I2CUnlock`, common/i2cdevice.h:58-75 -/
def unlock (s : St) (d : Nat) : St × List Ev :=
  if s.current = some d then
    match s.next d with
    | some n => ({ s with current := some n, next := fun x => if x = d then none else s.next x, pend := .current :: s.pend }, [.release d])
    | none => ({ s with current := none, last := none }, [.release d])
  else (s, [])

/-- the call of `RunLocked()`, common/i2cdevice.h:53 and 66; `none` is a call through a null pointer -/
def run (s : St) : Option (St × List Ev) :=
  match s.pend with
  | [] => some (s, [])
  | .self d :: p => some ({ s with pend := p }, [.grant d])
  | .current :: p => s.current.map fun c => ({ s with pend := p }, [.grant c])

/-- one operation: new state, return value and events -/
def step (s : St) : Op → Option (St × Bool × List Ev)
  | .lock d r i => some (lock s d r i)
  | .lockAndRun d i => lockAndRun s d i
  | .unlock d => some ((unlock s d).1, false, (unlock s d).2)
  | .run => (run s).map fun (s, e) => (s, false, e)

/-! ## Specification -/

def accepts (t : List Ev) : List Nat := t.filterMap fun | .accept d => some d | _ => none
def grants (t : List Ev) : List Nat := t.filterMap fun | .grant d => some d | _ => none
def releases (t : List Ev) : List Nat := t.filterMap fun | .release d => some d | _ => none

/-- a device does not give the bus back between asking for it and getting it -/
def Legal (t : List Ev) : Op → Prop
  | .unlock d => (accepts t).count d = (grants t).count d
  | _ => True

/-- the executions of the operations: the state and the events so far -/
inductive Exec : List Ev → St → Prop where
  | init : Exec [] {}
  | step {t s op s' r e} : Exec t s → Legal t op → step s op = some (s', r, e) → Exec (t ++ e) s'

end Verif.I2C
