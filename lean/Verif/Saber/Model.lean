import Verif.Reg.Model
/-!
# The saber: recent effects, on/off state, notifications

Model of common/saber_base.h (effect history 577-635, on/off state 286-321, notifications 386-464) and of
`OneshotEffectDetector` in blades/blade_base.h:110-150.

Sets of blades are bit vectors of `w` bits (`BladeSet`, common/saber_base.h:137-202; `w` is 8, 16, 32 or
64).  `micros()` is a 32-bit counter.  What the sound code stores about an effect (`sound_length`,
`sound_number`) is carried along as one number.
-/
namespace Verif.Saber

/-- effect types, common/saber_base.h:17-113; those without special treatment are `other` -/
inductive Kind where
  | newfont | lockupBegin | lockupEnd | dragBegin | dragEnd | clashUpdate | clash | stab | ignition | retraction | blast
  | other (n : Nat)
deriving DecidableEq

/-- lockup types, common/saber_base.h:340-348; the last four are `other` -/
inductive Lockup where
  | none | normal | drag | other (n : Nat)
deriving DecidableEq

/-- `BladeEffect`, common/saber_base.h:239-246 -/
structure Eff (w : Nat) where
  kind : Kind
  start : Nat
  place : Nat
  blades : BitVec w
  sound : Nat
deriving DecidableEq

/-- `effects_` and `num_effects_`, common/saber_base.h:634-635 -/
structure Hist (w : Nat) where
  arr : List (Eff w)
  num : Nat

/-- the objects at start, common/saber_base.h:642-643 -/
def Hist.init (w : Nat) : Hist w := ⟨List.replicate 10 ⟨.other 0, 0, 0, 0, 0⟩, 0⟩

/-- the difference of two 32-bit counter values -/
def since (now start : Nat) : Nat := (now + 4294967296 - start) % 4294967296

/-- the loop of `GetEffects`, common/saber_base.h:579-582 -/
def Hist.expire {w : Nat} (now : Nat) (arr : List (Eff w)) : Nat → Nat
  | 0 => 0
  | n + 1 =>
    match arr[n]? with
    | none => n + 1
    | some e => if since now e.start > 7000000 then Hist.expire now arr n else n + 1

/-- `GetEffects`, common/saber_base.h:577-584: the state afterwards and the effects the caller may look at -/
def Hist.get {w : Nat} (now : Nat) (h : Hist w) : Hist w × List (Eff w) :=
  let n := Hist.expire now h.arr h.num
  (⟨h.arr, n⟩, h.arr.take n)

/-- the loop of `PushEffect`, common/saber_base.h:622-624 -/
def shift {w : Nat} (arr : List (Eff w)) : Nat → List (Eff w)
  | 0 => arr
  | i + 1 =>
    match arr[i]? with
    | none => arr
    | some e => shift (arr.set (i + 1) e) i

/-- the last part of `PushEffect`, common/saber_base.h:622-630 -/
def Hist.store {w : Nat} (h : Hist w) (e : Eff w) : Hist w :=
  ⟨(shift h.arr (min h.num 9)).set 0 e, min (h.num + 1) 10⟩

/-- `PushEffect`, common/saber_base.h:591-631, while `Lockup()` is `lockup` -/
def Hist.push {w : Nat} (h : Hist w) (lockup : Lockup) (e : Eff w) : Hist w :=
  match e.kind with
  | .newfont => Hist.store { h with num := 0 } e
  | .lockupBegin =>
    match lockup with
    | .drag => h.store { e with kind := .dragBegin }
    | .normal => h.store e
    | _ => h
  | .lockupEnd =>
    match lockup with
    | .drag => h.store { e with kind := .dragEnd }
    | .normal => h.store e
    | _ => h
  | .clashUpdate => h
  | _ => h.store e

/-- `OneshotEffectDetector<effect>::Find`, blades/blade_base.h:110-127: the effect of the given kind on the
blade; `stabHandled` is `IsHandled(HANDLED_FEATURE_STAB)` of the blade's style -/
def find {w : Nat} (kind : Kind) (blade : Nat) (stabHandled : Bool) (l : List (Eff w)) : Option (Eff w) :=
  let matchStab := decide (kind = .clash) && !stabHandled && decide (blade = 1)
  l.find? fun e => e.blades.getLsbD blade && (decide (e.kind = kind) || (matchStab && decide (e.kind = .stab)))

/-- `OneshotEffectDetector<effect>::Detect`, blades/blade_base.h:128-135: the new `last_detected_` and the
result -/
def detect {w : Nat} (kind : Kind) (blade : Nat) (stabHandled : Bool) (last : Nat) (l : List (Eff w)) : Nat × Option (Eff w) :=
  match find kind blade stabHandled l with
  | none => (last, none)
  | some e => if e.start = last then (last, none) else (e.start, some e)

/-! ## On and off -/

/-- kinds of turning off, common/saber_base.h:278-284 -/
inductive OffType where
  | normal | fast | blast | idle | cancelPreon
deriving DecidableEq

/-- what the components are told: `On`, `Off` or an effect, each with the blades concerned -/
inductive Note (w : Nat) where
  | on (blades : BitVec w)
  | off (type : OffType) (blades : BitVec w)
  | effect (kind : Kind) (blades : BitVec w)
deriving DecidableEq

/-- `on_`, common/saber_base.h:636, and everything the components were told, oldest first -/
structure Saber (w : Nat) where
  on : BitVec w
  notes : List (Note w)

/-- `DoOn`, common/saber_base.h:426-430 -/
def Saber.doOn {w : Nat} (s : Saber w) (blades : BitVec w) : Saber w :=
  { s with notes := s.notes ++ [.on blades, .effect .ignition blades] }

/-- `DoOff`, common/saber_base.h:431-448 -/
def Saber.doOff {w : Nat} (s : Saber w) (t : OffType) (blades : BitVec w) : Saber w :=
  { s with notes := s.notes ++ [.off t blades] ++
      (match t with
       | .blast => [.effect .blast blades]
       | .normal | .fast => [.effect .retraction blades]
       | .idle | .cancelPreon => []) }

/-- requests: `TurnOn()` and `TurnOff(type)` for the whole saber, and for given blades -/
inductive Req (w : Nat) where
  | onAll | onAt (blades : BitVec w) | offAll (t : OffType) | offAt (t : OffType) (blades : BitVec w)

/-- `TurnOn` and `TurnOff`, common/saber_base.h:293-321 -/
def Saber.req {w : Nat} (s : Saber w) : Req w → Saber w
  | .onAll => Saber.doOn { s with on := BitVec.allOnes w } (BitVec.allOnes w)
  | .onAt b =>
    let b := b &&& ~~~s.on
    if b = 0 then s else Saber.doOn { s with on := s.on ||| b } b
  | .offAll t => Saber.doOff { s with on := 0 } t (BitVec.allOnes w)
  | .offAt t b =>
    let b := b &&& s.on
    if b = 0 then s else Saber.doOff { s with on := s.on &&& ~~~b } t b

/-- `BladeIsOn`, common/saber_base.h:291 -/
def Saber.bladeIsOn {w : Nat} (s : Saber w) (i : Nat) : Bool := s.on.getLsbD i

/-- `IsOn`, common/saber_base.h:286-290 -/
def Saber.isOn {w : Nat} (s : Saber w) : Bool := decide (s.on ≠ 0)

/-- one notification, common/saber_base.h:388-397: the components called (`SB_...`) and then those whose
`CheckBlade` accepts (`SB_...2`), in order.  Components do not register or unregister meanwhile. -/
def broadcast (fuel : Nat) (h : Reg.Heap) (check : Nat → Bool) : Option (List Nat × List Nat) := do
  let a ← h.doLoop fuel (fun _ _ => [])
  let b ← a.1.doLoop fuel (fun _ _ => [])
  some (a.2, b.2.filter check)

end Verif.Saber
