/-!
# Registries, shared pointers and the box filter

Model of the intrusive linked lists of `Looper` (common/looper.h) and `CommandParser`
(common/command_parser.h:11-47), of `LinkedPtr` (common/linked_ptr.h), `RefPtr` (common/ref.h) and
`BoxFilter` (common/box_filter.h).

Objects are numbers; pointers are `Option Nat` (`none` is `nullptr`).  A loop over a linked list takes
a bound on its number of rounds and is `none` when it does not end within it (a cyclic list).
-/
namespace Verif.Reg

/-! ## Intrusive lists -/

/-- The list head (`loopers` or `parsers`), the second head `hf_loopers`, and the link field of every
object; common/looper.h:7-8,130 and common/command_parser.h:9,46. -/
structure Heap where
  head : Option Nat
  hf : Option Nat
  next : Nat → Option Nat

/-- a place a link pointer is stored in: what `Looper** i` points to -/
inductive Cell where
  | head | next (n : Nat)

/-- `*i` -/
def Heap.read (h : Heap) : Cell → Option Nat
  | .head => h.head
  | .next n => h.next n

/-- `*i = v` -/
def Heap.write (h : Heap) (c : Cell) (v : Option Nat) : Heap :=
  match c with
  | .head => { h with head := v }
  | .next n => { h with next := fun m => if m = n then v else h.next m }

/-- `while (*i) i = &(*i)->next_looper_;`, common/looper.h:30 -/
def Heap.findEnd (h : Heap) : Nat → Cell → Option Cell
  | f, c =>
    match h.read c with
    | none => some c
    | some n => match f with
      | 0 => none
      | f + 1 => h.findEnd f (.next n)

/-- the search of `Unlink`, common/looper.h:39-40 and common/command_parser.h:21-22: the place that
points to `x`, or `none` inside if there is none -/
def Heap.findSlot (h : Heap) (x : Nat) : Nat → Cell → Option (Option Cell)
  | f, c =>
    match h.read c with
    | none => some none
    | some n =>
      if n = x then some (some c)
      else match f with
        | 0 => none
        | f + 1 => h.findSlot x f (.next n)

/-- `Looper::Link`, common/looper.h:20-25, and `CommandParser::Link`, common/command_parser.h:13-18 -/
def Heap.link (h : Heap) (x : Nat) : Heap :=
  let h := h.write (.next x) h.head
  { h with head := some x }

/-- `Looper::HighFrequencyLink`, common/looper.h:27-35 -/
def Heap.hfLink (fuel : Nat) (h : Heap) (x : Nat) : Option Heap :=
  (h.findEnd fuel .head).map fun c =>
    let h := h.write (.next x) none
    let h := h.write c (some x)
    if h.hf = none then { h with hf := some x } else h

/-- `CommandParser::Unlink`, common/command_parser.h:19-29; also the loop of `Looper::Unlink`,
common/looper.h:39-45 -/
def Heap.unlinkLoop (fuel : Nat) (h : Heap) (x : Nat) : Option Heap :=
  (h.findSlot x fuel .head).map fun
    | none => h
    | some c => h.write c (h.next x)

/-- `Looper::Unlink`, common/looper.h:36-47 -/
def Heap.unlink (fuel : Nat) (h : Heap) (x : Nat) : Option Heap :=
  Heap.unlinkLoop fuel (if h.hf = some x then { h with hf := h.next x } else h) x

/-- operations on the update loop registry -/
inductive Op where
  | link (x : Nat) | hfLink (x : Nat) | unlink (x : Nat)
deriving DecidableEq

/-- running one operation -/
def Op.run (fuel : Nat) (h : Heap) : Op → Option Heap
  | .link x => some (h.link x)
  | .hfLink x => h.hfLink fuel x
  | .unlink x => h.unlink fuel x

/-- The loop of `DoLoop` and `DoHFLoop`, common/looper.h:81-84 and 91-96, started at `cur`.  `call i n`
is what object `n` does to the registry in its `Loop()` when it is the `i`-th object called.  Result:
the heap afterwards and the objects called, in order. -/
def Heap.round (fuel : Nat) (call : Nat → Nat → List Op) : Nat → Nat → Heap → Option Nat → Option (Heap × List Nat)
  | _, _, h, none => some (h, [])
  | 0, _, _, some _ => none
  | f + 1, i, h, some n =>
    ((call i n).foldlM (fun h (o : Op) => o.run fuel h) h).bind fun h' =>
      (Heap.round fuel call f (i + 1) h' (h'.next n)).map fun r => (r.1, n :: r.2)

/-- `DoLoop`, common/looper.h:78-87 (without the cycle and loop counters) -/
def Heap.doLoop (fuel : Nat) (call : Nat → Nat → List Op) (h : Heap) : Option (Heap × List Nat) :=
  h.round fuel call fuel 0 h.head

/-- `DoHFLoop`, common/looper.h:88-98 -/
def Heap.doHFLoop (fuel : Nat) (call : Nat → Nat → List Op) (h : Heap) : Option (Heap × List Nat) :=
  h.round fuel call fuel 0 h.hf

/-- `CommandParser::DoParse`, common/command_parser.h:34-41; `accepts n` is what `Parse` of handler `n`
returns for the command.  Result: the answer and the handlers that were asked, in order. -/
def Heap.doParse (h : Heap) (accepts : Nat → Bool) : Nat → Option Nat → Option (Bool × List Nat)
  | _, none => some (false, [])
  | 0, some _ => none
  | f + 1, some n =>
    if accepts n then some (true, [n])
    else (h.doParse accepts f (h.next n)).map fun r => (r.1, n :: r.2)

/-! ## LinkedPtr -/

/-- the fields of every `LinkedPtr` object (common/linked_ptr.h:51-53), and the values passed to
`Free::Free` so far, newest first -/
structure LHeap where
  ptr : Nat → Option Nat
  prev : Nat → Nat
  next : Nat → Nat
  freed : List (Option Nat)

/-- a function changed at one place -/
def upd {β : Type} (f : Nat → β) (i : Nat) (v : β) : Nat → β := fun j => if j = i then v else f j

/-- the constructors from nothing and from a raw pointer, common/linked_ptr.h:10-11 -/
def LHeap.create (h : LHeap) (i : Nat) (p : Option Nat) : LHeap :=
  { h with ptr := upd h.ptr i p, prev := upd h.prev i i, next := upd h.next i i }

/-- `leave`, common/linked_ptr.h:35-42 -/
def LHeap.leave (h : LHeap) (i : Nat) : LHeap :=
  if h.next i = i then { h with freed := h.ptr i :: h.freed }
  else
    let h := { h with prev := upd h.prev (h.next i) (h.prev i) }
    { h with next := upd h.next (h.prev i) (h.next i) }

/-- `join`, common/linked_ptr.h:43-49 -/
def LHeap.join (h : LHeap) (i o : Nat) : LHeap :=
  let h := { h with ptr := upd h.ptr i (h.ptr o) }
  let h := { h with prev := upd h.prev i o }
  let h := { h with next := upd h.next i (h.next o) }
  let h := { h with prev := upd h.prev (h.next i) i }
  { h with next := upd h.next (h.prev i) i }

/-- operations on `LinkedPtr` objects: construct (10-11), copy-construct (13), assign (14-20), assign a
raw pointer (21-25), destroy (12) -/
inductive LOp where
  | create (i : Nat) (p : Option Nat) | copy (i o : Nat) | assign (i o : Nat) | assignRaw (i : Nat) (p : Option Nat) | destroy (i : Nat)

/-- running one operation, common/linked_ptr.h:10-25 -/
def LOp.run (h : LHeap) : LOp → LHeap
  | .create i p => h.create i p
  | .copy i o => h.join i o
  | .assign i o => if o ≠ i then (h.leave i).join i o else h
  | .assignRaw i p => let h := h.leave i; { h with ptr := upd h.ptr i p }
  | .destroy i => h.leave i

/-! ## RefPtr -/

/-- the pointer of every `RefPtr` object (common/ref.h:48), the reference count of every target
(sound/buffered_wav_player.h:140-143), and the targets released so far (count became 0) -/
structure RHeap where
  ptr : Nat → Option Nat
  refs : Nat → Int
  released : List Nat

/-- `AddRef`, common/ref.h:47 -/
def RHeap.addRef (h : RHeap) (i : Nat) : RHeap :=
  match h.ptr i with
  | none => h
  | some p => { h with refs := upd h.refs p (h.refs p + 1) }

/-- `Free`, common/ref.h:26 -/
def RHeap.free (h : RHeap) (i : Nat) : RHeap :=
  match h.ptr i with
  | none => h
  | some p =>
    let h := { h with refs := upd h.refs p (h.refs p - 1), ptr := upd h.ptr i none }
    if h.refs p = 0 then { h with released := p :: h.released } else h

/-- operations on `RefPtr` objects, common/ref.h:10-24 -/
inductive ROp where
  | create (i : Nat) (p : Option Nat) | copy (i o : Nat) | move (i o : Nat) | assign (i o : Nat) | free (i : Nat)

/-- running one operation: constructors (10-11), copy (13), move (14), assign (15-24), `Free` (26) and
the destructor (12) -/
def ROp.run (h : RHeap) : ROp → RHeap
  | .create i p => RHeap.addRef { h with ptr := upd h.ptr i p } i
  | .copy i o => RHeap.addRef { h with ptr := upd h.ptr i (h.ptr o) } i
  | .move i o => let h := { h with ptr := upd h.ptr i (h.ptr o) }; { h with ptr := upd h.ptr o none }
  | .assign i o =>
    if h.ptr o ≠ h.ptr i then
      let h := h.free i
      RHeap.addRef { h with ptr := upd h.ptr i (h.ptr o) } i
    else h
  | .free i => h.free i

/-! ## BoxFilter -/

/-- `data` and `pos` of `BoxFilter<T, N>`, common/box_filter.h:29-30; samples are integers -/
structure Box where
  data : List Int
  pos : Nat

/-- `clear`, common/box_filter.h:7-11: starts at index 1 -/
def Box.clear (b : Box) (v : Int) : Box :=
  { b with data := b.data.take 1 ++ List.replicate (b.data.length - 1) v }

/-- `push`, common/box_filter.h:12-16 -/
def Box.push (N : Nat) (b : Box) (v : Int) : Box :=
  let b : Box := ⟨b.data.set b.pos v, b.pos + 1⟩
  if b.pos = N then { b with pos := 0 } else b

/-- `get`, common/box_filter.h:17-23 -/
def Box.get (N : Nat) (b : Box) : Int :=
  Int.tdiv ((b.data.drop 1).foldl (· + ·) (b.data.headD 0)) N

/-- `BoxFilter<T, 2>`: `push` and `get`, common/box_filter.h:77-83 -/
def box2Push (d : Int × Int) (v : Int) : Int × Int := (d.2, v)
/-- common/box_filter.h:81-83 -/
def box2Get (d : Int × Int) : Int := Int.tdiv (d.1 + d.2) 2

/-- `BoxFilter<T, 1>` and `BoxFilter<T, 0>`: `push` and `get`, common/box_filter.h:34-70 -/
def box1Push (_ : Int) (v : Int) : Int := v
/-- common/box_filter.h:42-44 -/
def box1Get (d : Int) : Int := d

end Verif.Reg
