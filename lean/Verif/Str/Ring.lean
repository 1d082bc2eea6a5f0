/-!
# The circular buffer

Model of `CircularBuffer<T, SIZE>` (common/circular_buffer.h:6-45).  `size_t` arithmetic is modulo `M`
(2^32 on the boards).  The element storage is a list of length `SIZE`; reading or writing outside it is
`none`.
-/
namespace Verif.Str.Ring

/-- the members of `CircularBuffer`, common/circular_buffer.h:41-43 -/
structure Buf (α : Type) where
  data : List α
  first : Nat
  last : Nat
deriving DecidableEq

variable {α : Type}

/-- `size`, common/circular_buffer.h:16 -/
def Buf.size (M : Nat) (b : Buf α) : Nat := (b.first + (M - b.last)) % M
/-- `empty`, common/circular_buffer.h:17 -/
def Buf.empty (M : Nat) (b : Buf α) : Bool := decide (b.size M = 0)
/-- `space_available`, common/circular_buffer.h:18 -/
def Buf.space (M SIZE : Nat) (b : Buf α) : Nat := (SIZE + (M - b.size M)) % M
/-- `continuous_space`, common/circular_buffer.h:19-21 -/
def Buf.contSpace (M SIZE : Nat) (b : Buf α) : Nat := min (b.space M SIZE) (SIZE - b.first % SIZE)
/-- `continuous_data`, common/circular_buffer.h:22-24 -/
def Buf.contData (M SIZE : Nat) (b : Buf α) : Nat := min (b.size M) (SIZE - b.last % SIZE)

/-- assignment to `next()`, common/circular_buffer.h:14 -/
def Buf.setNext (SIZE : Nat) (b : Buf α) (x : α) : Option (Buf α) :=
  if b.first % SIZE < b.data.length then some { b with data := b.data.set (b.first % SIZE) x } else none

/-- writing `xs` from `space()` on (12), as `memcpy` does -/
def Buf.fill (SIZE : Nat) (b : Buf α) (xs : List α) : Option (Buf α) :=
  if b.first % SIZE + xs.length ≤ b.data.length then
    some { b with data := b.data.take (b.first % SIZE) ++ xs ++ b.data.drop (b.first % SIZE + xs.length) }
  else none

/-- `push(elements)`, common/circular_buffer.h:27; `push()` (26) is `push 1` -/
def Buf.push (M : Nat) (b : Buf α) (n : Nat) : Buf α := { b with first := (b.first + n) % M }

/-- `current`, common/circular_buffer.h:10 -/
def Buf.current (SIZE : Nat) (b : Buf α) : Option α := b.data[b.last % SIZE]?

/-- reading `n` elements from `data()` on (11) -/
def Buf.peek (SIZE : Nat) (b : Buf α) (n : Nat) : Option (List α) :=
  if b.last % SIZE + n ≤ b.data.length then some ((b.data.drop (b.last % SIZE)).take n) else none

/-- `pop(elements)`, common/circular_buffer.h:33 -/
def Buf.drop (M : Nat) (b : Buf α) (n : Nat) : Buf α := { b with last := (b.last + n) % M }

/-- `pop()`, common/circular_buffer.h:28-32 -/
def Buf.pop (M SIZE : Nat) (b : Buf α) : Option (α × Buf α) :=
  (b.current SIZE).map (fun x => (x, b.drop M 1))

/-- `clear`, common/circular_buffer.h:35, and the constructor (9) for the counters -/
def Buf.clear (b : Buf α) : Buf α := { b with first := 0, last := 0 }

end Verif.Str.Ring
