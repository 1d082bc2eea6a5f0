/-!
# The fixed-size bit set of style arguments

Model of `BitSet<SIZE>` (common/arg_parser.h:127-188).  The words are the array `bits_`; reading or
writing a word outside the array is `none`.
-/
namespace Verif.Str.BitSet

/-- `bits_`, common/arg_parser.h:187 -/
abbrev Words := List Nat

/-- number of words, `(SIZE+31)/32`, common/arg_parser.h:187 -/
def nelem (size : Nat) : Nat := (size + 31) / 32

/-- the constructor, common/arg_parser.h:130-134, and `clear()`, 139-143 -/
def empty (size : Nat) : Words := List.replicate (nelem size) 0

/-- `operator[]` and `get`, common/arg_parser.h:135-136 -/
def get (ws : Words) (bit : Nat) : Option Bool :=
  match ws[bit >>> 5]? with
  | none => none
  | some w => some (w &&& (1 <<< (bit &&& 31)) != 0)

/-- `set`, common/arg_parser.h:137 -/
def set (ws : Words) (bit : Nat) : Option Words :=
  match ws[bit >>> 5]? with
  | none => none
  | some w => some (List.set ws (bit >>> 5) (w ||| (1 <<< (bit &&& 31))))

/-- `clear(bit)`, common/arg_parser.h:138; `~` on 32 bits -/
def clear (ws : Words) (bit : Nat) : Option Words :=
  match ws[bit >>> 5]? with
  | none => none
  | some w => some (List.set ws (bit >>> 5) (w &&& ((2 ^ 32 - 1) ^^^ (1 <<< (bit &&& 31)))))

/-- `__builtin_popcount` of a 32-bit word -/
def popcount32 (w : Nat) : Nat := (List.range 32).countP (fun i => w.testBit i)

/-- `popcount`, common/arg_parser.h:144-150 -/
def popcount (ws : Words) : Nat := ws.foldl (fun ret w => ret + popcount32 w) 0

/-- the loop of `next`, common/arg_parser.h:152-155, from step `i`, `f` steps to go -/
def nextLoop (size : Nat) (ws : Words) (bit : Nat) : Nat → Nat → Option Nat
  | _, 0 => some bit
  | i, f + 1 =>
    match get ws ((bit + i) % size) with
    | none => none
    | some true => some ((bit + i) % size)
    | some false => nextLoop size ws bit (i + 1) f

/-- `next`, common/arg_parser.h:151-157 -/
def next (size : Nat) (ws : Words) (bit : Nat) : Option Nat := nextLoop size ws bit 1 size

/-- the loop of `prev`, common/arg_parser.h:159-162 -/
def prevLoop (size : Nat) (ws : Words) (bit : Nat) : Nat → Nat → Option Nat
  | _, 0 => some bit
  | i, f + 1 =>
    match get ws ((bit + size - i) % size) with
    | none => none
    | some true => some ((bit + size - i) % size)
    | some false => prevLoop size ws bit (i + 1) f

/-- `prev`, common/arg_parser.h:158-164 -/
def prev (size : Nat) (ws : Words) (bit : Nat) : Option Nat := prevLoop size ws bit 1 size

/-- the loop of `nth`, common/arg_parser.h:166-172, `f` steps to go -/
def nthLoop (ws : Words) : Int → Nat → Nat → Option Nat
  | _, _, 0 => some 0
  | bit, i, f + 1 =>
    match get ws i with
    | none => none
    | some true => if bit ≤ 0 then some i else nthLoop ws (bit - 1) (i + 1) f
    | some false => nthLoop ws bit (i + 1) f

/-- `nth`, common/arg_parser.h:165-174; the loop runs to `i <= SIZE` -/
def nth (size : Nat) (ws : Words) (bit : Int) : Option Nat := nthLoop ws bit 0 (size + 1)

/-- the loop of `operator>>=`, common/arg_parser.h:177-183, `f` steps to go -/
def shiftLoop (size bits : Nat) : Words → Nat → Nat → Option Words
  | ws, _, 0 => some ws
  | ws, i, f + 1 =>
    if i + bits < size then
      match get ws (i + bits) with
      | none => none
      | some true => (set ws i).bind (fun ws => shiftLoop size bits ws (i + 1) f)
      | some false => (clear ws i).bind (fun ws => shiftLoop size bits ws (i + 1) f)
    else (clear ws i).bind (fun ws => shiftLoop size bits ws (i + 1) f)

/-- `operator>>=`, common/arg_parser.h:175-184, for shifts that are not negative -/
def shiftRight (size : Nat) (ws : Words) (bits : Nat) : Option Words :=
  if bits = 0 then some ws else shiftLoop size bits ws 0 size

end Verif.Str.BitSet
