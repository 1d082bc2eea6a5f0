/-!
# Text layer of the configuration files

Model of the character-level reader and writer in `common/file_reader.h`.  A byte is a `Nat`
below 256.  An open file is modelled by the bytes from the current position to the end of the
file: `Peek` is the head, `Read` drops it, `Available` is the length, `Seek(Tell() - 1)` puts the
byte just read back.
-/
namespace Verif.Store

/-- The unread rest of an open file. -/
abbrev Text := List Nat

/-- `toLower`, common/string_piece.h:4-7. -/
def toLower (c : Nat) : Nat := if 65 ≤ c ∧ c ≤ 90 then c + 32 else c

/-- characters `skipspace` skips: blank, tab (common/file_reader.h:293-294) -/
def isBlank (c : Nat) : Bool := c == 32 || c == 9
/-- characters `skipwhite` skips: blank, tab, newline, carriage return (common/file_reader.h:279-282) -/
def isWhite (c : Nat) : Bool := c == 32 || c == 9 || c == 10 || c == 13

/-- `skipwhite`, common/file_reader.h:276-289. -/
def skipwhite : Text → Text
  | [] => []
  | c :: t => if isWhite c then skipwhite t else c :: t

/-- `skipspace`, common/file_reader.h:290-301. -/
def skipspace : Text → Text
  | [] => []
  | c :: t => if isBlank c then skipspace t else c :: t

/-- `skipline`, common/file_reader.h:303-305. -/
def skipline : Text → Text
  | [] => []
  | c :: t => if c = 10 then t else skipline t

/-- `Expect(str)`, common/file_reader.h:254-261: success and the rest of the file. -/
def expect : List Nat → Text → Bool × Text
  | [], t => (true, t)
  | s :: ss, c :: t => if c = s then expect ss t else (false, c :: t)
  | _ :: _, [] => (false, [])

/-- characters accepted in a variable name, common/file_reader.h:369 (after `toLower`) -/
def isNameChar (c : Nat) : Bool := (97 ≤ c && c ≤ 122) || (48 ≤ c && c ≤ 57) || c == 95 || c == 46

/-- the loop of `readVariable`, common/file_reader.h:367-376; `n` characters still allowed -/
def readName : Nat → Text → Text × Text
  | 0, t => ([], t)
  | _, [] => ([], [])
  | n+1, c :: t =>
    if isNameChar (toLower c) then
      let r := readName n t
      (toLower c :: r.1, r.2)
    else ([], c :: t)

/-- `readVariable`, common/file_reader.h:364-379. -/
def readVariable (t : Text) : Text × Text :=
  let r := readName 32 (skipspace t)
  (r.1, skipspace r.2)

/-- digits part of `readIntValue`, common/file_reader.h:322-331; the accumulator is an `int64_t`,
overflow is `none` -/
def readDigits (ret : Nat) : Text → Option (Nat × Text)
  | [] => some (ret, [])
  | c :: t =>
    if 48 ≤ c ∧ c ≤ 57 then
      if (c - 48) + 10 * ret < 2^63 then readDigits ((c - 48) + 10 * ret) t else none
    else some (ret, c :: t)

/-- `readIntValue`, common/file_reader.h:315-332. -/
def readIntValue (t : Text) : Option (Int × Text) :=
  match t with
  | 45 :: t' => (readDigits 0 t').map fun r => (-(r.1 : Int), r.2)
  | _ => (readDigits 0 t).map fun r => ((r.1 : Int), r.2)

/-- An exact decimal number `± mant / 10^scale`; stands for the `float` of the code (rounding of
binary floating point is not modelled). -/
structure Dec where
  neg : Bool
  mant : Nat
  scale : Nat
deriving DecidableEq, Repr

/-- loop of `readFloatValue`, common/file_reader.h:342-361.  `frac = false` is `mult == 1.0`. -/
def readFloatLoop (mant scale : Nat) (frac : Bool) : Text → Nat × Nat × Text
  | [] => (mant, scale, [])
  | c :: t =>
    if 48 ≤ c ∧ c ≤ 57 then
      if frac then readFloatLoop (10 * mant + (c - 48)) (scale + 1) true t
      else readFloatLoop (10 * mant + (c - 48)) scale false t
    else if c = 46 then
      if frac then (mant, scale, c :: t) else readFloatLoop mant scale true t
    else (mant, scale, c :: t)

/-- `readFloatValue`, common/file_reader.h:334-362. -/
def readFloatValue (t : Text) : Dec × Text :=
  match t with
  | 45 :: t' => let r := readFloatLoop 0 0 false t'; (⟨true, r.1, r.2.1⟩, r.2.2)
  | _ => let r := readFloatLoop 0 0 false t; (⟨false, r.1, r.2.1⟩, r.2.2)

/-- the character stored for `\c`, common/file_reader.h:394-399 -/
def unescape (c : Nat) : Nat := if c = 92 then 92 else if c = 110 then 10 else if c = 116 then 9 else c

/-- `readString`, common/file_reader.h:382-418: characters stored, unread rest.  Growing the
buffer is assumed to succeed; a backslash at the end of the file stores `(char)-1`. -/
def readString : Text → Text × Text
  | [] => ([], [])
  | c :: t =>
    if c = 10 then ([], 10 :: t)
    else if c = 92 then
      match t with
      | [] => ([255], [])
      | d :: t' => let r := readString t'; (unescape d :: r.1, r.2)
    else let r := readString t; (c :: r.1, r.2)

/-- The C string stored in a buffer: everything before the first NUL. -/
def cstr (v : Text) : Text := v.takeWhile (· ≠ 0)

/-- characters written for one character of a value, common/file_reader.h:670-675 -/
def escapeChar (c : Nat) : Text :=
  if c = 10 then [92, 110] else if c = 9 then [92, 116] else if c = 92 then [92, 92] else [c]

def escape (v : Text) : Text := v.flatMap escapeChar

/-- `write_key_value(key, value)`, common/file_reader.h:420-433, 664-679. -/
def writeKeyValue (key value : Text) : Text := key ++ 61 :: (escape value ++ [10])

/-- Decimal digits of a number, most significant first (the C library's `itoa` for `v >= 0`). -/
def decimal (n : Nat) : Text :=
  if h : n < 10 then [48 + n] else decimal (n / 10) ++ [48 + n % 10]
termination_by n
decreasing_by omega

/-- `itoa(v, buf, 10)`. -/
def itoa (v : Int) : Text := if v < 0 then 45 :: decimal v.natAbs else decimal v.natAbs

/-- `write_key_value_float(key, f)`, common/file_reader.h:441-448, 687-694, for `f = h / 100`
exactly: `floorf` is `Int.fdiv`, C's `%` is `Int.tmod`. -/
def floatText (h : Int) : Text :=
  itoa (h.fdiv 100) ++ [46] ++ itoa ((h.fdiv 10).tmod 10) ++ itoa (h.tmod 10)

def writeKeyFloat (key : Text) (h : Int) : Text := writeKeyValue key (floatText h)

end Verif.Store
