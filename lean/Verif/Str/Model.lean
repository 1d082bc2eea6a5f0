/-!
# C-string helpers

Model of `common/strfun.h`, `common/string_piece.h`, the text part of `common/arg_parser.h` and
`PathHelper` of `common/lsfs.h`.

A NUL-terminated C string is the list of its bytes before the NUL (so no byte of it is 0); a
pointer into the string is the suffix starting there; reading the NUL is the `[]` case.  `char` is
unsigned, as on the ARM targets of the project.
-/
namespace Verif.Str

/-- the bytes of a C string from a position up to the terminating NUL -/
abbrev Text := List Nat

/-- `toLower`, common/string_piece.h:4-6. -/
def toLower (c : Nat) : Nat := if 65 ≤ c ∧ c ≤ 90 then c - 65 + 97 else c

/-- blank or tab, the separator test used in common/strfun.h:49,55 and common/arg_parser.h:15,36,42 -/
def isBlank (c : Nat) : Bool := c == 32 || c == 9

/-- `startswith`, common/strfun.h:6-13; `none` is `nullptr`. -/
def startswith : Text → Text → Option Text
  | [], x => some x
  | _ :: _, [] => none
  | p :: ps, c :: cs => if toLower c ≠ toLower p then none else startswith ps cs

/-- `cmpdir`, common/strfun.h:15-24. -/
def cmpdir : Text → Text → Int
  | [], [] => 0
  | a :: _, [] => if a = 47 then 0 else toLower a
  | [], b :: _ => if b = 47 then 0 else - toLower b
  | a :: as, b :: bs =>
    if toLower a = toLower b then cmpdir as bs else (toLower a : Int) - toLower b

/-- `parse1hex`, common/strfun.h:26-30. -/
def parse1hex (c : Nat) : Int :=
  let ret : Int := toLower c
  if ret > 97 then ret - 97 + 10 else ret - 48

/-- the comparison loop of `endswith`, common/strfun.h:40-45 -/
def endsLoop : Text → Text → Bool
  | [], _ => true
  | _ :: _, [] => false
  | p :: ps, c :: cs => if toLower c ≠ toLower p then false else endsLoop ps cs

/-- `endswith`, common/strfun.h:36-46. -/
def endswith (post x : Text) : Bool :=
  if x.length < post.length then false
  else endsLoop post (x.drop (x.length - post.length))

/-- `SkipSpace`, common/strfun.h:48-51. -/
def skipSpace : Text → Text
  | [] => []
  | c :: t => if isBlank c then skipSpace t else c :: t

/-- the loop `while (*str != ' ' && *str != '\t' && *str) str++`, common/strfun.h:55 and
common/arg_parser.h:42 -/
def skipNonBlank : Text → Text
  | [] => []
  | c :: t => if isBlank c then c :: t else skipNonBlank t

/-- `SkipWord`, common/strfun.h:53-57. -/
def skipWord (s : Text) : Text := skipNonBlank (skipSpace s)

/-- the loop of `CountWords`, common/strfun.h:61-64; the fuel bounds the number of rounds, each of
which consumes a byte -/
def countLoop : Nat → Text → Nat
  | 0, _ => 0
  | _ + 1, [] => 0
  | f + 1, s => countLoop f (skipWord s) + 1

/-- `CountWords`, common/strfun.h:59-66. -/
def countWords (s : Text) : Nat := countLoop s.length s

/-- the comparison loop of `FirstWord`, common/arg_parser.h:16-23 -/
def firstLoop : Text → Text → Bool
  | [], [] => true
  | c :: _, [] => isBlank c
  | [], _ :: _ => false
  | c :: cs, w :: ws => if c = w then firstLoop cs ws else false

/-- `FirstWord`, common/arg_parser.h:14-24. -/
def firstWord (str word : Text) : Bool := firstLoop (skipSpace str) word

/-! ## ArgParser -/

/-- the loop of `ArgParser::GetArg`, common/arg_parser.h:35-43; `none` is "return default_value",
`some p` a pointer to the argument.  The fuel bounds the number of words. -/
def getArgLoop (n : Int) : Nat → Int → Text → Option Text
  | 0, _, _ => none
  | f + 1, arg, s =>
    match skipSpace s with
    | [] => none
    | c :: t =>
      if arg + 1 = n then
        (if c = 126 then none else some (c :: t))
      else getArgLoop n f (arg + 1) (skipNonBlank (c :: t))

/-- `ArgParser::GetArg` as a pointer, common/arg_parser.h:30-44. -/
def getArgPtr (s : Text) (n : Int) (dflt : Text) : Text :=
  (getArgLoop n (s.length + 1) 0 s).getD dflt

/-- `ArgParser::Shift`, common/arg_parser.h:45-47. -/
def shift : Nat → Text → Text
  | 0, s => s
  | k + 1, s => shift k (skipWord s)

/-- The argument a caller sees: the returned pointer up to the next blank or the end (what
`strtol`-style readers and `GetArgParser` use). -/
def wordAt (s : Text) : Text := s.takeWhile (fun c => !isBlank c)

/-- `DefaultArgumentParserWrapper::GetArg` around an `ArgParser`, common/arg_parser.h:258-261. -/
def wrappedArgPtr (s defaults : Text) (n : Int) (dflt : Text) : Text :=
  getArgPtr s n (getArgPtr defaults n dflt)

/-! ## StringPiece comparison -/

/-- `StringPiece::cmp`, common/string_piece.h:14-29. -/
def cmp : Text → Text → Int
  | [], [] => 0
  | [], _ :: _ => -1
  | _ :: _, [] => 1
  | a :: as, b :: bs =>
    if toLower a ≠ toLower b then (if toLower a < toLower b then -1 else 1) else cmp as bs

/-- the six operators of `StringPiece`, common/string_piece.h:30-35, as written -/
def opLt (a b : Text) : Bool := decide (cmp a b < 0)
def opGt (a b : Text) : Bool := decide (cmp a b > 0)
def opLe (a b : Text) : Bool := decide (cmp a b ≤ 0)
/-- `operator>=`, common/string_piece.h:33; the code tests `cmp(other) <= 0` -/
def opGe (a b : Text) : Bool := decide (cmp a b ≤ 0)
def opEq (a b : Text) : Bool := decide (cmp a b = 0)
def opNe (a b : Text) : Bool := decide (cmp a b ≠ 0)
/-- `Line::operator>=`, common/stdout.h:167,174 -/
def lineGe (a b : Text) : Bool := decide (cmp a b ≥ 0)

/-! ## Patterns -/

/-- number of `*` in a pattern, common/strfun.h:128-129 and 147-148 -/
def stars : Text → Nat
  | [] => 0
  | c :: p => if c = 42 then stars p + 1 else stars p

/-- output loop of `format_pattern`, common/strfun.h:133-141 -/
def formatPattern : Text → Text → Text
  | [], _ => []
  | c :: p, v => if c = 42 then v ++ formatPattern p v else c :: formatPattern p v

/-- size of the buffer `format_pattern` allocates, common/strfun.h:130 (`size_t`, 32 bits) -/
def formatBuffer (p v : Text) : Nat :=
  (p.length + stars p * (v.length + 2^32 - 1) + 1) % 2^32

/-- the loop of `match_pattern`, common/strfun.h:158-172; `none` is `StringPiece()`.  `ret` is the
text found for the first `*` (`[]` while `!ret`). -/
def matchLoop (k : Nat) : Text → Text → Text → Option Text
  | [], _, ret => some ret
  | c :: p, v, ret =>
    if c = 42 then
      if ret = [] then matchLoop k p (v.drop k) (v.take k)
      else if opNe ret (v.take k) then none
      else matchLoop k p (v.drop k) ret
    else
      match v with
      | [] => none
      | x :: v' => if x ≠ c then none else matchLoop k p v' ret

/-- `match_pattern`, common/strfun.h:146-174.  Outer `none`: the code divides by zero. -/
def matchPattern (p v : Text) : Option (Option Text) :=
  let len : Int := (v.length : Int) - ((p.length : Int) - stars p)
  if len < 0 then some none
  else if stars p = 0 then none
  else if len.toNat % stars p ≠ 0 then some none
  else some (matchLoop (len.toNat / stars p) p v [])

/-! ## PathHelper -/

/-- the path buffer holds `cap` bytes including the NUL (common/lsfs.h:61-65); a longer result
overflows it, `none` -/
def fits (cap : Nat) (p : Text) : Option Text := if p.length < cap then some p else none

/-- `PathHelper::Append(name)`, common/lsfs.h:9-14. -/
def pathAppend (cap : Nat) (path name : Text) : Option Text :=
  fits cap ((if path ≠ [] ∧ path.getLast? ≠ some 47 then path ++ [47] else path) ++ name)

/-- `PathHelper::Append(name, ext)`, common/lsfs.h:15-22. -/
def pathAppendExt (cap : Nat) (path name ext : Text) : Option Text :=
  fits cap ((if path ≠ [] ∧ path.getLast? ≠ some 47 then path ++ [47] else path) ++ name ++ [46] ++ ext)

/-- `PathHelper::IsRoot`, common/lsfs.h:46-50. -/
def pathIsRoot (path : Text) : Bool := path = [] || path = [47]

/-- position of the last `/`, `strrchr` -/
def lastSlash : Text → Option Nat
  | [] => none
  | c :: t =>
    match lastSlash t with
    | some i => some (i + 1)
    | none => if c = 47 then some 0 else none

/-- `PathHelper::Dirname`, common/lsfs.h:51-58: result, the new path, and what is left in the buffer
behind the new terminator. -/
def pathDirname (path : Text) : Bool × Text × Option Text :=
  match lastSlash path with
  | some i => (! pathIsRoot (path.take i), path.take i, some (path.drop (i + 1)))
  | none => (false, path, none)

/-- `PathHelper::UndoDirname`, common/lsfs.h:59-61: puts a `/` over the terminator, so whatever
follows in the buffer becomes part of the path again. -/
def pathUndoDirname (path : Text) (behind : Text) : Text := path ++ 47 :: behind

end Verif.Str
