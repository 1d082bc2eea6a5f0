import Verif.Str.Model
/-!
# Sorted menu lines

Model of `SortedLineHelper` (common/command_parser.h:79-243): a menu that shows the lines printed by
a command in sorted order without storing them, by running the command again and again.

The output of the command is the same list of lines in every run.  A line is a non-empty text (the
capture helper drops empty lines, common/stdout.h:196-208).
-/
namespace Verif.Str

/-- `Line<bufsize>`, common/stdout.h:160-182 -/
structure Line where
  num : Int
  text : Text
deriving DecidableEq

/-- the part of `SortedLineFinder` that `GotLine` updates, common/command_parser.h:206-214 -/
structure Scan where
  ret : Text := []
  guess : Text := []
  lo : Nat := 0
  hi : Nat := 0

/-- `SortedLineFinder::GotLine`, common/command_parser.h:121-147 -/
def gotLine (mn mx : Text) (first : Bool) (wanted : Int) (st : Scan) (l : Text) : Scan :=
  if cmp l mn ≤ 0 then st
  else if cmp l mx ≥ 0 then st
  else
    let ret :=
      if st.ret = [] then l
      else if first then (if cmp l st.ret < 0 then l else st.ret)
      else (if cmp l st.ret > 0 then l else st.ret)
    if st.guess = [] then { st with ret := ret, guess := l }
    else if cmp l st.guess ≥ 0 then
      if st.hi = 0 ∧ (st.lo : Int) < wanted then { st with ret := ret, guess := l, lo := st.lo + 1 }
      else { st with ret := ret, hi := st.hi + 1 }
    else { st with ret := ret, lo := st.lo + 1 }

/-- one run of the command under a `SortedLineFinder` -/
def scan (lines : List Text) (mn mx : Text) (first : Bool) (wanted : Int) : Scan :=
  lines.foldl (gotLine mn mx first wanted) {}

/-- outcome of a search: the line found, signed overflow in `wanted_ <<= wanted_shift_` (undefined
behaviour), or still searching when the step bound is used up -/
inductive Found where
  | line (l : Line) | overflow | running
deriving DecidableEq

/-- the variables of `find` that live across rounds -/
structure Search where
  mn : Line
  mx : Line
  ret : Line
  shift : Nat

/-- one round of the loop of `find`, common/command_parser.h:165-201; `none`: overflow -/
def findStep (lines : List Text) (n : Int) (st : Search) : Option Search :=
  let first : Bool := decide (n - st.mn.num < st.mx.num - n)
  let sh := st.shift - 1
  let wanted : Int := (n - st.mn.num) * 2 ^ sh
  if wanted ≥ 2 ^ 31 then none
  else
    let r := scan lines st.mn.text st.mx.text first wanted
    let total := st.mx.num - st.mn.num
    let expectedHigh := Int.tdiv (total - wanted) 2
    let actualHigh := (r.lo : Int) - wanted
    let sh := if expectedHigh > actualHigh then sh + 2 else sh
    let ret : Line := ⟨if first then st.mn.num + 1 else st.mx.num - 1, r.ret⟩
    let mn := if first then ret else st.mn
    let mx := if first then st.mx else ret
    let guess : Line := ⟨mn.num + 1 + r.lo, r.guess⟩
    some <|
      if guess.num > n then ⟨mn, guess, ret, sh⟩
      else if guess.num < n then ⟨guess, mx, ret, 0⟩
      else ⟨mn, mx, guess, sh⟩

/-- the loop `while (ret_.line_number != n)`, common/command_parser.h:164-202 -/
def findLoop (lines : List Text) (n : Int) : Nat → Search → Found
  | f, st =>
    if st.ret.num = n then .line st.ret
    else match f with
      | 0 => .running
      | f + 1 =>
        match findStep lines n st with
        | none => .overflow
        | some st' => findLoop lines n f st'

/-- start of `find`, common/command_parser.h:149-163; `prev` is the line found last
(`helper_.line_`, number -1 if none) -/
def findStart (numLines : Nat) (prev : Line) (n : Int) : Search :=
  let mn : Line := ⟨-1, []⟩
  let mx : Line := ⟨numLines + 1, [127]⟩
  if prev.num ≥ 0 then
    if prev.num > n then ⟨mn, prev, prev, 0⟩ else ⟨prev, mx, prev, 0⟩
  else ⟨mn, mx, prev, 0⟩

/-- `SortedLineFinder::find`, common/command_parser.h:149-203 -/
def find (lines : List Text) (numLines : Nat) (prev : Line) (n : Int) (fuel : Nat) : Found :=
  findLoop lines n fuel (findStart numLines prev n)

/-- the state of a `SortedLineHelper`, common/command_parser.h:237-242 -/
structure Helper where
  curPos : Int
  curExists : Bool
  numLines : Nat
  line : Line

/-- `init`, common/command_parser.h:84-98, with the counting of `InitialPositionFinder` (103-108) -/
def Helper.init (lines : List Text) (cur : Text) : Helper :=
  let higher := lines.countP (fun l => cmp l cur > 0)
  let lower := lines.countP (fun l => ¬ cmp l cur > 0 ∧ cmp l cur < 0)
  ⟨lower, decide (lower + higher + 1 = lines.length), lines.length, ⟨-1, []⟩⟩

/-- outcome of `get`: the text shown and the new state of the helper -/
inductive GetOut where
  | ok (t : Text) (h : Helper) | overflow | running

/-- `get`, common/command_parser.h:219-231 -/
def Helper.get (h : Helper) (lines : List Text) (cur : Text) (n : Int) (fuel : Nat) : GetOut :=
  if n = h.curPos then .ok cur h
  else
    let n := if n ≥ h.curPos ∧ ¬ h.curExists then n - 1 else n
    if n ≠ h.line.num then
      match find lines h.numLines h.line n fuel with
      | .line l => .ok l.text { h with line := l }
      | .overflow => .overflow
      | .running => .running
    else .ok h.line.text h

end Verif.Str
