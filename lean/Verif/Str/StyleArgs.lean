import Verif.Str.Model
/-!
# Style arguments

Model of `GetArgParser` (common/arg_parser.h) and the argument functions of `StyleParser`
(styles/style_parser.h).

Creating a style (`style_allocator->make()`) calls `GetArg` and `Shift` on the current argument
parser; which calls it makes may depend on the values it got before (the `builtin` style does
this).  A style is therefore modelled as a `Prog`.  Callers of `GetArg` only look at the returned
text up to the next blank, which is what the continuation receives.
-/
namespace Verif.Str

/-- the calls of a style's `make()` on the argument parser: `get n d k` is
`GetArg(n + 1, name, d)` (argument numbers are at least 1), `shift j p` is `Shift(j)` -/
inductive Prog where
  | done : Prog
  | get : Nat → Text → (Text → Prog) → Prog
  | shift : Nat → Prog → Prog

/-- `memcpy(output, p, SkipWord(p) - p)`, common/arg_parser.h:104-106 and styles/style_parser.h:254-256 -/
def copyWord (p : Text) : Text := p.take (p.length - (skipWord p).length)

/-- Running a style under a `GetArgParser` that looks for argument `cur`, common/arg_parser.h:94-125:
`s` the text of the base parser, `off` the offset, `o` the output so far (`none`: not found). -/
def runGet (cur : Nat) : Prog → Text → Nat → Option Text → Option Text
  | .done, _, _, o => o
  | .get n d k, s, off, o =>
    let ret := getArgPtr s (n + 1) d
    runGet cur (k (wordAt ret)) s off (if cur = n + 1 + off then some (copyWord ret) else o)
  | .shift j p, s, off, o => runGet cur p (shift j s) (off + j) o

/-- `StyleParser::FindStyle`, styles/style_parser.h:122-131, over any table of named styles -/
def findStyle (styles : List (Text × Prog)) (str : Text) : Option Prog :=
  (styles.find? (fun e => firstWord str e.1)).map (·.2)

/-- result of `GetArgument`: no such style (output untouched), no such argument (empty output,
`false`), or the text copied to the output (`true`) -/
inductive GetRes where
  | noStyle | missing | val (w : Text)
deriving DecidableEq

/-- `StyleParser::GetArgument`, styles/style_parser.h:237-262 (`argument ≥ 0`).  The size of the
caller's output buffer is not modelled. -/
def getArgument (styles : List (Text × Prog)) (str : Text) (arg : Nat) : GetRes :=
  match findStyle styles str with
  | none => .noStyle
  | some p =>
    match runGet arg p (skipWord str) 0 none with
    | some o => .val o
    | none =>
      if arg ≥ countWords str then .missing
      else
        let o := copyWord (skipSpace (shift arg str))
        if o = [126] then .missing else .val o

/-- the text `SetArgument` emits for position `i`, styles/style_parser.h:272-283 -/
def setPiece (styles : List (Text × Prog)) (str : Text) (arg : Nat) (v : Text) (i : Nat) : Text :=
  if i = arg then v
  else match getArgument styles str i with
    | .val o => o
    | _ => [126]

/-- pieces joined by one blank -/
def join : List Text → Text
  | [] => []
  | [w] => w
  | w :: ws => w ++ 32 :: join ws

/-- `StyleParser::SetArgument`, styles/style_parser.h:268-287.  `none`: undefined behaviour.  The
buffer `ret` is not initialised, so `strcat` on it is only defined once `GetArgument` has written
position 0 (style found, `argument ≠ 0`); it holds 512 bytes. -/
def setArgument (styles : List (Text × Prog)) (str : Text) (arg : Nat) (v : Text) : Option Text :=
  if arg = 0 then none
  else match findStyle styles str with
    | none => none
    | some _ =>
      let r := join ((List.range (max (countWords str) (arg + 1))).map (setPiece styles str arg v))
      if r.length < 512 then some r else none

/-! ## Copying arguments -/

/-- the word "builtin" -/
def builtinWord : Text := [98, 117, 105, 108, 116, 105, 110]

/-- `StyleParser::StyleIdentifierLength`, styles/style_parser.h:292-298, as the text after the
identifier -/
def afterIdentifier (str : Text) : Text :=
  if firstWord str builtinWord then skipWord (skipWord (skipWord str)) else skipWord str

/-- length of the identifier, `end - str` -/
def identifierLength (str : Text) : Nat := str.length - (afterIdentifier str).length

/-- `StyleParser::ResetArguments`, styles/style_parser.h:301-309 -/
def resetArguments (str : Text) : Text := str.take (identifierLength str)

/-- `StyleParser::CopyArguments(from, to)`, styles/style_parser.h:313-324 -/
def copyArguments (src dst : Text) : Text := dst.take (identifierLength dst) ++ src.drop (identifierLength src)

/-- `ArgumentHelper`, styles/style_parser.h:326-352: the three parts of a style string -/
def parts (str : Text) (n : Nat) : Text × Text × Text :=
  let p0 := identifierLength str
  let p1 := str.length - (shift n (str.drop p0)).length
  (str.take p0, (str.take p1).drop p0, str.drop p1)

/-- text written by `CopyArguments(from, to, keep_arguments_after)`, styles/style_parser.h:357-368 -/
def copyArgumentsKeep (src dst : Text) (n : Nat) : Text :=
  (parts dst n).1 ++ (parts src n).2.1 ++ (parts dst n).2.2

/-- the size that function allocates, styles/style_parser.h:360 -/
def copyArgumentsKeepBuffer (src dst : Text) (n : Nat) : Nat :=
  (parts src n).1.length + (parts dst n).2.1.length + (parts src n).2.2.length + 1

/-- `ArgumentIterator`: the current piece and the text behind it, styles/style_parser.h:370-392 -/
structure Iter where
  piece : Text
  rest : Text

/-- constructor, styles/style_parser.h:373-375 -/
def Iter.start (str : Text) : Iter := ⟨str.take (identifierLength str), str.drop (identifierLength str)⟩
/-- `next`, styles/style_parser.h:376-379 -/
def Iter.next (i : Iter) : Iter := ⟨copyWord i.rest, skipWord i.rest⟩
/-- what `append` writes, styles/style_parser.h:386-391 -/
def Iter.text (i : Iter) : Text := if i.piece = [] then [32, 126] else i.piece

/-- the loop of `CopyArguments` (list variant) and `CopyColorArguments`,
styles/style_parser.h:408-429 and 445-466; `useTo` decides per argument.  The fuel bounds the
rounds, each of which consumes a byte of `from` or `to`. -/
def copyLoop (useTo : Nat → Text → Text → Bool) : Nat → Nat → Iter → Iter → Text
  | 0, _, _, _ => []
  | f + 1, arg, fr, to =>
    if fr.piece = [] ∧ to.piece = [] then []
    else (if useTo arg fr.piece to.piece then to.text else fr.text) ++ copyLoop useTo f (arg + 1) fr.next to.next

/-- `keep`, styles/style_parser.h:394-400 -/
def keep (args : List Nat) (arg : Nat) : Bool := arg = 0 || args.contains arg

/-- `CopyArguments(from, to, arguments_to_keep, len)`, styles/style_parser.h:405-438 -/
def copyArgumentsList (src dst : Text) (args : List Nat) : Text :=
  copyLoop (fun a _ _ => keep args a) (src.length + dst.length + 2) 0 (Iter.start src) (Iter.start dst)

/-- `CopyColorArguments(from, to)`, styles/style_parser.h:442-475 -/
def copyColorArguments (src dst : Text) : Text :=
  copyLoop (fun _ f t => !(f.contains 44 || t.contains 44)) (src.length + dst.length + 2) 0 (Iter.start src) (Iter.start dst)

end Verif.Str
