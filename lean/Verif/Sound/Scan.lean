import Verif.Str.Props
import Verif.Store.PresetLemmas
/-!
# Sound effect files: scanning a directory and making file names

Model of `Effect` in sound/effect.h.  Texts are C strings as in `Verif.Str`.  Reading behind the NUL of a
string is `none`.  `char` is unsigned, `int` and `long` have 32 bits.
-/
set_option linter.unusedSimpArgs false
namespace Verif.Sound
open Verif.Str (Text toLower startswith endswith)
open Verif.Store (decimal digitsVal)

/-- `s[i]`: the terminating NUL reads as 0, anything behind it is undefined -/
def charAt (s : Text) (i : Nat) : Option Nat := if i < s.length then s[i]? else if i = s.length then some 0 else none

/-- `PO_isDigit`, sound/effect.h:16: compares with 0 instead of '0', so it accepts everything up to '9' -/
def poIsDigit (c : Nat) : Bool := c ≤ 57

/-- the digits `strtol` accepts -/
def isDec (c : Nat) : Bool := 48 ≤ c && c ≤ 57

/-- white space for `strtol` -/
def isSpaceC (c : Nat) : Bool := c == 32 || (9 ≤ c && c ≤ 13)

/-- a sign in front of a number -/
def skipSign : Text → Text
  | 45 :: v => v
  | 43 :: v => v
  | v => v

/-- `strtol(s, &end, 10)` of the C library for a 32-bit `long`: the value and the text at `end` -/
def strtolEnd (s : Text) : Int × Text :=
  let u := s.dropWhile isSpaceC
  let v := skipSign u
  let ds := v.takeWhile isDec
  let n : Int := digitsVal 0 ds
  if ds = [] then (0, s)
  else (max (-2147483648) (min 2147483647 (if u.head? = some 45 then -n else n)), v.dropWhile isDec)

inductive Ext where
  | wav | raw | usl | bmp | pbm | bin | scr | unknown
deriving DecidableEq

inductive FType where
  | sound | image | screen | unknown
deriving DecidableEq

inductive Pattern where
  | unknown | flat | subdirs | nonredundant
deriving DecidableEq

/-- `GetFileType`, sound/effect.h:110-125 -/
def Ext.fileType : Ext → FType
  | .wav | .raw | .usl => .sound
  | .bmp | .pbm | .bin => .image
  | .scr => .screen
  | .unknown => .unknown

/-- `ExtensionName`, sound/effect.h:138-149 -/
def Ext.text : Ext → Text
  | .wav => [46, 119, 97, 118]
  | .raw => [46, 114, 97, 119]
  | .usl => [46, 117, 115, 108]
  | .bmp => [46, 98, 109, 112]
  | .pbm => [46, 112, 98, 109]
  | .bin => [46, 98, 105, 110]
  | .scr => [46, 115, 99, 114]
  | .unknown => [46, 63]

/-- `IdentifyExtension`, sound/effect.h:127-136 -/
def identify (f : Text) : Ext :=
  if endswith [46, 119, 97, 118] f then .wav
  else if endswith [46, 114, 97, 119] f then .raw
  else if endswith [46, 117, 115, 108] f then .usl
  else if endswith [46, 98, 109, 112] f then .bmp
  else if endswith [46, 112, 98, 109] f then .pbm
  else if endswith [46, 98, 105, 110] f then .bin
  else if endswith [46, 115, 99, 114] f then .scr
  else .unknown

/-- `Effect`, the members of sound/effect.h:650-690 that scanning sets, and `directory_`; with the global
`num_alternatives` (line 14) -/
structure Eff where
  minFile : Int
  maxFile : Int
  subFiles : Nat
  digits : Int
  unnumbered : Bool
  inAlt : Bool
  pattern : Pattern
  ext : Ext
  numFiles : Int
  dir : Option Nat
  numAlt : Int
deriving DecidableEq

/-- `reset`, sound/effect.h:162-180, and sound/effect.h:621 -/
def Eff.reset : Eff := ⟨127, -1, 0, 0, false, false, .unknown, .unknown, 0, none, 0⟩

def wrap8 (x : Int) : Int := (x + 128) % 256 - 128
def wrap16 (x : Int) : Int := (x + 32768) % 65536 - 32768

/-- `altnum`, sound/effect.h:181-188 -/
def altnum (s : Text) : Option Int :=
  match startswith [97, 108, 116] s with
  | none => some (-1)
  | some _ => do
    let c3 ← charAt s 3
    if !poIsDigit c3 then some (-1) else
    let c4 ← charAt s 4
    if !poIsDigit c4 then some (-1) else
    let c5 ← charAt s 5
    if !poIsDigit c5 then some (-1) else
    let c6 ← charAt s 6
    if c6 ≠ 47 then some (-1) else some (strtolEnd (s.drop 3)).1

/-- sound/effect.h:225-238: the number in the file name.  `none`: not counted -/
def scanNumber (e : Eff) (rest : Text) : Eff × Option Text :=
  if rest.head? = some 46 ∧ rest.length = 4 then ({ e with unnumbered := true }, some rest)
  else
    let n := (strtolEnd rest).1
    let end_ := (strtolEnd rest).2
    if n < 0 ∨ end_.length = rest.length then (e, none)
    else
      ({ e with
        maxFile := wrap16 (max e.maxFile n)
        minFile := wrap8 (min e.minFile n)
        digits := if rest.head? = some 48 then wrap8 (rest.length - end_.length : Nat) else e.digits }, some end_)

/-- sound/effect.h:240-248: sub files -/
def scanSub (e : Eff) (p : Pattern) (rest : Text) : Option (Eff × Text) :=
  if p = .nonredundant ∧ rest.head? = some 47 then do
    let c1 ← charAt rest 1
    if !poIsDigit c1 then some (e, rest) else
    let c2 ← charAt rest 2
    if !poIsDigit c2 then some (e, rest) else
    let c3 ← charAt rest 3
    if !poIsDigit c3 then some (e, rest) else
    if rest.length < 4 then none else
    some ({ e with subFiles := (max (e.subFiles : Int) ((strtolEnd (rest.drop 1)).1 + 1) % 256).toNat }, rest.drop 4)
  else some (e, rest)

/-- sound/effect.h:200-212: what is behind the name, and the pattern -/
def scanName (name file : Text) : Option (Pattern × Text) :=
  match startswith name file with
  | none => none
  | some rest =>
    if rest.head? = some 47 then
      match startswith name (rest.drop 1) with
      | some tmp => some (.subdirs, tmp)
      | none => some (.nonredundant, rest.drop 1)
    else some (.flat, rest)

/-- sound/effect.h:214-255 -/
def scanRest (ftype : FType) (e : Eff) (alt : Int) (file : Text) (p : Pattern) (rest : Text) : Option (Eff × Bool) :=
  let ext := identify file
  if ext.fileType ≠ ftype then some (e, false)
  else if e.ext ≠ .unknown ∧ e.ext ≠ ext then some (e, false)
  else
    let e := { e with ext := ext }
    match scanNumber e rest with
    | (e, none) => some (e, false)
    | (e, some rest) => do
      let q ← scanSub e p rest
      if q.2.head? ≠ some 46 then some (q.1, false)
      else
        let e := { q.1 with pattern := p, numFiles := wrap16 (q.1.numFiles + 1) }
        if alt ≠ -1 then some ({ e with numAlt := max e.numAlt (alt + 1), inAlt := true }, true)
        else some (e, true)

/-- `Scan`, sound/effect.h:190-256 -/
def scan (name : Text) (ftype : FType) (e : Eff) (file : Text) : Option (Eff × Bool) := do
  let alt ← altnum file
  let file := if alt ≠ -1 then file.drop 7 else file
  match scanName name file with
  | none => some (e, false)
  | some (p, rest) => scanRest ftype e alt file p rest

/-- `ScanAll`, sound/effect.h:511-528, for one effect -/
def scanAll (name : Text) (ftype : FType) (e : Eff) (dir : Nat) (file : Text) : Option Eff :=
  if identify file = .unknown then some e
  else if e.dir ≠ none ∧ e.dir ≠ some dir then some e
  else do
    let q ← scan name ftype e file
    some (if q.2 then { q.1 with dir := some dir } else q.1)

/-- `ScanCurrentDirectory`, sound/effect.h:618-644, for one effect: the files of each directory of the
search path, in the order they are listed -/
def scanDirs (name : Text) (ftype : FType) (dirs : List (Nat × List Text)) : Option Eff :=
  dirs.foldlM (fun e d => d.2.foldlM (fun e f => scanAll name ftype e d.1 f) e) Eff.reset

/-- `files_found`, sound/effect.h:319-328 -/
def Eff.filesFound (e : Eff) : Int :=
  (if e.minFile ≤ e.maxFile then e.maxFile - e.minFile + 1 else 0) + (if e.unnumbered then 1 else 0)

/-- `expected_files`, sound/effect.h:331-343 -/
def Eff.expectedFiles (e : Eff) : Int :=
  e.filesFound * (if e.inAlt then e.numAlt else 1) * (if e.subFiles = 0 then 1 else e.subFiles)

/-- `addNumber`, sound/effect.h:445-456, for `n >= 0` -/
def addNumber (n : Nat) (digits : Int) : Text := List.replicate (digits.toNat - (decimal n).length) 48 ++ decimal n

/-- `GetName`, sound/effect.h:459-491, for the file number, sub file number and alternative of a `FileID` -/
def Eff.getName (e : Eff) (name dir : Text) (file sub alt : Nat) : Text :=
  dir ++ (if dir = [] then [] else [47]) ++
  (if e.inAlt then [97, 108, 116] ++ addNumber alt 3 ++ [47] else []) ++
  name ++
  (match e.pattern with
    | .unknown | .flat => []
    | .subdirs => 47 :: name
    | .nonredundant => [47]) ++
  (if (file : Int) + e.minFile ≤ e.maxFile then addNumber ((file : Int) + e.minFile).toNat e.digits else []) ++
  (if e.subFiles ≠ 0 then 47 :: addNumber sub 3 else []) ++
  e.ext.text

/-- `randomize`, sound/effect.h:382-397; `r1` and `r2` are what `rand()` returns the first and second time -/
def randomize (n : Nat) (last : Int) (r1 r2 : Nat) : Int :=
  let k : Int := (r1 % n : Nat)
  if k = last then
    if n = 1 then k
    else if n = 2 then (r2 % n : Nat)
    else
      let k2 : Int := (r2 % (n - 1) : Nat)
      if k2 ≥ last then k2 + 1 else k2
  else k

/-- `RandomFile`, sound/effect.h:413-436 (with `NO_REPEAT_RANDOM` if `noRepeat`): file and sub file number.
`none` if there are no files.  The four numbers are the results of `rand()`. -/
def Eff.randomFile (e : Eff) (selected soundNumber last lastSub : Int) (usesSoundNumber noRepeat : Bool) (r1 r2 r3 r4 : Nat) : Option (Int × Int) :=
  let num := e.filesFound
  if num < 1 then none
  else
    let n : Int := if selected ≠ -1 then min selected (num - 1)
      else if soundNumber ≠ -1 ∧ usesSoundNumber = true then min soundNumber (num - 1)
      else if noRepeat then randomize num.toNat last r1 r2 else (r1 % num.toNat : Nat)
    let sub : Int := if e.subFiles = 0 then 0
      else if noRepeat then randomize e.subFiles (if last = n then lastSub else -1) r3 r4 else (r3 % e.subFiles : Nat)
    some (n, sub)

end Verif.Sound
