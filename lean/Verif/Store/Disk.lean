import Verif.Store.Config

/-!
# Safe files on the SD card

Model of `FileValidator`, `FileSelector`, `BufferedFileWriter` (`common/file_reader.h:466-695`,
without `PROFFIEOS_BUFFER_WRITES`, with install-time checking) and of the save/load logic of
`ConfigFile` (`common/config_file.h:164-186,226-255`) and `CurrentPreset`
(`common/current_preset.h:258-292,360-417`) at the level of file contents.

A file is its size and its bytes; a save is the sequence of single-byte writes the code performs,
so that a crash leaves any prefix of that sequence on the card.
-/
set_option linter.unusedSimpArgs false
namespace Verif.Store

/-- A file on the card; a file that does not exist has size 0. -/
structure File where
  size : Nat
  byte : Nat → Nat

/-- A byte as seen by a reader that zeroed its buffer before reading
(`memset(&tmp, 0, ..)`, common/file_reader.h:509). -/
def File.get (f : File) (p : Nat) : Nat := if p < f.size then f.byte p else 0

/-- One byte written at a position. -/
def File.put (f : File) (w : Nat × Nat) : File :=
  ⟨max f.size (w.1 + 1), fun q => if q = w.1 then w.2 else f.byte q⟩

def File.putAll (f : File) (ws : List (Nat × Nat)) : File := ws.foldl File.put f

/-- The unread bytes from position `p`. -/
def File.from (f : File) (p : Nat) : Text := (List.range (f.size - p)).map fun i => f.byte (p + i)

/-- Bytes `[p, p+n)` read into a zeroed buffer. -/
def File.slice (f : File) (p n : Nat) : List Nat := (List.range n).map fun i => f.get (p + i)

/-- little-endian bytes of a 32-bit word (`Write32`, common/file_reader.h:661) -/
def le32 (n : Nat) : List Nat := [n % 256, n / 256 % 256, n / 65536 % 256, n / 16777216 % 256]
def rd32 (l : List Nat) : Nat := match l with
  | [a, b, c, d] => a + 256 * b + 65536 * c + 16777216 * d
  | _ => 0

def magic : Nat := 0xFF1E5AFE

/-- `SafeFileHeader`, common/file_reader.h:478-483. -/
structure Hdr where
  magic : Nat
  checksum : Nat
  iteration : Nat
  length : Nat
deriving DecidableEq

def Hdr.bytes (h : Hdr) : List Nat := le32 h.magic ++ le32 h.checksum ++ le32 h.iteration ++ le32 h.length
def Hdr.parse (l : List Nat) : Hdr :=
  ⟨rd32 (l.take 4), rd32 ((l.drop 4).take 4), rd32 ((l.drop 8).take 4), rd32 ((l.drop 12).take 4)⟩

/-- `CheckSummer::Write`, common/file_reader.h:466-476 (`uint32_t`). -/
def checksum (l : List Nat) : Nat := l.foldl (fun t b => (t * 997 + b) % 2^32) 0

/-- `FileValidator` constructor, common/file_reader.h:503-521: the member `header`;
`inst` = `install_time`. -/
def File.header (inst : List Nat) (f : File) : Hdr :=
  if f.slice 0 16 ≠ f.slice 16 16 then ⟨0, 0, 0, 0⟩
  else if f.slice 32 inst.length ≠ inst then ⟨0, 0, 0, 0⟩
  else Hdr.parse (f.slice 0 16)

/-- `validHeader`, common/file_reader.h:523-525. -/
def Hdr.valid (h : Hdr) : Bool := h.magic == Verif.Store.magic

/-- conversion to `int32_t` -/
def toInt32 (n : Nat) : Int := if n < 2^31 then n else (n : Int) - 2^32

/-- `iteration()`, common/file_reader.h:527-529. -/
def Hdr.iter (h : Hdr) : Int := if h.valid then toInt32 h.iteration else 0

/-- `validateChecksum`, common/file_reader.h:531-544.  If the file is shorter than the header
claims, the loop sums up whatever is in its buffer: `junk`. -/
def File.checksumOk (junk : Nat → Nat) (f : File) (h : Hdr) : Bool :=
  h.valid &&
  (checksum ((List.range (toInt32 h.length).toNat).map fun i =>
    if 512 + i < f.size then f.byte (512 + i) else junk i) == h.checksum)

/-- `ConfigFileExt`, common/file_reader.h:491-495. -/
inductive Ext where | unknown | ini | tmp
deriving DecidableEq, Repr

/-- The pair of files of one settings or preset store. -/
structure Disk where
  ini : File
  tmp : File

def Disk.file (d : Disk) : Ext → File
  | .tmp => d.tmp
  | _ => d.ini

def Disk.set (d : Disk) (e : Ext) (f : File) : Disk :=
  match e with
  | .tmp => { d with tmp := f }
  | _ => { d with ini := f }

def Ext.other : Ext → Ext
  | .ini => .tmp
  | _ => .ini

/-- `FileSelector` constructor, common/file_reader.h:553-563: the order in which files are tried. -/
def Disk.order (inst : List Nat) (d : Disk) : Ext × Ext :=
  if (d.ini.header inst).iter < (d.tmp.header inst).iter then (.tmp, .ini) else (.ini, .tmp)

/-- `TryValidator(fs.a) || TryValidator(fs.b)` (common/config_file.h:226-234,249;
common/current_preset.h:258-264,287-288): file chosen, its iteration and the text behind the header. -/
def Disk.load (inst : List Nat) (junk : Nat → Nat) (d : Disk) : Option (Ext × Int × Text) :=
  let (a, b) := d.order inst
  if (d.file a).checksumOk junk ((d.file a).header inst) then
    some (a, ((d.file a).header inst).iter, (d.file a).from 512)
  else if (d.file b).checksumOk junk ((d.file b).header inst) then
    some (b, ((d.file b).header inst).iter, (d.file b).from 512)
  else none

/-- What the running program remembers: `read_from_ext_` and `iteration_`
(common/config_file.h:176-177, common/current_preset.h:12-14). -/
structure Ram where
  ext : Ext
  iteration : Nat
deriving DecidableEq

/-- State after start-up. `iteration_` is a `uint32_t`. -/
def boot (inst : List Nat) (junk : Nat → Nat) (d : Disk) : Ram :=
  match d.load inst junk with
  | some (e, it, _) => ⟨e, (it % 2^32).toNat⟩
  | none => ⟨.unknown, 0⟩

/-- consecutive single-byte writes -/
def seqWrites (p : Nat) : List Nat → List (Nat × Nat)
  | [] => []
  | b :: bs => (p, b) :: seqWrites (p + 1) bs

/-- `MAX_CONFIG_FILE_SIZE`, common/file_reader.h:575-577. -/
def maxSize : Nat := 256 * 1024

/-- The header block: two copies and the install time, common/file_reader.h:632-634. -/
def headerBlock (inst : List Nat) (h : Hdr) : List Nat := h.bytes ++ h.bytes ++ inst

/-- All writes of one save of text `t` with iteration `it` into file `f`, in program order:
zero-filling from position 0 while the file is too short (common/file_reader.h:590-605; the file is
opened for update at position 0), the text from 512 (lines 606, 639-662), the header (lines 622-637). -/
def saveWrites (inst : List Nat) (f : File) (t : List Nat) (it : Nat) : List (Nat × Nat) :=
  seqWrites 0 (List.replicate ((maxSize - f.size + 511) / 512 * 512) 0) ++
  seqWrites 512 t ++
  seqWrites 0 (headerBlock inst ⟨magic, checksum t, it, t.length⟩)

/-- The file a save goes to, common/config_file.h:180-185, common/current_preset.h:379-383. -/
def Ram.target (r : Ram) : Ext := r.ext.other

/-- A completed save. -/
def save (inst : List Nat) (t : List Nat) (s : Ram × Disk) : Ram × Disk :=
  let e := s.1.target
  let it := (s.1.iteration + 1) % 2^32
  let f := s.2.file e
  (⟨e, it⟩, s.2.set e (f.putAll (saveWrites inst f t it)))

/-- The card after a save interrupted when `k` bytes had been written. -/
def crash (inst : List Nat) (t : List Nat) (k : Nat) (s : Ram × Disk) : Disk :=
  let e := s.1.target
  let it := (s.1.iteration + 1) % 2^32
  let f := s.2.file e
  s.2.set e (f.putAll ((saveWrites inst f t it).take k))

end Verif.Store
