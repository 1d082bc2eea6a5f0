/-
  Playing a WAV file: sound/playwav.h (`PlayWav`), common/file_reader.h:262-273.

  The code is a coroutine which writes samples to wherever the last call of
  `read` told it to.  Bytes are numbers, the file is the list of its bytes.
  `none` stands for undefined behaviour (writing outside `buffer` or `samples_`,
  overflow of an `int`).

  Not modelled: choosing the file (`Effect`), files not ending in `.wav`, the
  start position (`start_`), reading errors, `seek` beyond the end of the file
  (only met with malformed files; here it makes the next read fail).
-/
namespace Verif.Audio.PlayWav

/-! ## Model -/

/-- playwav.h:414-416 -/
structure Fmt where
  channels : Nat
  rate : Nat
  bits : Nat
deriving DecidableEq, Repr

/-- `channels_ * bits_ / 8` -/
def Fmt.size (f : Fmt) : Nat := f.channels * f.bits / 8

/-- One upsampler (playwav.h:32-35); `a_` is never read before it is overwritten. -/
structure Hist where
  b : Int
  c : Int
  d : Int
deriving DecidableEq, Repr

/-- The buffers of `Emit2` and `Emit4`. -/
structure Up where
  two : Hist
  four : Hist
deriving DecidableEq, Repr

def Up.zero : Up := ⟨⟨0, 0, 0⟩, ⟨0, 0, 0⟩⟩

/-- The result of an `int` addition. -/
def int (x : Int) : Option Int := if -2147483648 ≤ x ∧ x ≤ 2147483647 then some x else none

/-- `clamptoi16` (common/math.h:19-26) -/
def clamp16 (x : Int) : Int := if x < -32768 then -32768 else if x > 32767 then 32767 else x

/-- `UPSAMPLE_FUNC` (playwav.h:14-25), the two samples it emits. -/
def up (h : Hist) (x : Int) : Option ((Int × Int) × Hist) :=
  (int (h.b * (-8191) + h.c * 24757)).bind fun s =>
  (int (s + h.d * 24757)).bind fun s =>
  (int (s + x * (-8191))).map fun s =>
    ((clamp16 (s / 32768), h.d), ⟨h.c, h.d, x⟩)

/-- `Emit1`, `Emit2`, `Emit4` chosen by the rate (playwav.h:121-125, 160-170). -/
def emit (rate : Nat) (u : Up) (x : Int) : Option (List Int × Up) :=
  if rate = 44100 then some ([x], u)
  else if rate = 22050 then
    (up u.two x).map fun (o, h) => ([o.1, o.2], { u with two := h })
  else
    (up u.four x).bind fun (o, h4) =>
    (up u.two o.1).bind fun (p, h2) =>
    (up h2 o.2).map fun (q, h2) => ([p.1, p.2, q.1, q.2], ⟨h2, h4⟩)

/-- `read2` at an offset (playwav.h:132-138). -/
def read2 (bits : Nat) (l : List Nat) (i : Nat) : Int :=
  if bits = 8 then ((l.getD i 0 <<< 8 : Nat) : Int) - 32768
  else
    let w := l.getD i 0 + 256 * l.getD (i + 1) 0
    if w ≥ 32768 then (w : Int) - 65536 else w

/-- Mixing the channels (playwav.h:152-159). -/
def value (f : Fmt) (l : List Nat) : Int :=
  if f.channels = 1 then read2 f.bits l 0
  else (read2 f.bits l 0 + read2 f.bits l (f.bits / 8)) >>> 1

/-- The loop in `DecodeBytes4` (playwav.h:148-172).  `pend` are the bytes from
    `ptr_` to `end_`.  Every round stores at least one sample, so 33 rounds are
    enough. -/
def decode (f : Fmt) : Nat → List Nat → Nat → Up → Option (List Int × List Nat × Up)
  | 0, pend, _, u => some ([], pend, u)
  | k + 1, pend, num, u =>
    if pend.length > f.size ∧ num < 32 then
      (emit f.rate u (value f pend)).bind fun (o, u) =>
        if num + o.length ≤ 32 then
          (decode f k (pend.drop f.size) (num + o.length) u).map fun (l, p, u) => (o ++ l, p, u)
        else none
    else some ([], pend, u)

/-- Formats accepted by `DecodeBytes` (playwav.h:174-199). -/
def Fmt.ok (f : Fmt) : Bool :=
  (f.bits == 8 || f.bits == 16) && (f.channels == 1 || f.channels == 2) &&
    (f.rate == 44100 || f.rate == 22050 || f.rate == 11025)

inductive Ph
  /-- about to read a chunk header (playwav.h:289-297) -/
  | hdr
  /-- inside a data chunk (playwav.h:311-340) -/
  | data
  /-- end of file -/
  | done
deriving DecidableEq, Repr

/-- `out` is `samples_[written_ .. num_samples_)`. -/
structure St where
  pos : Nat
  len : Nat
  pend : List Nat
  out : List Int
  up : Up
  ph : Ph
deriving DecidableEq, Repr

/-- Little-endian 32 bit number (`header`, playwav.h:128-130). -/
def le32 (l : List Nat) (i : Nat) : Nat :=
  l.getD i 0 + 256 * l.getD (i + 1) 0 + 65536 * l.getD (i + 2) 0 + 16777216 * l.getD (i + 3) 0

/-- `Seek(Tell() + n)` with 32 bit arithmetic (file_reader.h:273). -/
def skip (pos n : Nat) : Nat := (pos + n) % 4294967296

/-- From one suspension or decision of `loop` to the next, when no samples are
    waiting (playwav.h:289-342).  The second component: `YIELD`.  `align` is
    `AlignRead`. -/
def tick (file : List Nat) (f : Fmt) (align : Nat → Nat → Nat) (s : St) : Option (St × Bool) :=
  match s.ph with
  | .done => some (s, true)
  | .hdr =>
    let h := (file.drop s.pos).take 8
    if h.length ≠ 8 then some ({ s with ph := .done }, true)
    else
      let s := { s with pos := s.pos + 8, len := le32 h 4 }
      if le32 h 0 ≠ 0x61746164 then some ({ s with pos := skip s.pos s.len }, false)
      else some ({ s with ph := .data }, false)
  | .data =>
    if s.pend.length > f.size then
      if f.ok then
        (decode f 33 s.pend 0 s.up).map fun (o, p, u) =>
          ({ s with pend := p, out := o, up := u }, false)
      else some ({ s with len := 0, pend := [] }, false)
    else if s.pend.length > 8 then none
    else if s.len = 0 then some ({ s with ph := .hdr }, true)
    else
      let r := (file.drop s.pos).take (align s.pos (min s.len 512))
      if r = [] then some ({ s with ph := .hdr }, true)
      else some ({ s with pos := s.pos + r.length, len := s.len - r.length, pend := s.pend ++ r },
        false)

/-- `read(dest, n)` (playwav.h:359-365): runs the coroutine until it has delivered
    `n` samples and wants to deliver more, or yields.  The fuel bounds the number of
    steps; `none` also if it is not enough. -/
def pull (file : List Nat) (f : Fmt) (align : Nat → Nat → Nat) :
    Nat → Nat → St → Option (List Int × St)
  | 0, _, _ => none
  | k + 1, n, s =>
    if s.out = [] then
      (tick file f align s).bind fun (t, y) =>
        if y then some ([], t) else pull file f align k n t
    else if n = 0 then some ([], s)
    else
      (pull file f align k (n - min n s.out.length) { s with out := s.out.drop n }).map fun (l, t) =>
        (s.out.take n ++ l, t)

/-- `AlignRead` for SD cards (file_reader.h:262-272):
    `next_block = (pos + 512) & ~511`. -/
def alignSD (pos n : Nat) : Nat := min n ((pos + 512) / 512 * 512 - pos)

/-- Looking for the format chunk (playwav.h:244-260).  Outer `none`: still looking
    when the fuel is used up; inner `none`: failure.  Result: position after the
    chunk header, length of the chunk. -/
def findFmt (file : List Nat) : Nat → Nat → Option (Option (Nat × Nat))
  | 0, _ => none
  | k + 1, pos =>
    let h := (file.drop pos).take 8
    if h.length ≠ 8 then some none
    else if le32 h 0 ≠ 0x20746D66 then findFmt file k (skip (pos + 8) (le32 h 4))
    else if le32 h 4 < 16 then some none
    else some (some (pos + 8, le32 h 4))

/-- playwav.h:262-273, from the position after the chunk header. -/
def readFmt (file : List Nat) (pos len : Nat) : Option (Fmt × Nat) :=
  let h := (file.drop pos).take 16
  if h.length ≠ 16 then none
  else
    let pos := pos + 16
    let pos := if len > 16 then skip pos (len - 16) else pos
    if le32 h 0 % 65536 ≠ 1 then none
    else some (⟨le32 h 0 / 65536 % 256, le32 h 4, le32 h 12 / 65536 % 256⟩, pos)

/-- playwav.h:233-287: everything before the first data chunk. -/
def openWav (file : List Nat) (fuel : Nat) : Option (Option (Fmt × Nat)) :=
  let h := (file.drop 0).take 12
  if h.length ≠ 12 then some none
  else if le32 h 0 ≠ 0x46464952 ∨ le32 h 8 ≠ 0x45564157 then some none
  else (findFmt file fuel 12).map fun r => r.bind fun (pos, len) => readFmt file pos len

/-- playwav.h:286-287 -/
def start (pos : Nat) (u : Up) : St := ⟨pos, 0, [], [], u, .hdr⟩

end Verif.Audio.PlayWav
