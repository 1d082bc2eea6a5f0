import Verif.Pqoi.Lemmas

/-! Model of `PqoiStreamingDecoder` and `PqoiOutputChunk` (pqoi/pqoi.h:324-471). -/
set_option linter.unusedSimpArgs false
namespace Verif.Pqoi

/-- `PqoiStreamingDecoder::State`, pqoi/pqoi.h:326-331. -/
inductive SPos where | start | raw1 | raw2 | luma
deriving DecidableEq, Repr

/-- Members of `PqoiStreamingDecoder`, pqoi/pqoi.h:332-335; `inp` is `[in, input_end)`. -/
structure SState where
  base : Base
  pos : SPos
  prev : Nat
  inp : List Nat

/-- The `while (out < end)` loop of `read` together with its exit (pqoi/pqoi.h:378-384) and the
suspending `PQOI_STREAMING_GETC` (line 352).  `prev` is the member `previous_byte`, `byte` the local. -/
def streamLoop (base : Base) (hist : List Pixel) (need prev byte : Nat) (inp : List Nat) :
    Option (SState × List Pixel) :=
  if need = 0 then some (⟨base, .start, prev, inp⟩, hist)
  else
    match inp with
    | [] => some (⟨base, .start, byte, []⟩, hist)
    | b :: rest =>
      match action base hist b with
      | .plain none => none
      | .plain (some (base', new)) => streamLoop base' (new ++ hist) (need - new.length) prev b rest
      | .raw =>
        match rest with
        | [] => some (⟨base, .raw1, b, []⟩, hist)
        | [b2] => some (⟨base, .raw2, b2, []⟩, hist)
        | b2 :: b3 :: rest' =>
          let r := rawFinish base b2 b3
          streamLoop r.1 (r.2 ++ hist) (need - r.2.length) prev b3 rest'
      | .luma =>
        match rest with
        | [] => some (⟨base, .luma, b, []⟩, hist)
        | b' :: rest' =>
          let r := lumaFinish base b b'
          streamLoop r.1 (r.2 ++ hist) (need - r.2.length) prev b' rest'
termination_by inp.length

/-- `PqoiStreamingDecoder::read(out, end)`, pqoi/pqoi.h:345-385; `need` = `end - out`. -/
def read (s : SState) (hist : List Pixel) (need : Nat) : Option (SState × List Pixel) :=
  match s.pos with
  | .start => streamLoop s.base hist need s.prev s.prev s.inp
  | .raw1 =>
    match s.inp with
    | [] => some ({ s with pos := .raw1 }, hist)
    | [b2] => some ({ s with pos := .raw2, prev := b2, inp := [] }, hist)
    | b2 :: b3 :: rest =>
      let r := rawFinish s.base b2 b3
      streamLoop r.1 (r.2 ++ hist) (need - r.2.length) s.prev b3 rest
  | .raw2 =>
    match s.inp with
    | [] => some ({ s with pos := .raw2 }, hist)
    | b3 :: rest =>
      let r := rawFinish s.base s.prev b3
      streamLoop r.1 (r.2 ++ hist) (need - r.2.length) s.prev b3 rest
  | .luma =>
    match s.inp with
    | [] => some ({ s with pos := .luma }, hist)
    | b :: rest =>
      let r := lumaFinish s.base s.prev b
      streamLoop r.1 (r.2 ++ hist) (need - r.2.length) s.prev b rest

/-- The calling pattern documented for the decoder: give it input buffers one after the other
(`set_input`) and call `read` until the requested number of pixels is there.  Returns the decoder
state, the output and the buffers not yet handed over. -/
def feed (s : SState) (hist : List Pixel) (need : Nat) : List (List Nat) →
    Option (SState × List Pixel × List (List Nat))
  | [] => some (s, hist, [])
  | c :: cs =>
    match read { s with inp := c } hist need with
    | none => none
    | some (s', hist') =>
      if hist'.length - hist.length ≥ need then some (s', hist', cs)
      else feed s' hist' (need - (hist'.length - hist.length)) cs

/-! ### Output chunks -/

/-- `PqoiOutputChunk`, pqoi/pqoi.h:388-471: `before` are the initialised cells just before
`begin()` (oldest first), `data` the cells from `begin()` to `end_`. -/
structure Chunk where
  before : List Pixel
  data : List Pixel

/-- `PqoiOutputChunk()`, pqoi/pqoi.h:393-395,401-403. -/
def Chunk.first : Chunk := ⟨[], []⟩

/-- `init_next_chunk(previous)`, pqoi/pqoi.h:409-417, for chunk size `C`.
`none` = would copy cells that were never initialised. -/
def Chunk.next (C : Nat) (p : Chunk) : Option Chunk :=
  let pad := p.data.length - C
  let history := if pad < 4 then 4 - pad else 0
  let toCopy := history + pad
  let cells := p.before ++ p.data
  if cells.length < toCopy then none
  else
    let copied := cells.drop (cells.length - toCopy)
    some ⟨copied.take history, copied.drop history⟩

/-- `fill(decoder)`, pqoi/pqoi.h:437-443, with the block decoder's input `inp` standing for
the decoder's byte source (`PqoiGetcDecoder`, pqoi/pqoi.h:312-321). -/
def Chunk.fill (C : Nat) (c : Chunk) (st : Base) (inp : List Nat) : Option (Chunk × Base × List Nat) :=
  if min c.data.length C ≥ C then some (c, st, inp)
  else
    match decodeBlock st (c.data.reverse ++ c.before.reverse) (C - c.data.length) inp with
    | none => none
    | some (st', h, rest) =>
      some (⟨c.before, (h.take (h.length - c.before.length)).reverse⟩, st', rest)

/-- The pixels a full chunk shows: `[begin(), end())`, pqoi/pqoi.h:429-432. -/
def Chunk.shown (C : Nat) (c : Chunk) : List Pixel := c.data.take C

/-- Decode `rows` consecutive chunks (the display loop: fill, show, next chunk). -/
def decodeRows (C : Nat) : Nat → Chunk → Base → List Nat → Option (List (List Pixel))
  | 0, _, _, _ => some []
  | n+1, c, st, inp => do
    let (c', st', inp') ← c.fill C st inp
    if n = 0 then pure [c'.shown C]
    else
      let c'' ← c'.next C
      let rows ← decodeRows C n c'' st' inp'
      pure (c'.shown C :: rows)

end Verif.Pqoi
