/-!
# PQOI image codec

Model of `pqoi/pqoi.h`: the shared state (`PqoiBase`), the per-opcode decoder macro
`PQOI_DECODE_ONE`, the block decoder, the streaming decoder, the encoder and its
lookup table, the output chunks and the alpha codec.

A pixel is a `BitVec 16` (`uint16_t`), a byte is a `Nat` below 256.  Output buffers are
modelled by the list of pixels written so far, most recent first (`hist`), so that
`out[-k]` is element `k-1` of `hist`; reading before the start of the buffer is the
undefined-behaviour outcome `none`.
-/
namespace Verif.Pqoi

abbrev Pixel := BitVec 16

/-- `PqoiBase::stash_` and `pixel_`, pqoi/pqoi.h:32-33. -/
structure Base where
  stash : Fin 64 → Pixel
  pixel : Pixel

/-- `PqoiBase::reset`, pqoi/pqoi.h:66-69. -/
def reset : Base := ⟨fun _ => 0, 0⟩

theorem hash_lt (p : Pixel) : (((p.toNat * 173976727) % 2^32) >>> 26) < 64 := by
  rw [Nat.shiftRight_eq_div_pow]
  have := Nat.mod_lt (p.toNat * 173976727) (show 0 < 2^32 by decide)
  omega

/-- `PqoiBase::hashPixel`, pqoi/pqoi.h:36-40 (`uint32_t` product, top 6 bits). -/
def hashPixel (p : Pixel) : Fin 64 := ⟨((p.toNat * 173976727) % 2^32) >>> 26, hash_lt p⟩

/-- `PqoiBase::lumaDiff`, pqoi/pqoi.h:41-57 (the `#else` branch; C++ `/` truncates,
the result is truncated to `uint16_t`). -/
def lumaDiff (gdBits rdBits bdBits : Nat) : Pixel :=
  let gd : Int := gdBits - 0x10
  let ld : Int := gd.tdiv 2 - 8
  let rd : Int := rdBits + ld
  let bd : Int := bdBits + ld
  BitVec.ofInt 16 (rd * 2^11 + gd * 2^5 + bd)

/-- `PQOI_DELTA1`, pqoi/pqoi.h:73. -/
def delta1 (x : Nat) : List Pixel :=
  [x, x + 1, x + 2, x + 0xFFFE, x + 0xFFFF].map (BitVec.ofNat 16)
/-- `PQOI_DELTA2`, pqoi/pqoi.h:74. -/
def delta2 (x : Nat) : List Pixel :=
  delta1 x ++ delta1 (x + (1 <<< 5)) ++ delta1 (x + (2 <<< 5)) ++ delta1 (x + (0xFFFE <<< 5)) ++ delta1 (x + (0xFFFF <<< 5))
/-- `PQOI_DELTA3(0)` = `PqoiBase::deltas`, pqoi/pqoi.h:75-76. -/
def deltas : List Pixel :=
  delta2 0 ++ delta2 (1 <<< 11) ++ delta2 (2 <<< 11) ++ delta2 (0xFFFE <<< 11) ++ delta2 (0xFFFF <<< 11)

/-- The constants of `case 1` ... `case 124` of `PQOI_DECODE_ONE`, pqoi/pqoi.h:96-219. -/
def decodeDeltas : List Pixel := [
  0x0001, 0x0002, 0xfffe, 0xffff, 0x0020, 0x0021, 0x0022, 0x001e, 0x001f, 0x0040,
  0x0041, 0x0042, 0x003e, 0x003f, 0xffc0, 0xffc1, 0xffc2, 0xffbe, 0xffbf, 0xffe0,
  0xffe1, 0xffe2, 0xffde, 0xffdf, 0x0800, 0x0801, 0x0802, 0x07fe, 0x07ff, 0x0820,
  0x0821, 0x0822, 0x081e, 0x081f, 0x0840, 0x0841, 0x0842, 0x083e, 0x083f, 0x07c0,
  0x07c1, 0x07c2, 0x07be, 0x07bf, 0x07e0, 0x07e1, 0x07e2, 0x07de, 0x07df, 0x1000,
  0x1001, 0x1002, 0x0ffe, 0x0fff, 0x1020, 0x1021, 0x1022, 0x101e, 0x101f, 0x1040,
  0x1041, 0x1042, 0x103e, 0x103f, 0x0fc0, 0x0fc1, 0x0fc2, 0x0fbe, 0x0fbf, 0x0fe0,
  0x0fe1, 0x0fe2, 0x0fde, 0x0fdf, 0xf000, 0xf001, 0xf002, 0xeffe, 0xefff, 0xf020,
  0xf021, 0xf022, 0xf01e, 0xf01f, 0xf040, 0xf041, 0xf042, 0xf03e, 0xf03f, 0xefc0,
  0xefc1, 0xefc2, 0xefbe, 0xefbf, 0xefe0, 0xefe1, 0xefe2, 0xefde, 0xefdf, 0xf800,
  0xf801, 0xf802, 0xf7fe, 0xf7ff, 0xf820, 0xf821, 0xf822, 0xf81e, 0xf81f, 0xf840,
  0xf841, 0xf842, 0xf83e, 0xf83f, 0xf7c0, 0xf7c1, 0xf7c2, 0xf7be, 0xf7bf, 0xf7e0,
  0xf7e1, 0xf7e2, 0xf7de, 0xf7df]

/-- Store `p` in the stash: `stash_[hashPixel(p)] = p`, pqoi/pqoi.h:287. -/
def remember (st : Base) (p : Pixel) : Base :=
  { stash := fun i => if i = hashPixel p then p else st.stash i, pixel := p }

/-- Result of one decoder operation: new state, pixels written (most recent first), unread input. -/
abbrev Step := Base × List Pixel × List Nat

/-- What a first byte asks for (dispatch of the `switch` in pqoi/pqoi.h:88-286). -/
inductive Action where
  | raw                     -- case 0: two more bytes
  | plain (r : Option (Base × List Pixel))  -- completes at once; `none` = reads before the buffer
  | luma                    -- case 160..191: one more byte

/-- One `switch(byte)` of `PQOI_DECODE_ONE`, pqoi/pqoi.h:88-288, up to the points where it
needs another byte. -/
def action (st : Base) (hist : List Pixel) (byte : Nat) : Action :=
  if byte = 0 then .raw
  else if byte ≤ 124 then
    match decodeDeltas[byte - 1]? with
    | none => .plain none
    | some d => let p := st.pixel + d; .plain (some (remember st p, [p]))
  else if byte = 125 then
    if hist.length < 2 then .plain none else .plain (some (st, hist.take 2))
  else if byte = 126 then
    if hist.length < 4 then .plain none else .plain (some (st, hist.take 4))
  else if byte = 127 then
    if hist.length < 4 then .plain none else .plain (some (st, hist.take 4 ++ hist.take 4))
  else if byte ≤ 159 then
    -- fall-through chain 159..128: (byte - 128) + 1 writes, then one more (line 275)
    .plain (some (st, List.replicate (byte - 128 + 2) st.pixel))
  else if byte ≤ 191 then .luma
  else
    let p := st.stash (Fin.ofNat 64 (byte - 192))
    .plain (some ({ st with pixel := p }, [p]))

/-- Completion of the raw operation: `pixel_ = (byte << 8) + b2`, pqoi/pqoi.h:89-95,287-288. -/
def rawFinish (st : Base) (b2 byte : Nat) : Base × List Pixel :=
  let p : Pixel := BitVec.ofNat 16 (byte * 256 + b2)
  (remember st p, [p])

/-- Completion of the luma operation, pqoi/pqoi.h:277-282,287-288. -/
def lumaFinish (st : Base) (first byte : Nat) : Base × List Pixel :=
  let p := st.pixel + lumaDiff (first - 160) (byte >>> 4) (byte &&& 0xf)
  (remember st p, [p])

/-- `PQOI_DECODE_ONE` with `GETC` reading from `inp`; running out of input is UB (`none`). -/
def decodeOne (st : Base) (hist : List Pixel) (inp : List Nat) : Option Step :=
  match inp with
  | [] => none
  | byte :: rest =>
    match action st hist byte with
    | .plain none => none
    | .plain (some (st', new)) => some (st', new, rest)
    | .raw =>
      match rest with
      | b2 :: b3 :: rest' => let r := rawFinish st b2 b3; some (r.1, r.2, rest')
      | _ => none
    | .luma =>
      match rest with
      | b :: rest' => let r := lumaFinish st byte b; some (r.1, r.2, rest')
      | _ => none

theorem decodeOne_shrinks {st hist inp st' new rest} (h : decodeOne st hist inp = some (st', new, rest)) :
    rest.length < inp.length := by
  unfold decodeOne at h
  repeat' split at h
  all_goals (try cases h)
  all_goals simp
  all_goals omega

/-- `PqoiDecoder::DecodeBlock`, pqoi/pqoi.h:293-302.  `need` = `end - out` (0 when `out >= end`).
Returns final state, output history and unread input. -/
def decodeBlock (st : Base) (hist : List Pixel) (need : Nat) (inp : List Nat) :
    Option (Base × List Pixel × List Nat) :=
  if need = 0 then some (st, hist, inp)
  else
    match _h : decodeOne st hist inp with
    | none => none
    | some (st', new, rest) => decodeBlock st' (new ++ hist) (need - new.length) rest
termination_by inp.length
decreasing_by exact decodeOne_shrinks _h

/-! ### Encoder -/

/-- The writes performed by the `PqoiLookupTable` constructor after zeroing,
in program order: pqoi/pqoi.h:478-488. -/
def tableWrites : List (Pixel × Nat) :=
  ((List.range 32).flatMap fun gd => (List.range 16).flatMap fun rd => (List.range 16).map fun bd =>
    (lumaDiff gd rd bd, ((160 + gd) * 256 + rd * 16 + bd) % 65536)) ++
  ((List.range 124).map fun i => ((deltas[i+1]?).getD 0, i + 1))

/-- Array after a sequence of writes on a zeroed table (pqoi/pqoi.h:474-489). -/
def afterWrites (ws : List (Pixel × Nat)) : Pixel → Nat :=
  ws.foldl (fun t w => fun k => if k = w.1 then w.2 else t k) (fun _ => 0)

/-- `PqoiEncoder::diff_index`. -/
def diffIndex : Pixel → Nat := afterWrites tableWrites

/-- Bytes written for an op value, pqoi/pqoi.h:549-551 (each truncated to `uint8_t`). -/
def opBytes (op : Nat) : List Nat :=
  (if op > 65535 then [(op >>> 16) % 256] else []) ++
  (if op > 255 then [(op >>> 8) % 256] else []) ++ [op % 256]

/-- Length of the run loop, pqoi/pqoi.h:542-543: `while (run < 33 && pixels+run < end && pixels[run] == pixel_) run++`. -/
def runLength (p : Pixel) : Nat → List Pixel → Nat
  | 0, _ => 0
  | _, [] => 0
  | n+1, x :: xs => if x = p then runLength p n xs + 1 else 0

/-- Op value of a raw pixel, pqoi/pqoi.h:510:
`(0x100 << 16) | ((pixel & 0xff) << 8) | (pixel >> 8)`. -/
def rawOp (pixel : Pixel) : Nat := 0x1000000 ||| ((pixel.toNat &&& 0xff) <<< 8) ||| (pixel.toNat >>> 8)

/-- The op and length chosen for one encoder iteration, pqoi/pqoi.h:502-548.
`prev` = pixels already encoded since `begin` (most recent first, so `pixels[-k] = prev[k-1]`),
`rest` = pixels from `pixels` to `end` (non-empty, head `pixel`). -/
def chooseOp (di : Pixel → Nat) (st : Base) (prev rest : List Pixel) (pixel : Pixel) : Nat × Nat :=
  let diff := pixel - st.pixel
  let h := hashPixel pixel
  let op0 := if st.stash h = pixel then h.val + 192
    else if di diff = 0 then rawOp pixel
    else di diff
  let (op1, l1) := if prev.length ≥ 2 ∧ rest.length ≥ 2 ∧ rest.take 2 = (prev.take 2).reverse
    then (125, 2) else (op0, 1)
  let (op2, l2) := if prev.length ≥ 4 ∧ rest.length ≥ 4 ∧ rest.take 4 = (prev.take 4).reverse
    then (126, 4) else (op1, l1)
  let (op3, l3) := if prev.length ≥ 8 ∧ rest.length ≥ 8 ∧
      rest.take 8 = (prev.take 4).reverse ++ (prev.take 4).reverse
    then (127, 8) else (op2, l2)
  if pixel = st.pixel then
    let run := runLength st.pixel 33 rest
    if run > l3 then (run + 126, run) else (op3, l3)
  else (op3, l3)

/-- State update at the end of an encoder iteration, pqoi/pqoi.h:553-556. -/
def encState (st : Base) (pixel : Pixel) (l : Nat) : Base :=
  if l = 1 then { stash := fun i => if i = hashPixel pixel then pixel else st.stash i, pixel := pixel } else st

/-- `PqoiEncoder::encodePixels`, pqoi/pqoi.h:500-559 (over a given lookup table `di`).
`pixels += l - 1` plus the loop's `pixels++` advance by `l`. -/
def encodeLoop (di : Pixel → Nat) (st : Base) (prev rest : List Pixel) : Base × List Nat :=
  match rest with
  | [] => (st, [])
  | pixel :: tl =>
    let ol := chooseOp di st prev (pixel :: tl) pixel
    let st' := encState st pixel ol.2
    let r := encodeLoop di st' (((pixel :: tl).take ol.2).reverse ++ prev) (tl.drop (ol.2 - 1))
    (r.1, opBytes ol.1 ++ r.2)
termination_by rest.length
decreasing_by simp; omega

/-- `encodePixels(begin, end, out)`: new state and bytes emitted. -/
def encodePixels (st : Base) (px : List Pixel) : Base × List Nat := encodeLoop diffIndex st [] px

end Verif.Pqoi
