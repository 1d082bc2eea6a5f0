/-!
# Colours

Model of common/color.h.  Channel values are natural numbers; a colour is a function from the three
channels.  Signed 32-bit overflow (undefined behaviour) makes the result `none`.  Conversions to 8 and
16 bits reduce modulo `2^8` and `2^16`.
-/
namespace Verif.Color

/-- the members `r`, `g`, `b` of `Color8` (common/color.h:155) and `Color16` (common/color.h:364) -/
inductive Ch where
  | r | g | b
deriving DecidableEq

/-- a `Color8`, `Color16` or `Color32`: common/color.h:7-156, 206-365, 410-417 -/
abbrev Color := Ch → Nat

/-- evaluating three channel expressions -/
def seqC (f : Ch → Option Nat) : Option Color := do
  let r ← f .r
  let g ← f .g
  let b ← f .b
  some fun | .r => r | .g => g | .b => b

/-- a 32-bit `int` result, `none` when it overflows -/
def i32 (x : Int) : Option Int := if -2147483648 ≤ x ∧ x < 2147483648 then some x else none

/-- conversion of an `int` to an unsigned type of `bits` bits -/
def toU (bits : Nat) (x : Int) : Nat := (x % 2 ^ bits).toNat

/-! ## Mixing -/

/-- One channel of `Color8::mix` (`s = 8`), `mix2` (`s = 14`), `mix3` (`s = 15`), common/color.h:12-31,
and of `Color16::mix`, `mix2`, `mix3`, common/color.h:212-237; `bits` is 8 or 16. -/
def mixCh (s bits a b : Nat) (x : Int) : Option Nat := do
  let p ← i32 ((2 ^ s - x) * a)
  let q ← i32 (x * b)
  let t ← i32 (p + q)
  some (toU bits (t / 2 ^ s))

/-- `mix`, `mix2`, `mix3`, common/color.h:12-31 and 212-237 -/
def mix (s bits : Nat) (a b : Color) (x : Int) : Option Color := seqC fun ch => mixCh s bits (a ch) (b ch) x

/-- `clampi32`, common/math.h:19-23 -/
def clampI (x a b : Int) : Int := if x < a then a else if x > b then b else x

/-- one channel of `Color16::mix_clamped`, common/color.h:218-223 -/
def mixClampedCh (a b : Nat) (x : Int) : Option Nat := do
  let p ← i32 ((2 ^ 8 - x) * a)
  let q ← i32 (x * b)
  let t ← i32 (p + q)
  some (toU 16 (clampI (t / 2 ^ 8) 0 65536))

/-- `operator*(const Color16&, uint16_t)`, common/color.h:419-421: `int` products -/
def mul32 (c : Color) (x : Nat) : Option Color := seqC fun ch => (i32 (c ch * x : Nat)).map Int.toNat

/-- `Color32::operator>>`, common/color.h:412-414: the result is a `Color16` -/
def shr (c : Color) (s : Nat) : Color := fun ch => c ch / 2 ^ s % 65536

/-- `Color32::operator+`, common/color.h:415 -/
def add32 (a b : Color) : Color := fun ch => (a ch + b ch) % 4294967296

/-- `operator+(const Color16&, const Color16&)`, common/color.h:422-424 -/
def add16 (a b : Color) : Color := fun ch => (a ch + b ch) % 65536

/-- the colour of every `MixColors`, common/color.h:521-538: `(a.c * ((1 << shift) - x) + b.c * x) >> shift` -/
def mixColor (a b : Color) (x : Int) (shift : Nat) : Option Color := do
  let p ← mul32 a (toU 16 (2 ^ shift - x))
  let q ← mul32 b (toU 16 x)
  some (shr (add32 p q) shift)

/-- the alpha of `MixColors`, common/color.h:531 and 536 -/
def mixAlpha (a b : Nat) (x : Int) (shift : Nat) : Option Nat := do
  let p ← i32 (a * (2 ^ shift - x))
  let q ← i32 (b * x)
  let t ← i32 (p + q)
  let u ← i32 (t + (2 ^ shift - 1))
  some (toU 16 (u / 2 ^ shift))

/-- an `OverDriveColor`, common/color.h:377-389; `SimpleColor` (367-375) is the plain colour -/
structure OD where
  c : Color
  overdrive : Bool

/-- a layer with transparency: `RGBA_um` (not premultiplied, common/color.h:443-460) or `RGBA`
(premultiplied, common/color.h:478-495) -/
structure Layer where
  c : Color
  alpha : Nat
  overdrive : Bool

/-- a layer without overdrive flag: `RGBA_um_nod` (common/color.h:427-440) or `RGBA_nod` (463-475) -/
structure LayerNod where
  c : Color
  alpha : Nat

/-- `MixColors(OverDriveColor, OverDriveColor, int, int)`, common/color.h:525-528 -/
def mixOD (a b : OD) (x : Int) (shift : Nat) : Option OD := do
  let c ← mixColor a.c b.c x shift
  some ⟨c, if x > 2 ^ (shift - 1) then b.overdrive else a.overdrive⟩

/-- `MixColors(RGBA_nod, RGBA_nod, int, int)`, common/color.h:529-532 -/
def mixNod (a b : LayerNod) (x : Int) (shift : Nat) : Option LayerNod := do
  let c ← mixColor a.c b.c x shift
  let al ← mixAlpha a.alpha b.alpha x shift
  some ⟨c, al⟩

/-- `MixColors(RGBA, RGBA, int, int)`, common/color.h:533-537 -/
def mixRGBA (a b : Layer) (x : Int) (shift : Nat) : Option Layer := do
  let c ← mixColor a.c b.c x shift
  let al ← mixAlpha a.alpha b.alpha x shift
  some ⟨c, al, if x > 2 ^ (shift - 1) then b.overdrive else a.overdrive⟩

/-! ## Painting one layer over another -/

/-- `a * b >> 15` in `int`, then stored in 16 bits -/
def mulShr15 (a b : Nat) : Option Nat := (i32 (a * b : Nat)).map fun t => toU 16 (t / 32768)

/-- `(a * b + 0x7fff) >> 15` in `int` -/
def mulShr15Up (a b : Nat) : Option Int := do
  let t ← i32 (a * b : Nat)
  let u ← i32 (t + 0x7fff)
  some (u / 32768)

/-- `32768 - over.alpha` as `uint16_t` -/
def compl (alpha : Nat) : Nat := toU 16 (32768 - alpha)

/-- premultiplying: `RGBA_nod(const RGBA_um_nod&)`, common/color.h:465, and `RGBA(const RGBA_um&)`,
common/color.h:481 -/
def premul (c : Color) (alpha : Nat) : Option Color := (mul32 c alpha).map (shr · 15)

/-- `(base.c * (32768 - over.alpha) + over.c * over.alpha) >> 15`, common/color.h:574 and 581 -/
def blendUm (base over : Color) (ac alpha : Nat) : Option Color := do
  let p ← mul32 base ac
  let q ← mul32 over alpha
  some (shr (add32 p q) 15)

/-- `(base.c * ac >> 15) + over.c`, common/color.h:588 and 595 -/
def blendPm (base over : Color) (ac : Nat) : Option Color := do
  let p ← mul32 base ac
  some (add16 (shr p 15) over)

/-- `operator<<(SimpleColor, RGBA_um_nod)`, common/color.h:571-575 -/
def simpleUmNod (base : Color) (over : LayerNod) : Option Color :=
  if over.alpha = 0 then some base else blendUm base over.c (compl over.alpha) over.alpha

/-- `operator<<(OverDriveColor, RGBA_um)`, common/color.h:577-583 -/
def odUm (base : OD) (over : Layer) : Option OD :=
  if over.alpha = 0 then some base else do
    let c ← blendUm base.c over.c (compl over.alpha) over.alpha
    some ⟨c, if over.alpha ≥ 16384 then over.overdrive else base.overdrive⟩

/-- `operator<<(SimpleColor, RGBA_nod)`, common/color.h:585-589 -/
def simpleNod (base : Color) (over : LayerNod) : Option Color :=
  if over.alpha = 0 then some base else blendPm base over.c (compl over.alpha)

/-- `operator<<(OverDriveColor, RGBA)`, common/color.h:591-597 -/
def odRgba (base : OD) (over : Layer) : Option OD :=
  if over.alpha = 0 then some base else do
    let c ← blendPm base.c over.c (compl over.alpha)
    some ⟨c, if over.alpha ≥ 16384 then over.overdrive else base.overdrive⟩

/-- `operator<<(RGBA_um_nod, RGBA_um_nod)`, common/color.h:599-605 -/
def umnodUmnod (base over : LayerNod) : Option LayerNod := do
  let ba ← mulShr15 base.alpha (compl over.alpha)
  let c ← blendUm base.c over.c ba over.alpha
  some ⟨c, (ba + over.alpha) % 65536⟩

/-- `operator<<(RGBA_um, RGBA_um)`, common/color.h:607-614 -/
def umUm (base over : Layer) : Option Layer := do
  let ba ← mulShr15 base.alpha (compl over.alpha)
  let c ← blendUm base.c over.c ba over.alpha
  some ⟨c, (ba + over.alpha) % 65536, if over.alpha > 16384 then over.overdrive else base.overdrive⟩

/-- `operator<<(RGBA_um_nod, RGBA_nod)`, common/color.h:616-622 -/
def umnodNod (base over : LayerNod) : Option LayerNod := do
  let ba ← mulShr15 base.alpha (compl over.alpha)
  let c ← blendPm base.c over.c ba
  some ⟨c, (ba + over.alpha) % 65536⟩

/-- `operator<<(RGBA_um, RGBA)`, common/color.h:624-631 -/
def umRgba (base over : Layer) : Option Layer := do
  let ba ← mulShr15 base.alpha (compl over.alpha)
  let c ← blendPm base.c over.c ba
  some ⟨c, (ba + over.alpha) % 65536, if over.alpha > 16384 then over.overdrive else base.overdrive⟩

/-- `operator<<(RGBA_nod, RGBA_um_nod)`, common/color.h:633-639 -/
def nodUmnod (base over : LayerNod) : Option LayerNod := do
  let c ← blendUm base.c over.c (compl over.alpha) over.alpha
  let ba ← mulShr15Up base.alpha (compl over.alpha)
  some ⟨c, toU 16 (ba + over.alpha)⟩

/-- `operator<<(RGBA, RGBA_um)`, common/color.h:641-648 -/
def rgbaUm (base over : Layer) : Option Layer := do
  let c ← blendUm base.c over.c (compl over.alpha) over.alpha
  let ba ← mulShr15Up base.alpha (compl over.alpha)
  some ⟨c, toU 16 (ba + over.alpha), if over.alpha ≥ 16384 then over.overdrive else base.overdrive⟩

/-- `operator<<(RGBA_nod, RGBA_nod)`, common/color.h:650-656 -/
def nodNod (base over : LayerNod) : Option LayerNod := do
  let c ← blendPm base.c over.c (compl over.alpha)
  let ba ← mulShr15Up base.alpha (compl over.alpha)
  some ⟨c, toU 16 (ba + over.alpha)⟩

/-- `operator<<(RGBA, RGBA)`, common/color.h:658-665 -/
def rgbaRgba (base over : Layer) : Option Layer := do
  let c ← blendPm base.c over.c (compl over.alpha)
  let ba ← mulShr15Up base.alpha (compl over.alpha)
  some ⟨c, toU 16 (ba + over.alpha), if over.alpha ≥ 16384 then over.overdrive else base.overdrive⟩

/-- `RGBA(const RGBA_nod&)`, common/color.h:480: multiplies by alpha although the argument already is -/
def rgbaOfNod (l : LayerNod) : Option Layer := (premul l.c l.alpha).map fun c => ⟨c, l.alpha, false⟩

/-- `operator*(const RGBA_um&, uint16_t)`, common/color.h:505-507 -/
def fadeUm (a : Layer) (x : Nat) : Option Layer := (mulShr15 a.alpha x).map fun al => ⟨a.c, al, a.overdrive⟩

/-- `operator*(const RGBA&, uint16_t)`, common/color.h:517-519; `operator*(const RGBA_nod&, uint16_t)`,
513-515, is the same without the flag -/
def fadeRgba (a : Layer) (x : Nat) : Option Layer := do
  let c ← premul a.c x
  let al ← mulShr15Up a.alpha x
  some ⟨c, toU 16 al, a.overdrive⟩

/-! ## Byte order -/

/-- `num_bytes`, common/color.h:86-91 -/
def numBytes (byteorder : Nat) : Nat := if byteorder ≤ 0xf then 1 else if byteorder ≤ 0xfff then 3 else 4

/-- the smallest channel -/
def minCh (c : Color) : Nat := min (c .r) (min (c .g) (c .b))

/-- `Color8::getByte`, common/color.h:101-111, and `Color16::getShort`, common/color.h:269-279 -/
def getByte (c : Color) (byteorder byte : Nat) : Nat :=
  match byteorder >>> (byte * 4) &&& 7 with
  | 2 => c .g
  | 3 => c .b
  | 4 => minCh c
  | 5 => c .r - minCh c
  | 6 => c .g - minCh c
  | 7 => c .b - minCh c
  | _ => c .r

/-- the loop of `combine_byteorder`, common/color.h:116-121, for `i` from `n - 1` down to 0; a negative
shift count is undefined -/
def combineLoop (o1 o2 : Nat) : Nat → Nat → Option Nat
  | 0, ret => some ret
  | i + 1, ret =>
    let b := o1 >>> (i * 4) &&& 7
    if b > 3 then none
    else combineLoop o1 o2 i (ret ||| ((o2 >>> ((3 - b) * 4) &&& 7) <<< (i * 4)))

/-- `combine_byteorder`, common/color.h:114-123 -/
def combineByteorder (o1 o2 : Nat) : Option Nat := combineLoop o1 o2 (numBytes o1) 0

/-- the loop of `invert_byteorder`, common/color.h:129-133 -/
def invertLoop (o : Nat) : Nat → Nat → Option Nat
  | 0, ret => some ret
  | i + 1, ret =>
    let b := o >>> (i * 4) &&& 7
    if b > 3 ∨ i > 3 then none
    else invertLoop o i (ret ||| ((3 - i) <<< ((3 - b) * 4)))

/-- `invert_byteorder`, common/color.h:127-135 -/
def invertByteorder (o : Nat) : Option Nat := invertLoop o (numBytes o) 0

/-- the bytes a driver sends for a colour, first byte first: blades/teensy4_ws2811.h:135-137,
blades/ws2811_serial.h:257-258, blades/monopodws.h:395 -/
def sent (c : Color) (byteorder : Nat) : List Nat :=
  (List.range (numBytes byteorder)).reverse.map (getByte c byteorder)

/-- `ByteOrderStyle`: `run` and `getColor`, styles/byteorder.h:17-33 -/
def reorder (bladeOrder order : Nat) (c : Color) : Option Color := do
  let inv ← invertByteorder bladeOrder
  let o ← combineByteorder inv order
  some fun | .r => getByte c o 2 | .g => getByte c o 1 | .b => getByte c o 0

/-! ## Selecting, dithering, rotating -/

/-- One step of `select`, common/color.h:34-36 (`top = 255`) and 241-243 (`top = 65535`, unsigned 32-bit). -/
def selectStep (top : Nat) (ret c o : Nat) : Nat := if o ≠ 0 then min ret (c * top / o) else ret

/-- `Color8::select`, common/color.h:32-38 (`top = 255`); `Color16::select`, common/color.h:238-245
(`top = 65535`) -/
def select (top : Nat) (c other : Color) : Nat :=
  selectStep top (selectStep top (selectStep top top (c .r) (other .r)) (c .g) (other .g)) (c .b) (other .b)

/-- `dither(int)`, common/color.h:259-261 (the portable version), one channel -/
def ditherCh (c : Nat) (n : Int) : Nat := toU 8 (clampI ((c + n) / 256) 0 255)

/-- `dither(int)` with the saturating instructions, common/color.h:249-257: `__UQSUB16`, `__UQADD16` -/
def ditherChArm (c : Nat) (n : Int) : Nat :=
  if n < 0 then (c - (-n).toNat) / 256 % 256 else (min (c + n.toNat) 65535) / 256 % 256

/-- `color16_dither_matrix`, common/color.h:199-204 -/
def ditherMatrix : List (List Int) :=
  [[-127, 111, -76, 94], [9, -59, 60, -8], [-93, 77, -110, 127], [43, -25, 26, -42]]

/-- `dither(int, int)`, common/color.h:265-267 -/
def dither (c : Nat) (x y : Nat) : Nat := ditherCh c ((ditherMatrix.getD (x &&& 3) []).getD (y &&& 3) 0)

/-- `f`, common/color.h:291-294 -/
def hueF (n C MAX : Int) : Option Int := do
  let k := Int.tmod n 98304
  let p ← i32 (C * clampI (min k (65536 - k)) 0 16384)
  some (MAX - Int.tdiv p 16384)

/-- `rotate`, common/color.h:298-320 -/
def rotate (c : Color) (angle : Int) : Option Color := do
  if angle = 0 then some c else
  let MAX : Int := max (c .r) (max (c .g) (c .b))
  let MIN : Int := min (c .r) (min (c .g) (c .b))
  let C := MAX - MIN
  if C = 0 then some c else
  let H0 : Int :=
    if (c .r : Int) = MAX then Int.tdiv (16384 * ((c .g : Int) - c .b)) C
    else if (c .g : Int) = MAX then Int.tdiv (16384 * ((c .b : Int) - c .r)) C + 16384 * 2
    else Int.tdiv (16384 * ((c .r : Int) - c .g)) C + 16384 * 4
  let H ← i32 (H0 + angle)
  let n1 ← i32 (5 * 16384 + H)
  let r ← hueF n1 C MAX
  let g ← hueF (3 * 16384 + H) C MAX
  let b ← hueF (1 * 16384 + H) C MAX
  some fun | .r => toU 16 r | .g => toU 16 g | .b => toU 16 b

/-- `SpiLedPin::OutColor`, blades/spiled_pin.h:53-61: the level byte and the channel bytes -/
def outColor (c : Color) (byteorder : Nat) : List Nat :=
  let MAX := max (c .r) (max (c .g) (c .b))
  let level := (MAX + 2113) / 2117
  let mult := if level = 0 then 0 else 7930 / level
  (0xE0 ||| level) % 256 :: (List.range (numBytes byteorder)).reverse.map fun i => getByte c byteorder i * mult / 65536 % 256

/-- The LED waveform of one byte: two 32-bit words, blades/monopodws.h:373,396-398; `ones` is the pin
mask, which is sent for a 0 bit. -/
def waveWords (byte ones : Nat) : Nat × Nat :=
  let tmp := byte * 0x8040201 % 2 ^ 32
  let zero4X := ones * 0x01010101 % 2 ^ 32
  let w (s : Nat) := (zero4X + 2 ^ 32 - ((tmp >>> s) &&& 0x01010101) * ones % 2 ^ 32) % 2 ^ 32
  (w 7, w 3)

/-- The LED waveform of one byte, blades/stm32l4_ws2811.h:684-696 with `set01` (711-714): two 32-bit
words; `lo` and `hi` are the timer values of a 0 and a 1 bit. -/
def waveWordsX (byte lo hi : Nat) : Nat × Nat :=
  let tmp := byte * 0x8040201 % 2 ^ 32
  let zero4X := lo * 0x01010101 % 2 ^ 32
  let w (s : Nat) := zero4X ^^^ (((tmp >>> s) &&& 0x01010101) * (hi ^^^ lo) % 2 ^ 32)
  (w 7, w 3)

/-- the bytes of a 32-bit word in memory (little endian) -/
def memBytes (w : Nat) : List Nat := [w % 256, w / 256 % 256, w / 65536 % 256, w / 16777216 % 256]

end Verif.Color
