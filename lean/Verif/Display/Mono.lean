/-!
# Monochrome displays

Model of `MonoFrame`, display/monoframe.h:41-253: a frame buffer of `W` columns, each a word of `n` bits
(`n` = HEIGHT), and the conversion of images to it, display/ssd1306.h:371-389.  Every access is checked:
`none` is an access outside an array or a shift by the number of bits or more (undefined behaviour).
`n` is at least 32, so that words are not promoted to a wider type.
-/
namespace Verif.Display

/-- `frame_buffer_`, display/monoframe.h:46; only the columns below `W` exist -/
abbrev Frame (n : Nat) := Nat → BitVec n

/-- changing one word -/
def Frame.set {n : Nat} (F : Frame n) (x : Nat) (v : BitVec n) : Frame n := fun i => if i = x then v else F i

/-- the word with given bits -/
def ofBits : (n : Nat) → (Nat → Bool) → BitVec n
  | 0, _ => 0#0
  | n + 1, f => (ofBits n f).cons (f n)

/-- `Glyph`, display/monoframe.h:4-11: `data` are its `columns` words, already converted to `col_t`
(`column_size` selects their type, display/monoframe.h:197-216) -/
structure Glyph (n : Nat) where
  skip : Int
  xoffset : Int
  yoffset : Int
  data : List (BitVec n)

/-- one word of a glyph shifted down by `shift` rows, display/monoframe.h:182-188 -/
def shifted {n : Nat} (v : BitVec n) (shift : Int) : Option (BitVec n) :=
  if shift > 0 then (if shift.toNat < n then some (v <<< shift.toNat) else none)
  else if shift < 0 then (if (-shift).toNat < n then some (v >>> (-shift).toNat) else none)
  else some v

/-- the loops of `Draw2`, display/monoframe.h:181-189: `count` columns from `i` on; `pos[i]` is column
`x + i` -/
def draw2 {n : Nat} (W : Nat) (data : List (BitVec n)) (x shift : Int) : Nat → Int → Frame n → Option (Frame n)
  | 0, _, F => some F
  | count + 1, i, F =>
    if 0 ≤ x + i ∧ x + i < W ∧ 0 ≤ i then
      match data[i.toNat]? with
      | none => none
      | some v =>
        match shifted v shift with
        | none => none
        | some w => draw2 W data x shift count (i + 1) (F.set (x + i).toNat (F (x + i).toNat ||| w))
    else none

/-- `Draw`, display/monoframe.h:191-217 -/
def draw {n : Nat} (W : Nat) (F : Frame n) (g : Glyph n) (x y : Int) : Option (Frame n) :=
  let x := x + g.xoffset
  let y := y + g.yoffset
  let begin_ := max 0 (-x)
  let end_ := min (g.data.length : Int) (W - x)
  draw2 W g.data x y (end_ - begin_).toNat begin_ F

/-- `DrawText`, display/monoframe.h:238-252; `font[c - 0x20]` outside the font is an access out of bounds -/
def drawText {n : Nat} (W : Nat) (font : List (Glyph n)) : List Nat → Int → Int → Frame n → Option (Frame n)
  | [], _, _, F => some F
  | c :: cs, x, y, F =>
    if c = 10 then drawText W font cs 0 (y + 16) F
    else if 0x20 ≤ c ∧ c ≤ 0x7f then
      match font[c - 0x20]? with
      | none => none
      | some g =>
        match draw W F g x y with
        | none => none
        | some F => drawText W font cs (x + g.skip) y F
    else drawText W font cs x y F

/-- `SetPixel`, display/monoframe.h:151-153 -/
def setPixel {n : Nat} (W : Nat) (F : Frame n) (x y : Nat) : Option (Frame n) :=
  if x < W ∧ y < n then some (F.set x (F x ||| (1#n <<< y))) else none

/-- `GetPixel`, display/monoframe.h:155-157 -/
def getPixel {n : Nat} (W : Nat) (F : Frame n) (x y : Nat) : Option Bool :=
  if x < W ∧ y < n then some (F x &&& (1#n <<< y) != 0#n) else none

/-- the mask of rows `y1` to `y2`, display/monoframe.h:161 and 172 -/
def rowMask (n y1 y2 : Nat) : Option (BitVec n) :=
  if y1 < y2 ∧ y2 - y1 ≤ n ∧ y1 < n then some ((BitVec.allOnes n >>> (n - (y2 - y1))) <<< y1) else none

/-- the loop over columns of `DrawHLine`, `DrawRect` and `ClearRect`, display/monoframe.h:167, 173, 179 -/
def forCols {n : Nat} (W : Nat) (f : BitVec n → BitVec n) : Nat → Nat → Frame n → Option (Frame n)
  | 0, _, F => some F
  | count + 1, x, F => if x < W then forCols W f count (x + 1) (F.set x (f (F x))) else none

/-- `DrawVLine`, display/monoframe.h:160-162 -/
def drawVLine {n : Nat} (W : Nat) (F : Frame n) (x y1 y2 : Nat) : Option (Frame n) :=
  match rowMask n y1 y2 with
  | none => none
  | some m => forCols W (· ||| m) 1 x F

/-- `DrawHLine`, display/monoframe.h:165-168 -/
def drawHLine {n : Nat} (W : Nat) (F : Frame n) (x1 x2 y : Nat) : Option (Frame n) :=
  if y < n then forCols W (· ||| (1#n <<< y)) (x2 - x1) x1 F else none

/-- `DrawRect`, display/monoframe.h:171-174 -/
def drawRect {n : Nat} (W : Nat) (F : Frame n) (x1 x2 y1 y2 : Nat) : Option (Frame n) :=
  match rowMask n y1 y2 with
  | none => none
  | some m => forCols W (· ||| m) (x2 - x1) x1 F

/-- `ClearRect`, display/monoframe.h:177-180: the complement is taken before the shift -/
def clearRect {n : Nat} (W : Nat) (F : Frame n) (x1 x2 y1 y2 : Nat) : Option (Frame n) :=
  if y1 < y2 ∧ y2 - y1 ≤ n ∧ y1 < n then
    forCols W (· &&& ((~~~(BitVec.allOnes n >>> (n - (y2 - y1)))) <<< y1)) (x2 - x1) x1 F
  else none

/-- `Invert`, display/monoframe.h:59-63 -/
def invert {n : Nat} (F : Frame n) : Frame n := fun x => F x ^^^ BitVec.allOnes n

/-- the mask of the next level, display/monoframe.h:71 and 89 -/
def nextMask {n : Nat} (m : BitVec n) (j : Nat) : BitVec n := m ^^^ (m <<< j)

/-- the loop of `ReverseBits`, display/monoframe.h:89-91 -/
def reverseLoop {n : Nat} : Nat → Nat → BitVec n → BitVec n → BitVec n
  | 0, _, _, word => word
  | fuel + 1, j, m, word =>
    if j = 0 then word
    else reverseLoop fuel (j / 2) (nextMask m (j / 2)) (((word >>> j) &&& m) ||| ((word &&& m) <<< j))

/-- `ReverseBits`, display/monoframe.h:86-93; `1 << (sizeof(col_t) * 4)` is a shift of an `int`, undefined for
words of 64 bits -/
def reverseBits {n : Nat} (word : BitVec n) : Option (BitVec n) :=
  if n / 2 < 32 then some (reverseLoop n (n / 2) ((1#n <<< (n / 2)) - 1#n) word) else none

/-- `FlipY`, display/monoframe.h:95-99: the first `count` columns -/
def flipY {n : Nat} : Nat → Frame n → Option (Frame n)
  | 0, F => some F
  | count + 1, F =>
    match flipY count F with
    | none => none
    | some G => (reverseBits (F count)).map fun w => G.set count w

/-- `ReverseBytes`, display/monoframe.h:101-112: the compiler's byte swap; bit `c` comes from the bit with the same
place in the opposite byte -/
def reverseBytes {n : Nat} (word : BitVec n) : BitVec n := ofBits n fun c => word.getLsbD (8 * (n / 8 - 1 - c / 8) + c % 8)

/-- `ConvertPortrait`, display/monoframe.h:114-118 -/
def convertPortrait {n : Nat} (W : Nat) (F : Frame n) : Frame n := fun x => if x < W then reverseBytes (F x) else F x

/-- `x & ~j` -/
def andNot (x j : Nat) : Nat := x ^^^ (x &&& j)

/-- the inner loop of `TransposeSquareInPlace`, display/monoframe.h:72-76, on `frame_buffer_ + off` -/
def transposeInner {n : Nat} (off j : Nat) (m : BitVec n) : Nat → Nat → Frame n → Option (Frame n)
  | 0, _, _ => none
  | fuel + 1, k, A =>
    if k < n then
      if k + j < n then
        let t := (A (off + k) ^^^ (A (off + (k + j)) >>> j)) &&& m
        transposeInner off j m fuel (andNot (k + j + 1) j)
          ((A.set (off + k) (A (off + k) ^^^ t)).set (off + (k + j)) (A (off + (k + j)) ^^^ (t <<< j)))
      else none
    else some A

/-- the outer loop, display/monoframe.h:71 -/
def transposeLoop {n : Nat} (off : Nat) : Nat → Nat → BitVec n → Frame n → Option (Frame n)
  | 0, _, _, _ => none
  | fuel + 1, j, m, A =>
    if j = 0 then some A
    else match transposeInner off j m (n + 1) 0 A with
      | none => none
      | some A => transposeLoop off fuel (j / 2) (nextMask m (j / 2)) A

/-- `TransposeSquareInPlace(frame_buffer_ + off)`, display/monoframe.h:65-78 -/
def transpose {n : Nat} (off : Nat) (A : Frame n) : Option (Frame n) :=
  transposeLoop off (n + 1) (n / 2) ((1#n <<< (n / 2)) - 1#n) A

/-- where a word goes, display/monoframe.h:134-137 -/
def destOf (n W : Nat) (invertY : Bool) (from_ : Nat) : Nat :=
  let blocks := W / n
  (from_ % blocks) * n + (if invertY then from_ / blocks else n - 1 - from_ / blocks)

/-- the `do` loop following one cycle, display/monoframe.h:132-142: the position, the word in hand, the frame
and which words have been moved (the array `bits`) -/
def cycleLoop {α : Type} (W : Nat) (g : α → α) (dest : Nat → Nat) (w : Nat) :
    Nat → Nat → α → (Nat → α) → (Nat → Bool) → Option ((Nat → α) × (Nat → Bool))
  | 0, _, _, _, _ => none
  | fuel + 1, from_, tmp, F, moved =>
    let d := dest from_
    if d < W then
      let F' : Nat → α := fun i => if i = d then g tmp else F i
      let moved' : Nat → Bool := fun i => if i = d then true else moved i
      if d = w then some (F', moved') else cycleLoop W g dest w fuel d (F d) F' moved'
    else none

/-- the loop over words, display/monoframe.h:124-145: the first `count` words -/
def moveLoop {α : Type} (W : Nat) (g : α → α) (dest : Nat → Nat) (F : Nat → α) : Nat → Option ((Nat → α) × (Nat → Bool))
  | 0 => some (F, fun _ => false)
  | count + 1 =>
    match moveLoop W g dest F count with
    | none => none
    | some (G, moved) => if moved count then some (G, moved) else cycleLoop W g dest count W count (G count) G moved

/-- the transpositions, display/monoframe.h:147-148: the first `count` blocks -/
def transposeBlocks {n : Nat} : Nat → Frame n → Option (Frame n)
  | 0, F => some F
  | count + 1, F =>
    match transposeBlocks count F with
    | none => none
    | some G => transpose (count * n) G

/-- `ConvertLandscape`, display/monoframe.h:120-150 -/
def convertLandscape {n : Nat} (W : Nat) (invertY : Bool) (F : Frame n) : Option (Frame n) :=
  match moveLoop W reverseBytes (destOf n W invertY) F W with
  | none => none
  | some (G, _) => transposeBlocks (W / n) G

/-- `layout_`, display/ssd1306.h:345-349 -/
inductive Layout where
  | native | landscape | portrait
deriving DecidableEq

/-- `ConvertToNative`, display/ssd1306.h:371-389 -/
def convertToNative {n : Nat} (W : Nat) (layout : Layout) (invertY xor_ : Bool) (F : Frame n) : Option (Frame n) :=
  let r : Option (Frame n × Bool) := match layout with
    | .native => some (F, invertY)
    | .landscape => (convertLandscape W invertY F).map fun G => (G, false)
    | .portrait => some (convertPortrait W F, invertY)
  match r with
  | none => none
  | some (G, inv) =>
    match (if inv then flipY W G else some G) with
    | none => none
    | some G => some (if xor_ then invert G else G)

/-- an image file read into the frame buffer, display/ssd1306.h:850: byte `k` of the file holds the pixels `8 k` to
`8 k + 7`, the first in the highest bit, and words are little endian -/
def load (n : Nat) (s : Nat → Bool) : Frame n := fun w => ofBits n fun c => s (8 * (w * (n / 8) + c / 8) + (7 - c % 8))

/-- the layout after reading an image of the given width, display/ssd1306.h:831-840; `none`: the image is refused -/
def layoutFor (W H width : Nat) (prev : Layout) : Option Layout :=
  if width ≠ W ∧ width ≠ H then none else if width = W then some .landscape else some prev

end Verif.Display
