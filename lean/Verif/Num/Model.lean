/-!
# Numeric helpers

Models of `common/math.h`, `common/cyclint.h`, `common/range.h`, `common/bitfield.h`
and the `EVENTID` macro of `common/events.h`.
-/
namespace Verif.Num

/-- C++ `~x` on a signed two's complement integer. -/
def bnot (x : Int) : Int := -x - 1

/-- `MOD`, common/math.h:31-34.  `%` is C++ remainder (truncating).
`none` is the undefined behaviour of a remainder by zero.  The operands are
`Int`; `C19_mod_no_overflow` shows the result and all intermediates fit `int32_t`. -/
def MOD (x m : Int) : Option Int :=
  if m = 0 then none
  else if x ≥ 0 then some (x.tmod m)
  else some (m + bnot ((bnot x).tmod m))

/-- `clampi32`, common/math.h:19-23. -/
def clampi32 (x a b : Int) : Int :=
  if x < a then a else if x > b then b else x

/-- `clamptoi16`, common/math.h:24-26. -/
def clamptoi16 (x : Int) : Int := clampi32 x (-32768) 32767

/-- `clamptoi24`, common/math.h:27-29. -/
def clamptoi24 (x : Int) : Int := clampi32 x (-8388608) 8388607

/-! ### Cyclint (common/cyclint.h:6-25), for an unsigned type with `w+1` bits -/

/-- `NMASK`, common/cyclint.h:9. -/
def NMASK (w : Nat) : BitVec (w+1) := (1 : BitVec (w+1)) <<< w
/-- `operator<`, common/cyclint.h:19. -/
def cycLt {w} (v o : BitVec (w+1)) : Bool := ((v - o) &&& NMASK w) != 0
/-- `operator<=`, common/cyclint.h:20. -/
def cycLe {w} (v o : BitVec (w+1)) : Bool := !(((o - v) &&& NMASK w) != 0)
/-- `operator>`, common/cyclint.h:21. -/
def cycGt {w} (v o : BitVec (w+1)) : Bool := ((o - v) &&& NMASK w) != 0
/-- `operator>=`, common/cyclint.h:22. -/
def cycGe {w} (v o : BitVec (w+1)) : Bool := !(((v - o) &&& NMASK w) != 0)
/-- `operator+`, common/cyclint.h:11-12. -/
def cycAdd {w} (v o : BitVec (w+1)) : BitVec (w+1) := v + o
/-- `operator-`, common/cyclint.h:13-14. -/
def cycSub {w} (v o : BitVec (w+1)) : BitVec (w+1) := v - o

/-! ### Range (common/range.h) on `uint32_t` -/

/-- 2^32: all `uint32_t` arithmetic is reduced modulo this. -/
def W32 : Nat := 2^32
def u32 (n : Nat) : Nat := n % W32
/-- `a - b` on `uint32_t`. -/
def sub32 (a b : Nat) : Nat := (a + (W32 - b % W32)) % W32

/-- class Range, common/range.h:4-9. -/
structure Range where
  start : Nat
  stop : Nat
deriving DecidableEq, Repr

/-- `Range::size`, common/range.h:10-13. -/
def Range.size (r : Range) : Nat := if r.start ≥ r.stop then 0 else sub32 r.stop r.start

/-- `Range::operator&`, common/range.h:14-17. -/
def Range.inter (a b : Range) : Range := ⟨max a.start b.start, min a.stop b.stop⟩

/-- static `intersect_with_stripes(stripe_width, mod, end)`, common/range.h:25-27.
`none` = division by zero. -/
def stripes0 (width m stop : Nat) : Option Nat :=
  if m = 0 then none
  else some (u32 (u32 ((stop / m) * width) + min width (stop % m)))

/-- `Range::intersect_with_stripes(stripe_width, mod)`, common/range.h:31-33. -/
def Range.stripesW (r : Range) (width m : Nat) : Option Nat := do
  let e ← stripes0 width m r.stop
  let s ← stripes0 width m r.start
  pure (sub32 e s)

/-- `Range::intersect_with_stripes(Range stripe, mod)`, common/range.h:37-42. -/
def Range.stripesR (r : Range) (stripe : Range) (m : Nat) : Option Nat :=
  let shift := sub32 m stripe.start
  let tmp : Range := ⟨u32 (r.start + shift), u32 (r.stop + shift)⟩
  tmp.stripesW stripe.size m

/-! ### BitField (common/bitfield.h), register type with `w` bits -/

/-- `Field::MASK`, common/bitfield.h:17. -/
def fieldMask (w pos bits : Nat) : BitVec w := (~~~ ((BitVec.allOnes w) <<< bits)) <<< pos

/-- struct Field: value and mask, common/bitfield.h:36-37. -/
structure Field (w : Nat) where
  value : BitVec w
  mask : BitVec w

/-- constructor `Field(T v)`, common/bitfield.h:18. -/
def mkField {w} (pos bits : Nat) (v : BitVec w) : Field w := ⟨v <<< pos, fieldMask w pos bits⟩

/-- `Field::operator|`, common/bitfield.h:32-35. -/
def Field.or {w} (a b : Field w) : Field w := ⟨a.value ||| b.value, a.mask ||| b.mask⟩

/-- `Field::get`, common/bitfield.h:20-31. -/
def fieldGet {w} (pos bits : Nat) (reg : BitVec w) : BitVec w :=
  (reg &&& fieldMask w pos bits) >>> pos

/-- `BitField::set`, common/bitfield.h:42-49 (non-atomic branch; the atomic
branch performs the same read-modify-write in one exclusive access). -/
def regSet {w} (reg : BitVec w) (f : Field w) : BitVec w := (reg &&& ~~~ f.mask) ||| f.value

/-! ### EVENTID (common/events.h) -/

/-- `compress_button`, common/events.h:41-43: index of the highest set bit
(`31 - __builtin_clz`), 0 for `BUTTON_NONE`. -/
def compressButton (b : BitVec 32) : BitVec 32 :=
  if b = 0 then 0 else BitVec.ofNat 32 (Nat.log2 b.toNat)

/-- `EVENTID`, common/events.h:112. -/
def EVENTID (button event modifiers : BitVec 32) : BitVec 32 :=
  (event <<< 24) ||| (compressButton button <<< 17) ||| (modifiers &&& ~~~ button)

end Verif.Num
