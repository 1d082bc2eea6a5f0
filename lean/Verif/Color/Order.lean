import Verif.Color.Mix
set_option linter.unusedSimpArgs false
/-!
# C29: LED byte orders
-/
namespace Verif.Color

/-! ### specification -/

/-- what one byte of a pixel carries: a channel, the white part, or a channel without the white part -/
inductive Slot where
  | red | green | blue | white | redRest | greenRest | blueRest
deriving DecidableEq

/-- the value a slot shows for a colour; the white part is what all three channels have in common -/
def Slot.value (c : Color) : Slot → Nat
  | .red => c .r
  | .green => c .g
  | .blue => c .b
  | .white => min (c .r) (min (c .g) (c .b))
  | .redRest => c .r - min (c .r) (min (c .g) (c .b))
  | .greenRest => c .g - min (c .r) (min (c .g) (c .b))
  | .blueRest => c .b - min (c .r) (min (c .g) (c .b))

/-- the slots a name stands for: `W` adds white to full colours, `w` takes white out of the colours -/
def slots (name : String) : List Slot :=
  let eco := name.toList.contains 'w'
  name.toList.map fun
    | 'R' => if eco then .redRest else .red
    | 'G' => if eco then .greenRest else .green
    | 'B' => if eco then .blueRest else .blue
    | _ => .white

/-- the names and numbers of the byte orders, common/color.h:43-83 -/
def orders : List (String × Nat) :=
  [("R", 0x1), ("G", 0x2), ("B", 0x3),
   ("BGR", 0x321), ("BRG", 0x312), ("GBR", 0x231), ("GRB", 0x213), ("RBG", 0x132), ("RGB", 0x123),
   ("BGRW", 0x3214), ("BRGW", 0x3124), ("GBRW", 0x2314), ("GRBW", 0x2134), ("RBGW", 0x1324), ("RGBW", 0x1234),
   ("WBGR", 0x4321), ("WBRG", 0x4312), ("WGBR", 0x4231), ("WGRB", 0x4213), ("WRBG", 0x4132), ("WRGB", 0x4123),
   ("BGRw", 0x7654), ("BRGw", 0x7564), ("GBRw", 0x6754), ("GRBw", 0x6574), ("RBGw", 0x5764), ("RGBw", 0x5674),
   ("wBGR", 0x4765), ("wBRG", 0x4756), ("wGBR", 0x4675), ("wGRB", 0x4657), ("wRBG", 0x4576), ("wRGB", 0x4567)]

/-- **C29** (order).  For every byte order of the configuration and every colour, the bytes sent are
exactly the channels its name lists, in that order. -/
theorem C29_order (name : String) (o : Nat) (h : (name, o) ∈ orders) (c : Color) :
    sent c o = (slots name).map (Slot.value c) := by
  simp only [orders, List.mem_cons, List.not_mem_nil, or_false, Prod.mk.injEq] at h
  rcases h with h | h | h | h | h | h | h | h | h | h | h | h | h | h | h | h | h | h | h | h | h | h | h | h | h | h | h | h | h | h | h | h | h <;>
    obtain ⟨rfl, rfl⟩ := h <;> rfl

example : ("GRBw", 0x6574) ∈ orders ∧ sent (fun | .r => 30 | .g => 20 | .b => 10) 0x6574 = [10, 20, 0, 10] := by
  exact ⟨by decide, rfl⟩

/-- white and the rests together give back the colour -/
theorem C29_white (c : Color) : Slot.value c .redRest + Slot.value c .white = c .r ∧
    Slot.value c .greenRest + Slot.value c .white = c .g ∧ Slot.value c .blueRest + Slot.value c .white = c .b := by
  unfold Slot.value
  dsimp only
  omega

/-- the six orders of three channels -/
def rgbOrders : List Nat := [0x321, 0x312, 0x231, 0x213, 0x132, 0x123]

/-- **C29** (inverse).  For the six RGB orders: combining the inverse with the order gives plain RGB, in
both ways round, inverting twice gives the order back, and RGB is neutral. -/
theorem C29_inverse : ∀ x ∈ rgbOrders,
    ((invertByteorder x).bind fun i => combineByteorder i x) = some 0x123 ∧
    ((invertByteorder x).bind fun i => combineByteorder x i) = some 0x123 ∧
    (invertByteorder x).bind invertByteorder = some x ∧
    combineByteorder 0x123 x = some x ∧ combineByteorder x 0x123 = some x := by decide

/-- **C29** (mixed strings).  On a blade whose pixels use order `x`, a style wrapped for order `y` makes
the blade send exactly the bytes a blade of order `y` would send for the unwrapped colour. -/
theorem C29_reorder (x y : Nat) (hx : x ∈ rgbOrders) (hy : y ∈ rgbOrders) (c : Color) :
    ∃ c', reorder x y c = some c' ∧ sent c' x = sent c y := by
  simp only [rgbOrders, List.mem_cons, List.not_mem_nil, or_false] at hx hy
  rcases hx with rfl | rfl | rfl | rfl | rfl | rfl <;> rcases hy with rfl | rfl | rfl | rfl | rfl | rfl <;>
    exact ⟨_, rfl, rfl⟩

/-- On a blade with a white channel the wrapper is undefined (a shift by a negative count). -/
theorem C29_reorder_white_counterexample (y : Nat) (c : Color) : reorder 0x1234 y c = none := by
  rfl

/-! ### the waveform -/

/-- the bits of a byte, highest first: the order LEDs expect -/
def bitsMsb (byte : Nat) : List Bool := [7, 6, 5, 4, 3, 2, 1, 0].map byte.testBit

/-- four bits spread over the four bytes of a word -/
def spread (b0 b1 b2 b3 : Bool) : Nat := b0.toNat + b1.toNat * 256 + b2.toNat * 65536 + b3.toNat * 16777216

theorem spread_hi : ∀ byte, byte < 256 → ((byte * 0x8040201 % 2 ^ 32) >>> 7) &&& 0x01010101 =
    spread (byte.testBit 7) (byte.testBit 6) (byte.testBit 5) (byte.testBit 4) := by decide +kernel

theorem spread_lo : ∀ byte, byte < 256 → ((byte * 0x8040201 % 2 ^ 32) >>> 3) &&& 0x01010101 =
    spread (byte.testBit 3) (byte.testBit 2) (byte.testBit 1) (byte.testBit 0) := by decide +kernel

theorem mem4 {a b c d : Nat} (ha : a < 256) (hb : b < 256) (hc : c < 256) (hd : d < 256) :
    memBytes (a + b * 256 + c * 65536 + d * 16777216) = [a, b, c, d] := by
  unfold memBytes
  have h1 : (a + b * 256 + c * 65536 + d * 16777216) / 256 = b + c * 256 + d * 65536 := by omega
  have h2 : (a + b * 256 + c * 65536 + d * 16777216) / 65536 = c + d * 256 := by omega
  have h3 : (a + b * 256 + c * 65536 + d * 16777216) / 16777216 = d := by omega
  rw [h1, h2, h3]
  congr 1
  · omega
  congr 1
  · omega
  congr 1
  · omega
  congr 1
  omega

theorem word_sub (b0 b1 b2 b3 : Bool) {ones : Nat} (h : ones < 256) :
    memBytes ((ones * 0x01010101 % 2 ^ 32 + 2 ^ 32 - spread b0 b1 b2 b3 * ones % 2 ^ 32) % 2 ^ 32) =
      [b0, b1, b2, b3].map fun b => if b then 0 else ones := by
  have e : ∀ b : Bool, (if b then 0 else ones) = ones - b.toNat * ones := by intro b; cases b <;> simp
  have f : ∀ b : Bool, b.toNat * ones ≤ ones := by intro b; cases b <;> simp
  have g : spread b0 b1 b2 b3 * ones = b0.toNat * ones + b1.toNat * ones * 256 + b2.toNat * ones * 65536 + b3.toNat * ones * 16777216 := by
    unfold spread
    rw [Nat.add_mul, Nat.add_mul, Nat.add_mul, Nat.mul_right_comm _ 256, Nat.mul_right_comm _ 65536, Nat.mul_right_comm _ 16777216]
  simp only [List.map_cons, List.map_nil]
  rw [e, e, e, e, g]
  have f0 := f b0
  have f1 := f b1
  have f2 := f b2
  have f3 := f b3
  generalize b0.toNat * ones = x0 at *
  generalize b1.toNat * ones = x1 at *
  generalize b2.toNat * ones = x2 at *
  generalize b3.toNat * ones = x3 at *
  rw [← mem4 (a := ones - x0) (b := ones - x1) (c := ones - x2) (d := ones - x3) (by omega) (by omega) (by omega) (by omega)]
  congr 1
  omega

theorem byte_xor (a b k : Nat) : (a ^^^ b) / 2 ^ k % 256 = (a / 2 ^ k % 256) ^^^ (b / 2 ^ k % 256) := by
  rw [← Nat.shiftRight_eq_div_pow, ← Nat.shiftRight_eq_div_pow, ← Nat.shiftRight_eq_div_pow, Nat.shiftRight_xor_distrib]
  exact Nat.xor_mod_two_pow (n := 8)

theorem word_xor (b0 b1 b2 b3 : Bool) {lo hi : Nat} (hl : lo < 256) (hh : hi < 256) :
    memBytes ((lo * 0x01010101 % 2 ^ 32) ^^^ (spread b0 b1 b2 b3 * (hi ^^^ lo) % 2 ^ 32)) =
      [b0, b1, b2, b3].map fun b => if b then hi else lo := by
  have hx : hi ^^^ lo < 256 := Nat.xor_lt_two_pow (n := 8) hh hl
  have hxx : lo ^^^ (hi ^^^ lo) = hi := by rw [Nat.xor_comm hi lo, ← Nat.xor_assoc, Nat.xor_self, Nat.zero_xor]
  generalize hi ^^^ lo = x at *
  have m : ∀ w, memBytes w = [w / 2 ^ 0 % 256, w / 2 ^ 8 % 256, w / 2 ^ 16 % 256, w / 2 ^ 24 % 256] := by
    intro w; unfold memBytes; simp
  rw [m, byte_xor, byte_xor, byte_xor, byte_xor]
  have key : ∀ (b : Bool) (p q : Nat), p = lo → q = (if b then x else 0) → p ^^^ q = if b then hi else lo := by
    intro b p q hp hq
    subst hp hq
    cases b
    · simp
    · simp [hxx]
  simp only [List.map_cons, List.map_nil]
  have s1 : spread b0 b1 b2 b3 * x % 2 ^ 32 = (if b0 then x else 0) + (if b1 then x else 0) * 256 + (if b2 then x else 0) * 65536 + (if b3 then x else 0) * 16777216 := by
    cases b0 <;> cases b1 <;> cases b2 <;> cases b3 <;> simp [spread] <;> omega
  have s2 : ∀ b : Bool, (if b then x else 0) < 256 := by intro b; cases b <;> simp <;> omega
  have t0 := s2 b0
  have t1 := s2 b1
  have t2 := s2 b2
  have t3 := s2 b3
  rw [s1]
  have k0 := key b0
  have k1 := key b1
  have k2 := key b2
  have k3 := key b3
  generalize (if b0 = true then x else 0) = x0 at *
  generalize (if b1 = true then x else 0) = x1 at *
  generalize (if b2 = true then x else 0) = x2 at *
  generalize (if b3 = true then x else 0) = x3 at *
  have hw : lo * 0x01010101 % 2 ^ 32 = lo + lo * 256 + lo * 65536 + lo * 16777216 := by omega
  have p1 := mem4 hl hl hl hl
  have p2 := mem4 t0 t1 t2 t3
  rw [m, List.cons.injEq, List.cons.injEq, List.cons.injEq, List.cons.injEq] at p1 p2
  rw [hw]
  rw [k0 _ _ p1.1 p2.1, k1 _ _ p1.2.1 p2.2.1, k2 _ _ p1.2.2.1 p2.2.2.1, k3 _ _ p1.2.2.2.1 p2.2.2.2.1]

/-- **C60** (LED signal).  For every data byte, the eight output bytes generated for it are the pulse of
its bits, highest bit first: with the pin-mask output a 0 bit sets the pin mask and a 1 bit nothing, with
the timer output each bit gives the timer value of its kind. -/
theorem C60_waveform (byte : Nat) (hb : byte < 256) :
    (∀ ones, ones < 256 → memBytes (waveWords byte ones).1 ++ memBytes (waveWords byte ones).2 = (bitsMsb byte).map fun b => if b then 0 else ones) ∧
    (∀ lo hi, lo < 256 → hi < 256 → memBytes (waveWordsX byte lo hi).1 ++ memBytes (waveWordsX byte lo hi).2 = (bitsMsb byte).map fun b => if b then hi else lo) := by
  constructor
  · intro ones ho
    unfold waveWords
    dsimp only
    rw [spread_hi byte hb, spread_lo byte hb, word_sub _ _ _ _ ho, word_sub _ _ _ _ ho]
    rfl
  · intro lo hi hl hh
    unfold waveWordsX
    dsimp only
    rw [spread_hi byte hb, spread_lo byte hb, word_xor _ _ _ _ hl hh, word_xor _ _ _ _ hl hh]
    rfl

example : memBytes (waveWords 0xA5 4).1 ++ memBytes (waveWords 0xA5 4).2 = [0, 4, 0, 4, 4, 0, 4, 0] := by decide +kernel

end Verif.Color
