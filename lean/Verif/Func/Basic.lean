import Verif.Color.Mix
/-!
# Integer style functions without state

Model of functions/mult.h, divide.h, mod.h, sum.h, subtract.h, scale.h, clamp.h, isbetween.h, islessthan.h,
layer_functions.h, smoothstep.h, ramp.h, center_dist.h, circular_section.h, linear_section.h, int_select.h, ifon.h.
A function is a tree; `eval` is what `getInteger(led)` returns in a frame on a blade with `n` LEDs.  `none` is undefined
behaviour: signed overflow or division by zero.
-/
set_option linter.unusedSimpArgs false
namespace Verif.Func
open Verif.Color (i32 i32_some bind_i32)

/-- `(Range(lo, hi) & Range(led * 32768, led * 32768 + 32768)).size()`, common/range.h:10-17 -/
def lit (lo hi led : Nat) : Nat := min hi (led * 32768 + 32768) - max lo (led * 32768)

/-- `clampi32`, common/math.h:19-23 -/
def clamp (x a b : Int) : Int := if x < a then a else if x > b then b else x

/-- `MOD`, common/math.h:31-34 -/
def mod32 (x m : Int) : Option Int :=
  if m = 0 then none else some (if x ≥ 0 then x.tmod m else m + (-((-x - 1).tmod m) - 1))

inductive F where
  /-- anything else, a different value for each LED -/
  | leaf (v : Nat → Int)
  /-- functions/mult.h:22-24 -/
  | mult (f g : F)
  /-- functions/divide.h:21-28 -/
  | divide (f g : F)
  /-- functions/mod.h:15-22 -/
  | mod (f g : F)
  /-- functions/sum.h:16-18 -/
  | sum (f g : F)
  /-- functions/subtract.h:16-18 -/
  | sub (f g : F)
  /-- functions/scale.h:16-27; `A` and `B` are taken at the first LED -/
  | scale (f a b : F)
  /-- functions/clamp.h:22-26 -/
  | clamp (f lo hi : F)
  /-- functions/isbetween.h:19-26 -/
  | isBetween (f lo hi : F)
  /-- functions/islessthan.h:19-21 -/
  | isLess (f g : F)
  /-- functions/layer_functions.h:22-24 -/
  | layer (f g : F)
  /-- functions/smoothstep.h:15-40 -/
  | smoothStep (pos width : F)
  /-- functions/ramp.h:11-14 -/
  | ramp
  /-- functions/center_dist.h:15 -/
  | centerDist (c : F)
  /-- functions/circular_section.h:21-51 -/
  | circular (pos fraction : F)
  /-- functions/linear_section.h:16-28 -/
  | linear (pos fraction : F)
  /-- functions/int_select.h:17-33 -/
  | select (f : F) (values : List Int)
  /-- functions/ifon.h:23-25; `on` is what `is_on()` returned in this frame -/
  | ifon (on : Bool) (f g : F)

/-- functions/smoothstep.h:15-20 -/
def smooth (mult location : Int) (led : Nat) : Option Int := do
  let p ← i32 (led * mult)
  let x ← i32 (p - location)
  if x < 0 then some 0
  else if x > 32768 then some 32768
  else do
    let q ← i32 (x * x)
    let r ← i32 (q / 16384 * (49152 - x))
    some (r / 32768)

/-- functions/int_select.h:20: `while(f < 0) f += sizeof...(N) << 8;`; the first argument bounds the number of rounds -/
def wrapUp (n : Nat) : Nat → Int → Int
  | 0, f => f
  | k + 1, f => if f < 0 then wrapUp n k (f + n * 256) else f

def F.eval (n : Nat) : F → Nat → Option Int
  | .leaf v, led => some (v led)
  | .mult f g, led => do
    let a ← f.eval n led
    let b ← g.eval n led
    let p ← i32 (a * b)
    some (p / 32768)
  | .divide f g, led => do
    let b ← g.eval n led
    if b = 0 then some 0
    else do
      let a ← f.eval n led
      i32 (a.tdiv b)
  | .mod f g, led => do
    let b ← g.eval n led
    if b = 0 then some 0
    else do
      let a ← f.eval n led
      mod32 a b
  | .sum f g, led => do
    let a ← f.eval n led
    let b ← g.eval n led
    i32 (a + b)
  | .sub f g, led => do
    let a ← f.eval n led
    let b ← g.eval n led
    i32 (a - b)
  | .scale f a b, led => do
    let a ← a.eval n 0
    let b ← b.eval n 0
    let mul ← i32 (b - a)
    let x ← f.eval n led
    let p ← i32 (x * mul)
    i32 (p / 32768 + a)
  | .clamp f lo hi, led => do
    let lo ← lo.eval n led
    let hi ← hi.eval n led
    let x ← f.eval n led
    some (Func.clamp x lo hi)
  | .isBetween f lo hi, led => do
    let x ← f.eval n led
    let lo ← lo.eval n led
    if x > lo then do
      let hi ← hi.eval n led
      some (if x < hi then 32768 else 0)
    else some 0
  | .isLess f g, led => do
    let a ← f.eval n led
    let b ← g.eval n led
    some (if a < b then 32768 else 0)
  | .layer f g, led => do
    let a ← f.eval n led
    let b ← g.eval n led
    let a1 ← i32 (32768 - a)
    let b1 ← i32 (32768 - b)
    let p ← i32 (a1 * b1)
    i32 (32768 - p / 32768)
  | .smoothStep pos width, led => do
    let w ← width.eval n 0
    let p ← pos.eval n 0
    if w = 0 then do
      let l ← i32 (n * p)
      smooth 32768 l led
    else if n = 0 then none
    else do
      let q ← i32 (32768 * p)
      let l ← i32 (q.tdiv w - 16384)
      smooth (((1073741824 : Int).tdiv w).tdiv n) l led
  | .ramp, led => if n = 0 then none else do
    let p ← i32 (led * 32768)
    some (p.tdiv n)
  | .centerDist c, led => if n = 0 then none else do
    let p ← i32 (led * 32768)
    let x ← c.eval n led
    let d ← i32 (p.tdiv n - x)
    i32 (d.natAbs)
  | .circular pos fraction, led => do
    let fr ← fraction.eval n 0
    let p ← pos.eval n 0
    let range : Nat × Nat ←
      if fr = 32768 then some (0, n * 32768 % 4294967296)
      else if fr = 0 then some (0, 0)
      else do
        let s ← i32 (p + 32768)
        let s ← i32 (s - fr.tdiv 2)
        let e ← i32 (p + fr.tdiv 2)
        some ((s % 32768).toNat * n % 4294967296, (e % 32768).toNat * n % 4294967296)
    some (if range.1 ≤ range.2 then lit range.1 range.2 led
      else lit 0 range.2 led + lit range.1 (n * 32768 % 4294967296) led : Nat)
  | .linear pos fraction, led => do
    let fr ← fraction.eval n 0
    let p ← pos.eval n 0
    let a ← i32 (p - fr.tdiv 2)
    let a ← i32 (a * n)
    let b ← i32 (p + fr.tdiv 2)
    let b ← i32 (b * n)
    let m ← i32 (32768 * n)
    some (lit (Func.clamp a 0 m).toNat (Func.clamp b 0 m).toNat led : Nat)
  | .select f values, _ => do
    let x ← f.eval n 0
    if values = [] then none
    else values[((wrapUp values.length (-x).toNat x).tmod values.length).toNat]?
  | .ifon on f g, led => if on then f.eval n led else g.eval n led

/-- `IntSelectHelper::get`, functions/int_select.h:46-79: the list is halved until one function is left
(common/typelist.h:64-68).  `vs` has the functions' values at this LED. -/
def getHalf (vs : List Int) (k : Nat) : Int :=
  if vs.length ≤ 1 then vs.headD 0
  else if k < vs.length / 2 then getHalf (vs.take (vs.length / 2)) k
  else getHalf (vs.drop (vs.length / 2)) (k - vs.length / 2)
termination_by vs.length
decreasing_by
  · simp; omega
  · simp; omega

/-- `IntSelectX`, functions/int_select.h:81-95; `f % sizeof...(N)` is computed without sign -/
def selectX (x : Int) (vs : List Int) : Option Int :=
  if vs = [] then none else some (getHalf vs ((x % 4294967296).toNat % vs.length))

end Verif.Func
