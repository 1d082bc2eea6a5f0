import Verif.Color.Model
/-!
# Blade styles and the power of the LEDs

Model of how a style decides that the LEDs may be switched off: `run` of styles/ and functions/ returns
whether the layer is black (transparent) until the next ignition.  Every object is `run` once per frame,
so what it shows is a function of the frames it has been run with: a component is modelled as a function
of its history, the latest frame first.
-/
namespace Verif.Style

open Verif.Color (Color Ch)

/-- What `run(BladeBase*)` can see in one frame: `blade->is_on()`, `micros()`, `millis()`,
`blade->num_leds()`, which effect types are newly detected (`OneshotEffectDetector`), and the values of
everything else (sensors, random numbers), by source and LED. -/
structure Frame where
  on : Bool
  us : Nat
  ms : Nat
  n : Nat
  eff : Nat → Bool
  inp : Nat → Nat → Int

/-- the frames an object has been run with, latest first -/
abbrev Hist := List Frame

/-- `blade->is_on()` in the latest frame; members `on_` start as `false` (styles/inout_helper.h:72) -/
def lastOn : Hist → Bool
  | [] => false
  | f :: _ => f.on

/-- the last value of `micros()` seen; `last_micros_` is zero-initialised by `new STYLE()`,
styles/blade_style.h:46 -/
def lastUs : Hist → Nat
  | [] => 0
  | f :: _ => f.us

/-- the number of LEDs in the latest frame -/
def lastN : Hist → Nat
  | [] => 0
  | f :: _ => f.n

/-- `FunctionRunResult`, styles/blade_style.h:56-60 -/
inductive FR where
  | unknown | zero | one
deriving DecidableEq

/-- `LayerRunResult`, styles/blade_style.h:50-54 -/
inductive LR where
  | unknown | black | transparent
deriving DecidableEq

/-- the representation of a pixel: `SimpleColor`/`OverDriveColor` (common/color.h:367-389), `RGBA_um`
(427-460), or `RGBA` (463-495) -/
inductive Kind where
  | opaque | um | pm
deriving DecidableEq

/-- a pixel; an opaque one has alpha 32768.  The overdrive flag is left out (see Verif/Color). -/
structure Pix where
  kind : Kind
  c : Color
  alpha : Nat

/-- `RGBA_um_nod::Transparent()`, common/color.h:430 -/
def Pix.clear : Pix := ⟨.um, fun _ => 0, 0⟩

/-- an opaque colour, common/color.h:367-375 -/
def Pix.solid (c : Color) : Pix := ⟨.opaque, c, 32768⟩

/-- conversion to premultiplied alpha, common/color.h:465-466, 481-484; the ranges and overflows of the
colour arithmetic are the subject of Verif/Color -/
def Pix.toPm (p : Pix) : Pix :=
  match p.kind with
  | .um => ⟨.pm, fun ch => p.c ch * p.alpha / 32768, p.alpha⟩
  | .opaque => ⟨.pm, p.c, 32768⟩
  | .pm => p

/-- `base << over`, common/color.h:571-665 -/
def Pix.over (base top : Pix) : Pix :=
  let ac := 32768 - top.alpha
  match base.kind, top.kind with
  | .opaque, .pm => if top.alpha = 0 then base else ⟨.opaque, fun ch => base.c ch * ac / 32768 + top.c ch, 32768⟩
  | .opaque, _ => if top.alpha = 0 then base else ⟨.opaque, fun ch => (base.c ch * ac + top.c ch * top.alpha) / 32768, 32768⟩
  | .um, .pm => ⟨.pm, fun ch => base.c ch * (base.alpha * ac / 32768) / 32768 + top.c ch, base.alpha * ac / 32768 + top.alpha⟩
  | .um, _ => ⟨.pm, fun ch => (base.c ch * (base.alpha * ac / 32768) + top.c ch * top.alpha) / 32768, base.alpha * ac / 32768 + top.alpha⟩
  | .pm, .pm => ⟨.pm, fun ch => base.c ch * ac / 32768 + top.c ch, (base.alpha * ac + 32767) / 32768 + top.alpha⟩
  | .pm, _ => ⟨.pm, fun ch => (base.c ch * ac + top.c ch * top.alpha) / 32768, (base.alpha * ac + 32767) / 32768 + top.alpha⟩

/-- `color * alpha`, common/color.h:497-519; the factor is converted to `uint16_t` -/
def Pix.fade (p : Pix) (x : Int) : Pix :=
  let x := (x % 65536).toNat
  match p.kind with
  | .opaque => ⟨.um, p.c, x⟩
  | .um => ⟨.um, p.c, p.alpha * x / 32768⟩
  | .pm => ⟨.pm, fun ch => p.c ch * x / 32768, (p.alpha * x + 32767) / 32768⟩

/-- one channel of `MixColors`, common/color.h:521-538 -/
def mixC (a b x s : Nat) : Nat := (a * (2 ^ s - x) + b * x) / 2 ^ s

/-- `MixColors(a, b, x, s)`, common/color.h:521-568: two opaque colours stay opaque, anything else is
converted to premultiplied alpha -/
def Pix.mix (a b : Pix) (x s : Nat) : Pix :=
  if a.kind = .opaque ∧ b.kind = .opaque then ⟨.opaque, fun ch => mixC (a.c ch) (b.c ch) x s, 32768⟩
  else ⟨.pm, fun ch => mixC (a.toPm.c ch) (b.toPm.c ch) x s, (a.toPm.alpha * (2 ^ s - x) + b.toPm.alpha * x + (2 ^ s - 1)) / 2 ^ s⟩

/-- `dealpha` of `Compose<BLACK, L1>`, styles/layers.h:65-70 -/
def Pix.dealpha (p : Pix) : Pix := ⟨.opaque, p.toPm.c, 32768⟩

/-- what a function returned from `run` and its `getInteger` -/
structure FOut where
  res : FR
  val : Nat → Int

/-- what a layer returned from `run` and its `getColor` -/
structure LOut where
  res : LR
  col : Nat → Pix

/-- What a transition does: whether it is `done()` after `run`, and its `getColor(a, b, led)`; it depends on
the frames since `begin()` and on all frames so far.  transitions/base.h:79-120. -/
abbrev Tr := Hist → Hist → Bool × (Pix → Pix → Nat → Pix)

/-- functions: `source` is any function whose `run` is `void` (styles/blade_style.h:127-132), so that its
result is UNKNOWN; `nn` says that it never is negative -/
inductive Fn where
  | const (v : Int)
  | source (k : Nat) (nn : Bool)
  | inOut (outMs inMs : Fn)
  | inOutHelper (e : Fn) (allow : Bool)
  | circular (pos frac : Fn)
  | linear (pos frac : Fn)
  | intSelect (f : Fn) (values : List Int)

/-- the parameters of `Cylon` and `ColorCycle` other than the colours, styles/cylon.h:73-79 -/
structure Cyc where
  offPercent : Nat
  onPercent : Nat
  fadeMs : Nat
  /-- `is_same_type<OFF_COLOR, Rgb<0,0,0>>` for `Cylon` (styles/cylon.h:86), of `BASE_COLOR` for
  `ColorCycle` (styles/color_cycle.h:96) -/
  black : Bool

/-- `FireConfiguration`, styles/fire.h:6-10 -/
structure FireCfg where
  base : Nat
  rand : Nat
  cooling : Nat

/-- styles and layers; `any` is any layer whose `run` is `void` -/
inductive Sty where
  | rgb (c : Color)
  | any (k : Nat) (f : Frame → Nat → Pix)
  | alpha (c : Sty) (f : Fn)
  | alphaMix (f : Fn) (c : Sty)
  | compose (base layer : Sty)
  | composeBlack (layer : Sty)
  | inOutTr (out inn : Tr) (off : Sty) (allow : Bool)
  | effect (e : Nat) (t : Tr)
  | byteOrder (order : Nat) (c : Sty)
  | rotate (f : Fn) (c : Sty)
  | remap (f : Fn) (c : Sty)
  | ignitionDelay (ms : Fn) (c : Sty)
  | retractionDelay (ms : Fn) (c : Sty)
  | sparkTip (base : Sty) (ext : Fn) (spark off : Sty) (offBlack allow : Bool)
  | cycle (p : Cyc) (off on base : Sty)
  | fire (c1 c2 : Sty) (speed delay : Nat) (norm clash lock offc : FireCfg)

/-! ## Functions -/

/-- The member `extension` of `InOutFuncSVFBase`, functions/ifon.h:46-65, with exact instead of `float`
arithmetic.  A division by zero gives infinity, which is clamped; two frames in the same microsecond with
a zero time (0/0) are not modelled. -/
def extension (outMs inMs : Hist → Int) : Hist → Rat
  | [] => 0
  | f :: h =>
    let e := extension outMs inMs h
    let delta : Rat := (((f.us + 4294967296 - lastUs h) % 4294967296 : Nat) : Rat)
    if f.on then
      if e = 0 then 1 / 100000
      else if outMs (f :: h) = 0 then 1 else min (e + delta / (outMs (f :: h) * 1000)) 1
    else if inMs (f :: h) = 0 then 0 else max (e - delta / (inMs (f :: h) * 1000)) 0

/-- `clampi32`, common/math.h:19-23 -/
def clampI (x a b : Int) : Int := if x < a then a else if x > b then b else x

/-- `(Range(s, e) & Range(led * w, led * w + w)).size()`, common/range.h:10-17 -/
def rangeSize (s e led w : Nat) : Nat := min e (led * w + w) - max s (led * w)

/-- the result of a constant, functions/int.h:14-20, functions/int_arg.h:9-15 -/
def constRes (v : Int) : FR := if v = 0 then .zero else if v = 32768 then .one else .unknown

/-- `run` and `getInteger` of functions -/
def Fn.den : Fn → Hist → FOut
  -- `IntSVF`, functions/int.h:11-23; `IntArgBase`, functions/int_arg.h:7-17
  | .const v, _ => ⟨constRes v, fun _ => v⟩
  -- any other function, styles/blade_style.h:127-132
  | .source k nn, h => ⟨.unknown, fun led => match h with
      | [] => 0
      | f :: _ => if nn then (f.inp k led).natAbs else f.inp k led⟩
  -- `InOutFuncSVF`, functions/ifon.h:44-86
  | .inOut o i, h =>
    let ret : Int := (extension (fun h => (o.den h).val 0) (fun h => (i.den h).val 0) h * 32768).floor
    ⟨if lastOn h = false ∧ ret = 0 then .zero else .unknown, fun _ => ret⟩
  -- `InOutHelperF`, functions/ifon.h:92-121
  | .inOutHelper e allow, h =>
    let r := e.den h
    let thres : Int := r.val 0 * lastN h - 32768
    ⟨if allow then (match r.res with | .zero => .one | .one => .zero | .unknown => .unknown) else .unknown,
     fun led => clampI (led * 32768 - thres) 0 32768⟩
  -- `CircularSectionF`, functions/circular_section.h:20-62
  | .circular p fr, h =>
    let r := fr.den h
    let fraction := r.val 0
    let n := lastN h
    let pos := (p.den h).val 0
    let start : Nat := if fraction = 32768 then 0 else if fraction = 0 then 0
      else ((pos + 32768 - Int.tdiv fraction 2) % 32768).toNat * n
    let stop : Nat := if fraction = 32768 then n * 32768 else if fraction = 0 then 0
      else ((pos + Int.tdiv fraction 2) % 32768).toNat * n
    ⟨r.res, fun led =>
      if start ≤ stop then rangeSize start stop led 32768
      else rangeSize 0 stop led 32768 + rangeSize start (n * 32768) led 32768⟩
  -- `LinearSectionF`, functions/linear_section.h:14-36
  | .linear p fr, h =>
    let r := fr.den h
    let fraction := r.val 0
    let n : Nat := lastN h
    let pos := (p.den h).val 0
    let s := clampI ((pos - Int.tdiv fraction 2) * n) 0 (32768 * n)
    let e := clampI ((pos + Int.tdiv fraction 2) * n) 0 (32768 * n)
    ⟨r.res, fun led => rangeSize s.toNat e.toNat led 32768⟩
  -- `IntSelect`, functions/int_select.h:14-38: adding multiples of the size until it is not negative
  | .intSelect f vs, h =>
    let r := f.den h
    let v := vs.getD (r.val 0 % vs.length).toNat 0
    ⟨if r.res = .unknown then .unknown else constRes v, fun _ => v⟩

/-! ## Parts of styles -/

/-- `TransitionHelper` (transitions/base.h:122-151) and the same logic in `TransitionEffectL`
(styles/transition_effect.h:19-36): the frames since `begin()` while the transition is active. -/
def active (t : Tr) (begins : Hist → Bool) : Hist → Option Hist
  | [] => none
  | f :: h =>
    match (if begins (f :: h) then some [f] else (active t begins h).map (f :: ·)) with
    | none => none
    | some s => if (t s (f :: h)).1 then none else some s

/-- `TransitionHelper::getColor`, transitions/base.h:141-147 -/
def trCol (t : Tr) (begins : Hist → Bool) (h : Hist) (a b : Pix) (led : Nat) : Pix :=
  match active t begins h with
  | some s => (t s h).2 a b led
  | none => b

/-- when `InOutTrL::run` calls `out_tr_.begin()`, styles/inout_helper.h:56-58 -/
def goesOn : Hist → Bool
  | [] => false
  | f :: h => f.on && !lastOn h

/-- when `InOutTrL::run` calls `in_tr_.begin()`, styles/inout_helper.h:59-61 -/
def goesOff : Hist → Bool
  | [] => false
  | f :: h => !f.on && lastOn h

/-- when `OneshotEffectDetector::DetectScoped` finds a new effect, styles/transition_effect.h:21 -/
def detects (e : Nat) : Hist → Bool
  | [] => false
  | f :: _ => f.eff e

/-- the members of `IgnitionDelayBase` and `RetractionDelayBase`, styles/ignition_delay.h:36-39 -/
structure Delay where
  isOn : Bool := false
  waiting : Bool := false
  start : Nat := 0

/-- `IgnitionDelayBase::run`, styles/ignition_delay.h:16-34; unsigned 32-bit arithmetic -/
def ignStep (d : Int) (f : Frame) (s : Delay) : Delay :=
  if f.on then
    let st := if s.waiting then s.start else f.ms
    let waited := (f.ms + 4294967296 - st) % 4294967296
    if d < 0 ∨ (waited : Int) > d then ⟨true, true, ((f.ms - d - 1) % 4294967296).toNat⟩
    else ⟨s.isOn, true, st⟩
  else ⟨false, false, s.start⟩

/-- `RetractionDelayBase::run`, styles/retraction_delay.h:15-33: `waited > delay_millis` compares as
unsigned -/
def retStep (d : Int) (f : Frame) (s : Delay) : Delay :=
  if f.on then ⟨true, false, s.start⟩
  else
    let st := if s.waiting then s.start else f.ms
    let waited := (f.ms + 4294967296 - st) % 4294967296
    if (waited : Int) > d % 4294967296 then ⟨false, true, ((f.ms - d - 1) % 4294967296).toNat⟩
    else ⟨s.isOn, true, st⟩

/-- the state after all frames -/
def delayState (step : Int → Frame → Delay → Delay) (d : Hist → Int) : Hist → Delay
  | [] => {}
  | f :: h => step (d (f :: h)) f (delayState step d h)

/-- the frames the wrapped style is run with: `is_on()` is overridden, styles/ignition_delay.h:35 -/
def delayed (step : Int → Frame → Delay → Delay) (d : Hist → Int) : Hist → Hist
  | [] => []
  | f :: h => { f with on := (delayState step d (f :: h)).isOn } :: delayed step d h

/-- `AlphaMixL::run` runs its function twice per frame, styles/alpha.h:57-60 -/
def twice : Hist → Hist
  | [] => []
  | f :: h => f :: f :: twice h

/-- `RunStyle` of a layer inside a style whose `run` returns `bool`, styles/blade_style.h:76-80 and 109-113:
a transparent layer counts as running -/
def viaBool : LR → LR
  | .black => .black
  | _ => .unknown

/-- the member `fade_` of `CylonBase` and `ColorCycleBase`, styles/cylon.h:32-39, exact arithmetic -/
def cycFade (p : Cyc) : Hist → Rat
  | [] => 0
  | f :: h =>
    let d0 := (f.us + 4294967296 - lastUs h) % 4294967296
    let delta : Rat := ((if d0 > 1000000 then 1 else d0 : Nat) : Rat)
    let fd := delta / 1000 / p.fadeMs
    max 0 (min 1 (cycFade p h + if f.on then fd else -fd))

/-- `current_percentage`, styles/cylon.h:42-43 -/
def cycPercent (p : Cyc) (h : Hist) : Rat := p.offPercent * (1 - cycFade p h) + p.onPercent * cycFade p h

/-- `random(n)` with its random number taken from source `k` -/
def rnd (f : Frame) (k : Nat) (i : Nat) (n : Nat) : Nat := if n = 0 then 0 else (f.inp k i).natAbs % n

/-- whether `StyleFireBase::On` answers true, styles/fire.h:40-54: the state machine with its delay -/
def fireOn (delay : Nat) : Hist → Bool × Nat
  | [] => (false, 0)
  | f :: h =>
    if f.on then
      let start := if lastOn h then (fireOn delay h).2 else f.ms
      ((fireOn delay h).1 && lastOn h || (f.ms + 4294967296 - start) % 4294967296 ≥ delay, start)
    else (false, 0)

/-- the configuration used in a frame, styles/fire.h:67-76; source 2 says whether there is a lockup -/
def fireCfg (delay : Nat) (norm clash lock offc : FireCfg) : Hist → FireCfg
  | [] => offc
  | f :: h =>
    if f.eff 0 then clash
    else if (fireOn delay (f :: h)).1 then (if f.inp 2 0 = 0 then norm else lock)
    else offc

/-- the heat array with fresh fuel, styles/fire.h:77-81; sources 3, 4, 5 are the random numbers -/
def fuel (speed : Nat) (c : FireCfg) (f : Frame) (heat : Nat → Nat) (i : Nat) : Nat :=
  if f.n ≤ i ∧ i < f.n + speed then (c.base + rnd f 3 i (rnd f 4 i (rnd f 5 i c.rand))) % 65536 else heat i

/-- the heat array and the time of the last update, styles/fire.h:57-92; the loop from the tip reads only
elements that it has not changed yet (for `SPEED ≥ 1`) -/
def fireHeat (speed delay : Nat) (norm clash lock offc : FireCfg) : Hist → (Nat → Nat) × Nat
  | [] => (fun _ => 0, 0)
  | f :: h =>
    let (heat, last) := fireHeat speed delay norm clash lock offc h
    if (f.ms + 4294967296 - last) % 4294967296 ≥ 10 then
      let c := fireCfg delay norm clash lock offc (f :: h)
      let w := fuel speed c f heat
      (fun i => if i < f.n then
          (clampI (((w (i + speed - 1) * 3 + w (i + speed) * 10 + w (i + speed + 1) * 3) / 16 : Nat) - (rnd f 6 i c.cooling : Nat)) 0 65535).toNat
        else w i, f.ms)
    else (heat, last)

/-- whether this frame updates the heat, styles/fire.h:64 -/
def fireDue (speed delay : Nat) (norm clash lock offc : FireCfg) : Hist → Bool
  | [] => false
  | f :: h => (f.ms + 4294967296 - (fireHeat speed delay norm clash lock offc h).2) % 4294967296 ≥ 10

/-- `Color16::mix` of `StyleFire::getColor`, common/color.h:212-217 -/
def mix8 (a b : Color) (x : Nat) : Color := fun ch => mixC (a ch) (b ch) x 8

/-- `StyleFire::getColor`, styles/fire.h:118-133 -/
def fireColor (c1 c2 : Color) (h : Nat) : Color :=
  if h < 256 then mix8 (fun _ => 0) c1 h
  else if h < 512 then mix8 c1 c2 (h - 256)
  else if h < 768 then mix8 c2 (fun _ => 65535) (h - 512)
  else fun _ => 65535

/-! ## Styles -/

/-- `run` and `getColor` of styles -/
def Sty.den : Sty → Hist → LOut
  -- `Rgb`, `Rgb16`, `RgbArg`: styles/rgb.h:27-52, styles/rgb_arg.h:15-24
  | .rgb c, _ => ⟨if c .r = 0 ∧ c .g = 0 ∧ c .b = 0 then .black else .unknown, fun _ => .solid c⟩
  -- any layer whose `run` returns nothing: styles/blade_style.h:91-95
  | .any _ p, h => ⟨.unknown, fun led => match h with | [] => .clear | f :: _ => p f led⟩
  -- `AlphaL`, styles/alpha.h:17-41
  | .alpha c f, h =>
    let l := c.den h
    let a := f.den h
    ⟨match a.res with | .one => l.res | .zero => .transparent | .unknown => .unknown,
     fun led => if a.val led = 0 then .clear else (l.col led).fade (a.val led)⟩
  -- `AlphaMixL`, styles/alpha.h:48-75; `c` is the mixed colour, whose result is not used
  | .alphaMix f c, h =>
    let a := f.den (twice h)
    ⟨if a.res = .zero then .transparent else .unknown,
     fun led => if a.val led = 0 then .clear else ((c.den h).col led).fade (a.val led)⟩
  -- `Compose`, styles/layers.h:18-44
  | .compose base layer, h =>
    let b := base.den h
    let l := layer.den h
    ⟨match l.res with | .black => .black | .transparent => b.res | .unknown => .unknown,
     fun led => (b.col led).over (l.col led)⟩
  -- `Compose<BLACK, L1>`, styles/layers.h:48-76
  | .composeBlack layer, h =>
    let l := layer.den h
    ⟨match l.res with | .black => .black | .transparent => .black | .unknown => .unknown,
     fun led => (l.col led).dealpha⟩
  -- `InOutTrL`, styles/inout_helper.h:50-99
  | .inOutTr o i off allow, h =>
    let f := off.den h
    let outA := (active o goesOn h).isSome
    let inA := (active i goesOff h).isSome
    ⟨if allow && !lastOn h && !outA && !inA then f.res else .unknown,
     fun led =>
      let oc := f.col led
      if !outA && !inA then (if lastOn h then .clear else oc)
      else if lastOn h then trCol o goesOn h (trCol i goesOff h .clear oc led) .clear led
      else trCol i goesOff h (trCol o goesOn h oc .clear led) oc led⟩
  -- `TransitionEffectL`, styles/transition_effect.h:16-56
  | .effect e t, h =>
    match active t (detects e) h with
    | some s => ⟨.unknown, (t s h).2 .clear .clear⟩
    | none => ⟨.transparent, fun _ => .clear⟩
  -- `ByteOrderStyle`, styles/byteorder.h:14-36, with the combined byte order
  | .byteOrder order c, h =>
    let l := c.den h
    ⟨viaBool l.res, fun led =>
      let p := l.col led
      { p with c := fun | .r => Color.getByte p.c order 2 | .g => Color.getByte p.c order 1 | .b => Color.getByte p.c order 0 }⟩
  -- `RotateColorsX`, styles/rotate_color.h:12-30
  | .rotate f c, h =>
    let l := c.den h
    let a := f.den h
    ⟨viaBool l.res, fun led =>
      let p := l.col led
      { p with c := (Color.rotate p.c (a.val led % 32768 * 3)).getD p.c }⟩
  -- `Remap`, styles/remap.h:19-44
  | .remap f c, h =>
    let l := c.den h
    let a := f.den h
    let n : Int := lastN h
    ⟨l.res, fun led =>
      let x := (clampI (a.val led * n) 0 (n * 32768 - 1)).toNat
      (l.col (x / 32768)).mix (l.col (min (x / 32768 + 1) (lastN h - 1))) (x % 32768) 15⟩
  -- `IgnitionDelayX`, styles/ignition_delay.h:43-54
  | .ignitionDelay d c, h =>
    let l := c.den (delayed ignStep (fun h => (d.den h).val 0) h)
    ⟨viaBool l.res, l.col⟩
  -- `RetractionDelayX`, styles/retraction_delay.h:42-53
  | .retractionDelay d c, h =>
    let l := c.den (delayed retStep (fun h => (d.den h).val 0) h)
    ⟨viaBool l.res, l.col⟩
  -- `InOutSparkTipX`, styles/inout_sparktip.h:11-48
  | .sparkTip base ext spark off offBlack allow, h =>
    let thres : Int := ((ext.den h).val 0 * (lastN h + 4)) / 128
    ⟨if allow && offBlack && thres == 0 then .black else .unknown,
     fun led =>
      let ret := (base.den h).col led
      let ret := if lastOn h then ((spark.den h).col led).mix ret (clampI (thres - 1024 - led * 256) 0 255).toNat 8 else ret
      ((off.den h).col led).mix ret (clampI (thres - led * 256) 0 255).toNat 8⟩
  -- `Cylon` and `ColorCycle`, styles/cylon.h:29-102, styles/color_cycle.h:27-112; where the lit section is
  -- comes from source 1, except for 0 and 100 percent
  | .cycle p off on base, h =>
    let pc := cycPercent p h
    ⟨if pc = 0 ∧ p.black then .black else .unknown,
     fun led =>
      let x := if pc = 0 then 0 else if pc = 100 then 16384 else match h with
        | [] => 0
        | f :: _ => (clampI (f.inp 1 led) 0 16384).toNat
      let fade := (16384 * cycFade p h).floor.toNat
      ((base.den h).col led).mix (((off.den h).col led).mix ((on.den h).col led) fade 14) x 14⟩
  -- `StyleFire`, styles/fire.h:23-134
  | .fire c1 c2 speed delay norm clash lock offc, h =>
    let heat := (fireHeat speed delay norm clash lock offc h).1
    ⟨if fireDue speed delay norm clash lock offc h && decide (∀ i, i < lastN h → heat i = 0) then .black else .unknown,
     fun led => .solid (fireColor ((c1.den h).col led).c ((c2.den h).col led).c (heat (lastN h - 1 - led)))⟩

/-- `Style<T>::run`, styles/style_ptr.h:83-87 with `RunStyle`: whether it calls `blade->allow_disable()` -/
def Sty.allowsOff (s : Sty) (h : Hist) : Bool := (s.den h).res == .black

/-- the colours that `runloop` sends to the LEDs, styles/style_ptr.h:37-58 (without rotation or dimming) -/
def Sty.shown (s : Sty) (h : Hist) (led : Nat) : Color := ((s.den h).col led).c


end Verif.Style
