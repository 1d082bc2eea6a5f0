import Verif.Color.Mix
/-!
# Transitions

Model of transitions/*.h: timed transitions and the ways to combine them.  A transition is a tree with its state in
the nodes.  `MILLIS`, `WIDTH` and the other style functions are arbitrary functions of the frame.  The bent time
scales (`BendTimePowX`, `ReverseTimeX`), which use floating point, are not modelled.  `int` values are kept as
`uint32_t`, to which they are assigned.
-/
set_option linter.unusedSimpArgs false
namespace Verif.Transition
open Verif.Color (OD mixOD)

/-- one frame: the true time in milliseconds, the number of LEDs of the blade, and anything else functions depend on -/
structure Env where
  time : Nat
  leds : Nat
  tag : Nat

/-- `millis()` -/
def Env.now (e : Env) : Nat := e.time % 4294967296

/-- conversion to `uint32_t` -/
def toU32 (x : Int) : Nat := (x % 4294967296).toNat

/-- `TransitionBaseX`, transitions/base.h:70-104 -/
structure Timer where
  restart : Bool
  start : Nat
  len : Nat
  ms : Env → Int

/-- `run`, transitions/base.h:73-80 -/
def Timer.run (t : Timer) (e : Env) : Timer :=
  if t.restart then { t with start := e.now, len := toU32 (t.ms e), restart := false } else t

/-- `done`, transitions/base.h:81 -/
def Timer.done (t : Timer) : Bool := t.len == 0

/-- `begin`, transitions/base.h:82 -/
def Timer.begin (t : Timer) : Timer := { t with restart := true }

/-- `bend`, transitions/base.h:30: `scale * t / len` in `uint32_t` -/
def bend (t len scale : Nat) : Nat := scale * t % 4294967296 / len

/-- `update`, transitions/base.h:84-93 -/
def Timer.update (t : Timer) (e : Env) (scale : Nat) : Timer × Nat :=
  if t.done then (t, scale)
  else if (e.now + 4294967296 - t.start) % 4294967296 > t.len then ({ t with len := 0 }, scale)
  else (t, bend ((e.now + 4294967296 - t.start) % 4294967296) t.len scale)

/-- the timed transitions -/
inductive Kind where
  /-- `TrFadeX`, transitions/fade.h:13-25 -/
  | fade
  /-- `TrSmoothFadeX`, transitions/fade.h:38-51 -/
  | smooth
  /-- `TrDelayX`, transitions/delay.h:14-25 -/
  | delay
  /-- `TrWipeX`, transitions/wipe.h:16-30 -/
  | wipe
  /-- `TrWipeInX`, transitions/wipe.h:41-59 -/
  | wipeIn
  /-- `TrBoingX`, transitions/boing.h:16-34 -/
  | boing (n : Nat)
  /-- `TrBlinkX`, transitions/blink.h:17-37 -/
  | blink (n : Nat) (width : Env → Int)
  /-- `TrCenterWipeX`, transitions/center_wipe.h:18-41 -/
  | centerWipe (pos : Env → Nat)
  /-- `TrCenterWipeInX`, transitions/center_wipe.h:57-80 -/
  | centerWipeIn (pos : Env → Nat)

/-- a timed transition: its clock and `fade_`, or `range_` -/
structure Leaf where
  timer : Timer
  lo : Nat
  hi : Nat

/-- transitions/fade.h:42-43 in `uint32_t` -/
def smoothStep (x : Nat) : Nat := (x * x % 4294967296 / 16384 * ((49152 + 4294967296 - x) % 4294967296)) % 4294967296 / 65536

/-- transitions/boing.h:21-25 -/
def boingStep (x : Nat) : Nat := if x / 16384 % 2 = 1 then 16384 - x % 16384 else x % 16384

/-- `(pos_.calculate(blade) * blade->num_leds()) >> 7`, transitions/center_wipe.h:23 -/
def center (pos leds : Nat) : Nat := pos * leds / 128

/-- `clampi32` -/
def clamp (x a b : Int) : Int := if x < a then a else if x > b then b else x

/-- `run` of the timed transitions -/
def Leaf.run (k : Kind) (l : Leaf) (e : Env) : Leaf :=
  let t := l.timer.run e
  match k with
  | .fade => let u := t.update e 16384; ⟨u.1, u.2, 0⟩
  | .smooth => let u := t.update e 32768; ⟨u.1, smoothStep u.2, 0⟩
  | .delay => let u := t.update e 0; ⟨u.1, 0, 0⟩
  | .wipe => let u := t.update e (256 * e.leds); ⟨u.1, u.2, 0⟩
  | .wipeIn => let u := t.update e (256 * e.leds); ⟨u.1, toU32 ((256 * e.leds : Nat) - (u.2 : Int)), e.leds * 256⟩
  | .boing n => let u := t.update e (16384 * (n * 2 + 1)); ⟨u.1, boingStep u.2, 0⟩
  | .blink n width => let u := t.update e (32768 * n); ⟨u.1, if ((u.2 % 32768 : Nat) : Int) < width e then 1 else 0, 0⟩
  | .centerWipe pos =>
    let c := center (pos e) e.leds
    let u := t.update e (256 * e.leds - c)
    let v := u.1.update e c
    ⟨v.1, (clamp ((c : Int) - v.2) 0 c).toNat, (clamp ((c : Int) + u.2) c (256 * e.leds : Nat)).toNat⟩
  | .centerWipeIn pos =>
    let c := center (pos e) e.leds
    let u := t.update e (256 * e.leds - c)
    let v := u.1.update e c
    ⟨v.1, (clamp (v.2 : Int) 0 c).toNat, (clamp ((256 * e.leds : Nat) - (u.2 : Int)) c (256 * e.leds : Nat)).toNat⟩

/-- `(Range(lo, hi) & Range(led << 8, (led << 8) + 256)).size()`, common/range.h:10-17 -/
def overlap (lo hi led : Nat) : Nat := min hi (led * 256 + 256) - max lo (led * 256)

/-- `getColor` of the timed transitions -/
def Leaf.color (k : Kind) (l : Leaf) (a b : OD) (led : Nat) : Option OD :=
  match k with
  | .fade | .smooth | .boing _ => mixOD a b l.lo 14
  | .delay => some (if l.timer.done then b else a)
  | .wipe => mixOD a b (overlap 0 l.lo led) 8
  | .wipeIn | .centerWipe _ => mixOD a b (overlap l.lo l.hi led) 8
  | .centerWipeIn _ => mixOD b a (overlap l.lo l.hi led) 8
  | .blink _ _ => some (if l.lo = 1 then a else b)

/-- transitions -/
inductive Tr where
  | timed (k : Kind) (l : Leaf)
  /-- `TrInstant`, transitions/instant.h:8-15 -/
  | instant
  /-- `TrConcat2`, transitions/concat.h:114-143 -/
  | concat2 (runA : Bool) (a b : Tr)
  /-- `TrConcat3`, transitions/concat.h:76-110; the colour of the intermediate style does not change with time here -/
  | concat3 (runA : Bool) (a b : Tr) (inter : Nat → OD)
  /-- `TrJoin`, transitions/join.h:15-30 -/
  | join (a b : Tr)
  /-- `TrJoinR`, transitions/join.h:42-57 -/
  | joinR (a b : Tr)
  /-- `TrExtendX`, transitions/extend.h:17-38 -/
  | extend (extending : Bool) (timer : Timer) (a : Tr)
  /-- `TrLoop`, transitions/loop.h:10-18 -/
  | loop (a : Tr)
  /-- `TrLoopNX`, transitions/loop.h:29-50 -/
  | loopN (loops : Int) (n : Env → Int) (a : Tr)
  /-- `TrLoopUntil`, transitions/loop.h:63-104 -/
  | loopUntil (pulsed : Bool) (pulse : Env → Bool) (a out : Tr)

/-- `done` -/
def Tr.done : Tr → Bool
  | .timed _ l => l.timer.done
  | .instant => true
  | .concat2 r _ b | .concat3 r _ b _ => !r && b.done
  | .join a b | .joinR a b => a.done && b.done
  | .extend x t _ => x && t.done
  | .loop _ => false
  | .loopN l _ _ => l == 0
  | .loopUntil p _ _ o => p && o.done

/-- `begin` -/
def Tr.begin : Tr → Tr
  | .timed k l => .timed k { l with timer := l.timer.begin }
  | .instant => .instant
  | .concat2 _ a b => .concat2 true a.begin b
  | .concat3 _ a b i => .concat3 true a.begin b i
  | .join a b => .join a.begin b.begin
  | .joinR a b => .joinR a.begin b.begin
  | .extend _ t a => .extend false t a.begin
  | .loop a => .loop a.begin
  | .loopN _ n a => .loopN (-1) n a.begin
  | .loopUntil _ p a o => .loopUntil false p a.begin o

/-- transitions/extend.h:21-28 after `TRANSITION::run` -/
def extendRun (extending : Bool) (timer : Timer) (a : Tr) (e : Env) : Tr :=
  if !extending && a.done then .extend true ((timer.begin.run e).update e 0).1 a
  else if extending then .extend true ((timer.run e).update e 0).1 a
  else .extend false (timer.run e) a

/-- `run`, after a `begin` if `bg` is true (one function for both so that the recursion is structural); the
equations below show that this is what the code does -/
def Tr.go (bg : Bool) : Tr → Env → Tr
  | .timed k l, e => .timed k (Leaf.run k { l with timer := if bg then l.timer.begin else l.timer } e)
  | .instant, _ => .instant
  | .concat2 r a b, e =>
    if bg || r then
      if (a.go bg e).done then .concat2 false (a.go bg e) (b.go true e) else .concat2 true (a.go bg e) b
    else .concat2 false a (b.go false e)
  | .concat3 r a b i, e =>
    if bg || r then
      if (a.go bg e).done then .concat3 false (a.go bg e) (b.go true e) i else .concat3 true (a.go bg e) b i
    else .concat3 false a (b.go false e) i
  | .join a b, e => .join (a.go bg e) (b.go bg e)
  | .joinR a b, e => .joinR (a.go bg e) (b.go bg e)
  | .extend x t a, e => extendRun (!bg && x) t (a.go bg e) e
  | .loop a, e => .loop (a.go (bg || a.done) e)
  | .loopN l n a, e =>
    let l1 := if bg || decide (l < 0) then n e + 1 else l
    if l1 > 0 ∧ (if bg then a.begin else a).done = true then .loopN (l1 - 1) n (a.go (bg || decide (l1 > 1)) e)
    else .loopN l1 n (a.go bg e)
  | .loopUntil p pu a o, e =>
    if !bg && p then .loopUntil true pu (a.go (bg || a.done) e) (o.go false e)
    else if pu e then .loopUntil true pu (a.go (bg || a.done) e) (o.go true e)
    else .loopUntil false pu (a.go (bg || a.done) e) o

/-- `run` -/
def Tr.run (t : Tr) (e : Env) : Tr := t.go false e

/-- `getColor` -/
def Tr.color : Tr → OD → OD → Nat → Option OD
  | .timed k l, a, b, led => l.color k a b led
  | .instant, _, b, _ => some b
  | .concat2 r t u, a, b, led => if r then t.color a b led else u.color a b led
  | .concat3 r t u i, a, b, led =>
    if !r && u.done then some b
    else if r then t.color a (i led) led else u.color (i led) b led
  | .join t u, a, b, led => do let c ← t.color a b led; u.color c b led
  | .joinR t u, a, b, led => do let c ← t.color a b led; u.color a c led
  | .extend _ _ t, a, b, led => t.color a b led
  | .loop t, a, b, led => t.color a b led
  | .loopN _ _ t, a, b, led => t.color a b led
  | .loopUntil p _ t o, a, b, led => do
    let c ← t.color a a led
    if p then o.color c b led else some c

/-- several frames -/
def Tr.frames (t : Tr) (fs : List Env) : Tr := fs.foldl Tr.run t

/-! ## `go` is what the code does -/

theorem begin_begin : ∀ t : Tr, t.begin.begin = t.begin
  | .timed _ _ | .instant => rfl
  | .concat2 _ a b => by simp only [Tr.begin, begin_begin a]
  | .concat3 _ a b i => by simp only [Tr.begin, begin_begin a]
  | .join a b => by simp only [Tr.begin, begin_begin a, begin_begin b]
  | .joinR a b => by simp only [Tr.begin, begin_begin a, begin_begin b]
  | .extend _ t a => by simp only [Tr.begin, begin_begin a]
  | .loop a => by simp only [Tr.begin, begin_begin a]
  | .loopN _ n a => by simp only [Tr.begin, begin_begin a]
  | .loopUntil _ p a o => by simp only [Tr.begin, begin_begin a]

/-- beginning first and then running -/
theorem go_begin : ∀ (t : Tr) (e : Env) (bg : Bool), t.begin.go bg e = t.go true e := by
  intro t
  induction t with
  | timed k l => intro e bg; cases bg <;> rfl
  | instant => intros; rfl
  | concat2 r a b iha ihb => intro e bg; simp only [Tr.begin, Tr.go, iha, Bool.or_true, Bool.true_or, if_true]
  | concat3 r a b i iha ihb => intro e bg; simp only [Tr.begin, Tr.go, iha, Bool.or_true, Bool.true_or, if_true]
  | join a b iha ihb => intro e bg; simp only [Tr.begin, Tr.go, iha, ihb]
  | joinR a b iha ihb => intro e bg; simp only [Tr.begin, Tr.go, iha, ihb]
  | extend x t a iha => intro e bg; simp only [Tr.begin, Tr.go, iha, Bool.and_false, Bool.not_true, Bool.false_and]
  | loop a iha => intro e bg; simp only [Tr.begin, Tr.go, iha, Bool.true_or]
  | loopN l n a iha =>
    intro e bg
    have h : (if bg then a.begin.begin else a.begin).done = a.begin.done := by rw [begin_begin]; cases bg <;> rfl
    simp only [Tr.begin, Tr.go, iha, h, Bool.true_or, if_true]
    simp
  | loopUntil p pu a o iha iho => intro e bg; simp only [Tr.begin, Tr.go, iha, Bool.true_or, Bool.and_false, Bool.not_true, Bool.false_and]

theorem go_eq (bg : Bool) (t : Tr) (e : Env) : t.go bg e = if bg then t.begin.run e else t.run e := by
  cases bg
  · rfl
  · exact (go_begin t e false).symm

/-- `TrConcat2::run`, transitions/concat.h:118-126 -/
theorem run_concat2 (r : Bool) (a b : Tr) (e : Env) : (Tr.concat2 r a b).run e =
    if r then
      (let a := a.run e
       if !a.done then .concat2 true a b
       else .concat2 false a (b.begin.run e))
    else .concat2 false a (b.run e) := by
  simp only [Tr.run, Tr.go, Bool.false_or, go_begin]
  cases r <;> simp
  cases (a.go false e).done <;> simp

/-- `TrConcat3::run`, transitions/concat.h:80-89 -/
theorem run_concat3 (r : Bool) (a b : Tr) (i : Nat → OD) (e : Env) : (Tr.concat3 r a b i).run e =
    if r then
      (let a := a.run e
       if !a.done then .concat3 true a b i
       else .concat3 false a (b.begin.run e) i)
    else .concat3 false a (b.run e) i := by
  simp only [Tr.run, Tr.go, Bool.false_or, go_begin]
  cases r <;> simp
  cases (a.go false e).done <;> simp

/-- `TrJoin::run`, transitions/join.h:20-23 -/
theorem run_join (a b : Tr) (e : Env) : (Tr.join a b).run e = .join (a.run e) (b.run e) := rfl

/-- `TrExtendX::run`, transitions/extend.h:19-28 -/
theorem run_extend (x : Bool) (t : Timer) (a : Tr) (e : Env) : (Tr.extend x t a).run e =
    (let a := a.run e
     let start := !x && a.done
     let x := x || start
     let t := if start then t.begin else t
     let t := t.run e
     .extend x (if x then (t.update e 0).1 else t) a) := by
  simp only [Tr.run, Tr.go, extendRun, Bool.not_false, Bool.true_and]
  cases x <;> simp
  cases (a.go false e).done <;> simp

/-- `TrLoop::run`, transitions/loop.h:12-15 -/
theorem run_loop (a : Tr) (e : Env) : (Tr.loop a).run e = .loop ((if a.done then a.begin else a).run e) := by
  simp only [Tr.run, Tr.go, Bool.false_or]
  cases a.done
  · rfl
  · simp only [if_true, go_begin]

/-- `TrLoopNX::run`, transitions/loop.h:31-39 -/
theorem run_loopN (l : Int) (n : Env → Int) (a : Tr) (e : Env) : (Tr.loopN l n a).run e =
    (let l := if l < 0 then n e + 1 else l
     if l > 0 ∧ a.done = true then .loopN (l - 1) n ((if l > 1 then a.begin else a).run e)
     else .loopN l n (a.run e)) := by
  simp only [Tr.run, Tr.go, Bool.false_or, decide_eq_true_eq]
  by_cases h : l < 0
  · simp only [h, if_true]
    by_cases h1 : n e + 1 > 1
    · simp [h1, go_begin]
    · simp [h1]
  · simp only [h, if_false]
    by_cases h1 : l > 1
    · simp [h1, go_begin]
    · simp [h1]

/-- `TrLoopUntil::run`, transitions/loop.h:72-87 -/
theorem run_loopUntil (p : Bool) (pu : Env → Bool) (a o : Tr) (e : Env) : (Tr.loopUntil p pu a o).run e =
    (let a := (if a.done then a.begin else a).run e
     let start := !p && pu e
     let o := if start then o.begin else o
     let p := p || start
     .loopUntil p pu a (if p then o.run e else o)) := by
  simp only [Tr.run, Tr.go, Bool.false_or, Bool.not_false, Bool.true_and]
  have h : a.go a.done e = (if a.done = true then a.begin else a).go false e := by
    cases a.done
    · rfl
    · simp only [if_true, go_begin]
  rw [h]
  cases p <;> simp
  cases pu e <;> simp [go_begin]

end Verif.Transition
