/-!
# WS2811 blades sharing one pixel buffer

Model of `WS2811_Blade`, blades/ws2811_blade.h:73-328: the cooperative main loop of each blade, the shared `current_blade`, power on and power
off.  The loop of a blade runs until its next `YIELD`; everything between two yields is one step.  Not modelled: `BLADE_ID_SCAN_MILLIS`, the
frame counter, and what the pin does with a frame.
-/
set_option linter.unusedSimpArgs false
set_option linter.unusedVariables false
namespace Verif.Blade.Ws

/-- where a blade's loop continues: the first call, the yield at the top, waiting to begin a frame, waiting to end it;
blades/ws2811_blade.h:246, 250, 271, 287 -/
inductive Pc where
  | start
  | top
  | waitBegin
  | waitEnd
deriving DecidableEq

/-- what is in the pixel buffer: pixels of the `n`-th rendering, or black, written by a blade -/
inductive Pix where
  | none
  | black (b : Nat)
  | style (b : Nat) (n : Nat)
deriving DecidableEq

/-- one blade, blades/ws2811_blade.h:312-328 -/
structure B where
  pc : Pc
  /-- `current_style_` is set -/
  style : Bool
  run : Bool
  on : Bool
  powered : Bool
  allow : Bool
  /-- `power_off_requested_` -/
  req : Bool
  /-- `poweroff_delay_start_` -/
  start : Nat
  /-- the loop is linked, `Looper::Link` -/
  linked : Bool
  /-- not in the code: which rendering was the last of this blade's style -/
  last : Nat
  /-- not in the code: the blade had a style when the current frame began -/
  had : Bool

def B.init : B := ⟨.start, false, false, false, false, false, false, 0, false, 0, false⟩

/-- all blades, `current_blade`, the pixel buffer and the frames sent: blade, pixels, whether the blade's style
was there when the frame began, and the number of its last rendering -/
structure Sys where
  cur : Option Nat
  bl : Nat → B
  buf : Pix
  sent : List (Nat × Pix × Bool × Nat)
  /-- renderings so far -/
  n : Nat

def Sys.init : Sys := ⟨none, fun _ => B.init, .none, [], 0⟩

def upd (f : Nat → B) (b : Nat) (v : B) : Nat → B := fun i => if i = b then v else f i

def Sys.mod (s : Sys) (b : Nat) (f : B → B) : Sys := { s with bl := upd s.bl b (f (s.bl b)) }

/-- `Power(on)`, blades/ws2811_blade.h:87-119 -/
def power (s : Sys) (b : Nat) (on : Bool) : Sys :=
  let x := s.bl b
  let s :=
    if !x.powered && on then { s with buf := .black b, sent := s.sent ++ List.replicate 3 (b, .black b, x.had, x.last), cur := none }
    else if x.powered && !on then { s with buf := .black b, sent := s.sent ++ [(b, .black b, x.had, x.last)], cur := none }
    else s
  s.mod b fun x => { x with powered := on, allow := false }

/-- `PowerOff()` at time `t` in milliseconds, blades/ws2811_blade.h:224-235 -/
def powerOff (delay : Nat) (t : Nat) (s : Sys) (b : Nat) : Sys :=
  let s := if (s.bl b).start = 0 then s.mod b fun x => { x with start := t % 4294967296 } else s
  if (t % 4294967296 + 4294967296 - (s.bl b).start) % 4294967296 < delay then s else
  (power s b false).mod b fun x => { x with run := false, req := false, start := 0 }

/-- what the loop meets in one step: the time, whether a frame can begin, whether it can end, whether the style calls `allow_disable` -/
structure Env where
  t : Nat
  rb : Bool
  re : Bool
  allow : Bool

/-- to the label `retry` and up to the yield there, blades/ws2811_blade.h:248-250 -/
def retry (s : Sys) (b : Nat) : Sys :=
  { (s.mod b fun x => { x with pc := .top }) with cur := if s.cur = some b then none else s.cur }

/-- `EndFrame`, blades/ws2811_blade.h:295 -/
def send (s : Sys) (b : Nat) : Sys := { s with sent := s.sent ++ [(b, s.buf, (s.bl b).had, (s.bl b).last)] }

/-- after a frame, blades/ws2811_blade.h:298-301 -/
def finish (delay : Nat) (e : Env) (s : Sys) (b : Nat) : Sys :=
  if (s.bl b).powered && (s.bl b).allow then powerOff delay e.t (s.mod b fun x => { x with req := true }) b else s

/-- from the wait for the end of the frame, blades/ws2811_blade.h:287-302 -/
def endFrame (delay : Nat) (e : Env) (s : Sys) (b : Nat) : Sys :=
  if e.re then retry (finish delay e (send s b) b) b
  else s.mod b fun x => { x with pc := .waitEnd }

/-- `BeginFrame` and running the style, blades/ws2811_blade.h:272-276; `allow_disable`, 153-155 -/
def render (e : Env) (s : Sys) (b : Nat) : Sys :=
  let x := s.bl b
  if x.style then { s with bl := upd s.bl b { x with allow := e.allow && !x.on, last := s.n, had := true }, buf := .style b s.n, n := s.n + 1 }
  else s.mod b fun x => { x with allow := false, had := false }

/-- from the wait for the beginning of a frame, blades/ws2811_blade.h:271-287 -/
def beginFrame (delay : Nat) (e : Env) (s : Sys) (b : Nat) : Sys :=
  if e.rb then
    let s := render e s b
    if (s.bl b).powered then endFrame delay e s b
    else if (s.bl b).allow then retry (s.mod b fun x => { x with run := false }) b
    else endFrame delay e (power s b true) b
  else s.mod b fun x => { x with pc := .waitBegin }

/-- one call of `Loop`, blades/ws2811_blade.h:244-303 -/
def loop (delay : Nat) (e : Env) (s : Sys) (b : Nat) : Sys :=
  let x := s.bl b
  match x.pc with
  | .start => retry s b
  | .top =>
    if !x.style || !x.run then retry s b
    else if s.cur.isSome then retry s b
    else
      let s := { s with cur := some b }
      if x.req then retry (powerOff delay e.t s b) b
      else beginFrame delay e s b
  | .waitBegin => if s.cur = some b then beginFrame delay e s b else retry s b
  | .waitEnd => if s.cur = some b then endFrame delay e s b else retry s b

/-- everything that happens to blades -/
inductive Op where
  | loop (e : Env)
  /-- `SB_On2`, blades/ws2811_blade.h:169-176; also the command "blade on" -/
  | on
  /-- `SB_Effect2`, blades/ws2811_blade.h:177-182 -/
  | effect
  /-- `SB_Off2`, blades/ws2811_blade.h:183-190 -/
  | off (idle : Bool)
  /-- `SetStyle`, blades/ws2811_blade.h:156-160 -/
  | setStyle
  /-- `UnSetStyle`, blades/ws2811_blade.h:161-164 -/
  | unsetStyle
  /-- `Activate`, blades/ws2811_blade.h:121-130 -/
  | activate
  /-- `Deactivate`, blades/ws2811_blade.h:132-138 -/
  | deactivate

def step (delay : Nat) (s : Sys) (b : Nat) : Op → Sys
  | .loop e => loop delay e s b
  | .on => s.mod b fun x => { x with run := true, on := true, req := false, start := 0 }
  | .effect => s.mod b fun x => { x with run := true, req := false, start := 0 }
  | .off idle => s.mod b fun x => { x with on := false, req := x.req || idle }
  | .setStyle => s.mod b fun x => { x with style := true, run := true }
  | .unsetStyle => s.mod b fun x => { x with style := false }
  | .activate => s.mod b fun x => { x with run := true, linked := true }
  | .deactivate => (power s b false).mod b fun x => { x with linked := false }

/-- ignition and effects wake a blade -/
def Op.wakes : Op → Bool
  | .on => true
  | .effect => true
  | _ => false

/-- loops only run while linked -/
def Enabled (s : Sys) (b : Nat) : Op → Prop
  | .loop _ => (s.bl b).linked = true
  | _ => True

/-- states after any history of any blades, with the latest time and the time of the last ignition or effect of each blade.  `delay` is each
blade's power-off delay; `G` restricts what may happen. -/
inductive Reach (delay : Nat → Nat) (G : Sys → Nat → Op → Prop) : Sys → Nat → (Nat → Nat) → Prop
  | init : Reach delay G Sys.init 0 (fun _ => 0)
  | step {s t w} (b : Nat) (op : Op) (t' : Nat) : Reach delay G s t w → Enabled s b op → G s b op → t ≤ t' → (∀ e, op = .loop e → e.t = t') →
      Reach delay G (step (delay b) s b op) t' (fun i => if i = b ∧ op.wakes = true then t' else w i)

/-! ## Unchanged blades -/

theorem upd_ne {f : Nat → B} {b i : Nat} {v : B} (h : i ≠ b) : upd f b v i = f i := by unfold upd; rw [if_neg h]
theorem upd_eq {f : Nat → B} {b : Nat} {v : B} : upd f b v b = v := by unfold upd; rw [if_pos rfl]

theorem mod_self (s : Sys) (b : Nat) (f : B → B) : (s.mod b f).bl b = f (s.bl b) := upd_eq
theorem mod_other {s : Sys} {b i : Nat} {f : B → B} (h : i ≠ b) : (s.mod b f).bl i = s.bl i := upd_ne h

theorem power_other {s : Sys} {b i : Nat} {v : Bool} (h : i ≠ b) : (power s b v).bl i = s.bl i := by
  unfold power
  simp only
  rw [mod_other h]
  split
  · rfl
  · split <;> rfl

theorem power_self (s : Sys) (b : Nat) (v : Bool) : (power s b v).bl b = { s.bl b with powered := v, allow := false } := by
  unfold power
  simp only
  rw [mod_self]
  split
  · rfl
  · split <;> rfl

/-- the start of the delay after `PowerOff` has looked at it -/
def begun (t : Nat) (x : B) : B := if x.start = 0 then { x with start := t % 4294967296 } else x

/-- the delay is over -/
def over (delay t : Nat) (x : B) : Bool := !decide ((t % 4294967296 + 4294967296 - (begun t x).start) % 4294967296 < delay)

theorem powerOff_eq (delay t : Nat) (s : Sys) (b : Nat) : powerOff delay t s b =
    if over delay t (s.bl b) then (power (s.mod b (begun t)) b false).mod b fun x => { x with run := false, req := false, start := 0 } else s.mod b (begun t) := by
  have h1 : (if (s.bl b).start = 0 then s.mod b fun x => { x with start := t % 4294967296 } else s) = s.mod b (begun t) := by
    unfold Sys.mod begun
    split
    · rfl
    · have : upd s.bl b (s.bl b) = s.bl := by funext i; unfold upd; split <;> simp_all
      rw [this]
  unfold powerOff
  simp only
  rw [h1, mod_self]
  unfold over
  by_cases c : (t % 4294967296 + 4294967296 - (begun t (s.bl b)).start) % 4294967296 < delay
  · simp [c]
  · simp [c]

attribute [irreducible] powerOff over

theorem powerOff_other {delay t : Nat} {s : Sys} {b i : Nat} (h : i ≠ b) : (powerOff delay t s b).bl i = s.bl i := by
  rw [powerOff_eq]
  split
  · rw [mod_other h, power_other h, mod_other h]
  · rw [mod_other h]

theorem powerOff_self (delay t : Nat) (s : Sys) (b : Nat) : (powerOff delay t s b).bl b =
    if over delay t (s.bl b) then { s.bl b with powered := false, allow := false, run := false, req := false, start := 0 } else begun t (s.bl b) := by
  rw [powerOff_eq]
  split
  · rw [mod_self, power_self, mod_self]
    unfold begun; split <;> rfl
  · rw [mod_self]

theorem retry_other {s : Sys} {b i : Nat} (h : i ≠ b) : (retry s b).bl i = s.bl i := by unfold retry; simp only; rw [mod_other h]
theorem retry_self (s : Sys) (b : Nat) : (retry s b).bl b = { s.bl b with pc := .top } := by unfold retry; simp only; rw [mod_self]

theorem endFrame_other {delay : Nat} {e : Env} {s : Sys} {b i : Nat} (h : i ≠ b) : (endFrame delay e s b).bl i = s.bl i := by
  unfold endFrame
  split
  · rw [retry_other h]
    unfold finish
    split
    · rw [powerOff_other h, mod_other h]; rfl
    · rfl
  · exact mod_other h

theorem render_other {e : Env} {s : Sys} {b i : Nat} (h : i ≠ b) : (render e s b).bl i = s.bl i := by
  unfold render
  simp only
  split
  · exact upd_ne h
  · exact mod_other h

theorem beginFrame_other {delay : Nat} {e : Env} {s : Sys} {b i : Nat} (h : i ≠ b) : (beginFrame delay e s b).bl i = s.bl i := by
  unfold beginFrame
  split
  · simp only
    split
    · rw [endFrame_other h, render_other h]
    · split
      · rw [retry_other h, mod_other h, render_other h]
      · rw [endFrame_other h, power_other h, render_other h]
  · exact mod_other h

theorem loop_other {delay : Nat} {e : Env} {s : Sys} {b i : Nat} (h : i ≠ b) : (loop delay e s b).bl i = s.bl i := by
  unfold loop
  simp only
  split
  · exact retry_other h
  · split
    · exact retry_other h
    · split
      · exact retry_other h
      · split
        · rw [retry_other h, powerOff_other h]
        · rw [beginFrame_other h]
  · split
    · exact beginFrame_other h
    · exact retry_other h
  · split
    · exact endFrame_other h
    · exact retry_other h

theorem step_other {delay : Nat} {op : Op} {s : Sys} {b i : Nat} (h : i ≠ b) : (step delay s b op).bl i = s.bl i := by
  cases op with
  | loop e => exact loop_other h
  | deactivate => simp only [step]; rw [mod_other h, power_other h]
  | _ => simp only [step]; exact mod_other h

end Verif.Blade.Ws
