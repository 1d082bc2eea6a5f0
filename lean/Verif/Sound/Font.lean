import Mathlib.Tactic.Linarith
import Mathlib.Algebra.Order.Field.Basic
/-!
# The sounds of a font

Model of sound/hybrid_font.h on top of the wav players (sound/sound.h, sound/buffered_wav_player.h, the part of sound/playwav.h that
decides what is played next) and of counted references (common/ref.h): which player plays what, what it will play after that, who holds
it, and how the hum fades in and out.  Random choices, which of several files is played, lengths of files, speeds of motion are inputs.
Floating point numbers are replaced by rationals.  `SFX_hum` and `SFX_humm` are one sound, as are `SFX_out` and `SFX_poweron`, and the two
power off sounds.  Spins, KILL_OLD_PLAYERS, alternatives, beeps and the volume of single players are left out.
-/
namespace Verif.Font

abbrev M : Nat := 4294967296

/-- the effects that matter here (sound/effect.h:707-784); `fx` is any sound played once, `lock` the one repeated during lockup -/
inductive Snd where
  | preon | out | hum | inn | poweroff | pstoff | fx | lock
deriving DecidableEq

/-- sound/hybrid_font.h:174-181 -/
inductive St where
  | off | wait | out | fadeIn | on | fadeOut
deriving DecidableEq

/-- sound/hybrid_font.h:204-207 -/
inductive Slot where
  | hum | next | swing | lock
deriving DecidableEq

/-- a wav player: references to it, the sound it plays (nothing: not playing), what comes after that (`effect_` of sound/playwav.h), whether it fades out -/
structure Player where
  refs : Nat
  cur : Option Snd
  nxt : Option Snd
  fading : Bool

/-- the number of players and what the font consists of: `mono` is `monophonic_hum_`, `has` says which sounds have files,
`lockup`, `humm` whether SFX_lockup and SFX_humm have -/
structure Cfg where
  n : Nat
  mono : Bool
  guess : Bool
  has : Snd → Bool
  lockup : Bool
  humm : Bool

/-- what the font makes others do -/
inductive Out where
  | turnOn | postOff
deriving DecidableEq

/-- `ext u`: references to player `u` held by others; `fol`: `following_` of each effect; `lit`: some blade is on (SaberBase); `locked`: SaberBase::Lockup();
`now` in microseconds since the start -/
structure W where
  pl : Nat → Player
  ptr : Slot → Option Nat
  ext : Nat → Nat
  fol : Snd → Option Snd
  st : St
  vol : Rat
  inTime : Rat
  outTime : Rat
  humStart : Nat
  last : Nat
  now : Nat
  swinging : Bool
  postoff : Bool
  lit : Bool
  locked : Bool
  log : List Out

def upd (f : Nat → Player) (u : Nat) (p : Player) : Nat → Player := fun v => if v = u then p else f v

def W.mod (w : W) (u : Nat) (g : Player → Player) : W := { w with pl := upd w.pl u (g (w.pl u)) }

/-! ## References, common/ref.h -/

/-- `AddRef`, sound/buffered_wav_player.h:136 -/
def addRef (w : W) : Option Nat → W
  | none => w
  | some u => w.mod u fun p => { p with refs := p.refs + 1 }

/-- `SubRef`, sound/buffered_wav_player.h:137 -/
def subRef (w : W) : Option Nat → W
  | none => w
  | some u => w.mod u fun p => { p with refs := p.refs - 1 }

def W.put (w : W) (s : Slot) (v : Option Nat) : W := { w with ptr := fun t => if t = s then v else w.ptr t }

/-- `Free`, common/ref.h:24 -/
def free (w : W) (s : Slot) : W := (subRef w (w.ptr s)).put s none

/-- `operator=`, common/ref.h:15-22 -/
def assign (w : W) (s : Slot) (v : Option Nat) : W := if v = w.ptr s then w else addRef ((free w s).put s v) v

/-! ## Players -/

/-- `Available`, sound/buffered_wav_player.h:138 -/
def avail (w : W) (u : Nat) : Bool := (w.pl u).refs == 0 && (w.pl u).cur == none

def freeOne (c : Cfg) (w : W) : Option Nat := (List.range c.n).find? (avail w)

/-- `GetFreeWavPlayer`, sound/sound.h:31-40; the result is held by the caller -/
def take (c : Cfg) (w : W) : W × Option Nat :=
  match freeOne c w with
  | none => (w, none)
  | some u => (w.mod u fun p => { p with refs := p.refs + 1, fading := false }, some u)

/-- `PlayOnce` with a file of the effect, sound/buffered_wav_player.h:51-73 with sound/playwav.h:81-91 -/
def playOnce (w : W) (u : Nat) (s : Snd) : W := w.mod u fun p => { p with cur := some s, nxt := w.fol s, fading := false }

/-- `PlayLoop`, sound/playwav.h:92-94 -/
def playLoop (w : W) (u : Nat) (s : Snd) : W := w.mod u fun p => { p with nxt := some s }

/-- `FadeAndStop`, sound/volume_overlay.h:79-82 -/
def fade (w : W) (u : Nat) : W := w.mod u fun p => { p with fading := true }

/-- `GetWavPlayerPlaying(s)` finds one, sound/sound.h:42-50 -/
def playing (c : Cfg) (w : W) (s : Snd) : Bool := (List.range c.n).any fun u => (w.pl u).cur == some s

/-- A player comes to the end of its file: sound/playwav.h:206-219, 344-350 -/
def finish (c : Cfg) (w : W) (u : Nat) : W :=
  w.mod u fun p =>
    match p.cur, p.nxt with
    | some _, some s => if c.has s then { p with cur := some s, nxt := w.fol s } else { p with cur := none }
    | _, _ => { p with cur := none }

/-- A fading player has come to volume zero: sound/volume_overlay.h:25-29, sound/playwav.h:108-113 -/
def stopped (w : W) (u : Nat) : W := if (w.pl u).fading then w.mod u fun p => { p with cur := none, nxt := none } else w

/-! ## The font -/

/-- the first part of `PlayMonophonic`: a player for the next sound, sound/hybrid_font.h:211-217 -/
def getNextHum (c : Cfg) (w : W) : W :=
  match w.ptr .next with
  | some _ => w
  | none => let r := take c w; subRef (assign r.1 .next r.2) r.2

/-- the rest of it: the old hum is faded out, the next player becomes the hum player, sound/hybrid_font.h:218-229 -/
def swapHum (w : W) : W :=
  let w := match w.ptr .hum with
    | some u => free (fade w u) .hum
    | none => w
  free (assign w .hum (w.ptr .next)) .next

/-- `PlayMonophonic`, sound/hybrid_font.h:209-237; `has`: the effect has a file (otherwise the null pointer is used, sound/buffered_wav_player.h:52-55: `none`) -/
def playMono (c : Cfg) (w : W) (s : Snd) (has : Bool) (loop : Option Snd) : Option W :=
  let w := getNextHum c w
  match w.ptr .next with
  | none => some w
  | some u =>
    let w := swapHum w
    if has then
      match loop with
      | some l => some (playLoop (playOnce w u s) u l)
      | none => some (playOnce w u s)
    else none

/-- `PlayPolyphonic`, sound/hybrid_font.h:251-266; the result is held by the caller -/
def playPoly (c : Cfg) (w : W) (s : Snd) (has : Bool) : W × Option Nat :=
  if has then
    let r := take c w
    match r.2 with
    | none => r
    | some u => (playOnce r.1 u s, some u)
  else (w, none)

/-- `PlayPolyphonic` when the result is not needed -/
def playPoly' (c : Cfg) (w : W) (s : Snd) (has : Bool) : W :=
  let r := playPoly c w s has
  subRef r.1 r.2

/-- `active_state`, sound/hybrid_font.h:183-192 -/
def active (s : St) : Bool := match s with | .off | .wait => false | _ => true

/-- `SB_Preon`, sound/hybrid_font.h:390-404 -/
def preon (c : Cfg) (w : W) : W :=
  let w : W :=
    if c.has .preon then
      let w : W := { w with fol := fun s => if s = .preon then some .out else w.fol s }
      let r := playPoly c w .preon true
      let w := r.1
      let w := if c.mono then assign { w with fol := fun s => if s = .out then some .hum else w.fol s } .hum r.2 else w
      subRef w r.2
    else w
  { w with st := .wait }

/-- a player for the hum, sound/hybrid_font.h:436-444, 732-740; without a hum file the null pointer is used -/
def startHum (c : Cfg) (w : W) : Option W :=
  match w.ptr .hum with
  | some _ => some w
  | none =>
    let r := take c w
    let w := subRef (assign r.1 .hum r.2) r.2
    match r.2 with
    | none => some w
    | some u => if c.has .hum then some (playLoop (playOnce w u .hum) u .hum) else none

/-- `SB_On`, sound/hybrid_font.h:425-472; `has`: the ignition sound has a file, `t` the time to fade in, `d` the delay of the hum in ms.
Without a free player `hum_start_` is set too, but set again when there is one -/
def sbOn (c : Cfg) (w : W) (has : Bool) (t : Rat) (d : Nat) : Option W :=
  let already := w.st = .wait ∧ c.has .preon = true
  let w := { w with lit := true }
  if c.mono then
    (if already then some w else playMono c w .out (c.has .out) (some .hum)).map fun w => { w with st := .on }
  else
    let w1 := { w with st := .out }
    let hs := if w.ptr .hum = none then w.now / 1000 else w.humStart
    (startHum c w1).map fun w2 =>
      let w3 := if already then w2 else playPoly' c w2 .out has
      { w3 with inTime := t, humStart := (hs + d) % M }

/-- `OffType`, common/saber_base.h:277-284 -/
inductive Off where
  | normal | fast | blast | idle | cancel
deriving DecidableEq

/-- the swing sound ends, sound/hybrid_font.h:538-542 -/
def endSwing (w : W) : W :=
  match w.ptr .swing with
  | some u => free (fade w u) .swing
  | none => w

/-- the case of normal and fast retraction, sound/hybrid_font.h:485-526; `t` is the length of the sound played last -/
def retract (c : Cfg) (w : W) (fast most : Bool) (t : Rat) : Option W :=
  let r :=
    if c.has .inn then some { playPoly' c { w with st := .fadeOut } .inn true with outTime := 200000 }
    else if c.has .poweroff then
      if c.mono then (playMono c { w with st := .off } .poweroff true none).map fun w => { w with outTime := t }
      else some { playPoly' c { w with st := .fadeOut } .poweroff true with outTime := t }
    else if c.mono then
      match w.ptr .hum with
      | none => none
      | some u => some (free (fade { w with st := .off } u) .hum)
    else some { w with st := .fadeOut, outTime := 200000 }
  r.map fun w => if w.st = .fadeOut ∧ most = false then { w with st := .on } else { w with postoff := c.has .pstoff && !fast }

/-- the switch of `SB_Off`, sound/hybrid_font.h:477-536; `has`: there is a sound for an explosion.
Cancelling turns everything off (SaberBase::TurnOff(OffType), common/saber_base.h:307-311) -/
def offCase (c : Cfg) (w : W) (o : Off) (most all has : Bool) (t : Rat) : Option W :=
  match o with
  | .cancel => some { w with st := if w.st = .wait then .off else w.st, lit := false }
  | .idle => some w
  | .normal => retract c { w with lit := w.lit && !all } false most t
  | .fast => retract c { w with lit := w.lit && !all } true most t
  | .blast =>
    if c.mono then playMono c { w with lit := w.lit && !all } .fx has none else some (playPoly' c { w with lit := w.lit && !all, st := .fadeOut } .fx has)

/-- `SB_Off`, sound/hybrid_font.h:474-543; `most`: blade 0 is among those turned off; `all`: no blade is left on -/
def sbOff (c : Cfg) (w : W) (o : Off) (most all has : Bool) (t : Rat) : Option W :=
  let w : W := { w with fol := fun s => if s = Snd.inn then (if most && o != Off.fast then some .pstoff else none) else w.fol s }
  (offCase c w o most all has t).map endSwing

/-- `SB_BeginLockup`, sound/hybrid_font.h:632-679; `has`: the first sound has a file -/
def beginLockup (c : Cfg) (w : W) (has : Bool) : Option W :=
  let w := { w with locked := true }
  if c.lockup && !c.humm then playMono c w .fx has (some .lock)
  else
    match w.ptr .lock with
    | some _ => some w
    | none =>
      let r := playPoly c w .fx has
      let w := subRef (assign r.1 .lock r.2) r.2
      match r.2 with
      | none => some w
      | some u => some (playLoop w u .lock)

/-- `SB_EndLockup`, sound/hybrid_font.h:681-728 -/
def endLockup (c : Cfg) (w : W) (has : Bool) : Option W :=
  let w := { w with locked := false }
  match w.ptr .lock with
  | some u => some (free (fade (playPoly' c w .fx has) u) .lock)
  | none => if c.lockup then playMono c w .fx has (some .hum) else some w

/-- the volume of the hum: the switch of `SetHumVolume`, sound/hybrid_font.h:742-780, when there is a player for it -/
def fadeStep (w : W) (u : Nat) : W :=
  let m := w.now % M
  let delta : Rat := (((m + M - w.last) % M : Nat) : Rat)
  match w.st with
  | .off | .wait => { w with vol := 0 }
  | .out => { w with vol := 0, last := m, st := if (w.now / 1000 % M + M - w.humStart) % M < 0x7fffffff then .fadeIn else .out }
  | .fadeIn =>
    if w.vol + delta / w.inTime ≥ 1 then { w with vol := 1, st := .on, last := m } else { w with vol := w.vol + delta / w.inTime, last := m }
  | .on => { w with last := m }
  | .fadeOut =>
    if w.vol - delta / w.outTime ≤ 0 then free (fade { w with vol := 0, st := .off, last := m } u) .hum
    else { w with vol := w.vol - delta / w.outTime, last := m }

/-- `SetHumVolume`, sound/hybrid_font.h:730-785 (the volume set in the end is not modelled) -/
def setHum (c : Cfg) (w : W) : Option W :=
  if c.mono then some w
  else
    let fresh := active w.st && (w.ptr .hum).isNone
    (if fresh then startHum c w else some w).map fun w =>
      match w.ptr .hum with
      | none => w
      | some u => fadeStep (if fresh then { w with humStart := w.now / 1000 % M } else w) u

/-- what the motion sensor says: speed above the threshold, speed below the lower threshold, the last swing sound is nearly over, there is a swing sound -/
structure Swing where
  fast : Bool
  slow : Bool
  over : Bool
  has : Bool

/-- a swing sound that is nearly over makes room for the next, sound/hybrid_font.h:300-308 -/
def overSwing (w : W) (i : Swing) : W :=
  match w.ptr .swing with
  | some u => if i.over then free (fade w u) .swing else w
  | none => w

/-- the polyphonic part of `StartSwing`, sound/hybrid_font.h:299-325 -/
def polySwing (c : Cfg) (w : W) (i : Swing) : W :=
  let w := overSwing w i
  match w.ptr .swing with
  | some _ => w
  | none =>
    if w.swinging then w
    else
      let r := playPoly c w .fx i.has
      { subRef (assign r.1 .swing r.2) r.2 with swinging := true }

/-- `SetSwingVolume`, sound/hybrid_font.h:366-385: lets go of the player when the sound is over -/
def swingVolume (w : W) : W :=
  match w.ptr .swing with
  | some u => if (w.pl u).cur = none then free w .swing else w
  | none => w

/-- `StartSwing`, sound/hybrid_font.h:286-364 -/
def startSwing (c : Cfg) (w : W) (i : Swing) : Option W :=
  let r :=
    if i.fast then
      (if !c.guess then some (polySwing c w i)
      else if w.swinging then some w
      else (playMono c w .fx i.has (some .hum)).map fun w => { w with swinging := true }).map swingVolume
    else if i.slow then some { free w .swing with swinging := false }
    else some w
  r.bind (setHum c)

/-- `SB_Motion`, sound/hybrid_font.h:804-810 -/
def motion (c : Cfg) (w : W) (i : Swing) : Option W :=
  if active w.st && !(c.lockup && w.locked) then startSwing c w i else some w

/-- `Loop`, sound/hybrid_font.h:787-802; turning on comes back as `SB_On` -/
def loop (c : Cfg) (w : W) (has : Bool) (t : Rat) (d : Nat) : Option W :=
  if w.st = .wait ∧ playing c w .preon = false then sbOn c { w with log := .turnOn :: w.log } has t d
  else if w.postoff = true ∧ playing c w .inn = false ∧ playing c w .poweroff = false then some { w with postoff := false, log := .postOff :: w.log }
  else some w

/-- what can happen: the font is told something, a player comes to an end, somebody else takes a player (and plays something once) or lets go of one, time passes -/
inductive Ev where
  | preon
  | on (has : Bool) (t : Rat) (d : Nat)
  | off (o : Off) (most all has : Bool) (t : Rat)
  | effect (mono has : Bool)
  | beginLockup (has : Bool)
  | endLockup (has : Bool)
  | motion (i : Swing)
  | loop (has : Bool) (t : Rat) (d : Nat)
  | finish (u : Nat)
  | stopped (u : Nat)
  | take
  | drop (u : Nat)
  | tick (d : Nat)

/-- another component gets a player, plays something with it, and keeps it -/
def other (c : Cfg) (w : W) : W :=
  let r := playPoly c w .fx true
  match r.2 with
  | none => r.1
  | some u => { r.1 with ext := fun v => if v = u then r.1.ext u + 1 else r.1.ext v }

/-- another component lets go of a player -/
def dropExt (w : W) (u : Nat) : W :=
  if w.ext u = 0 then w else { subRef w (some u) with ext := fun v => if v = u then w.ext u - 1 else w.ext v }

/-- `Play`, `PlayCommon`, sound/hybrid_font.h:268-284: which way an effect is played depends on the font -/
def effect (c : Cfg) (w : W) (mono has : Bool) : Option W :=
  if mono then playMono c w .fx has (some .hum) else some (playPoly' c w .fx has)

def step (c : Cfg) (w : W) : Ev → Option W
  | .preon => some (preon c w)
  | .on has t d => sbOn c w has t d
  | .off o most all has t => sbOff c w o most all has t
  | .effect mono has => effect c w mono has
  | .beginLockup has => beginLockup c w has
  | .endLockup has => endLockup c w has
  | .motion i => motion c w i
  | .loop has t d => loop c w has t d
  | .finish u => some (finish c w u)
  | .stopped u => some (stopped w u)
  | .take => some (other c w)
  | .drop u => some (dropExt w u)
  | .tick d => some { w with now := w.now + d }

def run (c : Cfg) (w : W) : List Ev → Option W
  | [] => some w
  | e :: es => (step c w e).bind fun w => run c w es

/-- `following_` as the effects are declared, sound/effect.h:707-784 -/
def fol0 : Snd → Option Snd
  | .hum => some .hum
  | .lock => some .lock
  | .inn => some .pstoff
  | .poweroff => some .pstoff
  | _ => none

/-- after `Activate`, sound/hybrid_font.h:137-172: nothing plays -/
def boot (now : Nat) : W where
  pl := fun _ => ⟨0, none, none, false⟩
  ptr := fun _ => none
  ext := fun _ => 0
  fol := fol0
  st := .off
  vol := 0
  inTime := 200000
  outTime := 200000
  humStart := 0
  last := 0
  now := now
  swinging := false
  postoff := false
  lit := false
  locked := false
  log := []

end Verif.Font
