/-!
# The blaster

Model of props/blaster.h with the event dispatch of props/prop_base.h and the bookkeeping of held buttons in buttons/button_base.h.  Which clicks and holds a
button reports is an input, as are the random numbers for jamming.  Sounds, presets, tracks, blade detection and self-destruction are left out; power
comes on at once (fonts without a pre-on sound).  `int` is unbounded.
-/
namespace Verif.Blaster

/-- common/events.h:18-22; `power` is common/events.h:7 -/
inductive Btn where
  | fire | mode | clip | reload | power
deriving DecidableEq

/-- `BlasterMode`, props/blaster.h:121-125 -/
inductive Mode where
  | stun | kill | auto
deriving DecidableEq

/-- effects of common/saber_base.h that the blaster triggers; `beginAuto`, `endAuto` are DoBeginLockup and DoEndLockup -/
inductive Eff where
  | stun | fire | beginAuto | endAuto | empty | jam | unjam | reload | clipIn | clipOut | mode | on | off
deriving DecidableEq

/-- the defines, props/blaster.h:19-23; `shots = none`: unlimited (-1 in the code) -/
structure Config where
  shots : Option Nat
  jamPercent : Option Nat
  autoEnabled : Bool

/-- props/blaster.h:127, 162-164, with power, lockup (is auto fire going) and `current_modifiers` -/
structure St where
  mode : Mode
  auto : Bool
  fired : Nat
  jammed : Bool
  on : Bool
  lockup : Bool
  held : Btn → Bool

/-- a state and the effects triggered so far, latest first -/
structure World where
  st : St
  log : List Eff

def World.emit (w : World) (e : Eff) : World := { w with log := e :: w.log }

/-- `SetBlasterMode`, props/blaster.h:133-138 -/
def setMode (w : World) (m : Mode) : World := if w.st.auto then w else World.emit { w with st := { w.st with mode := m } } .mode

/-- `NextBlasterMode`, props/blaster.h:140-156 -/
def nextMode (c : Config) (w : World) : World :=
  match w.st.mode with
  | .stun => setMode w .kill
  | .kill => setMode w (if c.autoEnabled then .auto else .stun)
  | .auto => setMode w .stun

/-- `GetBulletCount`, props/blaster.h:172-174 -/
def bullets (c : Config) (s : St) : Int := (match c.shots with | some n => (n : Int) | none => -1) - s.fired

/-- `CheckJam`, props/blaster.h:176-179 -/
def checkJam (roll percent : Nat) : Bool := decide (roll % 100 < percent)

/-- the second half of `Fire`, props/blaster.h:203-219 -/
def shoot (w : World) : World :=
  match w.st.mode with
  | .auto => World.emit { w with st := { w.st with lockup := true, auto := true } } .beginAuto
  | .stun => { World.emit w .stun with st := { w.st with fired := w.st.fired + 1 } }
  | .kill => { World.emit w .fire with st := { w.st with fired := w.st.fired + 1 } }

/-- `Fire`, props/blaster.h:181-220 -/
def fire (c : Config) (w : World) (roll : Nat) : World :=
  let j := match c.jamPercent with
    | some p => if w.st.jammed then true else checkJam roll p
    | none => false
  let w := match c.jamPercent with
    | some _ => { w with st := { w.st with jammed := j } }
    | none => w
  if j then w.emit .jam
  else match c.shots with
    | some n => if n ≤ w.st.fired then w.emit .empty else shoot w
    | none => shoot w

/-- `Reload`, props/blaster.h:237-240 -/
def reload (w : World) : World := World.emit { w with st := { w.st with fired := 0 } } .reload

/-- `ClipOut`, props/blaster.h:242-245 -/
def clipOut (c : Config) (w : World) : World :=
  World.emit (match c.shots with | some n => { w with st := { w.st with fired := n } } | none => w) .clipOut

/-- `ClipIn`, props/blaster.h:247-250 -/
def clipIn (c : Config) (w : World) : World :=
  World.emit (match c.shots with | some _ => { w with st := { w.st with fired := 0 } } | none => w) .clipIn

/-- `Clash`, props/blaster.h:333-338 -/
def clash (w : World) : World := if w.st.jammed then World.emit { w with st := { w.st with jammed := false } } .unjam else w

/-- `PropBase::Off`, props/prop_base.h:165-178 -/
def off (w : World) : World :=
  if w.st.on then
    let w := if w.st.lockup then World.emit { w with st := { w.st with lockup := false } } .endAuto else w
    World.emit { w with st := { w.st with on := false } } .off
  else w

/-- `PropBase::On` -/
def on (w : World) : World := World.emit { w with st := { w.st with on := true } } .on

/-- the end of auto fire, props/blaster.h:375-382 -/
def endFire (w : World) : World :=
  match w.st.mode with
  | .auto => if w.st.lockup then World.emit { w with st := { w.st with lockup := false, auto := false } } .endAuto else w
  | _ => w

/-- what a button reports, common/events.h:45-; only those the blaster looks at -/
inductive Report where
  | pressed | released | savedShort | heldMedium | latchOn | latchOff | other
deriving DecidableEq

/-- `Event2` with power on, props/blaster.h:345-402; `none`: not handled -/
def eventOn (c : Config) (w : World) (roll : Nat) : Btn → Report → Option World
  | .mode, .savedShort => some (nextMode c w)
  | .reload, .pressed => some (reload w)
  | .mode, .heldMedium => some (reload w)
  | .fire, .pressed => some (fire c w roll)
  | .fire, .released => some (endFire w)
  | .clip, .pressed => some (clipIn c w)
  | .clip, .latchOn => some (clipIn c w)
  | .clip, .released => some (clipOut c w)
  | .clip, .latchOff => some (clipOut c w)
  | .power, .pressed => some (off w)
  | _, _ => none

/-- `Event2` with power off, props/blaster.h:395-397 -/
def eventOff (w : World) : Btn → Report → Option World
  | .power, .pressed => some (on w)
  | _, _ => none

/-- `Event2`, props/blaster.h:345-402 -/
def event2 (c : Config) (w : World) (roll : Nat) (b : Btn) (e : Report) : Option World :=
  if w.st.on then eventOn c w roll b e else eventOff w b e

/-- EVENTID masks out the button itself, common/events.h:112: no other button is held -/
def alone (held : Btn → Bool) (b : Btn) : Bool :=
  (b = .fire || !held .fire) && (b = .mode || !held .mode) && (b = .clip || !held .clip) && (b = .reload || !held .reload) && (b = .power || !held .power)

def setHeld (w : World) (f : Btn → Bool) : World := { w with st := { w.st with held := f } }

/-- `Event`, props/prop_base.h:1735-1757: events with other buttons held are not for the blaster; a handled event clears the modifiers -/
def event (c : Config) (w : World) (roll : Nat) (b : Btn) (e : Report) : World :=
  if alone w.st.held b then
    match event2 c w roll b e with
    | some w' => setHeld w' fun _ => false
    | none => w
  else w

/-- what happens to a blaster -/
inductive Ev where
  /-- buttons/button_base.h:84-86 -/
  | press (b : Btn) (roll : Nat)
  /-- buttons/button_base.h:107-109 -/
  | release (b : Btn)
  /-- other reports of a button -/
  | report (b : Btn) (e : Report)
  /-- it is banged -/
  | bang
  /-- low battery, or a command: `Off` -/
  | cut

/-- one event -/
def step (c : Config) (w : World) : Ev → World
  | .press b roll =>
    let w := event c w roll b .pressed
    setHeld w fun x => if x = b then true else w.st.held x
  | .release b =>
    let w := event c w 0 b .released
    setHeld w fun x => if x = b then false else w.st.held x
  | .report b e => if e = .pressed ∨ e = .released then w else event c w 0 b e
  | .bang => clash w
  | .cut => off w

def run (c : Config) (w : World) (es : List Ev) : World := es.foldl (step c) w

/-- just started, props/blaster.h:127, 162-164 -/
def boot (m : Mode) : World := ⟨⟨m, false, 0, false, false, false, fun _ => false⟩, []⟩

/-! ## Specification -/

/-- how many shots are left in a magazine for `n`, judging by what is heard (oldest first); `none`: impossible, a shot from an empty
magazine or a click from one that is not -/
def left (n : Nat) : List Eff → Option Nat
  | [] => some n
  | e :: older =>
    match left n older with
    | none => none
    | some k =>
      match e with
      | .stun => if k = 0 then none else some (k - 1)
      | .fire => if k = 0 then none else some (k - 1)
      | .beginAuto => if k = 0 then none else some k
      | .empty => if k = 0 then some 0 else none
      | .reload => some n
      | .clipIn => some n
      | .clipOut => some 0
      | _ => some k

/-- is it jammed, judging by what is heard; `none`: impossible, a shot or click while jammed, or unjamming while not -/
def jamOf : List Eff → Option Bool
  | [] => some false
  | e :: older =>
    match jamOf older with
    | none => none
    | some j =>
      match e with
      | .stun => if j then none else some j
      | .fire => if j then none else some j
      | .beginAuto => if j then none else some j
      | .empty => if j then none else some j
      | .jam => some true
      | .unjam => if j then some false else none
      | _ => some j

/-- is auto fire going, judging by what is heard -/
def autoOf : List Eff → Bool
  | [] => false
  | .beginAuto :: _ => true
  | .endAuto :: _ => false
  | _ :: older => autoOf older

/-- is the trigger held -/
def trigger : List Ev → Bool
  | [] => false
  | .press .fire _ :: _ => true
  | .release .fire :: _ => false
  | _ :: older => trigger older

/-! ## Proofs -/

/-- what all parts of the program keep -/
structure Inv (c : Config) (w : World) : Prop where
  ammo : ∀ n, c.shots = some n → w.st.fired ≤ n ∧ left n w.log = some (n - w.st.fired)
  jam : jamOf w.log = some w.st.jammed
  auto : autoOf w.log = w.st.lockup

theorem inv_held {c : Config} {w : World} (h : Inv c w) (f : Btn → Bool) : Inv c (setHeld w f) := ⟨h.ammo, h.jam, h.auto⟩

theorem inv_setMode {c : Config} {w : World} (h : Inv c w) (m : Mode) : Inv c (setMode w m) := by
  unfold setMode
  split
  · exact h
  · refine ⟨fun n hn => ?_, ?_, ?_⟩
    · obtain ⟨a, b⟩ := h.ammo n hn
      exact ⟨a, by simp only [World.emit, left, b]⟩
    · simp only [World.emit, jamOf, h.jam]
    · simpa only [World.emit, autoOf] using h.auto

theorem inv_shoot {c : Config} {w : World} (h : Inv c w) (hj : w.st.jammed = false) (hn : ∀ n, c.shots = some n → w.st.fired < n) : Inv c (shoot w) := by
  unfold shoot
  split
  · refine ⟨fun n e => ?_, ?_, rfl⟩
    · obtain ⟨a, b⟩ := h.ammo n e
      have := hn n e
      refine ⟨a, ?_⟩
      simp only [World.emit, left, b]
      rw [if_neg (by omega)]
    · simp only [World.emit, jamOf, h.jam, hj]; rfl
  · refine ⟨fun n e => ?_, ?_, ?_⟩
    · obtain ⟨a, b⟩ := h.ammo n e
      have := hn n e
      refine ⟨this, ?_⟩
      simp only [World.emit, left, b]
      rw [if_neg (by omega)]
      congr 1
    · simp only [World.emit, jamOf, h.jam, hj]; rfl
    · simpa only [World.emit, autoOf] using h.auto
  · refine ⟨fun n e => ?_, ?_, ?_⟩
    · obtain ⟨a, b⟩ := h.ammo n e
      have := hn n e
      refine ⟨this, ?_⟩
      simp only [World.emit, left, b]
      rw [if_neg (by omega)]
      congr 1
    · simp only [World.emit, jamOf, h.jam, hj]; rfl
    · simpa only [World.emit, autoOf] using h.auto

theorem inv_fire {c : Config} {w : World} (h : Inv c w) (hj0 : c.jamPercent = none → w.st.jammed = false) (roll : Nat) : Inv c (fire c w roll) := by
  -- after the check for jams
  have key : ∀ (w' : World) (j : Bool), w'.log = w.log → w'.st.lockup = w.st.lockup → w'.st.fired = w.st.fired → w'.st.jammed = j → (j = false → w.st.jammed = false) →
      Inv c (if j then w'.emit .jam else match c.shots with | some n => if n ≤ w'.st.fired then w'.emit .empty else shoot w' | none => shoot w') := by
    intro w' j e1 e2 e3 e4 e5
    cases hj : j
    · have h' : Inv c w' := ⟨by rw [e1, e3]; exact h.ammo, by rw [e1, h.jam, e4, hj, e5 hj], by rw [e1, h.auto, e2]⟩
      simp only [Bool.false_eq_true, if_false]
      cases hs : c.shots with
      | none => exact inv_shoot h' (by rw [e4, hj]) (fun n e => by rw [hs] at e; simp at e)
      | some n =>
        simp only
        split
        · rename_i hle
          refine ⟨fun m hm => ?_, ?_, ?_⟩
          · obtain ⟨a, b⟩ := h'.ammo m hm
            have : m = n := by rw [hs] at hm; simpa using hm.symm
            subst this
            refine ⟨a, ?_⟩
            simp only [World.emit, left, b]
            rw [if_pos (by omega)]
            congr 1; omega
          · simp only [World.emit, jamOf, h'.jam, e4, hj]; rfl
          · simpa only [World.emit, autoOf] using h'.auto
        · rename_i hle
          refine inv_shoot h' (by rw [e4, hj]) (fun m hm => ?_)
          have : m = n := by rw [hs] at hm; simpa using hm.symm
          omega
    · simp only [if_true]
      refine ⟨fun n hn => ?_, ?_, ?_⟩
      · obtain ⟨a, b⟩ := h.ammo n hn
        rw [← e3] at a b
        exact ⟨a, by simp only [World.emit, left, e1, b]⟩
      · simp only [World.emit, jamOf, e1, h.jam, e4, hj]
      · simp only [World.emit, autoOf, e1, e2]; exact h.auto
  unfold fire
  cases hp : c.jamPercent with
  | none => exact key w false rfl rfl rfl (hj0 hp) (fun _ => hj0 hp)
  | some p =>
    simp only
    refine key _ _ rfl rfl rfl rfl (fun hj => ?_)
    cases hw : w.st.jammed
    · rfl
    · rw [hw] at hj; simp at hj

theorem inv_refill {c : Config} {w : World} (h : Inv c w) (k : Nat) (e : Eff) (hk : ∀ n, c.shots = some n → k ≤ n ∧ ∀ l m, left n l = some m → left n (e :: l) = some (n - k))
    (hj : ∀ l j, jamOf l = some j → jamOf (e :: l) = some j) (ha : ∀ l, autoOf (e :: l) = autoOf l) (w' : World) (e1 : w'.log = e :: w.log)
    (e2 : ∀ n, c.shots = some n → w'.st.fired = k) (e3 : w'.st.jammed = w.st.jammed) (e4 : w'.st.lockup = w.st.lockup) : Inv c w' := by
  refine ⟨fun n hn => ?_, ?_, ?_⟩
  · obtain ⟨a, b⟩ := hk n hn
    rw [e1, e2 n hn]
    exact ⟨a, b _ _ (h.ammo n hn).2⟩
  · rw [e1, e3]; exact hj _ _ h.jam
  · rw [e1, e4, ha]; exact h.auto

/-- jamming only happens if it is configured -/
def NoJam (c : Config) (w : World) : Prop := c.jamPercent = none → w.st.jammed = false

theorem inv_off {c : Config} {w : World} (h : Inv c w) (hj : NoJam c w) : Inv c (off w) ∧ NoJam c (off w) := by
  unfold off
  split
  · cases hl : w.st.lockup
    · simp only [Bool.false_eq_true, if_false]
      refine ⟨⟨fun n hn => ?_, ?_, ?_⟩, hj⟩
      · obtain ⟨a, b⟩ := h.ammo n hn
        exact ⟨a, by simp only [World.emit, left, b]⟩
      · simp only [World.emit, jamOf, h.jam]
      · simpa only [World.emit, autoOf] using h.auto
    · simp only [if_true]
      refine ⟨⟨fun n hn => ?_, ?_, rfl⟩, hj⟩
      · obtain ⟨a, b⟩ := h.ammo n hn
        exact ⟨a, by simp only [World.emit, left, b]⟩
      · simp only [World.emit, jamOf, h.jam]
  · exact ⟨h, hj⟩

theorem inv_event2 {c : Config} {w w' : World} (h : Inv c w) (hj : NoJam c w) {roll : Nat} {b : Btn} {e : Report} (he : event2 c w roll b e = some w') : Inv c w' ∧ NoJam c w' := by
  have hsm : ∀ m, NoJam c (setMode w m) := by intro m hc; unfold setMode; split <;> exact hj hc
  have hnext : Inv c (nextMode c w) ∧ NoJam c (nextMode c w) := by
    unfold nextMode
    split
    · exact ⟨inv_setMode h _, hsm _⟩
    · exact ⟨inv_setMode h _, hsm _⟩
    · exact ⟨inv_setMode h _, hsm _⟩
  have hrel : Inv c (reload w) ∧ NoJam c (reload w) :=
    ⟨inv_refill h 0 .reload (fun n _ => ⟨Nat.zero_le _, fun l m hl => by simp only [left, hl]; rfl⟩) (fun l j hl => by simp only [jamOf, hl]) (fun l => rfl) _ rfl
      (fun _ _ => rfl) rfl rfl, hj⟩
  have hin : Inv c (clipIn c w) ∧ NoJam c (clipIn c w) := by
    refine ⟨inv_refill h 0 .clipIn (fun n _ => ⟨Nat.zero_le _, fun l m hl => by simp only [left, hl]; rfl⟩) (fun l j hl => by simp only [jamOf, hl]) (fun l => rfl) _ ?_ ?_ ?_ ?_, ?_⟩
    · unfold clipIn; cases c.shots <;> rfl
    · intro _ hn; unfold clipIn; rw [hn]; rfl
    · unfold clipIn; cases c.shots <;> rfl
    · unfold clipIn; cases c.shots <;> rfl
    · intro hc; unfold clipIn; cases c.shots <;> exact hj hc
  have hout : Inv c (clipOut c w) ∧ NoJam c (clipOut c w) := by
    have hns : NoJam c (clipOut c w) := by intro hc; unfold clipOut; cases c.shots <;> exact hj hc
    refine ⟨?_, hns⟩
    cases hs : c.shots with
    | none =>
      refine ⟨fun n hn => by rw [hs] at hn; simp at hn, ?_, ?_⟩
      · simp only [clipOut, hs, World.emit, jamOf, h.jam]
      · simpa only [clipOut, hs, World.emit, autoOf] using h.auto
    | some n =>
      refine inv_refill h n .clipOut (fun m hm => ?_) (fun l j hl => by simp only [jamOf, hl]) (fun l => rfl) _ ?_ ?_ ?_ ?_
      · have : n = m := by rw [hs] at hm; simpa using hm
        subst this
        exact ⟨Nat.le_refl _, fun l m hl => by simp only [left, hl, Nat.sub_self]⟩
      · simp only [clipOut, hs]; rfl
      · intro m hm; simp only [clipOut, hs]; rfl
      · simp only [clipOut, hs]; rfl
      · simp only [clipOut, hs]; rfl
  have hend : Inv c (endFire w) ∧ NoJam c (endFire w) := by
    unfold endFire
    split
    · split
      · refine ⟨⟨fun n hn => ?_, ?_, rfl⟩, hj⟩
        · obtain ⟨a, b⟩ := h.ammo n hn
          exact ⟨a, by simp only [World.emit, left, b]⟩
        · simp only [World.emit, jamOf, h.jam]
      · exact ⟨h, hj⟩
    · exact ⟨h, hj⟩
  have hoff := inv_off h hj
  have hon : Inv c (on w) ∧ NoJam c (on w) := by
    refine ⟨⟨fun n hn => ?_, ?_, ?_⟩, hj⟩
    · obtain ⟨a, b⟩ := h.ammo n hn
      exact ⟨a, by simp only [on, World.emit, left, b]⟩
    · simp only [on, World.emit, jamOf, h.jam]
    · simpa only [on, World.emit, autoOf] using h.auto
  have hfire : Inv c (fire c w roll) ∧ NoJam c (fire c w roll) := by
    refine ⟨inv_fire h hj roll, fun hc => ?_⟩
    have h1 : ∀ w' : World, (shoot w').st.jammed = w'.st.jammed := by intro w'; unfold shoot; split <;> rfl
    simp only [fire, hc, Bool.false_eq_true, if_false]
    cases c.shots with
    | none => simp only; rw [h1]; exact hj hc
    | some n =>
      simp only
      split
      · exact hj hc
      · rw [h1]; exact hj hc
  unfold event2 at he
  split at he
  · unfold eventOn at he
    split at he <;> simp only [Option.some.injEq, reduceCtorEq] at he
    · subst he; exact hnext
    · subst he; exact hrel
    · subst he; exact hrel
    · subst he; exact hfire
    · subst he; exact hend
    · subst he; exact hin
    · subst he; exact hin
    · subst he; exact hout
    · subst he; exact hout
    · subst he; exact hoff
  · unfold eventOff at he
    split at he <;> simp only [Option.some.injEq, reduceCtorEq] at he
    subst he; exact hon

theorem inv_event {c : Config} {w : World} (h : Inv c w) (hj : NoJam c w) (roll : Nat) (b : Btn) (e : Report) : Inv c (event c w roll b e) ∧ NoJam c (event c w roll b e) := by
  unfold event
  split
  · cases h2 : event2 c w roll b e with
    | none => exact ⟨h, hj⟩
    | some w' =>
      obtain ⟨a, b⟩ := inv_event2 h hj h2
      exact ⟨inv_held a _, b⟩
  · exact ⟨h, hj⟩

theorem inv_step {c : Config} {w : World} (h : Inv c w) (hj : NoJam c w) (e : Ev) : Inv c (step c w e) ∧ NoJam c (step c w e) := by
  cases e with
  | press b roll =>
    obtain ⟨a, b⟩ := inv_event h hj roll b .pressed
    exact ⟨inv_held a _, b⟩
  | release b =>
    obtain ⟨a, b⟩ := inv_event h hj 0 b .released
    exact ⟨inv_held a _, b⟩
  | report b e =>
    simp only [step]
    split
    · exact ⟨h, hj⟩
    · exact inv_event h hj 0 b e
  | cut => exact inv_off h hj
  | bang =>
    simp only [step, clash]
    cases hw : w.st.jammed
    · exact ⟨h, hj⟩
    · simp only [if_true]
      refine ⟨⟨fun n hn => ?_, ?_, ?_⟩, fun _ => rfl⟩
      · obtain ⟨a, b⟩ := h.ammo n hn
        exact ⟨a, by simp only [World.emit, left, b]⟩
      · simp only [World.emit, jamOf, h.jam, hw, if_true]
      · simpa only [World.emit, autoOf] using h.auto

theorem inv_run {c : Config} (es : List Ev) : ∀ {w : World}, Inv c w → NoJam c w → Inv c (run c w es) ∧ NoJam c (run c w es) := by
  induction es with
  | nil => intro w h hj; exact ⟨h, hj⟩
  | cons e es ih => intro w h hj; obtain ⟨a, b⟩ := inv_step h hj e; exact ih a b

theorem inv_boot (c : Config) (m : Mode) : Inv c (boot m) ∧ NoJam c (boot m) := ⟨⟨fun n _ => ⟨Nat.zero_le _, rfl⟩, rfl, rfl⟩, fun _ => rfl⟩

/-- **C93**: the magazine: whatever is pressed, no shot comes from an empty magazine, it clicks only when empty, and the displayed number of bullets is
the number that is left judging by what was heard -/
theorem C93_ammo (c : Config) (m : Mode) (es : List Ev) (n : Nat) (hn : c.shots = some n) :
    ∃ k, left n (run c (boot m) es).log = some k ∧ k ≤ n ∧ bullets c (run c (boot m) es).st = k := by
  obtain ⟨h, _⟩ := inv_run (c := c) es (inv_boot c m).1 (inv_boot c m).2
  obtain ⟨a, b⟩ := h.ammo n hn
  refine ⟨_, b, Nat.sub_le _ _, ?_⟩
  simp only [bullets, hn]
  omega

/-- **C93**: jams: once jammed, no shot and no click until it is banged -/
theorem C93_jam (c : Config) (m : Mode) (es : List Ev) : jamOf (run c (boot m) es).log = some (run c (boot m) es).st.jammed :=
  (inv_run (c := c) es (inv_boot c m).1 (inv_boot c m).2).1.jam

/-- **C93**: the trigger: pulling it with power on and no other button held does exactly one thing: a jam if jammed or newly so, a click if empty, a shot according to the mode -/
theorem C93_trigger (c : Config) (w : World) (roll : Nat) (hon : w.st.on = true) (ha : ∀ b, b ≠ .fire → w.st.held b = false) :
    ∃ e, (step c w (.press .fire roll)).log = e :: w.log ∧
      ((e = .jam ↔ ∃ p, c.jamPercent = some p ∧ (w.st.jammed = true ∨ roll % 100 < p)) ∧
       (e ≠ .jam → (e = .empty ↔ ∃ n, c.shots = some n ∧ n ≤ w.st.fired)) ∧
       (e ≠ .jam → e ≠ .empty → e = match w.st.mode with | .stun => .stun | .kill => .fire | .auto => .beginAuto)) := by
  have hal : alone w.st.held .fire = true := by simp [alone, ha]
  have e1 : (step c w (.press .fire roll)).log = (fire c w roll).log := by
    simp only [step, event, hal, if_true, event2, hon, eventOn]
    rfl
  rw [e1]
  have hs : ∀ w' : World, w'.st.mode = w.st.mode → (shoot w').log = (match w.st.mode with | .stun => .stun | .kill => .fire | .auto => .beginAuto) :: w'.log := by
    intro w' hm; unfold shoot; rw [hm]; cases w.st.mode <;> rfl
  have hne : ∀ m : Mode, (match m with | .stun => Eff.stun | .kill => .fire | .auto => .beginAuto) ≠ .jam ∧
      (match m with | .stun => Eff.stun | .kill => .fire | .auto => .beginAuto) ≠ .empty := by intro m; cases m <;> simp
  -- what happens when it does not jam
  have key : ∀ w' : World, w'.log = w.log → w'.st.mode = w.st.mode → w'.st.fired = w.st.fired →
      ∃ e, (match c.shots with | some n => if n ≤ w'.st.fired then w'.emit .empty else shoot w' | none => shoot w').log = e :: w.log ∧ e ≠ .jam ∧
        (e = .empty ↔ ∃ n, c.shots = some n ∧ n ≤ w.st.fired) ∧ (e ≠ .empty → e = match w.st.mode with | .stun => .stun | .kill => .fire | .auto => .beginAuto) := by
    intro w' e1 e2 e3
    cases hc : c.shots with
    | none =>
      refine ⟨_, by simp only; rw [hs w' e2, e1], (hne _).1, ?_, fun _ => rfl⟩
      simp [(hne _).2]
    | some n =>
      simp only
      by_cases hle : n ≤ w'.st.fired
      · rw [if_pos hle]
        refine ⟨.empty, by rw [← e1]; rfl, by simp, ?_, fun h => absurd rfl h⟩
        simp; omega
      · rw [if_neg hle]
        refine ⟨_, by rw [hs w' e2, e1], (hne _).1, ?_, fun _ => rfl⟩
        simp [(hne _).2]; omega
  unfold fire
  cases hp : c.jamPercent with
  | none =>
    simp only [Bool.false_eq_true, if_false]
    obtain ⟨e, h1, h2, h3, h4⟩ := key w rfl rfl rfl
    exact ⟨e, h1, by simp [h2], fun _ => h3, fun _ => h4⟩
  | some p =>
    simp only
    by_cases hj : w.st.jammed = true ∨ roll % 100 < p
    · have : (if w.st.jammed = true then true else checkJam roll p) = true := by
        cases hw : w.st.jammed
        · rw [hw] at hj
          simp only [Bool.false_eq_true, false_or] at hj
          simp [checkJam, hj]
        · simp
      rw [this, if_pos rfl]
      refine ⟨.jam, rfl, ?_, fun h => absurd rfl h, fun h => absurd rfl h⟩
      simpa using hj
    · have : (if w.st.jammed = true then true else checkJam roll p) = false := by
        cases hw : w.st.jammed
        · rw [hw] at hj
          simp only [Bool.false_eq_true, false_or] at hj
          simp [checkJam]; omega
        · rw [hw] at hj; simp at hj
      rw [this, if_neg (by simp)]
      obtain ⟨e, h1, h2, h3, h4⟩ := key { w with st := { w.st with jammed := false } } rfl rfl rfl
      refine ⟨e, h1, ?_, fun _ => h3, fun _ => h4⟩
      simp only [h2, Option.some.injEq, exists_eq_left', false_iff]
      exact hj

/-- the trigger is let go only when no other button is held, or with power off -/
def Clean (c : Config) : World → List Ev → Prop
  | _, [] => True
  | w, e :: es => (e = .release .fire → w.st.on = true → alone w.st.held .fire = true) ∧ Clean c (step c w e) es

/-- auto fire only in auto mode, only with power on, and only while the trigger is held -/
structure AutoOk (w : World) (t : Bool) : Prop where
  mode : w.st.lockup = true → w.st.mode = .auto ∧ w.st.auto = true ∧ w.st.on = true
  trig : w.st.lockup = true → t = true

theorem auto_setMode {w : World} {t : Bool} (h : AutoOk w t) (m : Mode) : AutoOk (setMode w m) t := by
  unfold setMode
  split
  · exact h
  · rename_i hn
    exact ⟨fun hl => absurd (h.mode hl).2.1 hn, fun hl => absurd (h.mode hl).2.1 hn⟩

theorem auto_off {w : World} {t : Bool} (h : AutoOk w t) : AutoOk (off w) t := by
  unfold off
  split
  · cases hl : w.st.lockup
    · simp only [Bool.false_eq_true, if_false]
      exact ⟨fun hl' => by simp [World.emit, hl] at hl', fun hl' => by simp [World.emit, hl] at hl'⟩
    · simp only [if_true]
      exact ⟨fun hl' => by simp [World.emit] at hl', fun hl' => by simp [World.emit] at hl'⟩
  · exact h

theorem auto_event {c : Config} {w : World} {t : Bool} (h : AutoOk w t) (roll : Nat) (b : Btn) (e : Report) :
    AutoOk (event c w roll b e) (t || (decide (b = .fire ∧ e = .pressed))) ∧
    (b = .fire → e = .released → (w.st.on = true → alone w.st.held .fire = true) → (event c w roll b e).st.lockup = false) := by
  have mono : ∀ {w : World}, AutoOk w t → AutoOk w (t || (decide (b = .fire ∧ e = .pressed))) := fun h => ⟨h.mode, fun hl => by rw [h.trig hl]; rfl⟩
  have hheld : ∀ {w : World} {t : Bool} (f : Btn → Bool), AutoOk w t → AutoOk (setHeld w f) t := fun f h => ⟨h.mode, h.trig⟩
  constructor
  · unfold event
    split
    · cases h2 : event2 c w roll b e with
      | none => exact mono h
      | some w' =>
        refine hheld _ ?_
        unfold event2 at h2
        split at h2
        · rename_i hon
          unfold eventOn at h2
          split at h2 <;> simp only [Option.some.injEq, reduceCtorEq] at h2 <;> subst h2
          · refine mono ?_
            unfold nextMode; split <;> exact auto_setMode h _
          · exact mono ⟨h.mode, h.trig⟩
          · exact mono ⟨h.mode, h.trig⟩
          · -- fire
            have hsh : ∀ w' : World, AutoOk w' t → w'.st.on = true → AutoOk (shoot w') true := by
              intro w' h' hon'
              unfold shoot
              split
              · rename_i hm; exact ⟨fun _ => ⟨hm, rfl, hon'⟩, fun _ => rfl⟩
              · exact ⟨h'.mode, fun _ => rfl⟩
              · exact ⟨h'.mode, fun _ => rfl⟩
            have hk : ∀ (w' : World) (j : Bool), AutoOk w' t → w'.st.on = true →
                AutoOk (if j then w'.emit .jam else match c.shots with | some n => if n ≤ w'.st.fired then w'.emit .empty else shoot w' | none => shoot w') true := by
              intro w' j h' hon'
              split
              · exact ⟨h'.mode, fun _ => rfl⟩
              · split
                · split
                  · exact ⟨h'.mode, fun _ => rfl⟩
                  · exact hsh w' h' hon'
                · exact hsh w' h' hon'
            have : (t || decide (Btn.fire = Btn.fire ∧ Report.pressed = Report.pressed)) = true := by simp
            rw [this]
            unfold fire
            cases c.jamPercent with
            | none => exact hk w false h hon
            | some p => exact hk _ _ ⟨h.mode, h.trig⟩ hon
          · refine mono ?_
            unfold endFire
            split
            · split
              · exact ⟨fun hl => by simp [World.emit] at hl, fun hl => by simp [World.emit] at hl⟩
              · exact h
            · exact h
          · refine mono ?_
            unfold clipIn; cases c.shots <;> exact ⟨h.mode, h.trig⟩
          · refine mono ?_
            unfold clipIn; cases c.shots <;> exact ⟨h.mode, h.trig⟩
          · refine mono ?_
            unfold clipOut; cases c.shots <;> exact ⟨h.mode, h.trig⟩
          · refine mono ?_
            unfold clipOut; cases c.shots <;> exact ⟨h.mode, h.trig⟩
          · refine mono ?_
            exact auto_off h
        · rename_i hon
          unfold eventOff at h2
          split at h2 <;> simp only [Option.some.injEq, reduceCtorEq] at h2
          subst h2
          refine mono ⟨fun hl => absurd (h.mode hl).2.2 hon, h.trig⟩
    · exact mono h
  · intro e1 e2 hcl
    subst e1; subst e2
    unfold event
    by_cases hon : w.st.on = true
    · rw [if_pos (hcl hon)]
      simp only [event2, hon, if_true, eventOn]
      show (setHeld (endFire w) _).st.lockup = false
      unfold endFire
      cases hl : w.st.lockup
      · split <;> simp [setHeld, hl]
      · rw [(h.mode hl).1]
        simp [setHeld, World.emit]
    · have hl : w.st.lockup = false := by
        cases hl : w.st.lockup
        · rfl
        · exact absurd (h.mode hl).2.2 hon
      split
      · simp only [event2, hon, Bool.false_eq_true, if_false, eventOff]
        exact hl
      · exact hl

theorem auto_run {c : Config} (es : List Ev) : ∀ {w : World} (past : List Ev), AutoOk w (trigger past) → Clean c w es →
    AutoOk (run c w es) (trigger (es.reverse ++ past)) := by
  induction es with
  | nil => intro w past h _; exact h
  | cons e es ih =>
    intro w past h hc
    simp only [List.reverse_cons, List.append_assoc, List.singleton_append]
    refine ih (e :: past) ?_ hc.2
    have hheld : ∀ {w : World} {t : Bool} (f : Btn → Bool), AutoOk w t → AutoOk (setHeld w f) t := fun f h => ⟨h.mode, h.trig⟩
    cases e with
    | press b roll =>
      have := (auto_event (c := c) h roll b .pressed).1
      refine hheld _ ⟨this.mode, fun hl => ?_⟩
      have := this.trig hl
      cases b <;> simp_all [trigger]
    | release b =>
      obtain ⟨g1, g2⟩ := auto_event (c := c) h 0 b .released
      refine hheld _ ⟨g1.mode, fun hl => ?_⟩
      by_cases hb : b = .fire
      · subst hb
        have := g2 rfl rfl (fun hon => hc.1 rfl hon)
        rw [this] at hl; simp at hl
      · have := g1.trig hl
        cases b <;> simp_all [trigger]
    | report b e =>
      simp only [step]
      split
      · exact ⟨h.mode, fun hl => by simpa [trigger] using h.trig hl⟩
      · rename_i hne
        have := (auto_event (c := c) h 0 b e).1
        refine ⟨this.mode, fun hl => ?_⟩
        have := this.trig hl
        simp only [not_or] at hne
        simpa [trigger, hne.1] using this
    | cut =>
      have := auto_off h
      exact ⟨this.mode, fun hl => by simpa [trigger] using this.trig hl⟩
    | bang =>
      simp only [step, clash]
      split
      · exact ⟨h.mode, fun hl => by simpa [trigger] using h.trig hl⟩
      · exact ⟨h.mode, fun hl => by simpa [trigger] using h.trig hl⟩

/-- **C93**: auto fire is heard only while the trigger is held, with power on.  Missing: the trigger must not be let go while another button is held -/
theorem C93_auto_partial (c : Config) (m : Mode) (es : List Ev) (hc : Clean c (boot m) es) (ha : autoOf (run c (boot m) es).log = true) :
    trigger es.reverse = true ∧ (run c (boot m) es).st.on = true := by
  have h1 := (inv_run (c := c) es (inv_boot c m).1 (inv_boot c m).2).1.auto
  have h0 : AutoOk (boot m) (trigger []) := ⟨fun h => by simp [boot] at h, fun h => by simp [boot] at h⟩
  have h2 := auto_run es [] h0 hc
  rw [h1] at ha
  simp only [List.append_nil] at h2
  exact ⟨h2.trig ha, (h2.mode ha).2.2⟩

/-- auto fire goes on after the trigger is let go, if another button is held at that moment -/
theorem C93_auto_counterexample (roll : Nat) : ∃ (c : Config) (es : List Ev), trigger es.reverse = false ∧ autoOf (run c (boot .auto) es).log = true ∧
    ∀ b, b ≠ .mode → (run c (boot .auto) es).st.held b = false :=
  ⟨⟨some 5, none, true⟩, [.press .power 0, .release .power, .press .fire roll, .press .mode 0, .release .fire], rfl, rfl, by intro b; cases b <;> simp [run, step, boot, event, alone, event2, eventOn, eventOff, setHeld, on, fire, shoot, World.emit]⟩

/-- auto fire needs no ammunition: any number of bursts leaves the magazine as full as before -/
theorem C93_burst_counterexample (k : Nat) (hk : 1 ≤ k) (c : Config) (hc : c = ⟨some k, none, true⟩) (n : Nat) :
    bullets c (run c (boot .auto) ([.press .power 0, .release .power] ++ (List.replicate n [.press .fire 0, .release .fire]).flatten)).st = k := by
  subst hc
  have e : ∀ a b, run ⟨some k, none, true⟩ (boot .auto) (a ++ b) = run ⟨some k, none, true⟩ (run ⟨some k, none, true⟩ (boot .auto) a) b := fun a b => by simp [run, List.foldl_append]
  rw [e]
  have key : ∀ n (w : World), w.st.mode = .auto → w.st.fired = 0 → w.st.on = true → (∀ b, w.st.held b = false) →
      (run ⟨some k, none, true⟩ w (List.replicate n [.press .fire 0, .release .fire]).flatten).st.fired = 0 := by
    intro n
    induction n with
    | zero => intro w _ h _ _; exact h
    | succ n ih =>
      intro w h1 h2 h3 h4
      have hk0 : ¬ k ≤ 0 := by omega
      have e2 : run ⟨some k, none, true⟩ w (List.replicate (n + 1) [.press .fire 0, .release .fire]).flatten =
          run ⟨some k, none, true⟩ (step ⟨some k, none, true⟩ (step ⟨some k, none, true⟩ w (.press .fire 0)) (.release .fire)) (List.replicate n [.press .fire 0, .release .fire]).flatten := rfl
      rw [e2]
      apply ih <;> simp [step, event, alone, event2, eventOn, eventOff, setHeld, fire, shoot, World.emit, endFire, h1, h2, h3, h4, hk0]
  have := key n (run ⟨some k, none, true⟩ (boot .auto) [.press .power 0, .release .power]) rfl rfl rfl (by intro b; cases b <;> rfl)
  simp [bullets, this]

/-- power fails during auto fire: after power is on again, however often the mode button is clicked, the mode does not change -/
theorem C93_mode_counterexample (n : Nat) (c : Config) (hc : c = ⟨none, none, true⟩) :
    let w := run c (boot .auto) ([.press .power 0, .release .power, .press .fire 0, .cut, .release .fire, .press .power 0, .release .power] ++
      List.replicate n (.report .mode .savedShort))
    w.st.mode = .auto ∧ autoOf w.log = false := by
  subst hc
  have e : ∀ a b, run ⟨none, none, true⟩ (boot .auto) (a ++ b) = run ⟨none, none, true⟩ (run ⟨none, none, true⟩ (boot .auto) a) b := fun a b => by simp [run, List.foldl_append]
  simp only [e]
  have key : ∀ n (w : World), w.st.auto = true → w.st.on = true → (∀ b, w.st.held b = false) → w.st.mode = .auto → autoOf w.log = false →
      (run ⟨none, none, true⟩ w (List.replicate n (.report .mode .savedShort))).st.mode = .auto ∧
      autoOf (run ⟨none, none, true⟩ w (List.replicate n (.report .mode .savedShort))).log = false := by
    intro n
    induction n with
    | zero => intro w _ _ _ h h5; exact ⟨h, h5⟩
    | succ n ih =>
      intro w h1 h2 h3 h4 h5
      have e : run ⟨none, none, true⟩ w (List.replicate (n + 1) (.report .mode .savedShort)) =
        run ⟨none, none, true⟩ (step ⟨none, none, true⟩ w (.report .mode .savedShort)) (List.replicate n (.report .mode .savedShort)) := rfl
      rw [e]
      apply ih <;> simp [step, event, alone, event2, eventOn, setHeld, nextMode, setMode, h1, h2, h3, h4, h5]
  exact key n _ rfl rfl (by intro b; cases b <;> rfl) rfl rfl

/-- the magazine is filled although there is no clip in it -/
theorem C93_clip_counterexample (n : Nat) (c : Config) (hc : c = ⟨some n, none, true⟩) :
    bullets c (run c (boot .kill) [.press .power 0, .release .power, .report .clip .latchOff, .press .reload 0]).st = n := by
  subst hc
  simp [bullets, run, step, event, alone, event2, eventOn, eventOff, setHeld, boot, on, clipOut, reload, World.emit]

/-- a magazine of 2: three shots, of which the third is a click; a burst of auto fire; the trigger is let go alone -/
example : let c : Config := ⟨some 2, none, true⟩
    let es : List Ev := [.press .power 0, .release .power, .press .fire 0, .release .fire, .press .fire 0, .release .fire, .press .fire 0, .release .fire, .press .reload 0,
      .release .reload, .report .mode .savedShort, .press .fire 0]
    (run c (boot .kill) es).log = [.beginAuto, .mode, .reload, .empty, .fire, .fire, .on] ∧ Clean c (boot .kill) (es ++ [.release .fire]) ∧
    autoOf (run c (boot .kill) (es ++ [.release .fire])).log = false ∧ bullets c (run c (boot .kill) es).st = 2 := by
  refine ⟨rfl, ?_, rfl, rfl⟩
  simp only [Clean, List.cons_append, List.nil_append]
  simp [step, event, alone, event2, eventOn, eventOff, setHeld, boot, on, fire, shoot, World.emit, reload, nextMode, setMode, endFire]

end Verif.Blaster
