/-!
# The track player and volume menu of the Caiwyn buttons (C143)

Model of props/saber_caiwyn_buttons.h (class `CaiwynButtons`) with `On` and `Off` of props/prop_base.h:133-193.
Simplified: a track is known by its place in the order of the names, and the list of tracks is given in that order (finding the next line of a listing in any
order is C132); the colour menu, blade detection, battery and preset changes are left out (while the colour menu is open it receives the events, not this
prop); a stopped player is free at once; `VOLUME * 0.10` is taken exactly and then cut off, as `std::min<int>` does.
-/
namespace Verif.Prop.Caiwyn

/-- `SaberBase::LockupType`, common/saber_base.h -/
inductive Lock
  | normal
  | drag
  | melt
  | lightning
  deriving DecidableEq

/-- What can be seen or heard: begin and end of a lockup, a blast, a clash. -/
inductive Out
  | begins (l : Lock)
  | ends
  | blast
  | clash
  deriving DecidableEq

/-- off, waiting for the pre-on sound (`on_pending_`, props/prop_base.h:128-147), on -/
inductive Power
  | off
  | pending
  | on
  deriving DecidableEq

/-- The build: `VOLUME`, `CAIWYN_BUTTON_LOCKUP`, `CAIWYN_BUTTON_CLASH`, `NUM_BUTTONS > 2`, `CAIWYN_SAVE_TRACKS`; and the card: tracks in the order of
their names and whether `current_track_` exists, props/saber_caiwyn_buttons.h:303-308. -/
structure Env where
  V : Nat
  lockup : Bool
  clash : Bool
  three : Bool
  saves : Bool
  tracks : List Nat
  there : Nat → Bool

/-- The members, props/saber_caiwyn_buttons.h:633-639, and the lockup, the volume and the track in the preset; `log` is what was seen, the last first. -/
structure S where
  power : Power
  menu : Bool
  lock : Option Lock
  vol : Nat
  trackOn : Bool
  player : Option Nat
  mode : Nat
  cur : Nat
  saved : Nat
  savedMode : Nat
  log : List Out

/-- What happens: power pressed, alone or with another button held; power clicked; aux clicked short; aux clicked (saved); aux held once or twice; aux and
aux2 together; a clash or stab with aux held, pointing down or not; a button released; pre-on is over; turned off by something else; the hilt is turned in
the volume menu; the track ends; `PollTrackPlayer`, with or without a free player. -/
inductive Ev
  | power (held : Bool) (free : Bool)
  | powerClick
  | auxClick
  | auxSaved (free : Bool)
  | auxHeld (free : Bool)
  | auxHeld2
  | bothAux
  | clashAux (down : Bool)
  | stabAux
  | released
  | started
  | offElsewhere
  | turn (up : Bool)
  | trackEnds
  | poll (free : Bool)

/-- `VolumeUp`, props/saber_caiwyn_buttons.h:213-220 -/
def up (V vol : Nat) : Nat := if vol < V then min V (vol + V / 10) else vol

/-- `VolumeDown`, props/saber_caiwyn_buttons.h:222-229 -/
def down (V vol : Nat) : Nat := if V < 10 * vol then max (V / 10) ((10 * vol - V) / 10) else vol

/-- `SetLockup` and `DoBeginLockup` -/
def begin (l : Lock) (s : S) : S := { s with lock := some l, log := .begins l :: s.log }

/-- `PlayTrack`, props/saber_caiwyn_buttons.h:310-320 -/
def playTrack (free : Bool) (t : Nat) (s : S) : S :=
  if s.player.isSome || free then { s with player := some t, trackOn := true } else { s with trackOn := false }

/-- `StartTrackPlayer`, props/saber_caiwyn_buttons.h:322-337; its test of `current_track_`, an array, never fires. -/
def startTrack (e : Env) (free : Bool) (s : S) : S :=
  if e.there s.cur then playTrack free s.cur s
  else
    match e.tracks with
    | [] => s
    | t :: _ => playTrack free t { s with cur := t }

/-- `StopTrackPlayer`, props/saber_caiwyn_buttons.h:339-346, with `SaveCaiwynState` -/
def stopTrack (s : S) : S := { s with trackOn := false, player := none, savedMode := s.mode }

/-- the next line after the current one, or else the first, props/saber_caiwyn_buttons.h:350-356 -/
def nextOf (ts : List Nat) (cur : Nat) : Nat := (ts.find? fun t => decide (cur < t)).getD (ts.headD cur)

/-- `NextTrack`, props/saber_caiwyn_buttons.h:348-366 -/
def nextTrack (e : Env) (manually free : Bool) (s : S) : S :=
  let t := nextOf e.tracks s.cur
  let s1 := { s with cur := t, saved := if manually && e.saves && !e.tracks.isEmpty then t else s.saved }
  playTrack (s.player.isSome || free) t { s1 with player := none }

/-- `ChangeTrackMode`, props/saber_caiwyn_buttons.h:368-388 -/
def changeMode : Nat → Nat
  | 0 => 1
  | 1 => 2
  | 2 => 0
  | m => m

/-- `PollTrackPlayer`, props/saber_caiwyn_buttons.h:287-301 -/
def poll (e : Env) (free : Bool) (s : S) : S :=
  if s.trackOn && s.player.isNone then
    match s.mode with
    | 0 => stopTrack s
    | 1 => playTrack free s.cur s
    | 2 => nextTrack e false free s
    | _ => s
  else s

/-- `Off`, props/prop_base.h:157-193: during pre-on it only cancels. -/
def off (s : S) : S :=
  match s.power with
  | .pending => { s with power := .off }
  | .off => s
  | .on =>
    match s.lock with
    | some _ => { s with power := .off, lock := none, log := .ends :: s.log }
    | none => { s with power := .off }

/-- a press of power alone when on, props/saber_caiwyn_buttons.h:477-499 -/
def pressOn (e : Env) (s : S) : S :=
  if s.lock.isNone && !s.menu then
    if e.lockup then begin .normal s
    else if e.clash then { s with log := .clash :: s.log }
    else begin .lightning s
  else s

/-- `Event2`, props/saber_caiwyn_buttons.h:418-631, and `Loop` :179-184 -/
def step (e : Env) (s : S) : Ev → S
  | .power held free =>
    if s.power = .off then
      if held && !s.trackOn then startTrack e free { s with power := .pending } else { s with power := .pending }
    else if held then (if s.menu then s else off s)
    else pressOn e s
  | .powerClick => if s.power ≠ .off && s.menu then { s with menu := false } else s
  | .auxClick =>
    if s.power = .off then s
    else if s.menu then { s with menu := false, vol := e.V }
    else { s with log := .blast :: s.log }
  | .auxSaved free => if s.power = .off then (if s.trackOn then stopTrack s else startTrack e free s) else s
  | .auxHeld free => if s.power = .off && s.trackOn then nextTrack e true free s else s
  | .auxHeld2 =>
    if s.power = .off then (if s.trackOn then { s with mode := changeMode s.mode } else s)
    else if s.menu then s else { s with menu := true }
  | .bothAux => if s.power ≠ .off && e.three && e.lockup then begin .lightning s else s
  | .clashAux d => if s.power ≠ .off && s.lock.isNone && !s.menu then begin (if d then .drag else .normal) s else s
  | .stabAux => if s.power ≠ .off && s.lock.isNone && !s.menu then begin .melt s else s
  | .released =>
    if s.power ≠ .off && s.lock.isSome then { s with lock := none, log := .ends :: s.log } else s
  | .started => if s.power = .pending then { s with power := .on } else s
  | .offElsewhere => off s
  | .turn u => if s.menu then { s with vol := if u then up e.V s.vol else down e.V s.vol } else s
  | .trackEnds => { s with player := none }
  | .poll free => poll e free s

/-- The state after these events. -/
def run (e : Env) (s : S) (evs : List Ev) : S := evs.foldl (step e) s

/-- after booting, props/saber_caiwyn_buttons.h:633-639, with the track of the preset and the mode from the file -/
def boot (e : Env) (track mode : Nat) : S := ⟨.off, false, none, e.V, false, none, mode, track, track, mode, []⟩

/-! ## Lemmas -/

theorem playTrack_frame (free : Bool) (t : Nat) (s : S) :
    (playTrack free t s).vol = s.vol ∧ (playTrack free t s).power = s.power ∧ (playTrack free t s).menu = s.menu ∧
      (playTrack free t s).lock = s.lock ∧ (playTrack free t s).log = s.log ∧ (playTrack free t s).mode = s.mode := by
  unfold playTrack; split <;> simp

theorem startTrack_frame (e : Env) (free : Bool) (s : S) :
    (startTrack e free s).vol = s.vol ∧ (startTrack e free s).power = s.power ∧ (startTrack e free s).menu = s.menu ∧
      (startTrack e free s).lock = s.lock ∧ (startTrack e free s).log = s.log ∧ (startTrack e free s).mode = s.mode := by
  unfold startTrack; split
  · exact playTrack_frame ..
  · split
    · simp
    · exact playTrack_frame ..

theorem nextTrack_frame (e : Env) (m free : Bool) (s : S) :
    (nextTrack e m free s).vol = s.vol ∧ (nextTrack e m free s).power = s.power ∧ (nextTrack e m free s).menu = s.menu ∧
      (nextTrack e m free s).lock = s.lock ∧ (nextTrack e m free s).log = s.log ∧ (nextTrack e m free s).mode = s.mode := by
  unfold nextTrack; exact playTrack_frame ..

theorem poll_frame (e : Env) (free : Bool) (s : S) :
    (poll e free s).vol = s.vol ∧ (poll e free s).power = s.power ∧ (poll e free s).menu = s.menu ∧
      (poll e free s).lock = s.lock ∧ (poll e free s).log = s.log ∧ (poll e free s).mode = s.mode := by
  unfold poll; split
  · split
    · simp [stopTrack]
    · exact playTrack_frame ..
    · exact nextTrack_frame ..
    · simp
  · simp

theorem off_frame (s : S) : (off s).vol = s.vol ∧ (off s).menu = s.menu ∧ (off s).mode = s.mode := by
  unfold off; repeat' split
  all_goals simp

theorem pressOn_frame (e : Env) (s : S) : (pressOn e s).vol = s.vol ∧ (pressOn e s).menu = s.menu ∧ (pressOn e s).mode = s.mode := by
  unfold pressOn begin; repeat' split
  all_goals simp

/-- one event keeps the volume within its limits -/
theorem step_vol (e : Env) (s : S) (ev : Ev) (h : e.V / 10 ≤ s.vol ∧ s.vol ≤ e.V) :
    e.V / 10 ≤ (step e s ev).vol ∧ (step e s ev).vol ≤ e.V := by
  cases ev <;> dsimp only [step]
  case power held free =>
    repeat' split
    · rw [(startTrack_frame ..).1]; exact h
    · exact h
    · exact h
    · rw [(off_frame _).1]; exact h
    · rw [(pressOn_frame _ _).1]; exact h
  case auxSaved free =>
    repeat' split
    · exact h
    · rw [(startTrack_frame ..).1]; exact h
    · exact h
  case auxHeld free =>
    split
    · rw [(nextTrack_frame ..).1]; exact h
    · exact h
  case offElsewhere => rw [(off_frame _).1]; exact h
  case poll free => rw [(poll_frame ..).1]; exact h
  case auxClick =>
    repeat' split
    · exact h
    · dsimp only; omega
    · exact h
  case turn u =>
    split
    · dsimp only [up, down]; repeat' split
      all_goals omega
    · exact h
  all_goals (repeat' split)
  all_goals exact h

/-- one event keeps the mode one of the three -/
theorem step_mode (e : Env) (s : S) (ev : Ev) (h : s.mode < 3) : (step e s ev).mode < 3 := by
  cases ev <;> dsimp only [step]
  case power held free =>
    repeat' split
    · rw [(startTrack_frame ..).2.2.2.2.2]; exact h
    · exact h
    · exact h
    · rw [(off_frame _).2.2]; exact h
    · rw [(pressOn_frame _ _).2.2]; exact h
  case auxSaved free =>
    repeat' split
    · exact h
    · rw [(startTrack_frame ..).2.2.2.2.2]; exact h
    · exact h
  case auxHeld free =>
    split
    · rw [(nextTrack_frame ..).2.2.2.2.2]; exact h
    · exact h
  case offElsewhere => rw [(off_frame _).2.2]; exact h
  case poll free => rw [(poll_frame ..).2.2.2.2.2]; exact h
  case auxHeld2 =>
    repeat' split
    · dsimp only [changeMode]; split <;> omega
    · exact h
    · exact h
    · exact h
  all_goals (repeat' split)
  all_goals exact h

/-- an event keeps a mode that is none of the three -/
theorem step_mode_bad (e : Env) (s : S) (ev : Ev) (h : 3 ≤ s.mode) : (step e s ev).mode = s.mode := by
  cases ev <;> dsimp only [step]
  case power held free =>
    repeat' split
    · rw [(startTrack_frame ..).2.2.2.2.2]
    · rfl
    · rfl
    · rw [(off_frame _).2.2]
    · rw [(pressOn_frame _ _).2.2]
  case auxSaved free =>
    repeat' split
    · rfl
    · rw [(startTrack_frame ..).2.2.2.2.2]
    · rfl
  case auxHeld free =>
    split
    · rw [(nextTrack_frame ..).2.2.2.2.2]
    · rfl
  case offElsewhere => rw [(off_frame _).2.2]
  case poll free => rw [(poll_frame ..).2.2.2.2.2]
  case auxHeld2 =>
    repeat' split
    · dsimp only [changeMode]; split <;> omega
    · rfl
    · rfl
    · rfl
  all_goals (repeat' split)
  all_goals first | rfl | simp [begin]

/-! ## The log of lockups, an independent reading -/

/-- The lockup going on after what was seen (the last first), if every beginning was outside a lockup and every end inside one. -/
def going : List Out → Option (Option Lock)
  | [] => some none
  | o :: rest =>
    match o, going rest with
    | .begins l, some none => some (some l)
    | .ends, some (some _) => some none
    | .blast, g => g
    | .clash, g => g
    | _, _ => none

theorem going_begin {log : List Out} (l : Lock) (h : going log = some none) : going (.begins l :: log) = some (some l) := by
  simp [going, h]

theorem going_end {log : List Out} {l : Lock} (h : going log = some (some l)) : going (.ends :: log) = some none := by
  simp [going, h]

theorem off_going (s : S) (h : going s.log = some s.lock) : going (off s).log = some (off s).lock := by
  unfold off
  cases s.power with
  | off => exact h
  | pending => exact h
  | on =>
    dsimp only
    cases hl : s.lock with
    | none => rw [hl] at h; simpa [hl] using h
    | some l => rw [hl] at h; exact going_end h

theorem begin_going (l : Lock) (s : S) (h : going s.log = some s.lock) (hl : s.lock = none) :
    going (begin l s).log = some (begin l s).lock := going_begin l (by rw [h, hl])

theorem step_going (e : Env) (he : (e.three && e.lockup) = false) (s : S) (ev : Ev) (h : going s.log = some s.lock) :
    going (step e s ev).log = some (step e s ev).lock := by
  cases ev <;> dsimp only [step]
  case power held free =>
    repeat' split
    · rw [(startTrack_frame ..).2.2.2.1, (startTrack_frame ..).2.2.2.2.1]; exact h
    · exact h
    · exact h
    · exact off_going s h
    · unfold pressOn
      split
      next hc =>
        have hl : s.lock = none := by simp at hc; exact hc.1
        split
        · exact begin_going _ s h hl
        · split
          · simpa [going] using h
          · exact begin_going _ s h hl
      · exact h
  case auxSaved free =>
    repeat' split
    · exact h
    · rw [(startTrack_frame ..).2.2.2.1, (startTrack_frame ..).2.2.2.2.1]; exact h
    · exact h
  case auxHeld free =>
    split
    · rw [(nextTrack_frame ..).2.2.2.1, (nextTrack_frame ..).2.2.2.2.1]; exact h
    · exact h
  case offElsewhere => exact off_going s h
  case poll free => rw [(poll_frame ..).2.2.2.1, (poll_frame ..).2.2.2.2.1]; exact h
  case auxClick =>
    repeat' split
    · exact h
    · exact h
    · simpa [going] using h
  case bothAux =>
    split
    next hc => simp at hc he; simp [he hc.1.2] at hc
    · exact h
  case clashAux d =>
    split
    next hc => exact begin_going _ s h (by simp at hc; exact hc.1.2)
    · exact h
  case stabAux =>
    split
    next hc => exact begin_going _ s h (by simp at hc; exact hc.1.2)
    · exact h
  case released =>
    split
    next hc =>
      simp at hc
      obtain ⟨_, hs⟩ := hc
      cases hl : s.lock with
      | none => simp [hl] at hs
      | some l => rw [hl] at h; exact going_end h
    · exact h
  all_goals (repeat' split)
  all_goals exact h

/-! ## Claims -/

/-- **C143.** Whatever happens, and however the hilt is turned, the volume stays between a tenth of the loudest and the loudest. -/
theorem C143_volume (e : Env) (evs : List Ev) (s : S) (h : e.V / 10 ≤ s.vol ∧ s.vol ≤ e.V) :
    e.V / 10 ≤ (run e s evs).vol ∧ (run e s evs).vol ≤ e.V := by
  induction evs generalizing s with
  | nil => exact h
  | cons a evs ih => exact ih _ (step_vol e s a h)

/-- **C143.** In the menu a turn one way takes a tenth more, up to the loudest, and a turn the other way a tenth less, down to a tenth. -/
theorem C143_turn (e : Env) (s : S) (h : e.V / 10 ≤ s.vol ∧ s.vol ≤ e.V) (h10 : 10 ∣ e.V) (hm : s.menu = true) :
    (step e s (.turn true)).vol = min e.V (s.vol + e.V / 10) ∧ (step e s (.turn false)).vol = max (e.V / 10) (s.vol - e.V / 10) := by
  obtain ⟨k, hk⟩ := h10
  dsimp only [step]
  rw [if_pos hm, if_pos hm]
  dsimp only [up, down]
  simp only [if_true, Bool.false_eq_true, if_false]
  constructor
  · split <;> omega
  · split <;> omega

/-- **C143.** Counterexample: if the loudest is below ten, a turn changes nothing. -/
theorem C143_turn_counterexample (e : Env) (s : S) (hV : e.V < 10) (h : s.vol < e.V) : (step e s (.turn true)).vol = s.vol := by
  dsimp only [step]
  split
  · simp only [if_true, up]; split <;> omega
  · rfl

/-- **C143.** While the volume menu is open and the blade on, no button, clash or stab turns it off, begins a lockup, blasts or clashes, in any build but that
with three buttons and `CAIWYN_BUTTON_LOCKUP`; the menu closes only by a click of power, which keeps the volume, or of aux, which makes it loudest. -/
theorem C143_menu (e : Env) (he : (e.three && e.lockup) = false) (s : S) (ev : Ev) (hm : s.menu = true) (hp : s.power ≠ .off) (ho : ev ≠ .offElsewhere) :
    (step e s ev).power ≠ .off ∧ ((step e s ev).log = s.log ∨ (step e s ev).log = .ends :: s.log) ∧
      (((step e s ev).menu = false) ↔ (ev = .powerClick ∨ ev = .auxClick)) ∧
      (ev = .powerClick → (step e s ev).vol = s.vol) ∧ (ev = .auxClick → (step e s ev).vol = e.V) := by
  cases ev <;> simp only [step]
  case offElsewhere => exact absurd rfl ho
  case poll free =>
    obtain ⟨h1, h2, h3, h4, h5, h6⟩ := poll_frame e free s
    refine ⟨by rw [h2]; exact hp, Or.inl h5, ?_, (fun h => by (cases h)), (fun h => by (cases h))⟩
    rw [h3, hm]; simp
  case power held free =>
    rw [if_neg hp]
    cases held <;> simp [hm, hp, pressOn]
  case bothAux =>
    have : ¬((e.three = true) ∧ e.lockup = true) := by simp at he; intro hh; simp [he hh.1] at hh
    simp [hm, hp, this]
  case started => split <;> simp_all
  case released => split <;> simp_all
  all_goals simp [hm, hp]

/-- **C143.** Counterexample: with three buttons and `CAIWYN_BUTTON_LOCKUP`, aux and aux2 together begin a lockup within the menu, and a second lockup within
a lockup. -/
theorem C143_menu_counterexample (e : Env) (h3 : e.three = true) (hl : e.lockup = true) (s : S) (hp : s.power ≠ .off) :
    (step e s .bothAux).log = .begins .lightning :: s.log ∧
      going (step e (step e s .bothAux) .bothAux).log = none := by
  have h1 : step e s .bothAux = begin .lightning s := by simp [step, hp, h3, hl]
  have h2 : step e (begin .lightning s) .bothAux = begin .lightning (begin .lightning s) := by simp [step, begin, hp, h3, hl]
  rw [h1, h2]
  refine ⟨rfl, ?_⟩
  dsimp only [begin]
  cases hh : going s.log with
  | none => simp [going, hh]
  | some x => cases x <;> simp [going, hh]

/-- **C143.** Otherwise lockups begin and end in turn, whatever happens after booting. -/
theorem C143_lockup (e : Env) (he : (e.three && e.lockup) = false) (track mode : Nat) (evs : List Ev) :
    going (run e (boot e track mode) evs).log = some (run e (boot e track mode) evs).lock := by
  have : ∀ (s : S), going s.log = some s.lock → going (run e s evs).log = some (run e s evs).lock := by
    induction evs with
    | nil => exact fun s h => h
    | cons a evs ih => exact fun s h => ih _ (step_going e he s a h)
  exact this _ rfl

/-- **C143.** While on, releasing any button ends the lockup; so does turning off, once the blade is on. -/
theorem C143_release (e : Env) (s : S) :
    (s.power ≠ .off → (step e s .released).lock = none) ∧ (s.power = .on → (step e s .offElsewhere).lock = none) := by
  constructor
  · intro hp
    dsimp only [step]
    cases hl : s.lock <;> simp [hl, hp]
  · intro hp
    dsimp only [step, off]
    rw [hp]
    cases hl : s.lock <;> simp

/-- **C143.** Counterexample: a lockup begun during pre-on outlives the blade being turned off, and releasing the buttons does not end it. -/
theorem C143_release_counterexample (e : Env) (track mode : Nat) (n : Nat) :
    (run e (boot e track mode) ([.power false true, .stabAux, .offElsewhere] ++ List.replicate n .released)).power = .off ∧
      (run e (boot e track mode) ([.power false true, .stabAux, .offElsewhere] ++ List.replicate n .released)).lock = some .melt := by
  have key : ∀ (s : S), s.power = .off → run e s (List.replicate n .released) = s := by
    induction n with
    | zero => exact fun _ _ => rfl
    | succ n ih =>
      intro s hs
      have : step e s .released = s := by simp [step, hs]
      rw [List.replicate_succ]
      show run e (step e s .released) _ = s
      rw [this]; exact ih s hs
  have h1 : ∀ (evs : List Ev), run e (boot e track mode) ([.power false true, .stabAux, .offElsewhere] ++ evs)
      = run e (run e (boot e track mode) [.power false true, .stabAux, .offElsewhere]) evs := fun evs => by
    simp only [run, List.foldl_append]
  rw [h1]
  have h2 : (run e (boot e track mode) [.power false true, .stabAux, .offElsewhere]).power = .off := by
    simp [run, step, boot, begin, off]
  rw [key _ h2]
  exact ⟨h2, by simp [run, step, boot, begin, off]⟩

/-- **C143.** Counterexample: the volume menu outlives the blade being turned off otherwise, and turning the dark hilt then changes the volume; neither
click closes it. -/
theorem C143_idle_counterexample (e : Env) (s : S) (hm : s.menu = true) :
    (step e s .offElsewhere).menu = true ∧
      ∀ t : S, t.menu = true → t.power = .off → ∀ u, (step e t (.turn u)).vol = (if u then up e.V t.vol else down e.V t.vol) ∧
        step e t .powerClick = t ∧ step e t .auxClick = t := by
  refine ⟨?_, fun t ht hp u => ?_⟩
  · dsimp only [step]; rw [(off_frame s).2.1]; exact hm
  · dsimp only [step]
    rw [if_pos ht]
    refine ⟨rfl, ?_, if_pos hp⟩
    simp [hp]

/-- **C143.** The mode is one of the three whatever happens, if the one read from the card was; and three changes lead back. -/
theorem C143_mode (e : Env) (evs : List Ev) (s : S) (h : s.mode < 3) :
    (run e s evs).mode < 3 ∧ changeMode (changeMode (changeMode s.mode)) = s.mode ∧ changeMode s.mode ≠ s.mode := by
  refine ⟨?_, ?_, ?_⟩
  · induction evs generalizing s with
    | nil => exact h
    | cons a evs ih => exact ih _ (step_mode e s a h)
  · have : s.mode = 0 ∨ s.mode = 1 ∨ s.mode = 2 := by omega
    rcases this with h | h | h <;> rw [h] <;> rfl
  · have : s.mode = 0 ∨ s.mode = 1 ∨ s.mode = 2 := by omega
    rcases this with h | h | h <;> rw [h] <;> decide

/-- **C143.** Counterexample: any other number read from the card stays for good, whatever is pressed, and when a track ends, the player stays on, silent. -/
theorem C143_mode_counterexample (e : Env) (evs : List Ev) (s : S) (h : 3 ≤ s.mode) :
    (run e s evs).mode = s.mode ∧ ∀ free, step e (step e s .trackEnds) (.poll free) = { s with player := none } := by
  refine ⟨?_, fun free => ?_⟩
  · induction evs generalizing s with
    | nil => rfl
    | cons a evs ih =>
      have h1 := step_mode_bad e s a h
      exact (ih (step e s a) (by omega)).trans h1
  · dsimp only [step, poll]
    split
    · split <;> first | omega | rfl
    · rfl

/-- A track ends and is polled for, `k` times. -/
def rounds (e : Env) (s : S) : Nat → S
  | 0 => s
  | k + 1 => step e (step e (rounds e s k) .trackEnds) (.poll true)

theorem find_next : ∀ (ts : List Nat), ts.Pairwise (· < ·) → ∀ (i : Nat) (hi : i < ts.length),
    ts.find? (fun t => decide (ts[i] < t)) = ts[i + 1]? := by
  intro ts h
  induction ts with
  | nil => intro i hi; simp at hi
  | cons a ts ih =>
    intro i hi
    rw [List.pairwise_cons] at h
    cases i with
    | zero =>
      simp only [List.getElem_cons_zero, List.find?_cons]
      rw [show decide (a < a) = false by simp]
      cases ts with
      | nil => rfl
      | cons b ts =>
        have : a < b := h.1 b (List.mem_cons_self ..)
        simp [this]
    | succ i =>
      simp only [List.length_cons, Nat.add_lt_add_iff_right] at hi
      simp only [List.getElem_cons_succ, List.find?_cons]
      have hlt : a < ts[i] := h.1 _ (List.getElem_mem hi)
      rw [show decide (ts[i] < a) = false by simp; omega]
      rw [ih h.2 i hi]
      simp

theorem nextOf_get (ts : List Nat) (h : ts.Pairwise (· < ·)) (i : Nat) (hi : i < ts.length) :
    nextOf ts ts[i] = ts[(i + 1) % ts.length]'(Nat.mod_lt _ (by omega)) := by
  unfold nextOf
  rw [find_next ts h i hi]
  by_cases hlt : i + 1 < ts.length
  · rw [List.getElem?_eq_getElem hlt]
    simp only [Option.getD_some, Nat.mod_eq_of_lt hlt]
  · have he : i + 1 = ts.length := by omega
    rw [List.getElem?_eq_none (by omega)]
    simp only [Option.getD_none, he, Nat.mod_self]
    cases ts with
    | nil => simp at hi
    | cons a ts => rfl

/-- **C143.** With all tracks repeated, the tracks are played one after another in the order of their names, round and round, for ever; the preset's track
is not changed. -/
theorem C143_rotate (e : Env) (hs : e.tracks.Pairwise (· < ·)) (s : S) (hm : s.mode = 2) (ht : s.trackOn = true) (i : Nat) (hi : i < e.tracks.length)
    (hc : s.cur = e.tracks[i]) (k : Nat) (hk : 0 < k) :
    (rounds e s k).player = some (e.tracks[(i + k) % e.tracks.length]'(Nat.mod_lt _ (by omega))) ∧ (rounds e s k).saved = s.saved ∧
      (rounds e s k).trackOn = true := by
  have key : ∀ k, (rounds e s k).cur = e.tracks[(i + k) % e.tracks.length]'(Nat.mod_lt _ (by omega)) ∧ (rounds e s k).saved = s.saved ∧
      (rounds e s k).trackOn = true ∧ (rounds e s k).mode = 2 ∧ (0 < k → (rounds e s k).player = some (rounds e s k).cur) := by
    intro k
    induction k with
    | zero =>
      refine ⟨?_, rfl, ht, hm, fun h => absurd h (by omega)⟩
      simp only [Nat.add_zero, Nat.mod_eq_of_lt hi]; exact hc
    | succ k ih =>
      obtain ⟨h1, h2, h3, h4, _⟩ := ih
      have hstep : rounds e s (k + 1) = { (rounds e s k) with cur := nextOf e.tracks (rounds e s k).cur, player := some (nextOf e.tracks (rounds e s k).cur), trackOn := true } := by
        show step e (step e (rounds e s k) .trackEnds) (.poll true) = _
        dsimp only [step, poll]
        rw [h3, h4]
        simp [nextTrack, playTrack]
      rw [hstep]
      refine ⟨?_, h2, rfl, h4, fun _ => rfl⟩
      dsimp only
      have := nextOf_get e.tracks hs ((i + k) % e.tracks.length) (Nat.mod_lt _ (by omega))
      rw [h1, this]
      congr 1
      rw [Nat.mod_add_mod]
      rfl
  obtain ⟨h1, h2, h3, _, h5⟩ := key k
  exact ⟨by rw [h5 hk, h1], h2, h3⟩

/-- **C143.** With a track played once, the player stops when it ends; with it repeated, the same track is played again. -/
theorem C143_ends (e : Env) (s : S) (ht : s.trackOn = true) :
    (s.mode = 0 → (step e (step e s .trackEnds) (.poll true)).trackOn = false ∧ (step e (step e s .trackEnds) (.poll true)).player = none) ∧
    (s.mode = 1 → (step e (step e s .trackEnds) (.poll true)).trackOn = true ∧ (step e (step e s .trackEnds) (.poll true)).player = some s.cur ∧
      (step e (step e s .trackEnds) (.poll true)).cur = s.cur) := by
  constructor
  · intro h; dsimp only [step, poll]; rw [ht, h]; simp [stopTrack]
  · intro h; dsimp only [step, poll]; rw [ht, h]; simp [playTrack]

/-- **C143.** With the blade off, a click of aux stops a playing track, and it stays stopped however often it is polled for; a click when none plays starts
the preset's track, or the first of the font if there is no such file. -/
theorem C143_toggle (e : Env) (s : S) (hp : s.power = .off) (n : Nat) :
    (s.trackOn = true → (run e (step e s (.auxSaved true)) (List.replicate n (.poll true))).player = none ∧
      (run e (step e s (.auxSaved true)) (List.replicate n (.poll true))).trackOn = false) ∧
    (s.trackOn = false → e.there s.cur = true → (step e s (.auxSaved true)).player = some s.cur ∧ (step e s (.auxSaved true)).trackOn = true) ∧
    (s.trackOn = false → e.there s.cur = false → ∀ t ts, e.tracks = t :: ts →
      (step e s (.auxSaved true)).player = some t ∧ (step e s (.auxSaved true)).trackOn = true) := by
  refine ⟨fun ht => ?_, fun ht hc => ?_, fun ht hc t ts h => ?_⟩
  · have key : ∀ (u : S), u.trackOn = false → run e u (List.replicate n (.poll true)) = u := by
      induction n with
      | zero => exact fun _ _ => rfl
      | succ n ih =>
        intro u hu
        have : step e u (.poll true) = u := by simp [step, poll, hu]
        rw [List.replicate_succ]
        show run e (step e u (.poll true)) _ = u
        rw [this]; exact ih u hu
    have h1 : step e s (.auxSaved true) = stopTrack s := by simp [step, hp, ht]
    rw [h1, key _ rfl]
    exact ⟨rfl, rfl⟩
  · simp [step, hp, ht, startTrack, hc, playTrack]
  · simp [step, hp, ht, startTrack, hc, h, playTrack]

/-- **C143.** With the blade off, aux held while a track plays goes to the next track and, with `CAIWYN_SAVE_TRACKS`, makes it the preset's track. -/
theorem C143_choose (e : Env) (hs : e.tracks.Pairwise (· < ·)) (s : S) (hp : s.power = .off) (ht : s.trackOn = true) (i : Nat) (hi : i < e.tracks.length)
    (hc : s.cur = e.tracks[i]) :
    let t := e.tracks[(i + 1) % e.tracks.length]'(Nat.mod_lt _ (by omega))
    (step e s (.auxHeld true)).player = some t ∧ (step e s (.auxHeld true)).saved = (if e.saves then t else s.saved) := by
  have hn := nextOf_get e.tracks hs i hi
  have hne : e.tracks.isEmpty = false := by
    cases h : e.tracks with
    | nil => simp [h] at hi
    | cons a l => rfl
  dsimp only [step]
  rw [if_pos (by simp [hp, ht])]
  dsimp only [nextTrack]
  rw [hc, hn]
  simp [playTrack, hne]

/-- The claims apply: three tracks, the second playing, all repeated. -/
example : ∃ (e : Env) (s : S), e.tracks.Pairwise (· < ·) ∧ s.mode = 2 ∧ s.trackOn = true ∧ (1 : Nat) < e.tracks.length ∧ s.cur = 5 ∧
    (rounds e s 2).player = some 2 ∧ (rounds e s 4).player = some 9 ∧ (e.three && e.lockup) = false ∧ e.V / 10 ≤ s.vol ∧ s.vol ≤ e.V ∧ 10 ∣ e.V ∧ s.menu = true ∧
    s.power ≠ .off :=
  ⟨⟨1500, true, false, false, true, [2, 5, 9], fun _ => true⟩, ⟨.on, true, some .melt, 900, true, some 5, 2, 5, 5, 2, []⟩, by decide, rfl, rfl, by decide, rfl,
    by decide, by decide, rfl, by decide, by decide, by decide, rfl, by decide⟩

end Verif.Prop.Caiwyn
