/-!
# The booster (C107) and PWM blades (C108)

Model of `Booster` (common/booster.h:8-88) and of `Simple_Blade` (blades/simple_blade.h:146-270).
The amplifier, the prop's needs and the blades are reduced to one input of the booster: whether any
of them needs power.  The clock stands still within one call (`delay(10)` is left out).
-/
namespace Verif.Blade.Booster

/-- The clock `millis()` has 32 bits. -/
abbrev M : Nat := 4294967296

/-- Where the thread in `Loop` waits, common/booster.h:46-57; `sleep r`: in the loop of sleeps with
`r` more to follow. -/
inductive Pc
  | active | sleep (r : Nat) | idle
deriving DecidableEq, Repr

/-- Members of `Booster` and the pin; `now` is the real time in milliseconds.  `enabledAt` and
`quietAt` are not in the code: the real times of the latest `Enable` and of the beginning of the
current sleeps. -/
structure St where
  now : Nat
  pc : Pc
  until_ : Nat
  on : Bool
  last : Nat
  pin : Bool
  enabledAt : Nat
  quietAt : Nat
deriving DecidableEq, Repr

/-- `Setup`, common/booster.h:38-43. -/
def boot (now : Nat) : St := ⟨now, .active, 0, false, now % M, false, now, now⟩

/-- `Active`, common/booster.h:13-23; `busy`: amplifier, prop or blades need power. -/
def active (s : St) (busy : Bool) : Bool := busy || decide ((s.now % M + M - s.last) % M < 10000)

/-- `Enable`, common/booster.h:25-35. -/
def enable (s : St) : St :=
  if s.on then { s with last := s.now % M, enabledAt := s.now }
  else { s with last := s.now % M, enabledAt := s.now, on := true, pin := true }

/-- After the loop of sleeps, common/booster.h:52-57. -/
def tail (s : St) (busy : Bool) : St :=
  if active s busy then { s with pc := .active } else { s with pin := false, on := false, pc := .idle }

/-- `SLEEP`, common/state_machine.h:13: whether to go on sleeping. -/
def asleep (s : St) : Bool := decide (s.now % M < s.until_)

/-- The loop of sleeps with `r` to go, common/booster.h:50-51. -/
def sleeps (busy : Bool) : Nat → St → St
  | 0, s => tail s busy
  | r+1, s =>
    if active s busy then tail s busy
    else if asleep { s with until_ := (s.now % M + 100) % M } then { s with until_ := (s.now % M + 100) % M, pc := .sleep r }
    else sleeps busy r { s with until_ := (s.now % M + 100) % M }

/-- The outer loop from its beginning, common/booster.h:47-48. -/
def top (s : St) (busy : Bool) : St :=
  if active s busy then { s with pc := .active } else sleeps busy 10 { s with quietAt := s.now }

/-- `Loop`, common/booster.h:45-60. -/
def loop (s : St) (busy : Bool) : St :=
  match s.pc with
  | .active => top s busy
  | .sleep r => if asleep s then s else sleeps busy r s
  | .idle => if active s busy then top s busy else s

/-- The command `booster off`, common/booster.h:68-71. -/
def commandOff (s : St) : St := { s with pin := false }

/-- What may happen: time passes, the main loop comes by, someone needs the booster. -/
inductive Ev
  | tick (ms : Nat) | loop (busy : Bool) | enable
deriving DecidableEq, Repr

/-- One event. -/
def step (s : St) : Ev → St
  | .tick d => { s with now := s.now + d }
  | .loop b => loop s b
  | .enable => enable s

/-- Time passed in a history. -/
def span : List Ev → Nat
  | [] => 0
  | .tick d :: es => d + span es
  | _ :: es => span es

/-! ## Lemmas -/

/-- The invariant. -/
structure Inv (s : St) : Prop where
  pin : s.pin = s.on
  last : s.last = s.enabledAt % M
  past : s.enabledAt ≤ s.now

theorem active_false (s : St) (h : Inv s) (b : Bool) (ha : active s b = false) : b = false ∧ s.enabledAt + 10000 ≤ s.now := by
  unfold active at ha
  rw [Bool.or_eq_false_iff, decide_eq_false_iff_not] at ha
  refine ⟨ha.1, ?_⟩
  have h1 := h.last
  have h2 := h.past
  have h3 := ha.2
  rw [h1] at h3
  simp only [M] at h3
  omega

/-- What every part of `Loop` keeps: the times, and either the pin or it is switched off when nothing
is active. -/
def Keep (s t : St) (b : Bool) : Prop :=
  t.now = s.now ∧ t.last = s.last ∧ t.enabledAt = s.enabledAt ∧
  (t.pin = s.pin ∧ t.on = s.on ∨ t.pin = false ∧ t.on = false ∧ active s b = false)

theorem keep_tail (s : St) (b : Bool) : Keep s (tail s b) b := by
  unfold tail Keep
  by_cases h : active s b = true
  · rw [if_pos h]; exact ⟨rfl, rfl, rfl, Or.inl ⟨rfl, rfl⟩⟩
  · rw [if_neg h]
    exact ⟨rfl, rfl, rfl, Or.inr ⟨rfl, rfl, by simpa using h⟩⟩

theorem keep_sleeps (b : Bool) (r : Nat) (s : St) : Keep s (sleeps b r s) b := by
  induction r generalizing s with
  | zero => exact keep_tail s b
  | succ r ih =>
    unfold sleeps
    split
    · exact keep_tail s b
    · split
      · exact ⟨rfl, rfl, rfl, Or.inl ⟨rfl, rfl⟩⟩
      · exact ih { s with until_ := (s.now % M + 100) % M }

theorem keep_top (s : St) (b : Bool) : Keep s (top s b) b := by
  unfold top
  split
  · exact ⟨rfl, rfl, rfl, Or.inl ⟨rfl, rfl⟩⟩
  · exact keep_sleeps b 10 { s with quietAt := s.now }

theorem keep_loop (s : St) (b : Bool) : Keep s (loop s b) b := by
  unfold loop
  split
  · exact keep_top s b
  · split
    · exact ⟨rfl, rfl, rfl, Or.inl ⟨rfl, rfl⟩⟩
    · exact keep_sleeps b _ s
  · split
    · exact keep_top s b
    · exact ⟨rfl, rfl, rfl, Or.inl ⟨rfl, rfl⟩⟩

theorem loop_asleep (s : St) (r : Nat) (b : Bool) (hp : s.pc = .sleep r) (ha : asleep s = true) : loop s b = s := by
  unfold loop
  rw [hp]
  simp only [ha, if_true]

theorem step_inv (s : St) (h : Inv s) (e : Ev) : Inv (step s e) := by
  obtain ⟨h1, h2, h3⟩ := h
  cases e with
  | tick d => exact ⟨h1, h2, Nat.le_trans h3 (Nat.le_add_right _ _)⟩
  | enable =>
    unfold step enable
    simp only
    split
    · exact ⟨h1, rfl, Nat.le_refl _⟩
    · exact ⟨rfl, rfl, Nat.le_refl _⟩
  | loop b =>
    obtain ⟨k1, k2, k3, k4⟩ := keep_loop s b
    refine ⟨?_, by simp only [step]; rw [k2, k3]; exact h2, by simp only [step]; rw [k1, k3]; exact h3⟩
    simp only [step]
    rcases k4 with ⟨a, b⟩ | ⟨a, b, _⟩
    · rw [a, b]; exact h1
    · rw [a, b]

theorem run_inv (es : List Ev) (s : St) (h : Inv s) : Inv (es.foldl step s) := by
  induction es generalizing s with
  | nil => exact h
  | cons e es ih => exact ih _ (step_inv s h e)

theorem boot_inv (t : Nat) : Inv (boot t) := ⟨rfl, rfl, Nat.le_refl _⟩

/-! ## The claims -/

/-- Whoever enables the booster has it at once and for at least ten seconds, in every history of
other events before and after. -/
theorem C107_hold (t : Nat) (es fs : List Ev) (hs : span fs < 10000) :
    (fs.foldl step (step (es.foldl step (boot t)) .enable)).pin = true := by
  have hinv := run_inv es (boot t) (boot_inv t)
  generalize es.foldl step (boot t) = s at hinv
  have h0 : (step s .enable).pin = true ∧ (step s .enable).enabledAt = (step s .enable).now := by
    unfold step enable
    simp only
    by_cases ho : s.on = true
    · rw [if_pos ho]
      exact ⟨by rw [hinv.pin]; exact ho, rfl⟩
    · rw [if_neg ho]
      exact ⟨rfl, rfl⟩
  have key : ∀ (T : Nat) (fs : List Ev) (u : St), Inv u → u.pin = true → T ≤ u.enabledAt → u.now + span fs < T + 10000 →
      (fs.foldl step u).pin = true := by
    intro T fs
    induction fs with
    | nil => intro u _ h _ _; exact h
    | cons e fs ih =>
      intro u hu hp hT hn
      have hpast := hu.past
      apply ih (step u e) (step_inv u hu e)
      · cases e with
        | tick d => exact hp
        | enable =>
          unfold step enable
          simp only
          split
          · exact hp
          · rfl
        | loop b =>
          obtain ⟨k1, k2, k3, k4⟩ := keep_loop u b
          rcases k4 with ⟨a, _⟩ | ⟨_, _, a⟩
          · simp only [step]; rw [a]; exact hp
          · have := (active_false u hu b a).2
            omega
      · cases e with
        | tick d => exact hT
        | enable =>
          simp only [step]
          unfold enable
          split <;> simp only <;> omega
        | loop b =>
          simp only [step]
          rw [(keep_loop u b).2.2.1]; exact hT
      · cases e with
        | tick d => simp only [step, span] at hn ⊢; omega
        | enable =>
          simp only [step, span] at hn ⊢
          unfold enable
          split <;> simp only <;> omega
        | loop b =>
          obtain ⟨k1, k2, k3, _⟩ := keep_loop u b
          simp only [step, span] at hn ⊢
          rw [k1]; exact hn
  exact key (step s .enable).enabledAt fs _ (step_inv s hinv .enable) h0.1 (Nat.le_refl _) (by rw [h0.2]; omega)

/-- The booster is switched off only when nothing needs power and nobody has enabled it for ten
seconds. -/
theorem C107_off_only_quiet (t : Nat) (es : List Ev) (e : Ev) (h1 : (es.foldl step (boot t)).pin = true)
    (h2 : (step (es.foldl step (boot t)) e).pin = false) :
    e = .loop false ∧ (es.foldl step (boot t)).enabledAt + 10000 ≤ (es.foldl step (boot t)).now := by
  have hinv := run_inv es (boot t) (boot_inv t)
  generalize es.foldl step (boot t) = s at *
  cases e with
  | tick d => simp [step, h1] at h2
  | enable =>
    unfold step enable at h2
    simp only at h2
    split at h2
    · rw [h1] at h2; cases h2
    · cases h2
  | loop b =>
    obtain ⟨_, _, _, k4⟩ := keep_loop s b
    rcases k4 with ⟨a, _⟩ | ⟨_, _, a⟩
    · simp only [step] at h2; rw [a, h1] at h2; cases h2
    · obtain ⟨hb, ht⟩ := active_false s hinv b a
      exact ⟨by rw [hb], ht⟩

/-- In the loop of sleeps. -/
def Slow (s : St) : Prop :=
  match s.pc with
  | .sleep r => r ≤ 9 ∧ s.quietAt + 100 * (10 - r) ≤ s.until_
  | _ => True

theorem sleeps_slow (b : Bool) (r : Nat) (s : St) (hr : r ≤ 10) (hq : s.quietAt + 100 * (10 - r) ≤ s.now) (hm : s.now + 100 < M) :
    Slow (sleeps b r s) ∧ ((sleeps b r s).pin = s.pin ∨ (sleeps b r s).quietAt + 1000 ≤ s.now) := by
  have e1 : s.now % M = s.now := Nat.mod_eq_of_lt (by omega)
  have e2 : (s.now + 100) % M = s.now + 100 := Nat.mod_eq_of_lt hm
  have tl : r = 0 ∨ active s b = true → Slow (tail s b) ∧ ((tail s b).pin = s.pin ∨ (tail s b).quietAt + 1000 ≤ s.now) := by
    intro h
    unfold tail
    by_cases ha : active s b = true
    · rw [if_pos ha]; exact ⟨trivial, Or.inl rfl⟩
    · rw [if_neg ha]
      refine ⟨trivial, Or.inr ?_⟩
      rcases h with h | h
      · subst h; simp only; omega
      · exact absurd h ha
  cases r with
  | zero => exact tl (Or.inl rfl)
  | succ r =>
    unfold sleeps
    by_cases ha : active s b = true
    · rw [if_pos ha]; exact tl (Or.inr ha)
    · rw [if_neg ha, if_pos (by simp only [asleep, e1, e2, decide_eq_true_eq]; omega)]
      refine ⟨?_, Or.inl rfl⟩
      unfold Slow
      simp only [e1, e2]
      omega

theorem step_slow (s : St) (h : Slow s) (e : Ev) (hm : s.now + 100 < M) :
    Slow (step s e) ∧ (s.pin = true → (step s e).pin = false → (step s e).quietAt + 1000 ≤ s.now) := by
  have e1 : s.now % M = s.now := Nat.mod_eq_of_lt (by omega)
  cases e with
  | tick d => exact ⟨h, fun h1 h2 => by simp [step, h1] at h2⟩
  | enable =>
    unfold step enable
    simp only
    split
    · exact ⟨h, fun h1 h2 => by rw [h1] at h2; cases h2⟩
    · exact ⟨h, fun h1 h2 => by cases h2⟩
  | loop b =>
    have tp : Slow (top s b) ∧ (s.pin = true → (top s b).pin = false → (top s b).quietAt + 1000 ≤ s.now) := by
      unfold top
      split
      · exact ⟨trivial, fun h1 h2 => by rw [h1] at h2; cases h2⟩
      · obtain ⟨a, c⟩ := sleeps_slow b 10 { s with quietAt := s.now } (Nat.le_refl _) (by simp) hm
        refine ⟨a, fun h1 h2 => ?_⟩
        rcases c with c | c
        · rw [c] at h2; rw [h1] at h2; cases h2
        · exact c
    simp only [step]
    unfold loop
    cases hp : s.pc with
    | active => exact tp
    | sleep r =>
      unfold Slow at h
      rw [hp] at h
      simp only at h ⊢
      by_cases ha : asleep s = true
      · rw [if_pos ha]
        refine ⟨by unfold Slow; rw [hp]; exact h, fun h1 h2 => by rw [h1] at h2; cases h2⟩
      · rw [if_neg ha]
        have hu : s.until_ ≤ s.now := by
          simp only [asleep, e1, decide_eq_true_eq] at ha; omega
        obtain ⟨a, c⟩ := sleeps_slow b r s (by omega) (by omega) hm
        refine ⟨a, fun h1 h2 => ?_⟩
        rcases c with c | c
        · rw [c, h1] at h2; cases h2
        · exact c
    | idle =>
      simp only
      split
      · exact tp
      · exact ⟨by unfold Slow; rw [hp]; trivial, fun h1 h2 => by rw [h1] at h2; cases h2⟩

/-- There is a second between the first moment of inactivity seen and switching off (as long as the
clock has not wrapped around). -/
theorem C107_second_partial (t : Nat) (es : List Ev) (e : Ev) (hm : t + span es + 100 < M)
    (h1 : (es.foldl step (boot t)).pin = true) (h2 : (step (es.foldl step (boot t)) e).pin = false) :
    (step (es.foldl step (boot t)) e).quietAt + 1000 ≤ (es.foldl step (boot t)).now := by
  have key : ∀ (es : List Ev) (s : St), Slow s → s.now + span es + 100 < M →
      Slow (es.foldl step s) ∧ (es.foldl step s).now = s.now + span es := by
    intro es
    induction es with
    | nil => intro s h _; exact ⟨h, rfl⟩
    | cons e es ih =>
      intro s h hn
      have hnow : (step s e).now + span es = s.now + span (e :: es) := by
        cases e with
        | tick d => simp only [step, span]; omega
        | enable => simp only [step, span, enable]; split <;> rfl
        | loop b => simp only [step, span]; rw [(keep_loop s b).1]
      obtain ⟨a, b⟩ := ih (step s e) (step_slow s h e (by omega)).1 (by omega)
      exact ⟨a, by rw [List.foldl]; omega⟩
  obtain ⟨a, b⟩ := key es (boot t) trivial hm
  exact (step_slow _ a e (by rw [b]; exact hm)).2 h1 h2

/-- Near the wrap around of the clock the booster is switched off at once. -/
theorem C107_second_counterexample :
    let s : St := ⟨M - 50, .active, 0, true, 0, true, 0, 0⟩
    active s false = false ∧ (loop s false).pin = false := by decide +kernel

/-- A sleep which is looked at only after the clock has wrapped around goes on for 49 days: the
booster stays on. -/
theorem C107_sleep_counterexample :
    let s : St := ⟨M - 110, .active, 0, true, 0, true, 0, 0⟩
    ∀ d, 110 ≤ d → d < 110 + 4294967000 → (step (step (loop s false) (.tick d)) (.loop false)).pin = true := by
  intro s d h1 h2
  have e : loop s false = ⟨M - 110, .sleep 9, M - 10, true, 0, true, 0, M - 110⟩ := by decide +kernel
  rw [e]
  have ha : asleep ⟨M - 110 + d, .sleep 9, M - 10, true, 0, true, 0, M - 110⟩ = true := by
    simp only [asleep, decide_eq_true_eq, M]; omega
  have hl := loop_asleep _ 9 false rfl ha
  have : step (step ⟨M - 110, .sleep 9, M - 10, true, 0, true, 0, M - 110⟩ (.tick d)) (.loop false) =
      ⟨M - 110 + d, .sleep 9, M - 10, true, 0, true, 0, M - 110⟩ := hl
  rw [this]

/-- After the command `booster off` enabling does not switch the booster on again. -/
theorem C107_command_counterexample (s : St) (h : s.on = true) (n : Nat) :
    (Nat.repeat enable n (commandOff s)).pin = false := by
  have key : ∀ n, (Nat.repeat enable n (commandOff s)).pin = false ∧ (Nat.repeat enable n (commandOff s)).on = true := by
    intro n
    induction n with
    | zero => exact ⟨rfl, h⟩
    | succ n ih =>
      simp only [Nat.repeat]
      generalize Nat.repeat enable n (commandOff s) = u at ih
      unfold enable
      rw [if_pos ih.2]
      exact ih
  exact (key n).1

/-! ## Switching off in the end -/

/-- Calls of the main loop with nothing needing power, at the given real times. -/
def quiet (s : St) : List Nat → St
  | [] => s
  | t :: ts => quiet (loop { s with now := t } false) ts

/-- The calls come at least every `g` milliseconds. -/
def Often (g : Nat) : Nat → List Nat → Prop
  | _, [] => True
  | prev, t :: ts => prev ≤ t ∧ t ≤ prev + g ∧ Often g t ts

/-- The time of the latest call. -/
def lastTime : Nat → List Nat → Nat
  | prev, [] => prev
  | _, t :: ts => lastTime t ts

/-- The latest time at which the booster will be off, if it is not yet. -/
def due (g : Nat) (s : St) : Nat :=
  match s.pc with
  | .active => s.now + g + 10 * (100 + g)
  | .sleep r => s.until_ + g + r * (100 + g)
  | .idle => 0

/-- The booster is off or will be. -/
def Going (s : St) : Prop :=
  match s.pc with
  | .active => True
  | .sleep r => r ≤ 9 ∧ s.now < s.until_
  | .idle => s.pin = false

theorem due_step (g : Nat) (s : St) (t : Nat) (hgo : Going s) (h1 : s.now ≤ t) (h2 : t ≤ s.now + g) (hm : t + 100 < M)
    (hl : s.last + 10000 ≤ t) :
    Going (loop { s with now := t } false) ∧ (loop { s with now := t } false).now = t ∧
    (loop { s with now := t } false).last = s.last ∧
    ((loop { s with now := t } false).pc ≠ .idle → due g (loop { s with now := t } false) ≤ due g s ∧ t ≤ due g s) ∧
    (s.pc = .idle → (loop { s with now := t } false).pc = .idle) := by
  have et : t % M = t := Nat.mod_eq_of_lt (by omega)
  have et2 : (t + 100) % M = t + 100 := Nat.mod_eq_of_lt hm
  have hact : ∀ u : St, u.now = t → u.last = s.last → active u false = false := by
    intro u hu hul
    unfold active
    rw [hu, hul, et, Bool.false_or, decide_eq_false_iff_not]
    have : (t + M - s.last) % M = t - s.last := by
      rw [show t + M - s.last = (t - s.last) + M by omega, Nat.add_mod_right]
      exact Nat.mod_eq_of_lt (by omega)
    rw [this]; omega
  have hsl : ∀ (r : Nat) (u : St), u.now = t → u.last = s.last → sleeps false (r + 1) u = { u with until_ := t + 100, pc := .sleep r } := by
    intro r u hu hul
    unfold sleeps
    rw [if_neg (by rw [hact u hu hul]; simp), if_pos]
    · rw [hu, et, et2]
    · simp only [asleep, hu, et, et2, decide_eq_true_eq]; omega
  have hz : ∀ u : St, u.now = t → u.last = s.last → sleeps false 0 u = { u with pin := false, on := false, pc := .idle } := by
    intro u hu hul
    unfold sleeps tail
    rw [if_neg (by rw [hact u hu hul]; simp)]
  have htop : ∀ u : St, u.now = t → u.last = s.last → top u false = { u with quietAt := t, until_ := t + 100, pc := .sleep 9 } := by
    intro u hu hul
    unfold top
    rw [if_neg (by rw [hact u hu hul]; simp), hsl 9 { u with quietAt := u.now } hu hul]
    simp only [hu]
  obtain ⟨u, hu⟩ : ∃ u : St, u = { s with now := t } := ⟨_, rfl⟩
  rw [← hu]
  have u1 : u.now = t := by rw [hu]
  have u2 : u.last = s.last := by rw [hu]
  have u3 : u.pc = s.pc := by rw [hu]
  have u4 : u.until_ = s.until_ := by rw [hu]
  have u5 : u.pin = s.pin := by rw [hu]
  unfold Going at hgo
  cases hp : s.pc with
  | active =>
    have e : loop u false = { u with quietAt := t, until_ := t + 100, pc := .sleep 9 } := by
      unfold loop; rw [u3, hp]; exact htop u u1 u2
    rw [e]
    refine ⟨by unfold Going; simp only; omega, u1, u2, fun _ => ?_, (fun h => nomatch h)⟩
    unfold due
    simp only [hp]
    omega
  | sleep r =>
    rw [hp] at hgo
    simp only at hgo
    by_cases ha : t < s.until_
    · have e : loop u false = u := loop_asleep u r false (by rw [u3, hp]) (by simp only [asleep, u1, u4, et, decide_eq_true_eq]; exact ha)
      rw [e]
      refine ⟨by unfold Going; rw [u3, hp]; simp only; omega, u1, u2, fun _ => ?_, (fun h => nomatch h)⟩
      unfold due
      rw [u3, hp]
      simp only
      omega
    · have has : asleep u = false := by simp only [asleep, u1, u4, et, decide_eq_false_iff_not]; exact ha
      have e : loop u false = sleeps false r u := by
        unfold loop; rw [u3, hp]; simp only [has, Bool.false_eq_true, if_false]
      rw [e]
      cases r with
      | zero =>
        rw [hz u u1 u2]
        exact ⟨rfl, u1, u2, fun h => absurd rfl h, (fun h => nomatch h)⟩
      | succ r =>
        rw [hsl r u u1 u2]
        refine ⟨by unfold Going; simp only; omega, u1, u2, fun _ => ?_, (fun h => nomatch h)⟩
        unfold due
        simp only [hp]
        have : (r + 1) * (100 + g) = r * (100 + g) + (100 + g) := Nat.succ_mul r (100 + g)
        omega
  | idle =>
    rw [hp] at hgo
    have e : loop u false = u := by
      unfold loop; rw [u3, hp]; simp only [hact u u1 u2, Bool.false_eq_true, if_false]
    rw [e]
    refine ⟨by unfold Going; rw [u3, hp]; simp only; rw [u5]; exact hgo, u1, u2, fun h => absurd (u3.trans hp) h, fun _ => u3.trans hp⟩

/-- When nothing has needed power for ten seconds and goes on so, with the main loop coming by at
least every `g` milliseconds, the booster is off after one second and eleven times `g`. -/
theorem C107_goes_off (g : Nat) (ts : List Nat) (s : St) (hgo : s.pc = .active) (hl : s.last + 10000 ≤ s.now)
    (ho : Often g s.now ts) (hm : lastTime s.now ts + 100 < M) (hlate : s.now + 1000 + 11 * g < lastTime s.now ts) :
    (quiet s ts).pin = false := by
  have key : ∀ (ts : List Nat) (s : St), Going s → s.last + 10000 ≤ s.now → Often g s.now ts → lastTime s.now ts + 100 < M →
      Going (quiet s ts) ∧ ((quiet s ts).pc ≠ .idle → (s.pc ≠ .idle) ∧ (ts = [] ∨ lastTime s.now ts ≤ due g s)) := by
    intro ts
    induction ts with
    | nil => intro s h _ _ _; exact ⟨h, fun h => ⟨h, Or.inl rfl⟩⟩
    | cons t ts ih =>
      intro s h hl ho hm
      obtain ⟨o1, o2, o3⟩ := ho
      have mono : ∀ (ts : List Nat) (p : Nat), Often g p ts → p ≤ lastTime p ts := by
        intro ts
        induction ts with
        | nil => intro p _; exact Nat.le_refl _
        | cons u us ih => intro p h; exact Nat.le_trans h.1 (ih u h.2.2)
      have hm2 := mono ts t o3
      simp only [lastTime] at hm ⊢
      obtain ⟨d1, d2, d3, d4, d5⟩ := due_step g s t h o1 o2 (by omega) (by omega)
      obtain ⟨i1, i2⟩ := ih _ d1 (by rw [d2, d3]; omega) (by rw [d2]; exact o3) (by rw [d2]; exact hm)
      refine ⟨i1, fun hn => ?_⟩
      obtain ⟨j1, j2⟩ := i2 hn
      obtain ⟨k1, k2⟩ := d4 j1
      refine ⟨fun hi => j1 (d5 hi), Or.inr ?_⟩
      rcases j2 with j2 | j2
      · rw [j2]; exact k2
      · rw [d2] at j2; omega
  obtain ⟨a, b⟩ := key ts s (by unfold Going; rw [hgo]; trivial) hl ho hm
  by_cases hi : (quiet s ts).pc = .idle
  · unfold Going at a; rw [hi] at a; exact a
  · obtain ⟨_, c⟩ := b hi
    rcases c with c | c
    · subst c; simp only [lastTime] at hlate; omega
    · unfold due at c
      rw [hgo] at c
      simp only at c
      omega

example : (quiet ⟨20000, .active, 0, true, 10000, true, 10000, 0⟩ ((List.range 45).map (fun i => 20000 + 30 * i))).pin = false ∧
    Often 30 20000 ((List.range 45).map (fun i => 20000 + 30 * i)) := by
  constructor
  · decide +kernel
  · simp [List.range, List.range.loop, Often]

/-- Idle after switching off, it notices the next use if the main loop comes by within ten seconds (and
then goes off again as above). -/
theorem C107_wakes (t : Nat) (es : List Ev) (b : Bool)
    (h : (es.foldl step (boot t)).now < (es.foldl step (boot t)).enabledAt + 10000) :
    (loop (es.foldl step (boot t)) b).pc ≠ .idle := by
  have hinv := run_inv es (boot t) (boot_inv t)
  generalize es.foldl step (boot t) = s at *
  have ha : active s b = true := by
    cases hh : active s b
    · exact absurd (active_false s hinv b hh).2 (by omega)
    · rfl
  have tl : ∀ u : St, active u b = true → (tail u b).pc ≠ .idle := by
    intro u hu; unfold tail; rw [if_pos hu]; simp
  have sl : ∀ r, (sleeps b r s).pc ≠ .idle := by
    intro r
    cases r with
    | zero => exact tl s ha
    | succ r => unfold sleeps; rw [if_pos ha]; exact tl s ha
  have tp : (top s b).pc ≠ .idle := by unfold top; rw [if_pos ha]; simp
  unfold loop
  cases hp : s.pc with
  | active => exact tp
  | idle => simp only; rw [if_pos ha]; exact tp
  | sleep r =>
    simp only
    split
    · rw [hp]; simp
    · exact sl r

/-- If the main loop does not come by for ten seconds after the booster has been enabled again, it is
never switched off. -/
theorem C107_starved_counterexample :
    let s := step (step ⟨50000, .idle, 0, false, 0, false, 0, 0⟩ .enable) (.tick 10000)
    (quiet s ((List.range 200).map (fun i => 60000 + 100 * i))).pin = true := by decide +kernel

end Verif.Blade.Booster

namespace Verif.Blade.Simple

/-- Members of `Simple_Blade` (blades/simple_blade.h:268-269), whether it takes part in the saber
(`AbstractBlade::Activate` links it), and `loaded_` of the battery monitor. -/
structure St where
  linked : Bool := false
  on : Bool := false
  power : Bool := false
  load : Bool := false
deriving DecidableEq, Repr

/-- What may happen to the blade. -/
inductive Ev
  | activate | deactivate | setStyle | allowDisable | turnOn | effect
  /-- `idle`: `off_type == OFF_IDLE` -/
  | turnOff (idle : Bool)
deriving DecidableEq, Repr

/-- `Activate`, `Deactivate`, `SetStyle`, `allow_disable`, `SB_On2`, `SB_Effect2`, `SB_Off2`,
blades/simple_blade.h:156-233.  Notices of the saber reach only blades which take part. -/
def step (s : St) : Ev → St
  | .activate => { s with power := true, linked := true }
  | .deactivate => { s with power := false, linked := false }
  | .setStyle => { s with power := true }
  | .allowDisable => if s.on then s else { s with power := false }
  | .turnOn => if s.linked then { s with load := true, on := true, power := true } else s
  | .effect => if s.linked then { s with load := true, power := true } else s
  | .turnOff idle => if s.linked then { s with load := false, on := false, power := if idle then false else s.power } else s

/-- `SB_IsOn`, blades/simple_blade.h:208-210. -/
def isOn (s : St) : Bool := s.on || s.power

/-- While the saber is on the LEDs have power, whatever the style and the effects do: in every history
from turning on without turning off or deactivating. -/
theorem C108_lit (s : St) (hl : s.linked = true) (es : List Ev)
    (h : ∀ e ∈ es, e ≠ .deactivate ∧ ∀ i, e ≠ .turnOff i) :
    (es.foldl step (step s .turnOn)).power = true ∧ isOn (es.foldl step (step s .turnOn)) = true := by
  have key : ∀ (es : List Ev) (s : St), (∀ e ∈ es, e ≠ .deactivate ∧ ∀ i, e ≠ .turnOff i) → s.on = true → s.power = true →
      (es.foldl step s).power = true ∧ (es.foldl step s).on = true := by
    intro es
    induction es with
    | nil => intro s _ h1 h2; exact ⟨h2, h1⟩
    | cons e es ih =>
      intro s he h1 h2
      have h3 := he e (by simp)
      apply ih (step s e) (fun e' he' => he e' (by simp [he']))
      · cases e <;> simp [step, h1] <;> (try split) <;> simp_all
      · cases e <;> simp [step, h1, h2] <;> (try split) <;> simp_all
  obtain ⟨a, b⟩ := key es (step s .turnOn) h (by simp [step, hl]) (by simp [step, hl])
  exact ⟨a, by simp [isOn, a]⟩

/-- A dark blade which is off has no power, until it is turned on, gets an effect or a new style. -/
theorem C108_dark (s : St) (hl : s.linked = true) (i : Bool) (es : List Ev)
    (h : ∀ e ∈ es, e = .allowDisable ∨ e = .deactivate ∨ ∃ i, e = .turnOff i) :
    (es.foldl step (step (step s (.turnOff i)) .allowDisable)).power = false ∧
    isOn (es.foldl step (step (step s (.turnOff i)) .allowDisable)) = false := by
  have key : ∀ (es : List Ev) (s : St), (∀ e ∈ es, e = .allowDisable ∨ e = .deactivate ∨ ∃ i, e = .turnOff i) →
      s.on = false → s.power = false → (es.foldl step s).power = false ∧ (es.foldl step s).on = false := by
    intro es
    induction es with
    | nil => intro s _ h1 h2; exact ⟨h2, h1⟩
    | cons e es ih =>
      intro s he h1 h2
      have h3 := he e (by simp)
      apply ih (step s e) (fun e' he' => he e' (by simp [he']))
      · rcases h3 with h3 | h3 | ⟨j, h3⟩ <;> subst h3 <;> simp [step, h1] <;> (try split) <;> simp_all
      · rcases h3 with h3 | h3 | ⟨j, h3⟩ <;> subst h3 <;> simp [step, h1, h2] <;> (try split) <;> simp_all
  have h0 : (step (step s (.turnOff i)) .allowDisable).on = false ∧ (step (step s (.turnOff i)) .allowDisable).power = false := by
    simp [step, hl]
  obtain ⟨a, b⟩ := key es _ h h0.1 h0.2
  exact ⟨a, by simp [isOn, a, b]⟩

/-- Timing out switches the power off even if the style is not dark. -/
theorem C108_idle (s : St) (hl : s.linked = true) : (step s (.turnOff true)).power = false := by simp [step, hl]

/-- The blade is never switched off by its style while the saber is on. -/
theorem C108_style_keeps (s : St) (h : s.on = true) : step s .allowDisable = s := by simp [step, h]

/-- A blade removed while on (a new blade configuration) and activated again later believes to be on:
the style cannot switch it off, and the saber counts as on. -/
theorem C108_stale_counterexample :
    let s := [.activate, .turnOn, .deactivate, .turnOff false, .activate, .allowDisable].foldl step {}
    isOn s = true ∧ s.power = true := by decide +kernel

/-- The load told to the battery monitor is right after turning on and off. -/
theorem C108_load_partial (s : St) (hl : s.linked = true) (i : Bool) :
    (step s .turnOn).load = true ∧ (step s (.turnOff i)).load = false := by simp [step, hl]

/-- An effect while off (for instance the one at start-up) sets the load until the saber has been
turned on and off again, though the LEDs have no power: meanwhile the low battery limit is 2.6 V
instead of 3.0 V. -/
theorem C108_load_counterexample (n : Nat) :
    let s := Nat.repeat (step · .allowDisable) (n + 1) ([.activate, .setStyle, .effect].foldl step {})
    s.power = false ∧ s.on = false ∧ s.load = true := by
  intro s
  have key : ∀ n, Nat.repeat (step · .allowDisable) (n + 1) ([.activate, .setStyle, .effect].foldl step {}) = ⟨true, false, false, true⟩ := by
    intro n
    induction n with
    | zero => rfl
    | succ n ih =>
      rw [Nat.repeat, ih]
      rfl
  have : s = ⟨true, false, false, true⟩ := key n
  rw [this]
  exact ⟨rfl, rfl, rfl⟩

example : let s := [.effect, .allowDisable, .setStyle].foldl step (step { linked := true } .turnOn)
    s.power = true ∧ isOn s = true := by decide

end Verif.Blade.Simple
