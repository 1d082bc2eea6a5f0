/-!
# The amplifier

Model of sound/amplifier.h and of the sleeping of cooperative threads, common/state_machine.h.  The wav players, the beeper and the speech synthesiser
are reduced to one input, whether anything plays.  Within one call the clock stands still (`delay(10)` in `Enable` is left out);
the variant with the SGTL5000 chip is not modelled.
-/
namespace Verif.Amp

/-- the clock `millis()` has 32 bits -/
def M : Nat := 4294967296

theorem M_pos : 0 < M := by unfold M; omega

/-- `SLEEP`, common/state_machine.h:13: the time to wake up -/
def sleepUntil (now ms : Nat) : Nat := (now % M + ms) % M
/-- `SLEEP`, common/state_machine.h:13: the condition to go on sleeping -/
def asleep (now until_ : Nat) : Bool := decide (now % M < until_)

/-- where the thread in `Loop` waits, sound/amplifier.h:70, 71, 84, 87; `start`: not yet begun -/
inductive Pc where
  | start | active | sleep1 | sleep2 | idle
deriving DecidableEq

/-- sound/amplifier.h:139-140 with the state of the thread, of the pin and of the audio output; `now` is the real time in milliseconds -/
structure St where
  now : Nat
  pc : Pc
  until_ : Nat
  on : Bool
  lastEnabled : Nat
  pin : Bool
  dac : Bool
deriving DecidableEq

/-- `Amplifier::Setup`, sound/amplifier.h:58-65: the pin is an output but low; the audio output does not run -/
def boot (now : Nat) : St := ⟨now, .start, 0, false, now % M, false, false⟩

/-- `Amplifier::Active`, sound/amplifier.h:22-35 -/
def active (s : St) (playing : Bool) : Bool := playing || decide ((s.now % M + M - s.lastEnabled) % M < 30)

/-- `Amplifier::Enable`, sound/amplifier.h:37-55 with dac.begin -/
def enable (s : St) : St :=
  let s := { s with dac := true, lastEnabled := s.now % M }
  if s.on then s else { s with on := true, pin := true }

/-- sound/amplifier.h:87 when nothing is active -/
def goIdle (s : St) : St := { s with pc := .idle }

/-- sound/amplifier.h:73-87: switch off; nothing is active -/
def switchOff (s : St) : St :=
  let s := { s with on := false, pin := false, until_ := sleepUntil s.now 20 }
  if asleep s.now s.until_ then { s with pc := .sleep2 } else goIdle { s with dac := false }

/-- sound/amplifier.h:70-72, the beginning of the outer loop -/
def top (s : St) (playing : Bool) : St :=
  if active s playing then { s with pc := .active }
  else
    let s := { s with until_ := sleepUntil s.now 20 }
    if asleep s.now s.until_ then { s with pc := .sleep1 } else switchOff s

/-- `Amplifier::Loop`, sound/amplifier.h:67-90 -/
def loop (s : St) (playing : Bool) : St :=
  match s.pc with
  | .start => top s playing
  | .active => top s playing
  | .sleep1 => if asleep s.now s.until_ then s else if active s playing then top s playing else switchOff s
  | .sleep2 =>
    if asleep s.now s.until_ then s
    else if s.on then top s playing
    else
      let s := { s with dac := false }
      if active s playing then top s playing else goIdle s
  | .idle => if active s playing then top s playing else s

/-- `amp off`, sound/amplifier.h:98-106 -/
def ampOff (s : St) : St := { s with pin := false }

/-- what can happen: time passes, the main loop comes by, a sound is about to be started -/
inductive Ev where
  | tick (ms : Nat)
  | loop (playing : Bool)
  | enable

/-- the effect of an event -/
def step (s : St) : Ev → St
  | .tick d => { s with now := s.now + d }
  | .loop p => loop s p
  | .enable => enable s

def run (s : St) (es : List Ev) : St := es.foldl step s

/-! ## Specification -/

/-- what an observer knows: the time, and since when a sound has been wanted: from `Enable` on as long as the main loop finds
something playing or `Enable` less than 30 ms ago; `unseen`: the main loop has not come by since `Enable`; `missed`: it once
came by too late for the first time; `last`: when `Enable` was called last (or the start) -/
structure Spec where
  now : Nat
  wanted : Option Nat
  unseen : Bool
  missed : Bool
  last : Nat

def Spec.step (s : Spec) : Ev → Spec
  | .tick d => { s with now := s.now + d }
  | .loop p =>
    match s.wanted with
    | some t => if p ∨ s.now < t + 30 then { s with unseen := false } else { s with wanted := none, unseen := false, missed := s.missed || s.unseen }
    | none => s
  | .enable => { s with wanted := some s.now, unseen := true, last := s.now }

def Spec.run (s : Spec) (es : List Ev) : Spec := es.foldl Spec.step s

def Spec.boot (now : Nat) : Spec := ⟨now, none, false, false, now⟩

/-! ## Proofs -/

/-- a sleep ends at the first poll after it is over and not before, while the clock does not wrap -/
theorem C92_sleep_partial (t0 t ms : Nat) (h0 : t0 ≤ t) (h : t0 + ms < M) (ht : t < M) : asleep t (sleepUntil t0 ms) = true ↔ t < t0 + ms := by
  unfold asleep sleepUntil
  rw [Nat.mod_eq_of_lt ht, Nat.mod_eq_of_lt (by omega : t0 < M), Nat.mod_eq_of_lt h]
  simp

/-- just before the clock wraps, a sleep ends at once -/
theorem C92_sleep_short_counterexample : asleep (M - 10) (sleepUntil (M - 10) 3000) = false := by
  decide +kernel

/-- a sleep that ends before the clock wraps but is not polled in between lasts until the clock comes round again -/
theorem C92_sleep_long_counterexample (t : Nat) (h1 : M ≤ t) (h2 : t < 2 * M - 5) : asleep t (sleepUntil (M - 25) 20) = true := by
  have h3 : t % M = t - M := by
    have : t = (t - M) + M := by omega
    rw [this, Nat.add_mod_right, Nat.mod_eq_of_lt (by omega)]
    omega
  have h4 : sleepUntil (M - 25) 20 = M - 5 := by decide +kernel
  unfold asleep
  rw [h3, h4]
  simp
  omega

/-- less than 30 ms ago -/
theorem recent {t n : Nat} (h : t ≤ n) (h2 : n < t + 30) : (n % M + M - t % M) % M < 30 := by
  unfold M; omega

theorem top_cases (s : St) (p : Bool) : (active s p = true ∧ top s p = { s with pc := .active }) ∨
    (active s p = false ∧ ∃ u, (top s p = { s with until_ := u, pc := .sleep1 } ∨
      top s p = { s with on := false, pin := false, until_ := u, pc := .sleep2 } ∨
      top s p = { s with on := false, pin := false, dac := false, until_ := u, pc := .idle })) := by
  unfold top switchOff goIdle
  cases active s p
  · refine Or.inr ⟨rfl, sleepUntil s.now 20, ?_⟩
    simp only [Bool.false_eq_true, if_false]
    cases asleep s.now (sleepUntil s.now 20)
    · exact Or.inr (Or.inr rfl)
    · exact Or.inl rfl
  · exact Or.inl ⟨rfl, rfl⟩

/-- the state while a sound is wanted -/
structure Good (s : St) (p : Spec) : Prop where
  now : s.now = p.now
  on : s.on = true → s.pin = true ∧ s.dac = true
  pin : s.on = s.pin
  wanted : ∀ t, p.wanted = some t → s.on = true ∧ t ≤ p.now ∧ s.lastEnabled = t % M

theorem good_top {s : St} {p : Spec} (g : Good s p) (b : Bool) (hw : p.wanted = none ∨ active s b = true) : Good (top s b) p := by
  obtain ⟨g1, g2, g3, g4⟩ := g
  rcases top_cases s b with ⟨_, e⟩ | ⟨h, u, e | e | e⟩ <;> rw [e]
  · exact ⟨g1, g2, g3, g4⟩
  · exact ⟨g1, g2, g3, g4⟩
  · refine ⟨g1, fun h => by simp at h, rfl, fun t ht => ?_⟩
    rcases hw with hw | hw
    · rw [hw] at ht; simp at ht
    · rw [hw] at h; simp at h
  · refine ⟨g1, fun h => by simp at h, rfl, fun t ht => ?_⟩
    rcases hw with hw | hw
    · rw [hw] at ht; simp at ht
    · rw [hw] at h; simp at h

theorem good_off {s : St} {p : Spec} (g : Good s p) (hw : p.wanted = none) : Good (switchOff s) p := by
  obtain ⟨g1, g2, g3, g4⟩ := g
  unfold switchOff goIdle
  simp only
  split
  · exact ⟨g1, fun h => by simp at h, rfl, fun t ht => by rw [hw] at ht; simp at ht⟩
  · exact ⟨g1, fun h => by simp at h, rfl, fun t ht => by rw [hw] at ht; simp at ht⟩

theorem good_loop {s : St} {p : Spec} (g : Good s p) (b : Bool) (hw : p.wanted = none ∨ active s b = true) : Good (loop s b) p := by
  unfold loop
  split
  · exact good_top g b hw
  · exact good_top g b hw
  · split
    · exact g
    · split
      · exact good_top g b hw
      · rename_i h
        rcases hw with hw | hw
        · exact good_off g hw
        · exact absurd hw h
  · split
    · exact g
    · split
      · exact good_top g b hw
      · rename_i h
        have hon : s.on = false := by cases h' : s.on <;> simp_all
        have g' : Good { s with dac := false } p := by
          obtain ⟨g1, g2, g3, g4⟩ := g
          refine ⟨g1, fun h => by simp [hon] at h, g3, g4⟩
        have hw' : p.wanted = none ∨ active { s with dac := false } b = true := hw
        simp only
        split
        · exact good_top g' b hw'
        · obtain ⟨g1, g2, g3, g4⟩ := g'
          exact ⟨g1, g2, g3, g4⟩
  · split
    · exact good_top g b hw
    · exact g

theorem good_step {s : St} {p : Spec} (g : Good s p) (e : Ev) : Good (step s e) (p.step e) := by
  cases e with
  | tick d =>
    obtain ⟨g1, g2, g3, g4⟩ := g
    refine ⟨by simp [step, Spec.step, g1], g2, g3, fun t ht => ?_⟩
    obtain ⟨a, b, c⟩ := g4 t ht
    exact ⟨a, by simp only [Spec.step]; omega, c⟩
  | enable =>
    obtain ⟨g1, g2, g3, g4⟩ := g
    simp only [step, enable]
    cases hon : s.on
    · rw [hon] at g3
      simp only [Bool.false_eq_true, if_false]
      exact ⟨g1, fun _ => ⟨rfl, rfl⟩, rfl, fun t ht => by
        simp only [Spec.step, Option.some.injEq] at ht
        subst ht
        exact ⟨rfl, Nat.le_refl _, by simp only [g1]⟩⟩
    · simp only [if_true]
      exact ⟨g1, fun _ => ⟨(g2 hon).1, rfl⟩, by simpa [hon] using g3, fun t ht => by
        simp only [Spec.step, Option.some.injEq] at ht
        subst ht
        exact ⟨rfl, Nat.le_refl _, by simp only [g1]⟩⟩
  | loop b =>
    simp only [step, Spec.step]
    cases hw : p.wanted with
    | none => exact good_loop g b (Or.inl hw)
    | some t =>
      simp only
      by_cases hc : b = true ∨ p.now < t + 30
      · rw [if_pos hc]
        have ha : active s b = true := by
          obtain ⟨_, h1, h2⟩ := g.wanted t hw
          unfold active
          rcases hc with hc | hc
          · simp [hc]
          · rw [h2, g.now]
            simp [recent h1 hc]
        have := good_loop g b (Or.inr ha)
        exact ⟨this.now, this.on, this.pin, fun t' ht' => this.wanted t' (by rw [hw]; exact ht')⟩
      · rw [if_neg hc]
        have g' : Good s { p with wanted := none } := ⟨g.now, g.on, g.pin, fun t ht => by simp at ht⟩
        have := good_loop g' b (Or.inl rfl)
        exact ⟨this.now, this.on, this.pin, fun t ht => by simp at ht⟩

theorem good_run (es : List Ev) : ∀ {s : St} {p : Spec}, Good s p → Good (run s es) (p.run es) := by
  induction es with
  | nil => intro s p g; exact g
  | cons e es ih => intro s p g; exact ih (good_step g e)

theorem good_boot (t : Nat) : Good (boot t) (Spec.boot t) := ⟨rfl, fun h => by simp [boot] at h, rfl, fun _ h => by simp [Spec.boot] at h⟩

/-- **C92**: from the moment a sound is announced, the amplifier and the audio output are on as long as the main loop finds something playing (or less than 30 ms have
passed), whatever happened before and whatever the clock shows -/
theorem C92_on (t : Nat) (es : List Ev) (h : ((Spec.boot t).run es).wanted ≠ none) : (run (boot t) es).pin = true ∧ (run (boot t) es).dac = true := by
  have g := good_run es (good_boot t)
  cases hw : ((Spec.boot t).run es).wanted with
  | none => exact absurd hw h
  | some t' => exact g.on (g.wanted t' hw).1

/-! ### Switching off -/

/-- the thread as long as the clock has not wrapped and the main loop was never late -/
structure Early (s : St) (p : Spec) : Prop where
  now : s.now = p.now
  lt : s.now + 20 < M
  idle : s.pc = .idle → s.on = false ∨ p.unseen = true
  unseen : p.unseen = true → p.wanted ≠ none
  on : s.on = s.pin
  wanted : ∀ t, p.wanted = some t → t ≤ p.now ∧ s.lastEnabled = t
  plast : s.lastEnabled = p.last
  until1 : s.pc = .sleep1 ∨ s.pc = .sleep2 → s.until_ ≤ s.now + 20
  last : s.lastEnabled ≤ s.now

theorem asleep_iff {n u : Nat} (h : n < M) : asleep n u = true ↔ n < u := by
  unfold asleep; rw [Nat.mod_eq_of_lt h]; simp

theorem sleepUntil_eq {n : Nat} (h : n + 20 < M) : sleepUntil n 20 = n + 20 := by
  unfold sleepUntil; rw [Nat.mod_eq_of_lt (by omega : n < M), Nat.mod_eq_of_lt h]

theorem active_early {s : St} {b : Bool} (h : s.now < M) (h2 : s.lastEnabled ≤ s.now) :
    active s b = true ↔ b = true ∨ s.now < s.lastEnabled + 30 := by
  unfold active
  rw [Nat.mod_eq_of_lt h]
  have : (s.now + M - s.lastEnabled) % M = s.now - s.lastEnabled := by
    have e : s.now + M - s.lastEnabled = (s.now - s.lastEnabled) + M := by omega
    rw [e, Nat.add_mod_right, Nat.mod_eq_of_lt (Nat.lt_of_le_of_lt (Nat.sub_le _ _) h)]
  rw [this]
  simp only [Bool.or_eq_true, decide_eq_true_eq]
  have : s.now - s.lastEnabled < 30 ↔ s.now < s.lastEnabled + 30 := by omega
  rw [this]

/-- what the beginning of the loop does before the clock wraps -/
theorem top_early {s : St} (b : Bool) (h : s.now + 20 < M) : top s b = if active s b then { s with pc := .active } else { s with until_ := s.now + 20, pc := .sleep1 } := by
  unfold top
  split
  · rfl
  · have : asleep s.now (s.now + 20) = true := (asleep_iff (by omega)).mpr (by omega)
    simp only [sleepUntil_eq h, this, if_true]

theorem off_early {s : St} (h : s.now + 20 < M) : switchOff s = { s with on := false, pin := false, until_ := s.now + 20, pc := .sleep2 } := by
  unfold switchOff
  have : asleep s.now (s.now + 20) = true := (asleep_iff (by omega)).mpr (by omega)
  simp only [sleepUntil_eq h, this, if_true]

theorem early_step {s : St} {p : Spec} (g : Early s p) (e : Ev) (h : (step s e).now + 20 < M) (hm : (p.step e).missed = false) : Early (step s e) (p.step e) := by
  obtain ⟨g1, g2, g3, g4, g5, g6, g9, g7, g8⟩ := g
  cases e with
  | tick d =>
    refine ⟨by simp [step, Spec.step, g1], h, g3, g4, g5, fun t ht => ?_, g9, fun hp => ?_, ?_⟩
    · obtain ⟨a, c⟩ := g6 t ht
      exact ⟨by simp only [Spec.step]; omega, c⟩
    · have := g7 hp; simp only [step]; omega
    · simp only [step]; omega
  | enable =>
    have hn : s.now % M = s.now := Nat.mod_eq_of_lt (by omega)
    simp only [step, enable, hn]
    cases hon : s.on
    · simp only [Bool.false_eq_true, if_false]
      exact ⟨g1, g2, fun _ => Or.inr rfl, fun _ => by simp [Spec.step], rfl, fun t ht => by
        simp only [Spec.step, Option.some.injEq] at ht
        subst ht
        exact ⟨Nat.le_refl _, g1⟩, g1, g7, Nat.le_refl _⟩
    · simp only [if_true]
      exact ⟨g1, g2, fun _ => Or.inr rfl, fun _ => by simp [Spec.step], by simpa [hon] using g5, fun t ht => by
        simp only [Spec.step, Option.some.injEq] at ht
        subst ht
        exact ⟨Nat.le_refl _, g1⟩, g1, g7, Nat.le_refl _⟩
  | loop b =>
    have hac := active_early (s := s) (b := b) (by omega) g8
    -- the observer
    have hsp : (p.step (.loop b)).now = p.now ∧ (p.step (.loop b)).unseen = false ∧ (p.step (.loop b)).last = p.last ∧
        (∀ t, (p.step (.loop b)).wanted = some t → p.wanted = some t) ∧ (p.unseen = true → active s b = true) := by
      simp only [Spec.step] at hm ⊢
      cases hw : p.wanted with
      | none =>
        rw [hw] at hm
        have : p.unseen = false := by
          cases hu : p.unseen
          · rfl
          · exact absurd hw (g4 hu)
        refine ⟨rfl, this, rfl, fun t ht => by simp only [hw] at ht; simp at ht, fun hu => by rw [this] at hu; simp at hu⟩
      | some t =>
        rw [hw] at hm
        simp only at hm ⊢
        obtain ⟨ht1, ht2⟩ := g6 t hw
        by_cases hc : b = true ∨ p.now < t + 30
        · rw [if_pos hc]
          refine ⟨rfl, rfl, rfl, fun t' ht' => by simpa [hw] using ht', fun _ => hac.mpr ?_⟩
          rcases hc with hc | hc
          · exact Or.inl hc
          · exact Or.inr (by omega)
        · rw [if_neg hc] at hm ⊢
          simp only [Bool.or_eq_false_iff] at hm
          refine ⟨rfl, rfl, rfl, fun t' ht' => by simp at ht', fun hu => by rw [hm.2] at hu; simp at hu⟩
    obtain ⟨k1, k2, k5, k3, k4⟩ := hsp
    -- everything but the thread
    have mk : ∀ s' : St, s'.now = s.now → s'.lastEnabled = s.lastEnabled → s'.on = s'.pin → (s'.pc = .idle → s'.on = false) →
        (s'.pc = .sleep1 ∨ s'.pc = .sleep2 → s'.until_ ≤ s'.now + 20) → Early s' (p.step (.loop b)) := by
      intro s' e1 e2 e3 e4 e5
      refine ⟨by rw [e1, k1, g1], by omega, fun h => Or.inl (e4 h), fun h => by rw [k2] at h; simp at h, e3, fun t ht => ?_, by rw [e2, k5, g9], e5, by omega⟩
      obtain ⟨a, c⟩ := g6 t (k3 t ht)
      exact ⟨by omega, by omega⟩
    have mktop : ∀ s' : St, s'.now = s.now → s'.lastEnabled = s.lastEnabled → s'.on = s'.pin → Early (top s' b) (p.step (.loop b)) := by
      intro s' e1 e2 e3
      rw [top_early b (by omega)]
      split
      · exact mk _ e1 e2 e3 (fun h => by simp at h) (fun h => by simp at h)
      · exact mk _ e1 e2 e3 (fun h => by simp at h) (fun _ => Nat.le_refl _)
    simp only [step, loop]
    split
    · exact mktop s rfl rfl g5
    · exact mktop s rfl rfl g5
    · rename_i hpc
      split
      · exact mk s rfl rfl g5 (fun h => by rw [hpc] at h; simp at h) g7
      · split
        · exact mktop s rfl rfl g5
        · rw [off_early (by omega)]
          exact mk _ rfl rfl rfl (fun h => by simp at h) (fun _ => Nat.le_refl _)
    · rename_i hpc
      split
      · exact mk s rfl rfl g5 (fun h => by rw [hpc] at h; simp at h) g7
      · split
        · exact mktop s rfl rfl g5
        · rename_i hon
          split
          · exact mktop { s with dac := false } rfl rfl g5
          · refine mk _ rfl rfl g5 (fun _ => ?_) (fun h => by simp [goIdle] at h)
            show s.on = false
            cases h' : s.on <;> simp_all
    · rename_i hpc
      split
      · exact mktop s rfl rfl g5
      · rename_i hna
        refine mk s rfl rfl g5 (fun _ => ?_) g7
        rcases g3 hpc with h' | h'
        · exact h'
        · exact absurd (k4 h') hna

theorem step_now (s : St) (e : Ev) : s.now ≤ (step s e).now := by
  cases e with
  | tick d => simp [step]
  | enable => simp only [step, enable]; split <;> simp
  | loop b =>
    have : (loop s b).now = s.now := by
      have ht : ∀ s' : St, (top s' b).now = s'.now := by
        intro s'; rcases top_cases s' b with ⟨_, e⟩ | ⟨_, u, e | e | e⟩ <;> rw [e]
      unfold loop
      split
      · exact ht s
      · exact ht s
      · split
        · rfl
        · split
          · exact ht s
          · unfold switchOff goIdle; simp only; split <;> rfl
      · split
        · rfl
        · split
          · exact ht s
          · simp only; split
            · exact ht _
            · rfl
      · split
        · exact ht s
        · rfl
    exact Nat.le_of_eq this.symm

theorem run_now (es : List Ev) : ∀ s : St, s.now ≤ (run s es).now := by
  induction es with
  | nil => intro s; exact Nat.le_refl _
  | cons e es ih => intro s; exact Nat.le_trans (step_now s e) (ih _)

theorem missed_step (p : Spec) (e : Ev) (h : (p.step e).missed = false) : p.missed = false := by
  cases e with
  | tick d => exact h
  | enable => exact h
  | loop b =>
    simp only [Spec.step] at h
    cases hw : p.wanted with
    | none => rw [hw] at h; exact h
    | some t =>
      rw [hw] at h
      simp only at h
      split at h
      · exact h
      · simp only [Bool.or_eq_false_iff] at h; exact h.1

theorem missed_run (es : List Ev) : ∀ p : Spec, (p.run es).missed = false → p.missed = false := by
  induction es with
  | nil => intro p h; exact h
  | cons e es ih => intro p h; exact missed_step p e (ih _ h)

theorem early_run (es : List Ev) : ∀ {s : St} {p : Spec}, Early s p → (run s es).now + 20 < M → (p.run es).missed = false → Early (run s es) (p.run es) := by
  induction es with
  | nil => intro s p g _ _; exact g
  | cons e es ih =>
    intro s p g h hm
    have hm1 : (p.step e).missed = false := missed_run es _ hm
    have h1 : (step s e).now + 20 < M := Nat.lt_of_le_of_lt (Nat.add_le_add_right (run_now es _) 20) h
    exact ih (early_step g e h1 hm1) h hm

/-- the main loop comes by in silence, each time after so many milliseconds -/
def polls (ds : List Nat) : List Ev := ds.flatMap fun d => [.tick d, .loop false]

/-- on its way to being switched off -/
inductive Closing (T G : Nat) (s : St) : Prop where
  | off : s.on = false → s.pin = false → Closing T G s
  | fresh : s.pc = .start ∨ s.pc = .active → s.now = T → Closing T G s
  | sleep2 : s.pc = .sleep2 → s.until_ ≤ T + 20 → (s.now = T ∨ s.now < s.until_) → Closing T G s
  | sleep1 : s.pc = .sleep1 → s.until_ ≤ T + 40 + G → (s.now = T ∨ s.now < s.until_) → Closing T G s

theorem closing_poll {T G d : Nat} {s : St} (hc : Closing T G s) (hd : d ≤ G) (hl : s.lastEnabled + 30 ≤ s.now) (hop : s.on = s.pin) (hn : s.now + d + 20 < M) :
    Closing T G (loop { s with now := s.now + d } false) ∧ (loop { s with now := s.now + d } false).now = s.now + d ∧
      (loop { s with now := s.now + d } false).lastEnabled = s.lastEnabled := by
  obtain ⟨s', hs'⟩ : ∃ s' : St, s' = { s with now := s.now + d } := ⟨_, rfl⟩
  have e1 : s'.now = s.now + d := by rw [hs']
  have e2 : s'.lastEnabled = s.lastEnabled := by rw [hs']
  have e3 : s'.pc = s.pc ∧ s'.until_ = s.until_ ∧ s'.on = s.on ∧ s'.pin = s.pin := by rw [hs']; exact ⟨rfl, rfl, rfl, rfl⟩
  obtain ⟨e3, e4, e5, e6⟩ := e3
  rw [← hs']
  have hna : active s' false = false := by
    have := active_early (s := s') (b := false) (by omega) (by omega)
    cases h : active s' false
    · rfl
    · have := this.mp h
      simp at this
      omega
  have hna2 : ∀ b c, active { s' with dac := b, pc := c } false = false := fun _ _ => hna
  have htop := top_early (s := s') false (by omega)
  rw [hna] at htop
  simp only [Bool.false_eq_true, if_false] at htop
  have hoff := off_early (s := s') (by omega)
  have hasl : asleep s'.now s'.until_ = decide (s'.now < s'.until_) := by
    unfold asleep; rw [Nat.mod_eq_of_lt (by omega)]
  unfold loop
  rw [hna, htop, hoff, hasl]
  cases hpc : s'.pc with
  | start =>
    refine ⟨?_, e1, e2⟩
    cases hc with
    | off h1 h2 => exact .off (by rw [← h1, ← e5]) (by rw [← h2, ← e6])
    | fresh _ h => exact .sleep1 rfl (show s'.now + 20 ≤ _ by omega) (Or.inr (show s'.now < s'.now + 20 by omega))
    | sleep2 h => rw [hpc] at e3; rw [← e3] at h; simp at h
    | sleep1 h => rw [hpc] at e3; rw [← e3] at h; simp at h
  | active =>
    refine ⟨?_, e1, e2⟩
    cases hc with
    | off h1 h2 => exact .off (by rw [← h1, ← e5]) (by rw [← h2, ← e6])
    | fresh _ h => exact .sleep1 rfl (show s'.now + 20 ≤ _ by omega) (Or.inr (show s'.now < s'.now + 20 by omega))
    | sleep2 h => rw [hpc] at e3; rw [← e3] at h; simp at h
    | sleep1 h => rw [hpc] at e3; rw [← e3] at h; simp at h
  | sleep1 =>
    simp only
    by_cases h : s'.now < s'.until_
    · rw [if_pos (by simp [h])]
      refine ⟨?_, e1, e2⟩
      cases hc with
      | off h1 h2 => exact .off (by rw [← h1, ← e5]) (by rw [← h2, ← e6])
      | fresh hp => rw [hpc] at e3; rw [← e3] at hp; simp at hp
      | sleep2 hp => rw [hpc] at e3; rw [← e3] at hp; simp at hp
      | sleep1 hp hu _ => exact .sleep1 hpc (by omega) (Or.inr h)
    · rw [if_neg (by simp [h])]
      exact ⟨.off rfl rfl, e1, e2⟩
  | sleep2 =>
    simp only
    by_cases h : s'.now < s'.until_
    · rw [if_pos (by simp [h])]
      refine ⟨?_, e1, e2⟩
      cases hc with
      | off h1 h2 => exact .off (by rw [← h1, ← e5]) (by rw [← h2, ← e6])
      | fresh hp => rw [hpc] at e3; rw [← e3] at hp; simp at hp
      | sleep2 hp hu _ => exact .sleep2 hpc (by omega) (Or.inr h)
      | sleep1 hp => rw [hpc] at e3; rw [← e3] at hp; simp at hp
    · rw [if_neg (by simp [h])]
      by_cases hon : s'.on = true
      · rw [if_pos hon]
        refine ⟨?_, e1, e2⟩
        cases hc with
        | off h1 h2 => exact .off (by rw [← h1, ← e5]) (by rw [← h2, ← e6])
        | fresh hp => rw [hpc] at e3; rw [← e3] at hp; simp at hp
        | sleep2 hp hu hlt => exact .sleep1 rfl (show s'.now + 20 ≤ _ by omega) (Or.inr (show s'.now < s'.now + 20 by omega))
        | sleep1 hp => rw [hpc] at e3; rw [← e3] at hp; simp at hp
      · rw [if_neg hon]
        simp only [hna2, Bool.false_eq_true, if_false, goIdle]
        refine ⟨?_, e1, e2⟩
        have hon' : s'.on = false := by cases h' : s'.on <;> simp_all
        exact .off hon' (show s'.pin = false by rw [e6, ← hop, ← e5, hon'])
  | idle =>
    simp only [Bool.false_eq_true, if_false]
    refine ⟨?_, e1, e2⟩
    cases hc with
    | off h1 h2 => exact .off (by rw [← h1, ← e5]) (by rw [← h2, ← e6])
    | fresh hp => rw [hpc] at e3; rw [← e3] at hp; simp at hp
    | sleep2 hp => rw [hpc] at e3; rw [← e3] at hp; simp at hp
    | sleep1 hp => rw [hpc] at e3; rw [← e3] at hp; simp at hp

theorem on_pin_step (s : St) (h : s.on = s.pin) (e : Ev) : (step s e).on = (step s e).pin := by
  have ht : ∀ (s' : St) b, s'.on = s'.pin → (top s' b).on = (top s' b).pin := by
    intro s' b hs; rcases top_cases s' b with ⟨_, e⟩ | ⟨_, u, e | e | e⟩ <;> rw [e] <;> first | exact hs | rfl
  cases e with
  | tick d => exact h
  | enable => simp only [step, enable]; split <;> simp_all
  | loop b =>
    simp only [step, loop]
    split
    · exact ht s b h
    · exact ht s b h
    · split
      · exact h
      · split
        · exact ht s b h
        · unfold switchOff goIdle; simp only; split <;> rfl
    · split
      · exact h
      · split
        · exact ht s b h
        · split
          · exact ht _ b h
          · exact h
    · split
      · exact ht s b h
      · exact h

theorem closing_run {T G : Nat} : ∀ (ds : List Nat) {s : St}, Closing T G s → T ≤ s.now → (∀ d ∈ ds, d ≤ G) → s.lastEnabled + 30 ≤ s.now → s.on = s.pin →
    s.now + ds.sum + 20 < M → Closing T G (run s (polls ds)) ∧ (run s (polls ds)).now = s.now + ds.sum := by
  intro ds
  induction ds with
  | nil => intro s h _ _ _ _ _; exact ⟨h, rfl⟩
  | cons d ds ih =>
    intro s h hT hd hl hop hn
    simp only [List.sum_cons] at hn
    obtain ⟨a, b, c⟩ := closing_poll h (hd d (by simp)) hl hop (by omega)
    have hop2 := on_pin_step _ (on_pin_step s hop (.tick d)) (.loop false)
    obtain ⟨r1, r2⟩ := ih (s := loop { s with now := s.now + d } false) a (by omega) (fun x hx => hd x (by simp [hx])) (by omega) hop2 (by omega)
    refine ⟨r1, ?_⟩
    have e : run s (polls (d :: ds)) = run (loop { s with now := s.now + d } false) (polls ds) := rfl
    rw [e, r2, b, List.sum_cons]
    omega

/-- **C92**: silence: if nothing plays any more, nothing has been announced for 30 ms, and the main loop comes by at least every `G` ms, the amplifier is off after
40 + 2 `G` ms.  Missing: it holds until the clock wraps (49 days after the start), and only if the main loop never came by for the first
time more than 30 ms after an announcement when nothing played -/
theorem C92_off_partial (t : Nat) (es : List Ev) (ds : List Nat) (G : Nat) (hm : ((Spec.boot t).run es).missed = false) (hu : ((Spec.boot t).run es).unseen = false)
    (hq : ((Spec.boot t).run es).last + 30 ≤ ((Spec.boot t).run es).now)
    (hd : ∀ d ∈ ds, d ≤ G) (hsum : 40 + 2 * G ≤ ds.sum) (hM : ((Spec.boot t).run es).now + ds.sum + 20 < M) :
    (run (boot t) (es ++ polls ds)).pin = false := by
  have hnow := (good_run es (good_boot t)).now
  rw [← hnow] at hM hq
  have hb : Early (boot t) (Spec.boot t) := by
    have : (boot t).now ≤ (run (boot t) es).now := run_now es _
    have e : (boot t).now = t := rfl
    have hlt : t % M = t := Nat.mod_eq_of_lt (by omega)
    refine ⟨rfl, by omega, fun _ => Or.inl rfl, fun h => by simp [Spec.boot] at h, rfl, fun _ h => by simp [Spec.boot] at h, hlt, fun h => by simp [boot] at h, ?_⟩
    show t % M ≤ t
    exact Nat.mod_le _ _
  have g := early_run es hb (by omega) hm
  have e : run (boot t) (es ++ polls ds) = run (run (boot t) es) (polls ds) := by simp [run, List.foldl_append]
  rw [e]
  generalize run (boot t) es = s at *
  have hc : Closing s.now G s := by
    cases hpc : s.pc with
    | start => exact .fresh (Or.inl hpc) rfl
    | active => exact .fresh (Or.inr hpc) rfl
    | sleep1 => exact .sleep1 hpc (by have := g.until1 (Or.inl hpc); omega) (Or.inl rfl)
    | sleep2 => exact .sleep2 hpc (g.until1 (Or.inr hpc)) (Or.inl rfl)
    | idle =>
      rcases g.idle hpc with h | h
      · exact .off h (by rw [← g.on, h])
      · rw [hu] at h; simp at h
  obtain ⟨r1, r2⟩ := closing_run ds hc (Nat.le_refl _) hd (by rw [g.plast]; exact hq) g.on hM
  cases r1 with
  | off _ h => exact h
  | fresh h1 h2 => omega
  | sleep2 h1 h2 h3 => omega
  | sleep1 h1 h2 h3 => omega

theorem run_polls (s : St) (d : Nat) (ds : List Nat) : run s (polls (d :: ds)) = run (loop { s with now := s.now + d } false) (polls ds) := rfl

/-- the amplifier stays on: it is off and idle; a sound is announced (a file cannot be opened, say) and the main loop comes by only 30 ms later; then nothing switches
it off, however often the main loop comes by before the clock wraps -/
theorem C92_stuck_counterexample (ds : List Nat) (h : ds.sum + 200 < M) :
    (run (boot 0) ([.tick 30, .loop false, .tick 20, .loop false, .tick 20, .loop false] ++ [.enable, .tick 30] ++ polls ds)).pin = true ∧
    ((Spec.boot 0).run ([.tick 30, .loop false, .tick 20, .loop false, .tick 20, .loop false] ++ [.enable, .tick 30])).wanted = some 70 := by
  refine ⟨?_, rfl⟩
  have e : ∀ es, run (boot 0) (es ++ polls ds) = run (run (boot 0) es) (polls ds) := fun es => by simp [run, List.foldl_append]
  rw [e]
  have e0 : run (boot 0) ([.tick 30, .loop false, .tick 20, .loop false, .tick 20, .loop false] ++ [.enable, .tick 30]) =
      ⟨100, .idle, 70, true, 70, true, true⟩ := by decide +kernel
  rw [e0]
  have key : ∀ (ds : List Nat) (n : Nat), 100 ≤ n → n + ds.sum < M → (run ⟨n, .idle, 70, true, 70, true, true⟩ (polls ds)).pin = true := by
    intro ds
    induction ds with
    | nil => intro n _ _; rfl
    | cons d ds ih =>
      intro n h1 h2
      simp only [List.sum_cons] at h2
      have hl : loop ⟨n + d, .idle, 70, true, 70, true, true⟩ false = ⟨n + d, .idle, 70, true, 70, true, true⟩ := by
        have hna : active ⟨n + d, .idle, 70, true, 70, true, true⟩ false = false := by
          have := active_early (s := ⟨n + d, .idle, 70, true, 70, true, true⟩) (b := false) (show n + d < M by omega) (show 70 ≤ n + d by omega)
          cases h : active ⟨n + d, .idle, 70, true, 70, true, true⟩ false
          · rfl
          · rw [h] at this
            simp only [true_iff, Bool.false_eq_true, false_or] at this
            omega
        simp only [loop, hna, Bool.false_eq_true, if_false]
      have e1 : run ⟨n, .idle, 70, true, 70, true, true⟩ (polls (d :: ds)) = run (loop ⟨n + d, .idle, 70, true, 70, true, true⟩ false) (polls ds) := run_polls _ _ _
      rw [e1, hl]
      exact ih (n + d) (by omega) (by omega)
  exact key ds 100 (Nat.le_refl _) (by omega)

/-- the command `amp off` leaves the amplifier marked as on: the next sound does not switch it on again -/
theorem C92_command_counterexample (s : St) (h : s.on = true) : (enable (ampOff s)).pin = false ∧ (enable (ampOff s)).on = true := by
  simp [enable, ampOff, h]

/-- a beep of half a second, and the silence after it -/
example : let es := [.enable, .tick 5, .loop true, .tick 500, .loop true, .tick 10, .loop false]
    ((Spec.boot 7).run es).missed = false ∧ ((Spec.boot 7).run es).unseen = false ∧ ((Spec.boot 7).run es).last + 30 ≤ ((Spec.boot 7).run es).now ∧
    ((Spec.boot 7).run (es.take 6)).wanted ≠ none ∧ (run (boot 7) (es.take 6)).pin = true ∧ (run (boot 7) (es ++ polls [10, 9, 10, 10, 10, 10, 10])).pin = false := by
  decide +kernel

end Verif.Amp
