/-!
# Buttons read by interrupt (C144)

Model of buttons/fast_button.h.  The interrupt may come between any two steps of `Loop`.  Simplified: reads and writes of the flag are atomic; nothing else
but the interrupt writes it.
-/
namespace Verif.Input.FastButton

/-- where `Loop` is: outside, after the test, after clearing the flag -/
inductive Pc
  | idle
  | tested
  | cleared
  deriving DecidableEq

/-- What is seen from outside: the pin falls, the prop receives a click. -/
inductive Obs
  | fall
  | click
  deriving DecidableEq

/-- `pressed`, where `Loop` is, and what was seen, the last first -/
structure S where
  pressed : Bool
  pc : Pc
  log : List Obs

/-- What happens: the interrupt, or the next step of `Loop`. -/
inductive Ev
  | irq
  | loop

/-- One step of `Loop`, buttons/fast_button.h:18-23, or `irq`, :26 -/
def step (s : S) : Ev → S
  | .irq => { s with pressed := true, log := .fall :: s.log }
  | .loop =>
    match s.pc with
    | .idle => if s.pressed then { s with pc := .tested } else s
    | .tested => { s with pressed := false, pc := .cleared }
    | .cleared => { s with pc := .idle, log := .click :: s.log }

/-- The state after these events. -/
def run (s : S) (evs : List Ev) : S := evs.foldl step s

/-- at the start, buttons/fast_button.h:33 -/
def init : S := ⟨false, .idle, []⟩

/-! ## Specification: reading the log -/

/-- whether the pin fell after the last click -/
def waiting : List Obs → Bool
  | [] => false
  | .fall :: _ => true
  | .click :: _ => false

/-- the number of clicks and falls -/
def count (o : Obs) (log : List Obs) : Nat := (log.filter (· == o)).length

/-- no click follows a click without a fall in between, except that the fall may have come while the click before was being handled: reading from the first,
there are at no point more clicks than falls -/
def NoGhost : List Obs → Prop
  | [] => True
  | o :: l => count .click (o :: l) ≤ count .fall (o :: l) ∧ NoGhost l

/-! ## Lemmas -/

/-- what holds at every point -/
def Inv (s : S) : Prop :=
  (waiting s.log = true → s.pressed = true ∨ s.pc ≠ .idle) ∧
  (s.pc = .tested → s.pressed = true) ∧
  count .click s.log + (if s.pressed then 1 else 0) + (if s.pc = .cleared then 1 else 0) ≤ count .fall s.log ∧
  NoGhost s.log

theorem count_cons (o x : Obs) (l : List Obs) : count o (x :: l) = count o l + (if x = o then 1 else 0) := by
  unfold count
  cases o <;> cases x <;> simp

theorem step_inv (s : S) (ev : Ev) (h : Inv s) : Inv (step s ev) := by
  obtain ⟨p, pc, log⟩ := s
  obtain ⟨h1, h2, h3, h4⟩ := h
  cases ev with
  | irq =>
    refine ⟨fun _ => Or.inl rfl, fun _ => rfl, ?_, ?_, h4⟩
    · simp only [step, count_cons]
      simp at h3 ⊢
      split at h3 <;> split at h3 <;> simp_all <;> omega
    · simp only [count_cons]
      simp at h3 ⊢
      split at h3 <;> split at h3 <;> omega
  | loop =>
    cases pc with
    | idle =>
      cases p with
      | true => exact ⟨fun _ => Or.inl rfl, fun _ => rfl, by simpa [step] using h3, h4⟩
      | false => exact ⟨h1, h2, h3, h4⟩
    | tested =>
      have hp : p = true := h2 rfl
      subst hp
      exact ⟨fun _ => Or.inr (by simp [step]), (fun h => by (cases h)), by simpa [step] using h3, h4⟩
    | cleared =>
      refine ⟨(fun h => by (simp [step, waiting] at h)), (fun h => by (cases h)), ?_, ?_, h4⟩
      · simp only [step, count_cons]
        simp at h3 ⊢
        split at h3 <;> simp_all <;> omega
      · simp only [count_cons]
        simp at h3 ⊢
        split at h3 <;> omega

theorem run_inv (evs : List Ev) (s : S) (h : Inv s) : Inv (run s evs) := by
  induction evs generalizing s with
  | nil => exact h
  | cons a evs ih => exact ih _ (step_inv s a h)

theorem init_inv : Inv init := by simp [Inv, init, waiting, count, NoGhost]

/-! ## Claims -/

/-- **C144.** However interrupts and the loop fall together, no press is lost: a click follows it as soon as the loop has finished and run once more without
another press. -/
theorem C144_served (evs : List Ev) (n : Nat) (hn : 6 ≤ n) : waiting (run (run init evs) (List.replicate n .loop)).log = false := by
  have hi := run_inv evs init init_inv
  generalize run init evs = s at hi
  have rest : ∀ (m : Nat) (s : S), s.pressed = false → s.pc = .idle → run s (List.replicate m .loop) = s := by
    intro m
    induction m with
    | zero => exact fun _ _ _ => rfl
    | succ m ih =>
      intro s hp hpc
      have : step s .loop = s := by simp [step, hp, hpc]
      rw [List.replicate_succ]
      show run (step s .loop) _ = s
      rw [this]; exact ih s hp hpc
  have split : ∀ (k m : Nat) (s : S), run s (List.replicate (k + m) .loop) = run (run s (List.replicate k .loop)) (List.replicate m .loop) := by
    intro k m s
    rw [← List.replicate_append_replicate]
    simp only [run, List.foldl_append]
  obtain ⟨p, pc, log⟩ := s
  obtain ⟨h1, h2, h3, h4⟩ := hi
  cases pc with
  | idle =>
    cases p with
    | true =>
      obtain ⟨m, rfl⟩ : ∃ m, n = 3 + m := ⟨n - 3, by omega⟩
      rw [split, rest m _ rfl rfl]; rfl
    | false =>
      rw [rest n _ rfl rfl]
      cases hw : waiting log with
      | false => rfl
      | true => exact absurd (h1 hw) (by simp)
  | tested =>
    obtain ⟨m, rfl⟩ : ∃ m, n = 2 + m := ⟨n - 2, by omega⟩
    rw [split, rest m _ rfl rfl]; rfl
  | cleared =>
    cases p with
    | true =>
      obtain ⟨m, rfl⟩ : ∃ m, n = 4 + m := ⟨n - 4, by omega⟩
      rw [split, rest m _ rfl rfl]; rfl
    | false =>
      obtain ⟨m, rfl⟩ : ∃ m, n = 1 + m := ⟨n - 1, by omega⟩
      rw [split, rest m _ rfl rfl]; rfl

/-- **C144.** The prop never receives a click without a press: at no point are there more clicks than presses. -/
theorem C144_no_ghost (evs : List Ev) : NoGhost (run init evs).log := (run_inv evs init init_inv).2.2.2

/-- **C144.** A press that comes while the click of the one before is still being handled by the prop gets a click of its own. -/
theorem C144_during (s : S) (h : s.pc = .cleared) (hp : s.pressed = false) :
    (run s [.irq, .loop, .loop, .loop, .loop]).log = [.click, .click, .fall] ++ s.log := by
  obtain ⟨p, pc, log⟩ := s
  dsimp only at h hp
  subst h hp
  rfl

/-- **C144.** Counterexample to one click for each press: the pin may fall any number of times, as it does when a contact bounces, or when the button is pressed
again before the loop comes by, and there is one click. -/
theorem C144_bounce_counterexample (n : Nat) :
    count .fall (run init (List.replicate (n + 1) .irq ++ List.replicate 3 .loop)).log = n + 1 ∧
      count .click (run init (List.replicate (n + 1) .irq ++ List.replicate 3 .loop)).log = 1 := by
  have key : ∀ (n : Nat) (s : S), s.pc = .idle → (run s (List.replicate (n + 1) .irq)).pressed = true ∧ (run s (List.replicate (n + 1) .irq)).pc = .idle ∧
      count .fall (run s (List.replicate (n + 1) .irq)).log = count .fall s.log + n + 1 ∧
      count .click (run s (List.replicate (n + 1) .irq)).log = count .click s.log := by
    intro n
    induction n with
    | zero => intro s h; exact ⟨rfl, h, by simp [run, step, count_cons], by simp [run, step, count_cons]⟩
    | succ n ih =>
      intro s h
      rw [List.replicate_succ]
      obtain ⟨a, b, c, d⟩ := ih (step s .irq) h
      refine ⟨a, b, ?_, ?_⟩
      · show count .fall (run (step s .irq) _).log = _
        rw [c]; simp only [step, count_cons, if_true]; omega
      · show count .click (run (step s .irq) _).log = _
        rw [d]; simp [step, count_cons]
  obtain ⟨a, b, c, d⟩ := key n init rfl
  have : run init (List.replicate (n + 1) .irq ++ List.replicate 3 .loop) = run (run init (List.replicate (n + 1) .irq)) (List.replicate 3 .loop) := by
    simp only [run, List.foldl_append]
  rw [this]
  generalize run init (List.replicate (n + 1) .irq) = s at *
  obtain ⟨p, pc, log⟩ := s
  dsimp only at a b c d
  subst a b
  constructor
  · show count .fall (.click :: log) = _
    rw [count_cons, c]; simp [init, count]
  · show count .click (.click :: log) = _
    rw [count_cons, d]; simp [init, count]

/-- The claims apply: the prop is handling a click, and no other is waiting. -/
example : (run init [.irq, .loop, .loop]).pc = .cleared ∧ (run init [.irq, .loop, .loop]).pressed = false := by decide

/-- The claims apply: a press that comes while the one before is handled gets a click of its own. -/
example : (run init [.irq, .loop, .loop, .irq, .loop, .loop, .loop, .loop]).log = [.click, .click, .fall, .fall] := by decide

end Verif.Input.FastButton
