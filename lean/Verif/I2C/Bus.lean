/-!
# The power of the I2C bus (C119)

Model of `I2CBus` on boards other than Teensy (common/i2cbus.h:53-86): the bus is put to sleep when nobody asked for it for two
seconds and woken by a request. All calls of `millis()` in one `Loop` return the same time here. Times are real milliseconds, the
code sees them modulo 2^32.
-/
namespace Verif.I2C.Bus

/-- `used()`, common/i2cbus.h:78-80: the sign bit of `last_request_millis_ + 2000 - millis()`. -/
def used (last now : Nat) : Bool := decide ((last % 4294967296 + 2000 + (4294967296 - now % 4294967296)) % 4294967296 < 2147483648)

/-- Where `Loop` waits: in `SLEEP(1000)`, in `while (used())`, in `while (!used())`. -/
inductive Ph | start | on | asleep
  deriving DecidableEq

/-- `detected` is `i2c_detected_`; `begun` whether `Wire` is begun. -/
structure S where
  ph : Ph := .start
  last : Nat := 0
  detected : Bool := false
  begun : Bool := false
  deriving DecidableEq

/-- From `Wire.begin()` on, common/i2cbus.h:57-65. -/
def begin (s : S) (now : Nat) : S :=
  if used s.last now then { s with ph := .on, detected := true, begun := true }
  else { s with ph := .asleep, detected := false, begun := false }

/-- `Loop` after the first sleep is over, common/i2cbus.h:55-67. -/
def loop (s : S) (now : Nat) : S :=
  match s.ph with
  | .start => begin s now
  | .on => if used s.last now then s else { s with ph := .asleep, detected := false, begun := false }
  | .asleep => if used s.last now then begin s now else s

/-- `inited()`, common/i2cbus.h:82-85. -/
def request (s : S) (now : Nat) : S × Bool := ({ s with last := now }, s.detected)

inductive Op
  | loop (now : Nat)
  | request (now : Nat)

def Op.time : Op → Nat
  | .loop t => t
  | .request t => t

def step (s : S) : Op → S
  | .loop t => loop s t
  | .request t => (request s t).1

/-- In real time: used for two seconds after a request, and again from 2^31 ms after these. -/
theorem used_iff (last now : Nat) (h : last ≤ now) :
    used last now = true ↔ (now - last) % 4294967296 ≤ 2000 ∨ 2147483648 + 2000 < (now - last) % 4294967296 := by
  unfold used
  rw [decide_eq_true_iff]
  omega

/-! ## Claims -/

/-- Between two calls of `Loop` the answer to a request and the state of the wire agree. -/
def Ok (s : S) : Prop := (s.ph = .on ↔ s.detected = true) ∧ s.begun = s.detected

theorem step_ok (s : S) (o : Op) (h : Ok s) : Ok (step s o) := by
  have hb : ∀ t, Ok (begin s t) := by
    intro t; unfold begin Ok; split <;> simp
  cases o with
  | request t => exact h
  | loop t =>
    unfold step loop
    simp only
    split
    · exact hb t
    · split
      · exact h
      · unfold Ok; simp
    · split
      · exact hb t
      · exact h

/-- A device is told the bus is ready only when it is begun. -/
theorem C119_ready (ops : List Op) (now : Nat) (h : (request (ops.foldl step {}) now).2 = true) : (ops.foldl step {}).begun = true := by
  have key : ∀ (ops : List Op) (s : S), Ok s → Ok (ops.foldl step s) := by
    intro ops
    induction ops with
    | nil => intro s h; exact h
    | cons o t ih => intro s h; exact ih _ (step_ok s o h)
  have := key ops {} (by unfold Ok; simp)
  rw [this.2]; exact h

/-- Requests come often enough: no call of `Loop` is more than two seconds after the last one; the clock does not go back. -/
def Busy : Nat → List Op → Prop
  | _, [] => True
  | last, .loop t :: r => last ≤ t ∧ t ≤ last + 2000 ∧ Busy last r
  | last, .request t :: r => last ≤ t ∧ Busy t r

/-- A bus in use never goes to sleep, at any value of the clock and for any time. -/
theorem C119_stays (s : S) (ops : List Op) (hs : s.ph = .on) (h : Busy s.last ops) : (ops.foldl step s).ph = .on ∧ (s.detected = true → (ops.foldl step s).detected = true) := by
  induction ops generalizing s with
  | nil => exact ⟨hs, id⟩
  | cons o r ih =>
    cases o with
    | loop t =>
      obtain ⟨h1, h2, h3⟩ := h
      have hu : used s.last t = true := (used_iff s.last t h1).2 (Or.inl (by omega))
      have he : step s (.loop t) = s := by unfold step loop; simp only [hs, hu, if_true]
      rw [List.foldl_cons, he]
      exact ih s hs h3
    | request t => exact ih { s with last := t } hs h.2

/-- A request wakes it: the first `Loop` within two seconds after makes it ready. -/
theorem C119_wakes (s : S) (t now : Nat) (hs : s.ph = .asleep) (h1 : t ≤ now) (h2 : now ≤ t + 2000) :
    (loop (request s t).1 now).ph = .on ∧ (request (loop (request s t).1 now) now).2 = true ∧ (loop (request s t).1 now).begun = true := by
  have hu : used t now = true := (used_iff t now h1).2 (Or.inl (by omega))
  have he : loop (request s t).1 now = { ph := .on, last := t, detected := true, begun := true } := by
    unfold loop request
    simp only [hs]
    rw [if_pos hu]
    unfold begin
    rw [if_pos hu]
  rw [he]
  exact ⟨rfl, rfl, rfl⟩

/-- Unused for more than two seconds it sleeps, and goes on sleeping until asked, for the next 24 days. -/
theorem C119_sleeps (s : S) (ts : List Nat) (t : Nat) (h : ∀ x ∈ t :: ts, s.last + 2000 < x ∧ x ≤ s.last + 2147483648) :
    ((t :: ts).foldl loop s).ph = .asleep ∧ ((t :: ts).foldl loop s).begun = (if s.ph = .asleep then s.begun else false) := by
  have hu : ∀ x ∈ t :: ts, used s.last x = false := by
    intro x hx
    have := h x hx
    cases hq : used s.last x with
    | false => rfl
    | true => rcases (used_iff s.last x (by omega)).1 hq with q | q <;> omega
  have rest : ∀ (l : List Nat) (s' : S), s'.ph = .asleep → (∀ x ∈ l, used s'.last x = false) → l.foldl loop s' = s' := by
    intro l
    induction l with
    | nil => intro s' _ _; rfl
    | cons x r ih =>
      intro s' h1 h2
      have he : loop s' x = s' := by unfold loop; simp only [h1]; rw [if_neg (by simp [h2 x])]
      rw [List.foldl_cons, he]
      exact ih s' h1 (fun y hy => h2 y (List.mem_cons_of_mem _ hy))
  have ht := hu t (by simp)
  rw [List.foldl_cons]
  have hf : (loop s t).ph = .asleep ∧ (loop s t).last = s.last ∧ (loop s t).begun = (if s.ph = .asleep then s.begun else false) := by
    unfold loop begin
    cases hp : s.ph <;> simp [ht, hp]
  rw [rest ts (loop s t) hf.1 (fun x hx => by rw [hf.2.1]; exact hu x (List.mem_cons_of_mem _ hx))]
  exact ⟨hf.1, hf.2.2⟩

/-- 24 days after the last request the bus is woken though nobody asked, and stays on for 24 days. -/
theorem C119_wakes_counterexample (last now : Nat) (h1 : last + 2147483648 + 2000 < now) (h2 : now < last + 4294967296) :
    loop { ph := .asleep, last := last } now = { ph := .on, last := last, detected := true, begun := true } := by
  have hu : used last now = true := (used_iff last now (by omega)).2 (Or.inr (by omega))
  unfold loop
  simp only
  rw [if_pos hu]
  unfold begin
  simp only
  rw [if_pos hu]

example : Busy 0 [.loop 1000, .request 1500, .loop 3000, .request 3000, .loop 5000] := by simp [Busy]
example : (loop { ph := .asleep, last := 100 } 2101).ph = .asleep ∧ (loop { ph := .on, last := 100, detected := true, begun := true } 2101).ph = .asleep ∧
    (loop { ph := .on, last := 100, detected := true, begun := true } 2100).ph = .on := by decide +kernel

end Verif.I2C.Bus
