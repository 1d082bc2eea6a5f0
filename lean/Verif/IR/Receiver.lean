import Verif.IR.Nec
/-!
# Infrared: from the interrupt to the decoders

Model of ir/receiver.h.  The interrupt handler may run between any two steps of the main loop, so a history is a
list of edges and deliveries in any order.  Times are 32-bit microseconds.
-/
set_option linter.unusedSimpArgs false
namespace Verif.IR.Receiver
open Verif.IR (Pulse)

/-- the static members of `IRReceiver`, ir/receiver.h:66-70; `log` is what has been passed to `DoSignal` so far -/
structure Rx where
  head : Nat
  tail : Nat
  buffer : List Pulse
  state : Bool
  since : Nat
  log : List Pulse

/-- ir/receiver.h:73-77 -/
def Rx.init : Rx := ⟨0, 0, List.replicate 16 (false, 0), false, 0, []⟩

/-- 32-bit subtraction of times -/
def elapsed (now since : Nat) : Nat := (now + 4294967296 - since) % 4294967296

/-- `generateEvent`, ir/receiver.h:24-32 -/
def Rx.generate (r : Rx) (state : Bool) (now : Nat) : Rx :=
  { r with
    buffer := r.buffer.set ((r.head + 1) % 256 % 16) (!r.state, elapsed now r.since)
    head := (r.head + 1) % 256
    state := state
    since := now }

/-- `sample`, ir/receiver.h:35-41: the pin changes to `state` at time `now` -/
def Rx.sample (r : Rx) (state : Bool) (now : Nat) : Rx :=
  if state ≠ r.state then r.generate state now else r

/-- ir/receiver.h:47-53: the event generated after 20 milliseconds without a change -/
def Rx.idle (r : Rx) (state : Bool) (now : Nat) : Rx :=
  if elapsed now r.since > 20000 then r.generate state now else r

/-- one round of `while (tail != head)`, ir/receiver.h:54-59 -/
def Rx.deliver (r : Rx) : Rx :=
  if r.tail ≠ r.head then
    { r with tail := (r.tail + 1) % 256, log := r.log ++ [r.buffer.getD (r.tail % 16) (false, 0)] }
  else r

inductive Op where
  /-- the pin reads `state` at time `now` in the interrupt handler -/
  | edge (state : Bool) (now : Nat)
  /-- the check at the start of `Loop` -/
  | idle (state : Bool) (now : Nat)
  /-- one round of the loop -/
  | deliver

def Rx.step (r : Rx) : Op → Rx
  | .edge s t => r.sample s t
  | .idle s t => r.idle s t
  | .deliver => r.deliver

/-! ## Specification -/

/-- the receiver without a buffer: level and the time it was last looked at, and all pulses so far -/
structure Ideal where
  state : Bool
  since : Nat
  pulses : List Pulse
  taken : Nat

def Ideal.init : Ideal := ⟨false, 0, [], 0⟩

def Ideal.pulse (i : Ideal) (s : Bool) (t : Nat) : Ideal :=
  { i with state := s, since := t, pulses := i.pulses ++ [(!i.state, elapsed t i.since)] }

def Ideal.step (i : Ideal) : Op → Ideal
  | .edge s t => if s ≠ i.state then i.pulse s t else i
  | .idle s t => if elapsed t i.since > 20000 then i.pulse s t else i
  | .deliver => if i.taken < i.pulses.length then { i with taken := i.taken + 1 } else i

/-- the main loop keeps up: never more than 15 pulses waiting -/
def KeepsUp : Ideal → List Op → Prop
  | i, [] => i.pulses.length ≤ i.taken + 15
  | i, o :: os => i.pulses.length ≤ i.taken + 15 ∧ KeepsUp (i.step o) os

/-! ## Proofs -/

/-- the pulse before the first one: what is in the buffer at the start -/
def first : Pulse := (false, 0)

structure Rel (r : Rx) (i : Ideal) : Prop where
  len : r.buffer.length = 16
  state : r.state = i.state
  since : r.since = i.since
  le : i.taken ≤ i.pulses.length
  few : i.pulses.length ≤ i.taken + 15
  head : r.head = i.pulses.length % 256
  tail : r.tail = i.taken % 256
  log : r.log = (first :: i.pulses).take i.taken
  buf : ∀ k, i.taken ≤ k → k ≤ i.pulses.length → r.buffer[k % 16]? = (first :: i.pulses)[k]?

theorem Rel.generate {r : Rx} {i : Ideal} (h : Rel r i) {s : Bool} {t : Nat} (hf : (i.pulse s t).pulses.length ≤ (i.pulse s t).taken + 15) :
    Rel (r.generate s t) (i.pulse s t) := by
  obtain ⟨len, state, since, le, few, head, tail, log, buf⟩ := h
  have hl : (i.pulse s t).pulses.length = i.pulses.length + 1 := by simp [Ideal.pulse]
  have ht : (i.pulse s t).taken = i.taken := rfl
  rw [hl, ht] at hf
  refine ⟨by simp [Rx.generate, len], rfl, rfl, ?_, ?_, ?_, ?_, ?_, ?_⟩
  · rw [hl, ht]; omega
  · rw [hl, ht]; omega
  · rw [hl]; simp only [Rx.generate, head]; omega
  · exact tail
  · rw [ht]
    show r.log = (first :: (i.pulses ++ [_])).take i.taken
    rw [log, ← List.cons_append, List.take_append_of_le_length (by simp; omega)]
  · intro k h1 h2
    rw [hl] at h2
    rw [ht] at h1
    show (r.buffer.set _ _)[k % 16]? = (first :: (i.pulses ++ [_]))[k]?
    have hslot : (r.head + 1) % 256 % 16 = (i.pulses.length + 1) % 16 := by rw [head]; omega
    rw [hslot, state, since]
    by_cases hk : k = i.pulses.length + 1
    · subst hk
      rw [List.getElem?_set_self (by rw [len]; omega)]
      simp
    · rw [List.getElem?_set_ne (by omega), buf k h1 (by omega)]
      rw [← List.cons_append, List.getElem?_append_left (by simp; omega)]

theorem Rel.step {r : Rx} {i : Ideal} (h : Rel r i) (o : Op) (hf : (i.step o).pulses.length ≤ (i.step o).taken + 15) : Rel (r.step o) (i.step o) := by
  cases o with
  | edge s t =>
    simp only [Rx.step, Ideal.step, Rx.sample] at hf ⊢
    rw [h.state]
    split
    · rename_i hc; rw [if_pos hc] at hf; exact h.generate hf
    · exact h
  | idle s t =>
    simp only [Rx.step, Ideal.step, Rx.idle] at hf ⊢
    rw [h.since]
    split
    · rename_i hc; rw [if_pos hc] at hf; exact h.generate hf
    · exact h
  | deliver =>
    simp only [Rx.step, Ideal.step, Rx.deliver]
    have hh := h.head
    have ht := h.tail
    have hle := h.le
    have hfew := h.few
    have hne : r.tail ≠ r.head ↔ i.taken < i.pulses.length := by
      rw [hh, ht]; constructor <;> omega
    by_cases hlt : i.taken < i.pulses.length
    · rw [if_pos hlt, if_pos (hne.2 hlt)]
      refine ⟨h.len, h.state, h.since, ?_, ?_, hh, ?_, ?_, ?_⟩
      · simp only; omega
      · simp only; omega
      · simp only [ht]; omega
      · simp only
        rw [List.take_add_one, h.log]
        have hb := h.buf i.taken (Nat.le_refl _) hle
        have : r.tail % 16 = i.taken % 16 := by rw [ht]; omega
        rw [this, List.getD_eq_getElem?_getD, hb]
        rw [List.getElem?_eq_getElem (by simp; omega)]
        rfl
      · intro k h1 h2
        simp only at h1
        exact h.buf k (by omega) h2
    · rw [if_neg hlt, if_neg (fun hc => hlt (hne.1 hc))]
      exact h

theorem rel_run : ∀ (os : List Op) {r : Rx} {i : Ideal}, Rel r i → KeepsUp i os → Rel (os.foldl Rx.step r) (os.foldl Ideal.step i)
  | [], _, _, h, _ => h
  | o :: os, r, i, h, hk => by
    have h2 : (i.step o).pulses.length ≤ (i.step o).taken + 15 := by
      have := hk.2
      cases os with
      | nil => exact this
      | cons => exact this.1
    exact rel_run os (h.step o h2) hk.2

theorem rel_init : Rel Rx.init Ideal.init := by
  refine ⟨rfl, rfl, rfl, Nat.le_refl _, by decide, rfl, rfl, rfl, ?_⟩
  intro k h1 h2
  have : k = 0 := by simpa [Ideal.init] using h2
  subst this
  rfl

/-- C66: as long as the main loop keeps up, whatever the order of interrupts and deliveries, the decoders get
every pulse exactly once and in order, but each one step late: the first thing they get is an empty pulse, and the
newest pulse stays in the buffer until the next one arrives.  Also the main loop always notices that something is waiting. -/
theorem C66_delivery_partial (os : List Op) (h : KeepsUp Ideal.init os) :
    let r := os.foldl Rx.step Rx.init
    let i := os.foldl Ideal.step Ideal.init
    r.log = ((false, 0) :: i.pulses).take i.taken ∧ (r.tail = r.head ↔ i.taken = i.pulses.length) := by
  have hr := rel_run os rel_init h
  refine ⟨hr.log, ?_⟩
  have := hr.le
  have := hr.few
  rw [hr.head, hr.tail]
  constructor
  · omega
  · intro h; rw [h]

/-- C66: the claim "after the loop has run, everything received has been passed on" is false -/
theorem C66_counterexample : ∃ os, KeepsUp Ideal.init os ∧ (os.foldl Rx.step Rx.init).tail = (os.foldl Rx.step Rx.init).head ∧
    (os.foldl Ideal.step Ideal.init).pulses = [(true, 1000), (false, 500)] ∧ (os.foldl Rx.step Rx.init).log = [(false, 0), (true, 1000)] :=
  ⟨[.edge true 1000, .edge false 1500, .deliver, .deliver, .deliver], by simp only [KeepsUp]; decide, by decide, by decide, by decide⟩

/-- the time an operation happens -/
def Op.InTime : Op → Prop
  | .edge _ t => t < 4294967296
  | .idle _ t => t < 4294967296
  | .deliver => True

theorem add_mod_sub {S since t : Nat} (h : S % 4294967296 = since) (ht : t < 4294967296) :
    (S + elapsed t since) % 4294967296 = t := by unfold elapsed; omega

theorem snoc_sum {l l' : List Pulse} {b : Bool} {x S since t u : Nat} (e : l' = l ++ [(b, x)]) (hx : x = elapsed t since) (hu : u = t) (hS : S = (l.map Prod.snd).sum)
    (h : S % 4294967296 = since) (ht : t < 4294967296) : (l'.map Prod.snd).sum % 4294967296 = u := by
  subst e hu
  have : ((l ++ [(b, x)]).map Prod.snd).sum = S + x := by rw [hS]; simp
  rw [this, hx]
  exact add_mod_sub h ht

theorem pulse_time {i : Ideal} (h : (i.pulses.map Prod.snd).sum % 4294967296 = i.since) {s : Bool} {t : Nat} (ht : t < 4294967296) :
    ((i.pulse s t).pulses.map Prod.snd).sum % 4294967296 = (i.pulse s t).since :=
  snoc_sum (l := i.pulses) (b := !i.state) (x := elapsed t i.since) (since := i.since) rfl rfl rfl rfl h ht

theorem step_time {i : Ideal} (h : (i.pulses.map Prod.snd).sum % 4294967296 = i.since) {o : Op} (ho : o.InTime) :
    ((i.step o).pulses.map Prod.snd).sum % 4294967296 = (i.step o).since := by
  cases o with
  | edge s t =>
    simp only [Ideal.step]
    split
    · exact pulse_time h ho
    · exact h
  | idle s t =>
    simp only [Ideal.step]
    split
    · exact pulse_time h ho
    · exact h
  | deliver =>
    simp only [Ideal.step]
    split
    · exact h
    · exact h

theorem ideal_time (os : List Op) (i : Ideal) (h : (i.pulses.map Prod.snd).sum % 4294967296 = i.since) (ht : ∀ o ∈ os, o.InTime) :
    ((os.foldl Ideal.step i).pulses.map Prod.snd).sum % 4294967296 = (os.foldl Ideal.step i).since := by
  induction os generalizing i with
  | nil => exact h
  | cons o os ih =>
    exact ih _ (step_time h (ht o (List.mem_cons_self ..))) (fun o' h' => ht o' (List.mem_cons_of_mem _ h'))

/-- C66: the lengths of the pulses add up to the time of the last one: no time is lost or counted twice -/
theorem C66_time (os : List Op) (ht : ∀ o ∈ os, o.InTime) :
    ((os.foldl Ideal.step Ideal.init).pulses.map Prod.snd).sum % 4294967296 = (os.foldl Ideal.step Ideal.init).since :=
  ideal_time os Ideal.init rfl ht

end Verif.IR.Receiver
