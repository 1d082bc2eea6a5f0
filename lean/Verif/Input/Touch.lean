import Mathlib.Data.List.Range
/-!
# Touch buttons

Model of buttons/touchbutton.h (Teensy).  All touch buttons share the one touch sensor of the processor; each has its own cooperative thread
(common/state_machine.h:11-16) and they take turns by the static `current_button`.  Not modelled: the numbers printed for monitoring, and the
registers of the sensor, of which only the channel being scanned and the flag for a scan in progress are kept.  Debouncing is in
`Verif.Input.Model`.
-/
namespace Verif.Input.Touch

/-- Where a thread stands, `StateMachineState`, common/state_machine.h:27-34: before its turn (buttons/touchbutton.h:152 or 185), in one of its two
sleeps (173, 175) until the time given, or waiting for the sensor (174). -/
inductive Pc
  | start
  | sleep10 (til : Nat)
  | busy
  | sleep1 (til : Nat)
  deriving DecidableEq, Repr

/-- What is seen from outside: a scan of the channel of a button begins, and a value is taken for a button from the channel given. -/
inductive Ev
  | began (i : Nat)
  | took (i chan v : Nat)
  deriving DecidableEq, Repr

/-- All the buttons: `current_button` (buttons/touchbutton.h:190), the threads, `is_pushed_` (195), the channel last set up in the sensor, and
what has happened, latest first. -/
structure T where
  cur : Option Nat
  pc : Nat → Pc
  pushed : Nat → Bool
  chan : Nat
  log : List Ev

/-- One call of `Loop`: the readings of the clock on the way, whether the sensor is still busy, and the count it shows. -/
structure In where
  a : Nat
  b : Nat
  c : Nat
  d : Nat
  scnip : Bool
  v : Nat

/-- function update -/
def upd {α : Type} (f : Nat → α) (i : Nat) (x : α) : Nat → α := fun j => if j = i then x else f j

/-- `Update`, and giving the turn away, buttons/touchbutton.h:115-142, 177-185 -/
def finish (thr : Nat → Nat) (i : Nat) (e : In) (t : T) : T :=
  { t with cur := none, pc := upd t.pc i .start, pushed := upd t.pushed i (decide (e.v > thr i)), log := .took i t.chan e.v :: t.log }

/-- the second sleep, buttons/touchbutton.h:175, common/state_machine.h:14 -/
def fromSleep1 (thr : Nat → Nat) (i : Nat) (e : In) (til : Nat) (t : T) : T :=
  if e.d < til then { t with pc := upd t.pc i (.sleep1 til) } else finish thr i e t

/-- waiting for the sensor, buttons/touchbutton.h:174 -/
def fromBusy (thr : Nat → Nat) (i : Nat) (e : In) (t : T) : T :=
  if e.scnip then { t with pc := upd t.pc i .busy } else fromSleep1 thr i e ((e.c + 1) % 4294967296) t

/-- the first sleep, buttons/touchbutton.h:173 -/
def fromSleep10 (thr : Nat → Nat) (i : Nat) (e : In) (til : Nat) (t : T) : T :=
  if e.b < til then { t with pc := upd t.pc i (.sleep10 til) } else fromBusy thr i e t

/-- `TouchButton::Loop`, buttons/touchbutton.h:144-188 -/
def loop (thr : Nat → Nat) (t : T) (i : Nat) (e : In) : T :=
  match t.pc i with
  | .start => if t.cur.isSome then t else
      fromSleep10 thr i e ((e.a + 10) % 4294967296) { t with cur := some i, chan := i, log := .began i :: t.log }
  | .sleep10 til => fromSleep10 thr i e til t
  | .busy => fromBusy thr i e t
  | .sleep1 til => fromSleep1 thr i e til t

/-- new objects, buttons/touchbutton.h:190-199 -/
def t0 : T := ⟨none, fun _ => .start, fun _ => false, 0, []⟩

/-- any calls of `Loop` of any buttons -/
def run (thr : Nat → Nat) (t : T) : List (Nat × In) → T
  | [] => t
  | (i, e) :: l => run thr (loop thr t i e) l

/-! ### specification -/

/-- Only one scan at a time: each value is taken from the scan begun last, which was begun for that same button, and no scan begins before the
last one was taken. (Latest first.) -/
def OneAtATime : List Ev → Prop
  | [] => True
  | .began _ :: [] => True
  | .began _ :: .began _ :: _ => False
  | .began _ :: .took i c v :: l => OneAtATime (.took i c v :: l)
  | .took _ _ _ :: [] => False
  | .took _ _ _ :: .took _ _ _ :: _ => False
  | .took i c _ :: .began j :: l => i = j ∧ c = i ∧ OneAtATime (.began j :: l)

/-- The last value taken for a button. -/
def lastOf (i : Nat) : List Ev → Option Nat
  | [] => none
  | .began _ :: l => lastOf i l
  | .took j _ v :: l => if j = i then some v else lastOf i l

/-- The buttons whose turns began, first one first. -/
def turns : List Ev → List Nat
  | [] => []
  | .began i :: l => turns l ++ [i]
  | .took _ _ _ :: l => turns l

/-! ### invariant -/

/-- The invariant. -/
def Inv (thr : Nat → Nat) (t : T) : Prop :=
  OneAtATime t.log ∧ (∀ i, t.pushed i = ((lastOf i t.log).map fun v => decide (v > thr i)).getD false) ∧
  match t.cur with
  | none => (∀ i, t.pc i = .start) ∧ (t.log = [] ∨ ∃ i c v l, t.log = .took i c v :: l)
  | some i => (∀ j, j ≠ i → t.pc j = .start) ∧ t.chan = i ∧ ∃ l, t.log = .began i :: l

theorem inv_t0 (thr : Nat → Nat) : Inv thr t0 := by
  refine ⟨trivial, fun i => rfl, fun i => rfl, .inl rfl⟩

section
variable {thr : Nat → Nat} {t : T} {i : Nat} {e : In}

theorem inv_park (h : Inv thr t) (hc : t.cur = some i) (p : Pc) : Inv thr { t with pc := upd t.pc i p } := by
  obtain ⟨h1, h2, h3⟩ := h
  rw [hc] at h3
  refine ⟨h1, h2, ?_⟩
  simp only [hc]
  refine ⟨fun j hj => ?_, h3.2.1, h3.2.2⟩
  simp [upd, hj, h3.1 j hj]

theorem inv_finish (h : Inv thr t) (hc : t.cur = some i) : Inv thr (finish thr i e t) := by
  obtain ⟨h1, h2, h3⟩ := h
  rw [hc] at h3
  obtain ⟨h4, h5, l, h6⟩ := h3
  refine ⟨?_, fun j => ?_, fun j => ?_, .inr ⟨i, t.chan, e.v, t.log, rfl⟩⟩
  · simp only [finish]
    rw [h6] at h1 ⊢
    exact ⟨rfl, h5, h1⟩
  · simp only [finish, lastOf, upd]
    by_cases hj : j = i
    · subst hj; simp
    · simp [hj, Ne.symm hj, h2 j]
  · simp only [finish, upd]
    by_cases hj : j = i
    · simp [hj]
    · simp [hj, h4 j hj]

theorem inv_s1 (h : Inv thr t) (hc : t.cur = some i) (til : Nat) : Inv thr (fromSleep1 thr i e til t) := by
  unfold fromSleep1
  split
  · exact inv_park h hc _
  · exact inv_finish h hc

theorem inv_busy (h : Inv thr t) (hc : t.cur = some i) : Inv thr (fromBusy thr i e t) := by
  unfold fromBusy
  split
  · exact inv_park h hc _
  · exact inv_s1 h hc _

theorem inv_s10 (h : Inv thr t) (hc : t.cur = some i) (til : Nat) : Inv thr (fromSleep10 thr i e til t) := by
  unfold fromSleep10
  split
  · exact inv_park h hc _
  · exact inv_busy h hc

/-- the state once a turn is taken -/
theorem inv_take (h : Inv thr t) (hc : t.cur = none) : Inv thr { t with cur := some i, chan := i, log := .began i :: t.log } := by
  obtain ⟨h1, h2, h3⟩ := h
  rw [hc] at h3
  refine ⟨?_, fun j => by simpa [lastOf] using h2 j, fun j _ => h3.1 j, rfl, t.log, rfl⟩
  rcases h3.2 with h | ⟨a, c, v, l, h⟩
  · rw [h]; trivial
  · show OneAtATime (.began i :: t.log)
    rw [h] at h1 ⊢
    exact h1

/-- a thread within its turn holds it -/
theorem owner (h : Inv thr t) (hp : t.pc i ≠ .start) : t.cur = some i := by
  obtain ⟨-, -, h3⟩ := h
  cases hc : t.cur with
  | none => rw [hc] at h3; exact absurd (h3.1 i) hp
  | some j =>
    rw [hc] at h3
    by_cases hj : i = j
    · rw [hj]
    · exact absurd (h3.1 i hj) hp

theorem inv_loop (h : Inv thr t) : Inv thr (loop thr t i e) := by
  unfold loop
  split
  · split
    · exact h
    · rename_i hc
      have hc : t.cur = none := by cases hh : t.cur <;> simp_all
      exact inv_s10 (inv_take h hc) rfl _
  · rename_i til hp
    exact inv_s10 h (owner h (by rw [hp]; exact fun e => by cases e)) _
  · rename_i hp
    exact inv_busy h (owner h (by rw [hp]; exact fun e => by cases e))
  · rename_i til hp
    exact inv_s1 h (owner h (by rw [hp]; exact fun e => by cases e)) _

end

theorem inv_run (thr : Nat → Nat) (l : List (Nat × In)) (t : T) (h : Inv thr t) : Inv thr (run thr t l) := by
  induction l generalizing t with
  | nil => exact h
  | cons p l ih => exact ih _ (inv_loop h)

/-- In whatever order the buttons are looped, however long the sensor takes and whatever the clock says, there is only one scan at a time,
and each value belongs to the button for which it is taken. -/
theorem C131_turns (thr : Nat → Nat) (l : List (Nat × In)) : OneAtATime (run thr t0 l).log := (inv_run thr l t0 (inv_t0 thr)).1

/-- A button counts as touched just when the last value taken for it was above its threshold. -/
theorem C131_pushed (thr : Nat → Nat) (l : List (Nat × In)) (i : Nat) :
    (run thr t0 l).pushed i = true ↔ ∃ v, lastOf i (run thr t0 l).log = some v ∧ thr i < v := by
  rw [(inv_run thr l t0 (inv_t0 thr)).2.1 i]
  cases lastOf i (run thr t0 l).log <;> simp

/-! ### turns -/

/-- the effect of one call on owner and log -/
def Moved (t t' : T) (i : Nat) : Prop :=
  (t.cur = none → turns t'.log = turns t.log ++ [i] ∧ (t'.cur = some i ∨ t'.cur = none)) ∧
  (∀ j, t.cur = some j → turns t'.log = turns t.log ∧ (t'.cur = some j ∨ (i = j ∧ t'.cur = none)))

section
variable {thr : Nat → Nat} {t : T} {i : Nat} {e : In}

theorem own_s1 (hc : t.cur = some i) (til : Nat) : turns (fromSleep1 thr i e til t).log = turns t.log ∧
    ((fromSleep1 thr i e til t).cur = some i ∨ (fromSleep1 thr i e til t).cur = none) := by
  unfold fromSleep1
  split
  · exact ⟨rfl, .inl hc⟩
  · exact ⟨rfl, .inr rfl⟩

theorem own_busy (hc : t.cur = some i) : turns (fromBusy thr i e t).log = turns t.log ∧
    ((fromBusy thr i e t).cur = some i ∨ (fromBusy thr i e t).cur = none) := by
  unfold fromBusy
  split
  · exact ⟨rfl, .inl hc⟩
  · exact own_s1 hc _

theorem own_s10 (hc : t.cur = some i) (til : Nat) : turns (fromSleep10 thr i e til t).log = turns t.log ∧
    ((fromSleep10 thr i e til t).cur = some i ∨ (fromSleep10 thr i e til t).cur = none) := by
  unfold fromSleep10
  split
  · exact ⟨rfl, .inl hc⟩
  · exact own_busy hc

theorem moved (h : Inv thr t) : Moved t (loop thr t i e) i := by
  unfold loop
  split
  · split
    · rename_i hp hc
      exact ⟨fun hn => by rw [hn] at hc; simp at hc, fun j hj => ⟨rfl, .inl hj⟩⟩
    · rename_i hp hc
      have hn : t.cur = none := by cases hh : t.cur <;> simp_all
      refine ⟨fun _ => ?_, fun j hj => by rw [hn] at hj; cases hj⟩
      exact own_s10 (t := { t with cur := some i, chan := i, log := .began i :: t.log }) rfl _
  all_goals
    rename_i hp
    have ho : t.cur = some i := owner h (by rw [hp]; exact fun e => by cases e)
    refine ⟨(fun hn => by rw [hn] at ho; cases ho), fun j hj => ?_⟩
    have : j = i := by rw [ho] at hj; cases hj; rfl
    subst this
    first
    | exact ⟨(own_s10 ho _).1, (own_s10 ho _).2.imp id fun h => ⟨rfl, h⟩⟩
    | exact ⟨(own_busy ho).1, (own_busy ho).2.imp id fun h => ⟨rfl, h⟩⟩
    | exact ⟨(own_s1 ho _).1, (own_s1 ho _).2.imp id fun h => ⟨rfl, h⟩⟩

end

/-- The main loop, common/looper.h, calls the buttons one after the other, again and again: calls `k` to `k + m`. -/
def rounds (thr : Nat → Nat) (n : Nat) (env : Nat → In) : Nat → T
  | 0 => t0
  | k + 1 => loop thr (rounds thr n env k) (k % n) (env k)

theorem rounds_inv (thr : Nat → Nat) (n : Nat) (env : Nat → In) (k : Nat) : Inv thr (rounds thr n env k) := by
  induction k with
  | zero => exact inv_t0 thr
  | succ k ih => exact inv_loop ih

theorem mod_succ (a b n : Nat) (h : a % n = b % n) : (a + 1) % n = (b + 1) % n := by
  rw [Nat.add_mod a, Nat.add_mod b, h]

theorem rounds_turns (thr : Nat → Nat) (n : Nat) (env : Nat → In) (k : Nat) :
    ∃ m, turns (rounds thr n env k).log = (List.range m).map (· % n) ∧
      ((rounds thr n env k).cur = none → k % n = m % n) ∧ (∀ j, (rounds thr n env k).cur = some j → 0 < m ∧ j = (m - 1) % n) := by
  induction k with
  | zero => exact ⟨0, rfl, fun _ => rfl, fun j h => by cases h⟩
  | succ k ih =>
    obtain ⟨m, h1, h2, h3⟩ := ih
    have hm := moved (i := k % n) (e := env k) (rounds_inv thr n env k)
    show ∃ m, turns (loop thr (rounds thr n env k) (k % n) (env k)).log = _ ∧ _
    cases hc : (rounds thr n env k).cur with
    | none =>
      obtain ⟨h4, h5⟩ := hm.1 hc
      refine ⟨m + 1, ?_, fun hh => mod_succ _ _ _ (h2 hc), fun j hj => ⟨by omega, ?_⟩⟩
      · rw [h4, h1, List.range_succ, List.map_append, h2 hc]; rfl
      · rcases h5 with h5 | h5
        · have h5 : (loop thr (rounds thr n env k) (k % n) (env k)).cur = some (k % n) := h5
          have hj : (loop thr (rounds thr n env k) (k % n) (env k)).cur = some j := hj
          rw [h5] at hj; cases hj
          simpa using h2 hc
        · have hj : (loop thr (rounds thr n env k) (k % n) (env k)).cur = some j := hj
          rw [h5] at hj; cases hj
    | some i =>
      obtain ⟨h4, h5⟩ := hm.2 i hc
      obtain ⟨h6, h7⟩ := h3 i hc
      refine ⟨m, by rw [h4, h1], fun hh => ?_, fun j hj => ?_⟩
      · have hh : (loop thr (rounds thr n env k) (k % n) (env k)).cur = none := hh
        rcases h5 with h5 | ⟨h5, -⟩
        · rw [h5] at hh; cases hh
        · have := mod_succ k (m - 1) n (h5.trans h7)
          rwa [show m - 1 + 1 = m by omega] at this
      · have hj : (loop thr (rounds thr n env k) (k % n) (env k)).cur = some j := hj
        rcases h5 with h5 | ⟨-, h5⟩
        · rw [h5] at hj; cases hj; exact ⟨h6, h7⟩
        · rw [h5] at hj; cases hj

/-- All buttons get their turns in order: the `k`th turn is that of button `k` modulo their number, so none is skipped or has two turns before
the others had theirs. -/
theorem C131_fair (thr : Nat → Nat) (n : Nat) (env : Nat → In) (k : Nat) (m : Nat) (h : m < (turns (rounds thr n env k).log).length) :
    (turns (rounds thr n env k).log)[m]? = some (m % n) := by
  obtain ⟨m', h1, -⟩ := rounds_turns thr n env k
  rw [h1] at h ⊢
  rw [List.length_map, List.length_range] at h
  simp [List.getElem?_map, List.getElem?_range h]

/-- With three buttons and a sensor that is fast, after three calls all had their turn. -/
example : (rounds (fun _ => 5) 3 (fun k => ⟨k, k + 10, k, k + 1, false, k * 5⟩) 3).log =
    [.took 2 2 10, .began 2, .took 1 1 5, .began 1, .took 0 0 0, .began 0] := by decide

/-- A turn ends: the owner finishes in the call in which the sensor is done and the times have passed, and only then. -/
theorem C131_ends (thr : Nat → Nat) (t : T) (i til : Nat) (e : In) (hp : t.pc i = .sleep10 til) (ht : t.cur = some i) :
    (loop thr t i e).cur = none ↔ til ≤ e.b ∧ e.scnip = false ∧ (e.c + 1) % 4294967296 ≤ e.d := by
  have hw : ∀ x, (fromSleep1 thr i e x t).cur = none ↔ x ≤ e.d := by
    intro x
    unfold fromSleep1
    split
    · rename_i hx
      exact ⟨(fun h => by rw [show ({ t with pc := upd t.pc i (.sleep1 x) } : T).cur = t.cur from rfl, ht] at h; cases h), fun h => by omega⟩
    · exact ⟨fun _ => by omega, fun _ => rfl⟩
  simp only [loop, hp, fromSleep10]
  split
  · rename_i h
    refine ⟨fun h => ?_, fun h => by omega⟩
    rw [show ({ t with pc := upd t.pc i (.sleep10 til) } : T).cur = t.cur from rfl, ht] at h
    cases h
  · rename_i h
    unfold fromBusy
    split
    · rename_i hs
      refine ⟨fun h => ?_, fun h => by rw [hs] at h; simp at h⟩
      rw [show ({ t with pc := upd t.pc i .busy } : T).cur = t.cur from rfl, ht] at h
      cases h
    · rename_i hs
      rw [hw]
      exact ⟨fun h => ⟨by omega, by simpa using hs, h⟩, fun h => h.2.2⟩

/-- one call while the owner sleeps -/
theorem stuck_step (thr : Nat → Nat) (t : T) (i til : Nat) (h : Inv thr t) (hc : t.cur = some i) (hp : t.pc i = .sleep10 til)
    (j : Nat) (e : In) (he : e.b < til) :
    (loop thr t j e).cur = some i ∧ (loop thr t j e).pc i = .sleep10 til ∧ (loop thr t j e).log = t.log := by
  by_cases hj : j = i
  · subst hj
    simp only [loop, hp, fromSleep10, he, if_true]
    exact ⟨hc, by simp [upd], trivial⟩
  · have h3 := h.2.2
    rw [hc] at h3
    have : loop thr t j e = t := by simp [loop, h3.1 j hj, hc]
    rw [this]
    exact ⟨hc, hp, rfl⟩

/-- The times at which a thread goes on are compared without regard to the clock starting over each 71.6 minutes: a turn begun just before
and not looped again until just after leaves all touch buttons dead until the clock is where it was, whatever happens. -/
theorem C131_hang_counterexample (thr : Nat → Nat) (i : Nat) (e : In) (ha : e.a + 10 < 4294967296) (hb : e.b < e.a + 10)
    (l : List (Nat × In)) (hl : ∀ p ∈ l, p.2.b < e.a + 10) :
    (run thr (loop thr t0 i e) l).log = [.began i] ∧ ∀ j, (run thr (loop thr t0 i e) l).pushed j = false := by
  have hs : (loop thr t0 i e).cur = some i ∧ (loop thr t0 i e).pc i = .sleep10 (e.a + 10) ∧ (loop thr t0 i e).log = [.began i] := by
    have : (e.a + 10) % 4294967296 = e.a + 10 := Nat.mod_eq_of_lt ha
    simp only [loop, t0, fromSleep10, this, hb, if_true]
    exact ⟨rfl, by simp [upd], rfl⟩
  have key : ∀ (l : List (Nat × In)) (t : T), (∀ p ∈ l, p.2.b < e.a + 10) → Inv thr t → t.cur = some i → t.pc i = .sleep10 (e.a + 10) →
      (run thr t l).log = t.log := by
    intro l
    induction l with
    | nil => intro t _ _ _ _; rfl
    | cons p l ih =>
      intro t hl h hc hp
      have hst := stuck_step thr t i _ h hc hp p.1 p.2 (hl p (by simp))
      show (run thr (loop thr t p.1 p.2) l).log = _
      rw [ih _ (fun q hq => hl q (by simp [hq])) (inv_loop h) hst.1 hst.2.1, hst.2.2]
  have hi : Inv thr (loop thr t0 i e) := inv_loop (inv_t0 thr)
  have hlog := key l _ hl hi hs.1 hs.2.1
  rw [hs.2.2] at hlog
  refine ⟨hlog, fun j => ?_⟩
  rw [(inv_run thr l _ hi).2.1 j, hlog]
  rfl

/-- Met, for instance, by a turn begun 20 µs before the clock starts over and looped again every millisecond from 980 µs after, for an hour. -/
example : ∃ (e : In) (l : List (Nat × In)), e.a + 10 < 4294967296 ∧ e.b < e.a + 10 ∧ l.length = 3600000 ∧ ∀ p ∈ l, p.2.b < e.a + 10 :=
  ⟨⟨4294967276, 4294967277, 0, 0, false, 0⟩, (List.range 3600000).map (fun k => (k % 3, ⟨0, 980 + 1000 * k, 0, 0, false, 700⟩)),
    by decide, by decide, by simp, by
      intro p hp
      rw [List.mem_map] at hp
      obtain ⟨k, hk, rfl⟩ := hp
      rw [List.mem_range] at hk
      show 980 + 1000 * k < 4294967276 + 10
      omega⟩

end Verif.Input.Touch
