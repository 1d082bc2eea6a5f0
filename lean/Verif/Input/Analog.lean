/-!
# Shared analog to digital converter (C105)

Model of `AnalogReader` (common/analog_read.h:67-252, the STM32 version), `LSAnalogRead`
(common/analog_read.h:275-281) and of the user `AnalogReadPinSVF` (functions/readpin.h:36-62).

All readers share one converter.  A reader is a state machine (common/state_machine.h) which gives
up the processor whenever the converter is not ready.  How far it gets in one call of `loop` depends
on the hardware; the model allows any number of waiting points to be passed.  A conversion is
represented by its channel and its running number.  Electrical details, sampling times and the
calibration are not modelled.
-/
namespace Verif.Input.Analog

/-- `stm32l4_adc.state`: not created, free, in use. -/
inductive Adc | none | init | busy
deriving DecidableEq, Repr

/-- Where the state machine of a reader is: at its beginning, at a wait for switching to the
temperature sensor (`n` more follow), in the first or second conversion, at a wait for switching
back, at the end. -/
inductive Pc | fresh | pre (n : Nat) | conv1 | conv2 | post (n : Nat) | done
deriving DecidableEq, Repr

/-- A conversion: channel and running number. -/
structure Conv where
  chan : Nat
  num : Nat
deriving DecidableEq, Repr

/-- `AnalogReader`, common/analog_read.h:245-250.  `ts`: the channel is the temperature sensor;
`pullup`: `pin_mode_ == INPUT_PULLUP`; `alive`: the object exists; `since` is not in the code: the
number of conversions before the latest successful `Start`. -/
structure Reader where
  chan : Nat
  ts : Bool
  pullup : Bool
  pc : Pc := .fresh
  value : Option Conv := Option.none
  alive : Bool := true
  since : Nat := 0
deriving DecidableEq, Repr

/-- The converter, `current_AnalogReader`, and all readers. -/
structure Sys where
  adc : Adc
  cur : Option Nat
  flight : Option Conv
  count : Nat
  rd : Nat → Reader

/-- Replace reader `i`. -/
def Sys.set (s : Sys) (i : Nat) (r : Reader) : Sys := { s with rd := fun j => if j = i then r else s.rd j }

/-- The channel of the internal reference voltage. -/
def vrefint : Nat := 0

/-- Starting the first conversion, common/analog_read.h:164-184. -/
def conv1 (s : Sys) (i : Nat) : Sys :=
  { s.set i { s.rd i with pc := .conv1 } with
    flight := some ⟨if (s.rd i).pullup then vrefint else (s.rd i).chan, s.count⟩
    count := s.count + 1 }

/-- Giving back the converter, common/analog_read.h:237-240. -/
def finish (s : Sys) (i : Nat) : Sys :=
  { s.set i { s.rd i with pc := .done } with adc := .init, cur := Option.none }

/-- `loop`, common/analog_read.h:131-241, from one waiting point to the next. -/
def adv (s : Sys) (i : Nat) : Sys :=
  match (s.rd i).pc with
  | .fresh =>
    if s.adc = .init then
      if (s.rd i).ts then { s.set i { s.rd i with pc := .pre 2 } with adc := .busy }
      else { conv1 s i with adc := .busy }
    else s
  | .pre (n+1) => s.set i { s.rd i with pc := .pre n }
  | .pre 0 => conv1 s i
  | .conv1 =>
    { s.set i { s.rd i with pc := .conv2, value := s.flight } with
      flight := some ⟨(s.rd i).chan, s.count⟩
      count := s.count + 1 }
  | .conv2 =>
    if (s.rd i).ts then s.set i { s.rd i with pc := .post 1, value := s.flight }
    else finish (s.set i { s.rd i with value := s.flight }) i
  | .post (n+1) => s.set i { s.rd i with pc := .post n }
  | .post 0 => finish s i
  | .done => s

/-- A call of `loop` which passes `k` waiting points. -/
def loop (i : Nat) : Nat → Sys → Sys
  | 0, s => s
  | k+1, s => loop i k (adv s i)

/-- `Start`, common/analog_read.h:94-107.  It passes `k` waiting points besides the check that the
converter is free. -/
def start (s : Sys) (i k : Nat) : Bool × Sys :=
  let s1 := if s.adc = .none then { s with adc := .init } else s
  if s1.adc ≠ .init then (false, s1)
  else (true, loop i (k + 1) { s1.set i { s1.rd i with pc := .fresh, since := s1.count } with cur := some i })

/-- `Done`, common/analog_read.h:114-117. -/
def isDone (s : Sys) (i : Nat) : Bool := (s.rd i).pc = .done

/-- What a program may do. -/
inductive Op
  /-- `Start()` of reader `i`. -/
  | start (i k : Nat)
  /-- `Done()` of reader `i`. -/
  | poll (i k : Nat)
  /-- One turn of `LoopUntilStart()` of reader `j`. -/
  | drive (j k : Nat)
  /-- The reader ceases to exist. -/
  | destroy (i : Nat)
deriving DecidableEq, Repr

/-- One operation; `none` is a null pointer or an object which does not exist any more. -/
def step (s : Sys) : Op → Option Sys
  | .start i k => if (s.rd i).alive then some (start s i k).2 else Option.none
  | .poll i k => if (s.rd i).alive then some (loop i k s) else Option.none
  | .drive j k =>
    if (s.rd j).alive = false then Option.none
    else if (start s j k).1 then some (start s j k).2
    else
      -- common/analog_read.h:111: `current_AnalogReader->loop()`
      match (start s j k).2.cur with
      | Option.none => Option.none
      | some c => if ((start s j k).2.rd c).alive then some (loop c k (start s j k).2) else Option.none
  | .destroy i => some (s.set i { s.rd i with alive := false })

/-- A reader in the middle of its work. -/
def Mid (r : Reader) : Prop := r.pc ≠ .fresh ∧ r.pc ≠ .done

instance (r : Reader) : Decidable (Mid r) := inferInstanceAs (Decidable (_ ∧ _))

/-- How readers are meant to be used: `Done` is asked only after a successful `Start`, and a reader
is destroyed only when it is not at work. -/
def Ok (s : Sys) : Op → Prop
  | .start i _ => (s.rd i).alive = true
  | .poll i _ => (s.rd i).alive = true ∧ (s.rd i).pc ≠ .fresh
  | .drive j _ => (s.rd j).alive = true
  | .destroy i => ¬ Mid (s.rd i)

/-- A history of meant uses. -/
inductive Reach : Sys → Sys → Prop
  | refl (s : Sys) : Reach s s
  | step (s t u : Sys) (op : Op) : Reach s t → Ok t op → step t op = some u → Reach s u

/-- At power on. -/
def Boot (s : Sys) : Prop := s.adc = .none ∧ s.cur = Option.none ∧ ∀ i, (s.rd i).pc = .fresh

/-! ## The invariant -/

/-- The value of a reader is from its own pin and newer than its start. -/
def Own (r : Reader) (c : Option Conv) : Prop := ∃ n, c = some ⟨r.chan, n⟩ ∧ r.since ≤ n

/-- What holds for a single reader. -/
def Fine (s : Sys) (r : Reader) : Prop :=
  r.since ≤ s.count ∧
  match r.pc with
  | .conv2 => Own r s.flight
  | .post _ => Own r r.value
  | .done => Own r r.value
  | _ => True

/-- The invariant. -/
structure Inv (s : Sys) : Prop where
  owner : s.adc = .busy → ∃ i, s.cur = some i ∧ (s.rd i).alive = true ∧ Mid (s.rd i) ∧ ∀ j, Mid (s.rd j) → j = i
  free : s.adc ≠ .busy → s.cur = Option.none ∧ ∀ j, ¬ Mid (s.rd j)
  fine : ∀ i, Fine s (s.rd i)

@[simp] theorem set_same (s : Sys) (i : Nat) (r : Reader) : (s.set i r).rd i = r := by simp [Sys.set]

theorem set_other (s : Sys) (i j : Nat) (r : Reader) (h : j ≠ i) : (s.set i r).rd j = s.rd j := by
  simp [Sys.set, h]

/-- Readers which are not in a conversion do not mind what the converter does. -/
theorem fine_other (s t : Sys) (r : Reader) (h : Fine s r) (hm : ¬ Mid r) (hc : s.count ≤ t.count) : Fine t r := by
  obtain ⟨h1, h2⟩ := h
  refine ⟨Nat.le_trans h1 hc, ?_⟩
  cases hp : r.pc with
  | fresh => trivial
  | pre n => trivial
  | conv1 => trivial
  | conv2 => exact absurd ⟨by simp [hp], by simp [hp]⟩ hm
  | post n => exact absurd ⟨by simp [hp], by simp [hp]⟩ hm
  | done => rw [hp] at h2; exact h2

/-- A step of the owner. -/
theorem adv_owner (s : Sys) (h : Inv s) (i : Nat) (hc : s.cur = some i) (hb : s.adc = .busy) :
    Inv (adv s i) ∧ ((adv s i).adc = .busy ∧ (adv s i).cur = some i ∨ (adv s i).adc = .init ∧ ((adv s i).rd i).pc = .done) ∧
    (∀ j, ((adv s i).rd j).alive = (s.rd j).alive) := by
  obtain ⟨i', e1, e2, e3, e4⟩ := h.owner hb
  rw [hc] at e1
  have : i = i' := Option.some.inj e1
  subst this
  have hf := h.fine i
  have others : ∀ j, j ≠ i → ¬ Mid (s.rd j) := fun j hj hm => hj (e4 j hm)
  -- a new state in which only reader i changed, and the converter stays busy
  have keep : ∀ (t : Sys) (r : Reader), t.rd = (s.set i r).rd → t.adc = .busy → t.cur = some i → r.alive = true →
      Mid r → s.count ≤ t.count → Fine t r → Inv t := by
    intro t r h1 h2 h3 h4 h5 h6 h7
    have hi : t.rd i = r := by rw [h1]; simp
    have hj : ∀ j, j ≠ i → t.rd j = s.rd j := fun j hj => by rw [h1]; exact set_other s i j r hj
    refine ⟨fun _ => ⟨i, h3, by rw [hi]; exact h4, by rw [hi]; exact h5, ?_⟩, fun hn => absurd h2 hn, ?_⟩
    · intro j hm
      by_cases hji : j = i
      · exact hji
      · rw [hj j hji] at hm; exact e4 j hm
    · intro j
      by_cases hji : j = i
      · subst hji; rw [hi]; exact h7
      · rw [hj j hji]; exact fine_other s t _ (h.fine j) (others j hji) h6
  have stop : ∀ (t : Sys) (r : Reader), t.rd = (s.set i r).rd → t.adc = .init → t.cur = Option.none →
      r.pc = .done → s.count ≤ t.count → Fine t r → Inv t := by
    intro t r h1 h2 h3 h5 h6 h7
    have hi : t.rd i = r := by rw [h1]; simp
    have hj : ∀ j, j ≠ i → t.rd j = s.rd j := fun j hj => by rw [h1]; exact set_other s i j r hj
    refine ⟨fun hn => (by rw [h2] at hn; cases hn), fun _ => ⟨h3, ?_⟩, ?_⟩
    · intro j hm
      by_cases hji : j = i
      · subst hji; rw [hi] at hm; exact hm.2 h5
      · rw [hj j hji] at hm; exact others j hji hm
    · intro j
      by_cases hji : j = i
      · subst hji; rw [hi]; exact h7
      · rw [hj j hji]; exact fine_other s t _ (h.fine j) (others j hji) h6
  have alive : ∀ (t : Sys) (r : Reader), t.rd = (s.set i r).rd → r.alive = (s.rd i).alive →
      ∀ j, (t.rd j).alive = (s.rd j).alive := by
    intro t r h1 h2 j
    rw [h1]
    by_cases hji : j = i
    · subst hji; simp [h2]
    · rw [set_other s i j r hji]
  obtain ⟨hf1, hf2⟩ := hf
  unfold adv
  cases hp : (s.rd i).pc with
  | fresh => exact absurd hp e3.1
  | done => exact absurd hp e3.2
  | pre n =>
    cases n with
    | zero =>
      refine ⟨keep _ _ rfl hb hc e2 ⟨by simp, by simp⟩ (Nat.le_succ _) ⟨Nat.le_trans hf1 (Nat.le_succ _), trivial⟩,
        Or.inl ⟨hb, hc⟩, alive _ _ rfl rfl⟩
    | succ n =>
      refine ⟨keep _ _ rfl hb hc e2 ⟨by simp, by simp⟩ (Nat.le_refl _) ⟨hf1, trivial⟩, Or.inl ⟨hb, hc⟩, alive _ _ rfl rfl⟩
  | conv1 =>
    refine ⟨keep _ _ rfl hb hc e2 ⟨by simp, by simp⟩ (Nat.le_succ _) ⟨Nat.le_trans hf1 (Nat.le_succ _), ?_⟩,
      Or.inl ⟨hb, hc⟩, alive _ _ rfl rfl⟩
    exact ⟨s.count, rfl, hf1⟩
  | conv2 =>
    rw [hp] at hf2
    cases hts : (s.rd i).ts with
    | true =>
      simp only [if_true]
      refine ⟨keep _ _ rfl hb hc e2 ⟨by simp, by simp⟩ (Nat.le_refl _) ⟨hf1, hf2⟩, Or.inl ⟨hb, hc⟩, alive _ _ rfl rfl⟩
    | false =>
      simp only [Bool.false_eq_true, if_false]
      have er : (finish (s.set i { s.rd i with value := s.flight }) i).rd =
          (s.set i { s.rd i with value := s.flight, pc := .done }).rd := by
        funext j
        by_cases hji : j = i
        · subst hji; simp [finish, Sys.set]
        · simp [finish, Sys.set, hji]
      refine ⟨stop _ _ er rfl rfl rfl (Nat.le_refl _) ⟨hf1, hf2⟩, Or.inr ⟨rfl, by rw [er]; simp⟩, alive _ _ er rfl⟩
  | post n =>
    rw [hp] at hf2
    cases n with
    | zero =>
      refine ⟨stop _ _ rfl rfl rfl rfl (Nat.le_refl _) ⟨hf1, hf2⟩, Or.inr ⟨rfl, by simp [finish, Sys.set]⟩, alive _ _ rfl rfl⟩
    | succ n =>
      refine ⟨keep _ _ rfl hb hc e2 ⟨by simp, by simp⟩ (Nat.le_refl _) ⟨hf1, hf2⟩, Or.inl ⟨hb, hc⟩, alive _ _ rfl rfl⟩

theorem adv_done (s : Sys) (i : Nat) (h : (s.rd i).pc = .done) : adv s i = s := by
  unfold adv; rw [h]

theorem loop_done (k : Nat) (s : Sys) (i : Nat) (h : (s.rd i).pc = .done) : loop i k s = s := by
  induction k with
  | zero => rfl
  | succ k ih => unfold loop; rw [adv_done s i h, ih]

theorem loop_owner (k : Nat) (s : Sys) (h : Inv s) (i : Nat) (hc : s.cur = some i) (hb : s.adc = .busy) :
    Inv (loop i k s) ∧ (∀ j, ((loop i k s).rd j).alive = (s.rd j).alive) := by
  induction k generalizing s with
  | zero => exact ⟨h, fun _ => rfl⟩
  | succ k ih =>
    obtain ⟨a1, a2, a3⟩ := adv_owner s h i hc hb
    unfold loop
    rcases a2 with ⟨b1, b2⟩ | ⟨b1, b2⟩
    · obtain ⟨c1, c2⟩ := ih (adv s i) a1 b2 b1
      exact ⟨c1, fun j => (c2 j).trans (a3 j)⟩
    · rw [loop_done k _ i b2]
      exact ⟨a1, a3⟩

/-- `Start` with the converter free. -/
theorem take (s : Sys) (h : Inv s) (hb : s.adc = .init) (i : Nat) (ha : (s.rd i).alive = true) :
    let s1 : Sys := { s.set i { s.rd i with pc := .fresh, since := s.count } with cur := some i }
    Inv (adv s1 i) ∧ (adv s1 i).cur = some i ∧ (adv s1 i).adc = .busy ∧
    (∀ j, ((adv s1 i).rd j).alive = (s.rd j).alive) := by
  intro s1
  obtain ⟨f1, f2⟩ := h.free (by rw [hb]; simp)
  have key : ∀ (t : Sys) (r : Reader), t.rd = (s.set i r).rd → t.adc = .busy → t.cur = some i → r.alive = true →
      Mid r → s.count ≤ t.count → Fine t r → Inv t ∧ t.cur = some i ∧ t.adc = .busy ∧
      (∀ j, (t.rd j).alive = (s.rd j).alive) := by
    intro t r h1 h2 h3 h4 h5 h6 h7
    have hi : t.rd i = r := by rw [h1]; simp
    have hj : ∀ j, j ≠ i → t.rd j = s.rd j := fun j hj => by rw [h1]; exact set_other s i j r hj
    refine ⟨⟨fun _ => ⟨i, h3, by rw [hi]; exact h4, by rw [hi]; exact h5, ?_⟩, fun hn => absurd h2 hn, ?_⟩, h3, h2, ?_⟩
    · intro j hm
      by_cases hji : j = i
      · exact hji
      · rw [hj j hji] at hm; exact absurd hm (f2 j)
    · intro j
      by_cases hji : j = i
      · subst hji; rw [hi]; exact h7
      · rw [hj j hji]; exact fine_other s t _ (h.fine j) (f2 j) h6
    · intro j
      by_cases hji : j = i
      · subst hji; rw [hi, h4, ha]
      · rw [hj j hji]
  have hp : (s1.rd i).pc = .fresh := by simp [s1, Sys.set]
  have hadc : s1.adc = .init := hb
  have hrd : ∀ f : Reader → Reader, (s1.set i (f (s1.rd i))).rd = (s.set i (f { s.rd i with pc := .fresh, since := s.count })).rd := by
    intro f
    funext j
    by_cases hji : j = i
    · subst hji; simp [Sys.set, s1]
    · simp [Sys.set, s1, hji]
  by_cases hts : (s1.rd i).ts = true
  · have e : adv s1 i = { s1.set i { s1.rd i with pc := .pre 2 } with adc := .busy } := by
      unfold adv; rw [hp]; simp only; rw [if_pos hadc, if_pos hts]
    rw [e]
    exact key _ { s.rd i with pc := .pre 2, since := s.count } (hrd (fun r => { r with pc := .pre 2 })) rfl rfl ha
      ⟨by simp, by simp⟩ (Nat.le_refl _) ⟨Nat.le_refl _, trivial⟩
  · have e : adv s1 i = { conv1 s1 i with adc := .busy } := by
      unfold adv; rw [hp]; simp only; rw [if_pos hadc, if_neg hts]
    rw [e]
    exact key _ { s.rd i with pc := .conv1, since := s.count } (hrd (fun r => { r with pc := .conv1 })) rfl rfl ha
      ⟨by simp, by simp⟩ (Nat.le_succ _) ⟨Nat.le_succ _, trivial⟩

theorem inv_create (s : Sys) (h : Inv s) (hn : s.adc = .none) : Inv { s with adc := .init } := by
  obtain ⟨f1, f2⟩ := h.free (by rw [hn]; simp)
  exact ⟨fun h => (by cases h), fun _ => ⟨f1, f2⟩, h.fine⟩

theorem start_inv (s : Sys) (h : Inv s) (i k : Nat) (ha : (s.rd i).alive = true) :
    Inv (start s i k).2 ∧ (∀ j, ((start s i k).2.rd j).alive = (s.rd j).alive) ∧
    ((start s i k).1 = false ↔ s.adc = .busy) ∧ (s.adc = .busy → (start s i k).2 = s) := by
  have go : ∀ t : Sys, Inv t → t.adc = .init → (t.rd i).alive = true → (∀ j, (t.rd j).alive = (s.rd j).alive) →
      let u := loop i (k + 1) { t.set i { t.rd i with pc := .fresh, since := t.count } with cur := some i }
      Inv u ∧ (∀ j, (u.rd j).alive = (s.rd j).alive) := by
    intro t ht h1 h2 h3
    obtain ⟨a1, a2, a3, a4⟩ := take t ht h1 i h2
    obtain ⟨b1, b2⟩ := loop_owner k _ a1 i a2 a3
    exact ⟨b1, fun j => (b2 j).trans ((a4 j).trans (h3 j))⟩
  by_cases hn : s.adc = .none
  · have e : start s i k = (true, loop i (k + 1) { ({ s with adc := .init } : Sys).set i { s.rd i with pc := .fresh, since := s.count } with cur := some i }) := by
      unfold start
      rw [if_pos hn]
      simp
    obtain ⟨g1, g2⟩ := go { s with adc := .init } (inv_create s h hn) rfl ha (fun _ => rfl)
    rw [e]
    exact ⟨g1, g2, by simp [hn], by simp [hn]⟩
  · by_cases hadc : s.adc = .init
    · have e : start s i k = (true, loop i (k + 1) { s.set i { s.rd i with pc := .fresh, since := s.count } with cur := some i }) := by
        unfold start
        rw [if_neg hn]
        simp [hadc]
      obtain ⟨g1, g2⟩ := go s h hadc ha (fun _ => rfl)
      rw [e]
      exact ⟨g1, g2, by simp [hadc], by simp [hadc]⟩
    · have hb : s.adc = .busy := by
        cases h : s.adc with
        | none => exact absurd h hn
        | init => exact absurd h hadc
        | busy => rfl
      have e : start s i k = (false, s) := by
        unfold start
        rw [if_neg hn]
        simp [hb]
      rw [e]
      exact ⟨h, fun _ => rfl, by simp [hb], by simp⟩

/-- The invariant is kept by every meant use, and no meant use is undefined. -/
theorem step_inv (s : Sys) (h : Inv s) (op : Op) (hok : Ok s op) : ∃ t, step s op = some t ∧ Inv t := by
  cases op with
  | start i k =>
    have hok' : (s.rd i).alive = true := hok
    refine ⟨_, ?_, (start_inv s h i k hok').1⟩
    simp only [step]; rw [if_pos hok']
  | poll i k =>
    obtain ⟨ha, hp⟩ := hok
    simp only [step]
    rw [if_pos ha]
    by_cases hm : Mid (s.rd i)
    · by_cases hb : s.adc = .busy
      · obtain ⟨i', e1, _, _, e4⟩ := h.owner hb
        have := e4 i hm
        subst this
        exact ⟨_, rfl, (loop_owner k s h i e1 hb).1⟩
      · exact absurd hm ((h.free hb).2 i)
    · have hd : (s.rd i).pc = .done := by
        cases hpc : (s.rd i).pc with
        | done => rfl
        | fresh => exact absurd hpc hp
        | pre n => exact absurd ⟨by simp [hpc], by simp [hpc]⟩ hm
        | conv1 => exact absurd ⟨by simp [hpc], by simp [hpc]⟩ hm
        | conv2 => exact absurd ⟨by simp [hpc], by simp [hpc]⟩ hm
        | post n => exact absurd ⟨by simp [hpc], by simp [hpc]⟩ hm
      rw [loop_done k s i hd]
      exact ⟨s, rfl, h⟩
  | drive j k =>
    obtain ⟨s1, s2, s3, s4⟩ := start_inv s h j k hok
    have hok' : (s.rd j).alive = true := hok
    simp only [step]
    rw [if_neg (by rw [hok']; simp)]
    cases hst : (start s j k).1 with
    | true => exact ⟨_, by simp, s1⟩
    | false =>
      have hb := s3.mp hst
      obtain ⟨i, e1, e2, _, _⟩ := h.owner hb
      simp only [s4 hb, e1, e2, Bool.false_eq_true, if_false, if_true]
      exact ⟨_, rfl, (loop_owner k s h i e1 hb).1⟩
  | destroy i =>
    refine ⟨_, rfl, ?_⟩
    have hm : ¬ Mid (s.rd i) := hok
    have mid : ∀ j, Mid ((s.set i { s.rd i with alive := false }).rd j) ↔ Mid (s.rd j) := by
      intro j
      by_cases hji : j = i
      · subst hji; simp [Sys.set, Mid]
      · rw [set_other s i j _ hji]
    have fine : ∀ j, Fine (s.set i { s.rd i with alive := false }) ((s.set i { s.rd i with alive := false }).rd j) := by
      intro j
      by_cases hji : j = i
      · subst hji; simp only [set_same]; exact h.fine j
      · rw [set_other s i j _ hji]; exact h.fine j
    refine ⟨?_, ?_, fine⟩
    · intro hb
      obtain ⟨o, e1, e2, e3, e4⟩ := h.owner hb
      have hoi : o ≠ i := by intro e; subst e; exact hm e3
      exact ⟨o, e1, by rw [set_other s i o _ hoi]; exact e2, (mid o).mpr e3, fun j hj => e4 j ((mid j).mp hj)⟩
    · intro hb
      exact ⟨(h.free hb).1, fun j hj => (h.free hb).2 j ((mid j).mp hj)⟩

theorem boot_inv (s : Sys) (h : Boot s) (hs : ∀ i, (s.rd i).since = 0) : Inv s := by
  obtain ⟨h1, h2, h3⟩ := h
  refine ⟨fun hb => (by rw [h1] at hb; cases hb), fun _ => ⟨h2, fun j hj => hj.1 (h3 j)⟩, fun i => ?_⟩
  refine ⟨by rw [hs i]; exact Nat.zero_le _, ?_⟩
  rw [h3 i]; trivial

theorem reach_inv (s t : Sys) (h : Boot s) (hs : ∀ i, (s.rd i).since = 0) (hr : Reach s t) : Inv t := by
  induction hr with
  | refl => exact boot_inv s h hs
  | step t u op _ hok hst ih =>
    obtain ⟨v, e, hv⟩ := step_inv t ih op hok
    rw [hst] at e
    cases e
    exact hv

/-! ## The claims -/

/-- At most one reader uses the converter at any time, in every history of meant uses by any number
of readers; nothing undefined happens. -/
theorem C105_exclusive (s t : Sys) (h : Boot s) (hs : ∀ i, (s.rd i).since = 0) (hr : Reach s t) :
    (∀ i j, Mid (t.rd i) → Mid (t.rd j) → i = j) ∧ (∀ op, Ok t op → (step t op).isSome = true) := by
  have hi := reach_inv s t h hs hr
  refine ⟨?_, ?_⟩
  · intro i j h1 h2
    by_cases hb : t.adc = .busy
    · obtain ⟨o, _, _, _, e⟩ := hi.owner hb
      rw [e i h1, e j h2]
    · exact absurd h1 ((hi.free hb).2 i)
  · intro op hop
    obtain ⟨u, e, _⟩ := step_inv t hi op hop
    rw [e]; rfl

/-- A reader which says it is done has a value from its own pin, converted after it was started. -/
theorem C105_own (s t : Sys) (h : Boot s) (hs : ∀ i, (s.rd i).since = 0) (hr : Reach s t) (i : Nat)
    (hd : isDone t i = true) : ∃ n, (t.rd i).value = some ⟨(t.rd i).chan, n⟩ ∧ (t.rd i).since ≤ n := by
  have hf := (reach_inv s t h hs hr).fine i
  have hp : (t.rd i).pc = .done := by simpa [isDone] using hd
  obtain ⟨_, h2⟩ := hf
  rw [hp] at h2
  exact h2

/-- How many waiting points are left at most. -/
def left (r : Reader) : Nat :=
  match r.pc with
  | .fresh => 9
  | .pre n => 6 + n
  | .conv1 => 5
  | .conv2 => 4
  | .post n => n + 1
  | .done => 0

theorem adv_left (s : Sys) (i : Nat) (hm : Mid (s.rd i)) : left ((adv s i).rd i) < left (s.rd i) := by
  unfold adv
  cases hp : (s.rd i).pc with
  | fresh => exact absurd hp hm.1
  | done => exact absurd hp hm.2
  | pre n =>
    cases n with
    | zero => simp [left, hp, conv1, Sys.set]
    | succ n => simp [left, hp, Sys.set]
  | conv1 => simp [left, hp, Sys.set]
  | conv2 =>
    cases (s.rd i).ts <;> simp [left, hp, Sys.set, finish]
  | post n =>
    cases n with
    | zero => simp [left, hp, finish, Sys.set]
    | succ n => simp [left, hp, Sys.set]

theorem loop_left (k : Nat) (s : Sys) (i : Nat) (hf : (s.rd i).pc ≠ .fresh) :
    ((loop i k s).rd i).pc ≠ .fresh ∧ left ((loop i k s).rd i) ≤ left (s.rd i) - k := by
  induction k generalizing s with
  | zero => exact ⟨hf, Nat.le_refl _⟩
  | succ k ih =>
    unfold loop
    by_cases hd : (s.rd i).pc = .done
    · rw [adv_done s i hd]
      obtain ⟨a, b⟩ := ih s hf
      refine ⟨a, ?_⟩
      have : left (s.rd i) = 0 := by simp [left, hd]
      omega
    · have hl := adv_left s i ⟨hf, hd⟩
      have hnf : ((adv s i).rd i).pc ≠ .fresh := by
        unfold adv
        cases hp : (s.rd i).pc with
        | fresh => exact absurd hp hf
        | done => exact absurd hp hd
        | pre n => cases n <;> simp [conv1, Sys.set]
        | conv1 => simp [Sys.set]
        | conv2 => cases (s.rd i).ts <;> simp [Sys.set, finish]
        | post n => cases n <;> simp [finish, Sys.set]
      obtain ⟨a, b⟩ := ih (adv s i) hnf
      exact ⟨a, by omega⟩

/-- A started reader is done when the hardware has let it pass eight waiting points in all, however
they are spread over the calls: calls `ks` with sums of passed points at least eight. -/
theorem C105_finishes (ks : List Nat) (s : Sys) (i : Nat) (hm : Mid (s.rd i)) (hpre : ∀ n, (s.rd i).pc = .pre n → n ≤ 2)
    (hpost : ∀ n, (s.rd i).pc = .post n → n ≤ 1) (hsum : 8 ≤ ks.sum) :
    isDone (ks.foldl (fun s k => loop i k s) s) i = true := by
  have key : ∀ (ks : List Nat) (s : Sys), (s.rd i).pc ≠ .fresh →
      ((ks.foldl (fun s k => loop i k s) s).rd i).pc ≠ .fresh ∧
      left ((ks.foldl (fun s k => loop i k s) s).rd i) ≤ left (s.rd i) - ks.sum := by
    intro ks
    induction ks with
    | nil => intro s h; exact ⟨h, by simp⟩
    | cons k ks ih =>
      intro s h
      obtain ⟨a, b⟩ := loop_left k s i h
      obtain ⟨c, d⟩ := ih (loop i k s) a
      simp only [List.foldl, List.sum_cons]
      exact ⟨c, by omega⟩
  obtain ⟨a, b⟩ := key ks s hm.1
  have hl : left (s.rd i) ≤ 8 := by
    unfold left
    cases hp : (s.rd i).pc with
    | fresh => exact absurd hp hm.1
    | pre n => have := hpre n hp; simp only; omega
    | conv1 => simp
    | conv2 => simp
    | post n => have := hpost n hp; simp only; omega
    | done => simp
  have h0 : left ((ks.foldl (fun s k => loop i k s) s).rd i) = 0 := by omega
  unfold isDone
  unfold left at h0
  cases hp : ((ks.foldl (fun s k => loop i k s) s).rd i).pc with
  | done => rfl
  | fresh => exact absurd hp a
  | pre n => rw [hp] at h0; simp at h0
  | conv1 => rw [hp] at h0; simp at h0
  | conv2 => rw [hp] at h0; simp at h0
  | post n => rw [hp] at h0; simp at h0

/-- A reader which has been started needs at most eight. -/
theorem start_left (s : Sys) (i k : Nat) (hs : (start s i k).1 = true) :
    ((start s i k).2.rd i).pc ≠ .fresh ∧ left ((start s i k).2.rd i) ≤ 8 - k := by
  unfold start at hs ⊢
  generalize (if s.adc = .none then ({ s with adc := .init } : Sys) else s) = s1 at *
  simp only at hs ⊢
  by_cases hadc : s1.adc = .init
  · rw [if_neg (by simp [hadc])]
    simp only [loop]
    have hpc : ∀ t : Sys, t.adc = .init → (t.rd i).pc = .fresh →
        ((adv t i).rd i).pc ≠ .fresh ∧ left ((adv t i).rd i) ≤ 8 := by
      intro t h1 h2
      unfold adv
      rw [h2]
      simp only [h1, if_true]
      cases (t.rd i).ts <;> simp [left, conv1, Sys.set]
    have h := hpc { s1.set i { s1.rd i with pc := .fresh, since := s1.count } with cur := some i } hadc (by simp [Sys.set])
    obtain ⟨a, b⟩ := loop_left k _ i h.1
    exact ⟨a, Nat.le_trans b (Nat.sub_le_sub_right h.2 k)⟩
  · rw [if_pos hadc] at hs
    simp at hs

/-- One turn of `LSAnalogRead`, common/analog_read.h:275-281, with reader `j`: first the loop of
`LoopUntilStart` (common/analog_read.h:109-113), then the loop which asks `Done`. -/
def turn (j : Nat) (p : Sys × Bool) (k : Nat) : Option (Sys × Bool) :=
  if p.2 then (step p.1 (.poll j k)).map (fun s => (s, true))
  else (step p.1 (.drive j k)).map (fun s => (s, (start p.1 j k).1))

/-- `LSAnalogRead` for the given turns. -/
def turns (j : Nat) : List Nat → Sys × Bool → Option (Sys × Bool)
  | [], p => some p
  | k :: ks, p => (turn j p k).bind (turns j ks)

/-- The waits are numbered as in the code. -/
def Small (s : Sys) : Prop := ∀ i, (∀ n, (s.rd i).pc = .pre n → n ≤ 2) ∧ (∀ n, (s.rd i).pc = .post n → n ≤ 1)

theorem small_set (s : Sys) (h : Small s) (i : Nat) (r : Reader) (h1 : ∀ n, r.pc = .pre n → n ≤ 2)
    (h2 : ∀ n, r.pc = .post n → n ≤ 1) (t : Sys) (e : t.rd = (s.set i r).rd) : Small t := by
  intro j
  rw [e]
  by_cases hji : j = i
  · subst hji; simp only [set_same]; exact ⟨h1, h2⟩
  · rw [set_other s i j r hji]; exact h j

theorem small_adv (s : Sys) (h : Small s) (i : Nat) : Small (adv s i) := by
  unfold adv
  have hi := h i
  split
  · split
    · split
      · refine small_set s h i _ ?_ ?_ _ rfl
        · intro n hn; cases hn; exact Nat.le_refl _
        · intro n hn; cases hn
      · exact small_set s h i _ (fun n hn => by cases hn) (fun n hn => by cases hn) _ rfl
    · exact h
  · rename_i n hp
    refine small_set s h i _ ?_ (fun n hn => by cases hn) _ rfl
    intro m hm; cases hm; have := hi.1 _ hp; omega
  · exact small_set s h i _ (fun n hn => by cases hn) (fun n hn => by cases hn) _ rfl
  · exact small_set s h i _ (fun n hn => by cases hn) (fun n hn => by cases hn) _ rfl
  · split
    · refine small_set s h i _ (fun n hn => by cases hn) ?_ _ rfl
      intro n hn; cases hn; exact Nat.le_refl _
    · refine small_set s h i { s.rd i with value := s.flight, pc := .done } (fun n hn => by cases hn) (fun n hn => by cases hn) _ ?_
      funext j
      by_cases hji : j = i
      · subst hji; simp [finish, Sys.set]
      · simp [finish, Sys.set, hji]
  · rename_i n hp
    refine small_set s h i _ (fun n hn => by cases hn) ?_ _ rfl
    intro m hm; cases hm; have := hi.2 _ hp; omega
  · exact small_set s h i _ (fun n hn => by cases hn) (fun n hn => by cases hn) _ rfl
  · exact h

theorem small_loop (k : Nat) (s : Sys) (h : Small s) (i : Nat) : Small (loop i k s) := by
  induction k generalizing s with
  | zero => exact h
  | succ k ih => exact ih _ (small_adv s h i)

theorem small_start (s : Sys) (h : Small s) (i k : Nat) : Small (start s i k).2 := by
  unfold start
  have h1 : Small (if s.adc = .none then ({ s with adc := .init } : Sys) else s) := by
    split <;> exact h
  generalize (if s.adc = .none then ({ s with adc := .init } : Sys) else s) = s1 at h1 ⊢
  simp only
  split
  · exact h1
  · refine small_loop _ _ ?_ i
    exact (small_set s1 h1 i { s1.rd i with pc := .fresh, since := s1.count } (fun n hn => by cases hn) (fun n hn => by cases hn) _ rfl)

theorem small_step (s : Sys) (h : Small s) (op : Op) (t : Sys) (e : step s op = some t) : Small t := by
  cases op with
  | start i k =>
    simp only [step] at e
    split at e
    · cases e; exact small_start s h i k
    · cases e
  | poll i k =>
    simp only [step] at e
    split at e
    · cases e; exact small_loop k s h i
    · cases e
  | drive j k =>
    simp only [step] at e
    split at e
    · cases e
    · split at e
      · cases e; exact small_start s h j k
      · split at e
        · cases e
        · split at e
          · cases e; exact small_loop _ _ (small_start s h j k) _
          · cases e
  | destroy i =>
    simp only [step] at e
    cases e
    exact small_set s h i { s.rd i with alive := false } (h i).1 (h i).2 _ rfl

theorem reach_small (s t : Sys) (h : Boot s) (hr : Reach s t) : Small t := by
  induction hr with
  | refl =>
    intro i
    rw [h.2.2 i]
    exact ⟨fun n hn => (by cases hn), fun n hn => (by cases hn)⟩
  | step t u op _ _ hst ih => exact small_step t ih op u hst

/-- How many points the owner of the converter has still to pass. -/
def debt (s : Sys) : Nat :=
  match s.cur with
  | some i => left (s.rd i)
  | Option.none => 0

/-- A turn while the converter is taken. -/
theorem drive_busy (s : Sys) (h : Inv s) (j k : Nat) (ha : (s.rd j).alive = true) (hb : s.adc = .busy) :
    ∃ t, turn j (s, false) k = some (t, false) ∧ Inv t ∧ debt t ≤ debt s - k ∧
      (∀ i, (t.rd i).alive = (s.rd i).alive) := by
  obtain ⟨s1, s2, s3, s4⟩ := start_inv s h j k ha
  obtain ⟨i, e1, e2, e3, e4⟩ := h.owner hb
  have hst : (start s j k).1 = false := s3.mpr hb
  obtain ⟨l1, l2⟩ := loop_owner k s h i e1 hb
  obtain ⟨l3, l4⟩ := loop_left k s i e3.1
  refine ⟨loop i k s, ?_, l1, ?_, l2⟩
  · simp only [turn, step, Bool.false_eq_true, if_false]
    rw [if_neg (by rw [ha]; simp), hst]
    simp only [s4 hb, e1, e2, Bool.false_eq_true, if_false, if_true, Option.map_some]
  · have hd : debt s = left (s.rd i) := by simp [debt, e1]
    rw [hd]
    by_cases hbt : (loop i k s).adc = .busy
    · -- still owned by the same reader
      obtain ⟨o, o1, _, o3, _⟩ := l1.owner hbt
      have hoi : o = i := by
        by_cases hoi : o = i
        · exact hoi
        · exfalso
          have hno : ∀ (k : Nat) (s : Sys), (loop i k s).rd o = s.rd o := by
            intro k
            induction k with
            | zero => intro s; rfl
            | succ k ih =>
              intro s
              unfold loop
              rw [ih]
              unfold adv
              (repeat' split) <;> simp [Sys.set, conv1, finish, hoi]
          rw [hno k s] at o3
          exact hoi (e4 o o3)
      subst hoi
      simp only [debt, o1]
      exact l4
    · simp [debt, (l1.free hbt).1]

theorem debt_pos (s : Sys) (h : Inv s) (hb : s.adc = .busy) : 0 < debt s := by
  obtain ⟨i, e1, _, e3, _⟩ := h.owner hb
  simp only [debt, e1]
  unfold left
  cases hp : (s.rd i).pc with
  | done => exact absurd hp e3.2
  | fresh => simp
  | pre n => simp only; omega
  | conv1 => simp
  | conv2 => simp
  | post n => simp

/-- A turn while the converter is free. -/
theorem drive_free (s : Sys) (h : Inv s) (j k : Nat) (ha : (s.rd j).alive = true) (hb : s.adc ≠ .busy) :
    ∃ t, turn j (s, false) k = some (t, true) ∧ Inv t ∧ (t.rd j).alive = true ∧ (t.rd j).pc ≠ .fresh ∧ left (t.rd j) ≤ 8 := by
  obtain ⟨s1, s2, s3, s4⟩ := start_inv s h j k ha
  have hst : (start s j k).1 = true := by
    cases hh : (start s j k).1 with
    | true => rfl
    | false => exact absurd (s3.mp hh) hb
  obtain ⟨l1, l2⟩ := start_left s j k hst
  refine ⟨(start s j k).2, ?_, s1, by rw [s2 j]; exact ha, l1, by omega⟩
  simp only [turn, step, Bool.false_eq_true, if_false]
  rw [if_neg (by rw [ha]; simp), hst]
  simp

/-- Turns after the start. -/
theorem turns_on (ks : List Nat) (s : Sys) (h : Inv s) (j : Nat) (ha : (s.rd j).alive = true) (hp : (s.rd j).pc ≠ .fresh) :
    ∃ t, turns j ks (s, true) = some (t, true) ∧ Inv t ∧ (t.rd j).alive = true ∧ (t.rd j).pc ≠ .fresh ∧
      left (t.rd j) ≤ left (s.rd j) - ks.sum := by
  induction ks generalizing s with
  | nil => exact ⟨s, rfl, h, ha, hp, by simp⟩
  | cons k ks ih =>
    obtain ⟨u, hu, iu⟩ := step_inv s h (.poll j k) ⟨ha, hp⟩
    have hu' : u = loop j k s := by
      simp only [step] at hu; rw [if_pos ha] at hu; exact (Option.some.inj hu).symm
    obtain ⟨l1, l2⟩ := loop_left k s j hp
    have hau : (u.rd j).alive = true := by
      have : ∀ (k : Nat) (s : Sys), ((loop j k s).rd j).alive = (s.rd j).alive := by
        intro k
        induction k with
        | zero => intro s; rfl
        | succ k ih =>
          intro s
          unfold loop
          rw [ih]
          unfold adv
          (repeat' split) <;> simp [Sys.set, conv1, finish]
      rw [hu', this]; exact ha
    rw [← hu'] at l1 l2
    obtain ⟨t, t1, t2, t3, t4, t5⟩ := ih u iu hau l1
    refine ⟨t, ?_, t2, t3, t4, ?_⟩
    · simp only [turns, turn, if_true, hu, Option.map_some, Option.bind_some]; exact t1
    · simp only [List.sum_cons]; omega

/-- Turns before the start. -/
theorem turns_off (ks : List Nat) (s : Sys) (h : Inv s) (j : Nat) (ha : (s.rd j).alive = true) (hd : debt s ≤ ks.sum) :
    ∃ t b, turns j ks (s, false) = some (t, b) ∧ Inv t ∧ (t.rd j).alive = true ∧
      (b = false → t.adc ≠ .busy) ∧ (b = true → (t.rd j).pc ≠ .fresh ∧ left (t.rd j) ≤ 8) := by
  induction ks generalizing s with
  | nil =>
    refine ⟨s, false, rfl, h, ha, ?_, by simp⟩
    intro _ hb
    have := debt_pos s h hb
    simp at hd
    omega
  | cons k ks ih =>
    by_cases hb : s.adc = .busy
    · obtain ⟨u, u1, u2, u3, u4⟩ := drive_busy s h j k ha hb
      simp only [List.sum_cons] at hd
      obtain ⟨t, b, t1, t2⟩ := ih u u2 (by rw [u4 j]; exact ha) (by omega)
      exact ⟨t, b, by simp only [turns, u1, Option.bind_some]; exact t1, t2⟩
    · obtain ⟨u, u1, u2, u3, u4, u5⟩ := drive_free s h j k ha hb
      obtain ⟨t, t1, t2, t3, t4, t5⟩ := turns_on ks u u2 j u3 u4
      exact ⟨t, true, by simp only [turns, u1, Option.bind_some]; exact t1, t2, t3, by simp, fun _ => ⟨t4, by omega⟩⟩

theorem left_zero (r : Reader) (hp : r.pc ≠ .fresh) (h : left r = 0) : r.pc = .done := by
  unfold left at h
  cases hq : r.pc with
  | done => rfl
  | fresh => exact absurd hq hp
  | pre n => rw [hq] at h; simp at h
  | conv1 => rw [hq] at h; simp at h
  | conv2 => rw [hq] at h; simp at h
  | post n => rw [hq] at h; simp at h

theorem turns_append (j : Nat) (a b : List Nat) (p : Sys × Bool) :
    turns j (a ++ b) p = (turns j a p).bind (turns j b) := by
  induction a generalizing p with
  | nil => rfl
  | cons k a ih =>
    simp only [List.cons_append, turns]
    cases turn j p k with
    | none => rfl
    | some q => simp only [Option.bind_some]; exact ih q

/-- `LSAnalogRead` ends, whatever other readers were doing when it was called and although their
programs get no turn meanwhile, once the hardware has let pass eight waiting points before and eight
after the start; it ends with a value of its own pin converted after its own start. -/
theorem C105_blocking (s t : Sys) (h : Boot s) (hs : ∀ i, (s.rd i).since = 0) (hr : Reach s t) (j : Nat)
    (ha : (t.rd j).alive = true) (a c : List Nat) (b : Nat) (h1 : 8 ≤ a.sum) (h2 : 8 ≤ c.sum) :
    ∃ u n, turns j (a ++ b :: c) (t, false) = some (u, true) ∧ isDone u j = true ∧
      (u.rd j).value = some ⟨(u.rd j).chan, n⟩ ∧ (u.rd j).since ≤ n := by
  have hi := reach_inv s t h hs hr
  have hsm := reach_small s t h hr
  have hd : debt t ≤ 8 := by
    unfold debt
    cases hc : t.cur with
    | none => simp
    | some o =>
      have hb : t.adc = .busy := by
        by_cases hb : t.adc = .busy
        · exact hb
        · rw [(hi.free hb).1] at hc; cases hc
      obtain ⟨i, e1, _, e3, _⟩ := hi.owner hb
      rw [hc] at e1
      have : o = i := Option.some.inj e1
      subst this
      simp only
      unfold left
      cases hp : (t.rd o).pc with
      | fresh => exact absurd hp e3.1
      | pre n => have := (hsm o).1 n hp; simp only; omega
      | conv1 => simp
      | conv2 => simp
      | post n => have := (hsm o).2 n hp; simp only; omega
      | done => simp
  obtain ⟨u, f, u1, u2, u3, u4, u5⟩ := turns_off a t hi j ha (by omega)
  have fin : ∀ (v : Sys) (ks : List Nat), Inv v → (v.rd j).alive = true → (v.rd j).pc ≠ .fresh → left (v.rd j) ≤ 8 → 8 ≤ ks.sum →
      ∃ w n, turns j ks (v, true) = some (w, true) ∧ isDone w j = true ∧
        (w.rd j).value = some ⟨(w.rd j).chan, n⟩ ∧ (w.rd j).since ≤ n := by
    intro v ks v1 v2 v3 v4 v5
    obtain ⟨w, w1, w2, w3, w4, w5⟩ := turns_on ks v v1 j v2 v3
    have hp := left_zero (w.rd j) w4 (by omega)
    have hf := (w2.fine j).2
    rw [hp] at hf
    obtain ⟨n, n1, n2⟩ := hf
    exact ⟨w, n, w1, by simp [isDone, hp], n1, n2⟩
  rw [turns_append, u1, Option.bind_some]
  cases f with
  | true =>
    exact fin u (b :: c) u2 u3 (u5 rfl).1 (u5 rfl).2 (by simp only [List.sum_cons]; omega)
  | false =>
    obtain ⟨v, v1, v2, v3, v4, v5⟩ := drive_free u u2 j b u3 (u4 rfl)
    simp only [turns, v1, Option.bind_some]
    exact fin v c v2 v3 v4 v5 h2

/-- Two readers, the first one at work, the second one waiting for it. -/
def two : Sys :=
  { adc := .none, cur := Option.none, flight := Option.none, count := 0,
    rd := fun i => { chan := 5 + i, ts := i == 2, pullup := i == 1 } }

example : Boot two ∧ ∀ i, (two.rd i).since = 0 := ⟨⟨rfl, rfl, fun _ => rfl⟩, fun _ => rfl⟩

/-- The battery monitor starts, then the blade ID is read, with the first conversion of the
reference voltage; both get the values of their own pins. -/
example :
    (do let a ← step two (.start 0 0)
        let b ← step a (.drive 1 8)
        let c ← step b (.drive 1 0)
        let d ← step c (.poll 1 3)
        pure ((d.rd 0).value, (d.rd 1).value, isDone d 0, isDone d 1)) =
      some (some ⟨5, 1⟩, some ⟨6, 3⟩, true, true) := by decide +kernel

/-- The same as `LSAnalogRead`, with slow hardware. -/
example :
    (do let a ← step two (.start 2 0)
        let p ← turns 1 ([0, 3, 0, 5] ++ 0 :: [1, 0, 7]) (a, false)
        pure (isDone p.1 1, (p.1.rd 1).value, isDone p.1 2, (p.1.rd 2).value)) =
      some (true, some ⟨6, 3⟩, true, some ⟨7, 1⟩) := by decide +kernel

/-! ## AnalogReadPinSVF -/

/-- One turn of the loop of `AnalogReadPinSVF::run`, functions/readpin.h:41-53, for reader `i`:
`started_` and whether `value_` has been set. -/
def pinTurn (i : Nat) (p : Sys × Bool × Bool) (k : Nat) : Sys × Bool × Bool :=
  if p.2.1 = false then
    if (start p.1 i k).1 then ((start p.1 i k).2, true, p.2.2) else ((start p.1 i k).2, false, p.2.2)
  else
    if isDone (loop i k p.1) i then (loop i k p.1, false, true) else (loop i k p.1, true, p.2.2)

/-- `AnalogReadPinF` hangs: if its first `run` comes while another reader is at work, its loop never
ends, as nobody else gets a turn.  This holds for any number of turns and any hardware. -/
theorem C105_hang_counterexample (s : Sys) (hb : s.adc = .busy) (i : Nat) (ks : List Nat) :
    ks.foldl (pinTurn i) (s, false, false) = (s, false, false) := by
  induction ks with
  | nil => rfl
  | cons k ks ih =>
    have e : pinTurn i (s, false, false) k = (s, false, false) := by
      simp [pinTurn, start, hb]
    simp only [List.foldl, e]
    exact ih

/-- The state of `C105_hang_counterexample` occurs: after the battery monitor has started. -/
example : ((step two (.start 0 0)).map (·.adc)) = some .busy := by decide +kernel

/-- A style with `AnalogReadPinF` which is deleted while it is reading leaves the converter busy and
`current_AnalogReader` pointing to it: the next `LSAnalogRead` (blade ID) uses the deleted object,
and the battery monitor can never start again. -/
theorem C105_delete_counterexample :
    ((do let a ← step two (.start 0 0)
         let b ← step a (.destroy 0)
         step b (.drive 1 0)).isNone = true) ∧
    (do let a ← step two (.start 0 0)
        let b ← step a (.destroy 0)
        pure (start b 1 0).1) = some false := by decide +kernel

/-- `Done` before `Start` takes the converter without noting the owner: the next `LSAnalogRead` uses
a null pointer. -/
theorem C105_null_counterexample :
    (do let a ← step two (.start 0 8)
        let b ← step a (.poll 1 1)
        step b (.drive 2 0)).isNone = true := by decide +kernel

/-- `Value`, common/analog_read.h:119-121: ten bits; `Value12() * 8` of `AnalogReadPinF`
(functions/readpin.h:51) reaches at most 32760. -/
theorem C105_range (v : Nat) (h : v < 4096) : v >>> 2 < 1024 ∧ v * 8 ≤ 32760 := by
  rw [Nat.shiftRight_eq_div_pow]
  omega

end Verif.Input.Analog
