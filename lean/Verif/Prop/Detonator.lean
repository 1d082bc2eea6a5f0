/-
  The thermal detonator prop: props/detonator.h:8-134, with `Off` (props/prop_base.h:156-189),
  `Event` (1735-1757: modifiers), and what buttons/button_base.h:76-118 and
  buttons/latching_button.h:28-36 send.

  POWER is the latching switch, AUX2 the button.  Modelled: turning on and off, arming,
  the explosion, the pending action and its time.  A press and a release of AUX2 are single
  operations; `second`: the press counts as the second of two quick ones (C34).  Sounds
  appear through their lengths (inputs).  Not modelled: DELAYED_OFF, what a track or a
  preset change does, volume.
-/
namespace Verif.Prop.Detonator

/-! ## Model -/

inductive Next
  | nothing | arm | blow
  deriving DecidableEq, Repr

/-- What can be seen and heard.  `arm len`: the arming sound starts, `len` ms long; `letGo
    len`: the sound after letting go, `len` ms. -/
inductive Act
  | ignite | retract | cancelPreon | explode
  | arm (len : Nat) | letGo (len : Nat)
  | track | preset
  deriving DecidableEq, Repr

/-- `SaberBase::on_`, `on_pending_`, `armed_`, `next_action_`, `time_base_`,
    `next_event_time_`, is AUX2 in `current_modifiers`, is it down (detonator.h:21-31). -/
structure D where
  on : Bool := false
  pending : Bool := false
  armed : Bool := false
  next : Next := .nothing
  base : Nat := 0
  wait : Nat := 0
  mod : Bool := false
  down : Bool := false
  deriving DecidableEq, Repr

inductive Op
  | latchOn | latchOff
  | press (second : Bool) (len : Nat)
  | release (len : Nat)
  | preonDone
  | poll
  deriving DecidableEq, Repr

def isOn (s : D) : Bool := s.on || s.pending

/-- `uint32_t` difference -/
def since (now start : Nat) : Nat := (now % 4294967296 + 4294967296 - start % 4294967296) % 4294967296

/-- `Off()` (prop_base.h:156-189); `a`: what is seen if it was on. -/
def off (s : D) (a : Act) : D × List Act :=
  if s.pending then ({ s with pending := false }, [.cancelPreon])
  else if s.on then ({ s with on := false }, [a])
  else (s, [])

/-- `PollNextAction` (detonator.h:42-57) at time `now`. -/
def poll (s : D) (now : Nat) : D × List Act :=
  if since now s.base > s.wait then
    match s.next with
    | .nothing => ({ s with next := .nothing }, [])
    | .arm => ({ s with armed := true, next := .nothing }, [])
    | .blow =>
      let r := off s .explode
      ({ r.1 with next := .nothing }, r.2)
  else (s, [])

/-- One operation at time `now` (detonator.h:96-131).  A latch event with AUX2 among the
    modifiers matches no case. -/
def step (s : D) (now : Nat) : Op → D × List Act
  | .latchOn =>
    if !isOn s && !s.mod then ({ s with armed := false, pending := true }, [.ignite])
    else (s, [])
  | .latchOff => if !s.mod then off s .retract else (s, [])
  | .press second len =>
    if s.down then (s, [])
    else if second then ({ s with mod := true, down := true }, [if isOn s then .track else .preset])
    else if isOn s then
      ({ s with mod := true, down := true, base := now, wait := len, next := .arm }, [.arm len])
    else ({ s with mod := true, down := true }, [])
  | .release len =>
    if !s.down then (s, [])
    else if isOn s then
      -- blast(): handled if armed, which uses up the modifier; otherwise the button clears it
      (if s.armed then
        ({ s with mod := false, down := false, base := now, wait := len, next := .blow }, [.letGo len])
       else ({ s with mod := false, down := false, base := now, wait := 0, next := .nothing }, [.letGo len]))
    else ({ s with mod := false, down := false }, [])
  | .preonDone => (if s.pending then { s with pending := false, on := true } else s, [])
  | .poll => poll s now

/-- The log, newest first. -/
abbrev Log := List (Nat × Act)

def stepLog (x : D × Log) (e : Nat × Op) : D × Log :=
  let r := step x.1 e.1 e.2
  (r.1, (r.2.map (fun a => (e.1, a))).reverse ++ x.2)

def run (x : D × Log) (es : List (Nat × Op)) : D × Log := es.foldl stepLog x

/-! ## Specification, about the log only -/

def noGrip (x : Nat × Act) : Prop :=
  match x.2 with
  | .arm _ | .letGo _ => False
  | _ => True

def noIgnite (x : Nat × Act) : Prop := x.2 ≠ .ignite

/-- Since it was last turned on, the button was held (pressed at `p`, let go at `r`) for longer
    than the arming sound. -/
def Held (l : Log) : Prop :=
  ∃ post mid pre r l2 p len, l = post ++ (r, .letGo l2) :: (mid ++ (p, .arm len) :: pre) ∧
    (∀ x ∈ post, noIgnite x) ∧ (∀ x ∈ mid, noGrip x ∧ noIgnite x) ∧ p + len < r

/-- The button was let go more than the length of the sound ago, and not touched since. -/
def LetGo (l : Log) (now : Nat) : Prop :=
  ∃ post pre r len, l = post ++ (r, .letGo len) :: pre ∧ (∀ x ∈ post, noGrip x) ∧ r + len < now

/-! ## Lemmas -/

theorem since_le {now b : Nat} (h : b ≤ now) : since now b ≤ now - b := by
  unfold since; omega

/-- Being held since `p`. -/
def Hold (l : Log) (p len : Nat) : Prop :=
  ∃ mid pre, l = mid ++ (p, .arm len) :: pre ∧ (∀ x ∈ mid, noGrip x ∧ noIgnite x)

/-- Let go at `r`. -/
def Gone (l : Log) (r len : Nat) : Prop :=
  ∃ post pre, l = post ++ (r, .letGo len) :: pre ∧ (∀ x ∈ post, noGrip x)

theorem Held.cons {l : Log} (h : Held l) {x : Nat × Act} (hx : noIgnite x) : Held (x :: l) := by
  obtain ⟨post, mid, pre, r, l2, p, len, e, h1, h2, h3⟩ := h
  refine ⟨x :: post, mid, pre, r, l2, p, len, by rw [e]; rfl, ?_, h2, h3⟩
  intro y hy
  rcases List.mem_cons.mp hy with rfl | hy
  · exact hx
  · exact h1 y hy

theorem Hold.cons {l : Log} {p len : Nat} (h : Hold l p len) {x : Nat × Act} (hx : noGrip x ∧ noIgnite x) : Hold (x :: l) p len := by
  obtain ⟨mid, pre, e, h1⟩ := h
  refine ⟨x :: mid, pre, by rw [e]; rfl, ?_⟩
  intro y hy
  rcases List.mem_cons.mp hy with rfl | hy
  · exact hx
  · exact h1 y hy

theorem Gone.cons {l : Log} {p len : Nat} (h : Gone l p len) {x : Nat × Act} (hx : noGrip x) : Gone (x :: l) p len := by
  obtain ⟨mid, pre, e, h1⟩ := h
  refine ⟨x :: mid, pre, by rw [e]; rfl, ?_⟩
  intro y hy
  rcases List.mem_cons.mp hy with rfl | hy
  · exact hx
  · exact h1 y hy

theorem Hold.letGo {l : Log} {p len r l2 : Nat} (h : Hold l p len) (ht : p + len < r) : Held ((r, .letGo l2) :: l) := by
  obtain ⟨mid, pre, e, h1⟩ := h
  exact ⟨[], mid, pre, r, l2, p, len, by rw [e]; rfl, by simp, h1, ht⟩

/-- Armed, and still held. -/
def Armed (s : D) (l : Log) (now : Nat) : Prop :=
  (∃ p len, Hold l p len ∧ p + len < now) ∧ s.mod = true ∧ isOn s = true ∧ s.next = .nothing

/-- What the state says about the log, at time `now`. -/
structure Inv (s : D) (l : Log) (now : Nat) : Prop where
  base : s.base ≤ now
  arm : s.next = .arm → Hold l s.base s.wait ∧ s.mod = true ∧ isOn s = true
  mod : s.mod = true → s.down = true
  armed : s.armed = true → Held l ∨ Armed s l now
  blow : s.next = .blow → Gone l s.base s.wait ∧ Held l

/-- The switch isn't turned on while an explosion is pending. -/
def calm (s : D) : Op → Prop
  | .latchOn => isOn s = true ∨ s.mod = true ∨ s.next ≠ .blow
  | _ => True

theorem inv_later {s : D} {l : Log} {now now' : Nat} (h : Inv s l now) (hn : now ≤ now') : Inv s l now' :=
  ⟨Nat.le_trans h.base hn, h.arm, h.mod,
    fun x => (h.armed x).imp id (fun ⟨⟨p, len, a, b⟩, c⟩ => ⟨⟨p, len, a, Nat.lt_of_lt_of_le b hn⟩, c⟩), h.blow⟩

/-- Appending something that is neither grip nor ignition, other fields unchanged. -/
theorem Inv.add {s : D} {l : Log} {now : Nat} (h : Inv s l now) {x : Nat × Act} (hx : noGrip x ∧ noIgnite x) : Inv s (x :: l) now :=
  ⟨h.base, fun a => ⟨(h.arm a).1.cons hx, (h.arm a).2⟩, h.mod,
    fun a => (h.armed a).imp (·.cons hx.2) (fun ⟨⟨p, len, q, r⟩, c⟩ => ⟨⟨p, len, q.cons hx, r⟩, c⟩),
    fun a => ⟨(h.blow a).1.cons hx.1, (h.blow a).2.cons hx.2⟩⟩

/-- Turning off with the button not held. -/
theorem off_inv {s : D} {l : Log} {now : Nat} (h : Inv s l now) (hm : s.mod = false ∨ s.next = .blow) (a : Act)
    (ha : noGrip (now, a) ∧ noIgnite (now, a)) :
    Inv (off s a).1 (((off s a).2.map (fun a => (now, a))).reverse ++ l) now := by
  have key : ∀ (x : Nat × Act), noGrip x ∧ noIgnite x → ∀ on pending, Inv { s with on := on, pending := pending } (x :: l) now := by
    intro x hx on pending
    have k := h.add hx
    have na : s.next ≠ .arm := by
      intro y
      rcases hm with hm | hm
      · have := (h.arm y).2.1; rw [hm] at this; exact absurd this (by decide)
      · rw [y] at hm; exact absurd hm (by decide)
    refine ⟨k.base, fun y => absurd y na, k.mod, fun y => ?_, k.blow⟩
    rcases k.armed y with z | z
    · exact Or.inl z
    · obtain ⟨_, z1, _, z2⟩ := z
      rcases hm with hm | hm
      · rw [hm] at z1; exact absurd z1 (by decide)
      · rw [hm] at z2; exact absurd z2 (by decide)
  unfold off
  split
  · exact key (now, .cancelPreon) ⟨trivial, by simp [noIgnite]⟩ _ _
  · split
    · exact key (now, a) ha _ _
    · exact h

theorem step_inv {s : D} {l : Log} {now : Nat} (h : Inv s l now) (op : Op) (hc : calm s op) :
    Inv (step s now op).1 (((step s now op).2.map (fun a => (now, a))).reverse ++ l) now := by
  cases op with
  | latchOn =>
    simp only [step]
    split
    · rename_i hx
      simp only [Bool.and_eq_true, Bool.not_eq_true'] at hx
      have hb : s.next ≠ .blow := by
        rcases hc with hc | hc | hc
        · rw [hx.1] at hc; exact absurd hc (by decide)
        · rw [hx.2] at hc; exact absurd hc (by decide)
        · exact hc
      have ha : s.next ≠ .arm := by
        intro x; have := (h.arm x).2.1; rw [hx.2] at this; exact absurd this (by decide)
      exact ⟨h.base, fun x => absurd x ha, h.mod, fun x => by simp at x, fun x => absurd x hb⟩
    · exact h
  | latchOff =>
    simp only [step]
    split
    · rename_i hx
      exact off_inv h (Or.inl (by simpa using hx)) .retract ⟨trivial, by simp [noIgnite]⟩
    · exact h
  | press second len =>
    simp only [step]
    split
    · exact h
    · rename_i hd
      have hd : s.down = false := by simpa using hd
      have hm : s.mod = false := by
        cases hx : s.mod with
        | false => rfl
        | true => rw [h.mod hx] at hd; exact absurd hd (by decide)
      have na : s.next ≠ .arm := by
        intro x; have := (h.arm x).2.1; rw [hm] at this; exact absurd this (by decide)
      have nh : s.armed = true → Held l := by
        intro x
        rcases h.armed x with z | z
        · exact z
        · have := z.2.1; rw [hm] at this; exact absurd this (by decide)
      split
      · have hx : noGrip (now, if isOn s = true then Act.track else .preset) ∧ noIgnite (now, if isOn s = true then Act.track else .preset) := by
          cases isOn s <;> exact ⟨trivial, by simp [noIgnite]⟩
        have k := h.add hx
        exact ⟨k.base, fun x => absurd x na, fun _ => rfl, fun x => Or.inl ((nh x).cons hx.2), k.blow⟩
      · split
        · refine ⟨Nat.le_refl _, fun _ => ⟨⟨[], l, rfl, by simp⟩, rfl, by assumption⟩, fun _ => rfl, ?_, fun x => by simp at x⟩
          intro a
          exact Or.inl ((nh a).cons (by simp [noIgnite]))
        · exact ⟨h.base, fun x => absurd x na, fun _ => rfl, fun x => Or.inl (nh x), h.blow⟩
  | release len =>
    simp only [step]
    split
    · exact h
    · split
      · split
        · rename_i ha
          have hh : Held ((now, .letGo len) :: l) := by
            rcases h.armed ha with z | ⟨⟨p, ln, z1, z2⟩, _⟩
            · exact z.cons (by simp [noIgnite])
            · exact z1.letGo z2
          exact ⟨Nat.le_refl _, fun x => by simp at x, fun x => by simp at x, fun _ => Or.inl hh, fun _ => ⟨⟨[], l, rfl, by simp⟩, hh⟩⟩
        · rename_i ha
          exact ⟨Nat.le_refl _, fun x => by simp at x, fun x => by simp at x, fun x => absurd x ha, fun x => by simp at x⟩
      · rename_i hof
        have na : s.next ≠ .arm := fun x => hof (h.arm x).2.2
        refine ⟨h.base, fun x => absurd x na, fun x => by simp at x, fun x => ?_, h.blow⟩
        rcases h.armed x with z | z
        · exact Or.inl z
        · exact absurd z.2.2.1 hof
  | preonDone =>
    simp only [step]
    split
    · rename_i hp
      obtain ⟨a, b, c, d, e⟩ := h
      have hi : isOn { s with pending := false, on := true } = isOn s := by simp [isOn, hp]
      refine ⟨a, fun x => ?_, c, fun x => ?_, e⟩
      · rw [hi]; exact b x
      · rcases d x with z | ⟨z1, z2, z3, z4⟩
        · exact Or.inl z
        · exact Or.inr ⟨z1, z2, by rw [hi]; exact z3, z4⟩
    · exact h
  | poll =>
    simp only [step, poll]
    split
    · rename_i ht
      cases hn : s.next with
      | nothing =>
        obtain ⟨a, b, c, d, e⟩ := h
        refine ⟨a, fun x => by simp at x, c, fun x => ?_, fun x => by simp at x⟩
        rcases d x with z | ⟨z1, z2, z3, z4⟩
        · exact Or.inl z
        · exact Or.inr ⟨z1, z2, z3, rfl⟩
      | arm =>
        obtain ⟨k1, k2, k3⟩ := h.arm hn
        refine ⟨h.base, fun x => by simp at x, h.mod, fun _ => Or.inr ⟨⟨s.base, s.wait, k1, ?_⟩, k2, k3, rfl⟩, fun x => by simp at x⟩
        have := since_le h.base
        omega
      | blow =>
        have k := off_inv h (Or.inr hn) .explode ⟨trivial, by simp [noIgnite]⟩
        have hm : (off s .explode).1.next = .blow := by unfold off; (repeat' split) <;> exact hn
        simp only
        generalize off s .explode = r at *
        obtain ⟨a, b, c, d, e⟩ := k
        refine ⟨a, fun x => by simp at x, c, fun x => ?_, fun x => by simp at x⟩
        rcases d x with z | ⟨z1, z2, z3, z4⟩
        · exact Or.inl z
        · rw [hm] at z4; exact absurd z4 (by decide)
    · exact h

theorem inv_init : Inv {} [] 0 := by constructor <;> simp

/-! ## C97 -/

/-- A history in which time doesn't run backwards and the switch isn't turned on while an
    explosion is pending. -/
def Calm : D × Log → Nat → List (Nat × Op) → Prop
  | _, _, [] => True
  | x, t, e :: es => t ≤ e.1 ∧ calm x.1 e.2 ∧ Calm (stepLog x e) e.1 es

theorem run_inv {x : D × Log} {t : Nat} (h : Inv x.1 x.2 t) (es : List (Nat × Op)) (e : Nat × Op) (hc : Calm x t (es ++ [e])) :
    Inv (run x es).1 (run x es).2 e.1 := by
  induction es generalizing x t with
  | nil => exact inv_later h hc.1
  | cons e' es ih =>
    obtain ⟨h1, h2, h3⟩ := hc
    exact ih (step_inv (inv_later h h1) e'.2 h2) h3

/-- It explodes only if, since it was last turned on, the button had been held for longer
    than the arming sound, and it was let go more than the length of the following sound ago
    and not touched since. -/
theorem C97_explodes_partial (es : List (Nat × Op)) (e : Nat × Op) (hc : Calm ({}, []) 0 (es ++ [e]))
    (hx : Act.explode ∈ (step (run ({}, []) es).1 e.1 e.2).2) :
    Held (run ({}, []) es).2 ∧ LetGo (run ({}, []) es).2 e.1 := by
  have h := run_inv inv_init es e hc
  generalize run ({}, []) es = x at *
  obtain ⟨t, op⟩ := e
  obtain ⟨s, l⟩ := x
  simp only at *
  have no : ∀ a, a ≠ Act.explode → Act.explode ∉ (off s a).2 := by
    intro a ha; unfold off; (repeat' split) <;> simp; exact fun y => ha y.symm
  cases op with
  | latchOn => simp only [step] at hx; split at hx <;> simp at hx
  | latchOff =>
    simp only [step] at hx; split at hx
    · exact absurd hx (no _ (by decide))
    · simp at hx
  | press second len =>
    simp only [step] at hx
    split at hx
    · simp at hx
    · split at hx
      · generalize isOn s = o at hx
        cases o <;> simp at hx
      · split at hx <;> simp at hx
  | release len =>
    simp only [step] at hx
    (repeat' split at hx) <;> simp at hx
  | preonDone => simp [step] at hx
  | poll =>
    simp only [step, poll] at hx
    split at hx
    · rename_i ht
      cases hn : s.next with
      | nothing => rw [hn] at hx; simp at hx
      | arm => rw [hn] at hx; simp at hx
      | blow =>
        obtain ⟨⟨post, pre, k1, k2⟩, k3⟩ := h.blow hn
        refine ⟨k3, post, pre, s.base, s.wait, k1, k2, ?_⟩
        have := since_le h.base
        omega
    · simp at hx

theorem poll_explode {s : D} {now : Nat} (h : since now s.base > s.wait) (hn : s.next = .blow) (hon : s.on = true) (hp : s.pending = false) :
    poll s now = ({ s with on := false, next := .nothing }, [.explode]) := by
  unfold poll
  rw [if_pos h, hn]
  simp [off, hon, hp]

theorem poll_wait {s : D} {now : Nat} (h : ¬ since now s.base > s.wait) : poll s now = (s, []) := by
  unfold poll; rw [if_neg h]

theorem stepLog_poll {x : D × Log} {t : Nat} {s : D} {a : List Act} (h : poll x.1 t = (s, a)) :
    stepLog x (t, .poll) = (s, (a.map (fun a => (t, a))).reverse ++ x.2) := by
  have : step x.1 t .poll = (s, a) := h
  simp only [stepLog, this]

/-- Let go when armed: nothing happens until the sound has ended; the first round of the
    loop after that sets it off, unless the button is pressed or the switch turned before. -/
theorem C97_blows {s : D} (hon : s.on = true) (hp : s.pending = false) (ha : s.armed = true) (hd : s.down = true) (len : Nat) (r : Nat)
    (ts : List Nat) (hts : ∀ t ∈ ts, since t r ≤ len) (t : Nat) (ht : len < since t r) (l : Log) :
    (run (s, l) ((r, .release len) :: ts.map (fun t => (t, .poll)))).2 = (r, .letGo len) :: l ∧
    (run (s, l) ((r, .release len) :: ts.map (fun t => (t, .poll)) ++ [(t, .poll)])).2 = (t, .explode) :: (r, .letGo len) :: l ∧
    (run (s, l) ((r, .release len) :: ts.map (fun t => (t, .poll)) ++ [(t, .poll)])).1.on = false := by
  have e0 : stepLog (s, l) (r, .release len) =
      ({ s with mod := false, down := false, base := r, wait := len, next := .blow }, (r, .letGo len) :: l) := by
    simp [stepLog, step, hd, ha, isOn, hon]
  have q : ∀ (x : D × Log), x.1.base = r → x.1.wait = len → run x (ts.map (fun t => (t, Op.poll))) = x := by
    clear ht e0
    intro x hb hw
    induction ts with
    | nil => rfl
    | cons t0 ts ih =>
      have h1 : stepLog x (t0, .poll) = x := by
        have := hts t0 (List.mem_cons_self ..)
        have hh : ¬ (since t0 x.1.base > x.1.wait) := by rw [hb, hw]; exact Nat.not_lt.mpr this
        exact stepLog_poll (poll_wait hh)
      show run (stepLog x (t0, .poll)) _ = x
      rw [h1]
      exact ih (fun t ht => hts t (List.mem_cons_of_mem _ ht))
  have q1 := q (stepLog (s, l) (r, .release len)) (by rw [e0]) (by rw [e0])
  have q2 : run (s, l) ((r, .release len) :: ts.map (fun t => (t, Op.poll))) = stepLog (s, l) (r, .release len) := q1
  refine ⟨by rw [q2, e0], ?_⟩
  have q3 : run (s, l) ((r, .release len) :: ts.map (fun t => (t, Op.poll)) ++ [(t, .poll)]) =
      stepLog (run (s, l) ((r, .release len) :: ts.map (fun t => (t, Op.poll)))) (t, .poll) := by
    unfold run; rw [List.foldl_append]; rfl
  rw [q3, q2, e0]
  have k := stepLog_poll (x := ({ s with mod := false, down := false, base := r, wait := len, next := .blow }, (r, .letGo len) :: l))
    (poll_explode (s := { s with mod := false, down := false, base := r, wait := len, next := .blow }) ht rfl hon hp)
  rw [k]
  exact ⟨rfl, rfl⟩

/-- Turning the switch on makes it safe: not armed (but see `C97_stale_counterexample`). -/
theorem C97_on_unarmed (s : D) (now : Nat) (h : isOn s = false) (hm : s.mod = false) :
    (step s now .latchOn).1.armed = false ∧ (step s now .latchOn).2 = [.ignite] := by
  simp [step, h, hm]

/-- Switched off, it doesn't explode (whatever is pending) before it is switched on again. -/
theorem C97_off_safe {s : D} (h : isOn s = false) (now : Nat) (op : Op) (hop : op ≠ .latchOn) :
    Act.explode ∉ (step s now op).2 ∧ isOn (step s now op).1 = false := by
  have h' := h
  simp only [isOn, Bool.or_eq_false_iff] at h'
  obtain ⟨h1, h2⟩ := h'
  cases op with
  | latchOn => exact absurd rfl hop
  | latchOff => cases hm : s.mod <;> simp [step, off, h1, h2, isOn, hm]
  | press second len => cases hd : s.down <;> cases second <;> simp [step, h1, h2, isOn, hd]
  | release len => cases hd : s.down <;> simp [step, h1, h2, isOn, hd]
  | preonDone => simp [step, h1, h2, isOn]
  | poll =>
    simp only [step, poll]
    split
    · cases hn : s.next <;> simp [off, h1, h2, isOn]
    · exact ⟨by simp, h⟩

/-- On, armed by two seconds of holding, let go: it explodes. -/
def demo : List (Nat × Op) :=
  [(1000, .latchOn), (1500, .preonDone), (2000, .press false 1600), (3700, .poll), (4000, .release 900), (4500, .poll)]

example : Calm ({}, []) 0 (demo ++ [(5000, .poll)]) := by
  simp only [Calm, demo, List.cons_append, List.nil_append, calm, and_true, true_and]
  decide +kernel
example : (run ({}, []) (demo ++ [(5000, .poll)])).2 =
    [(5000, .explode), (4000, .letGo 900), (2000, .arm 1600), (1000, .ignite)] := by decide +kernel
example : (run ({}, []) demo).1.on = true ∧ (run ({}, []) demo).1.armed = true := by decide +kernel
/-- Let go too early: nothing. -/
example : (run ({}, []) [(1000, .latchOn), (1500, .preonDone), (2000, .press false 1600), (3500, .poll), (3550, .release 900), (9000, .poll)]).2 =
    [(3550, .letGo 900), (2000, .arm 1600), (1000, .ignite)] := by decide +kernel

/-- Switched off and on again during the sound before the explosion: it explodes although
    it wasn't armed since it was turned on (`next_action_` is kept). -/
theorem C97_stale_counterexample :
    (run ({}, []) (demo ++ [(4600, .latchOff), (4700, .latchOn), (4800, .preonDone), (5000, .poll)])).2 =
      [(5000, .explode), (4700, .ignite), (4600, .retract), (4000, .letGo 900), (2000, .arm 1600), (1000, .ignite)] ∧
    ¬ Held [(4700, .ignite), (4600, .retract), (4000, .letGo 900), (2000, .arm 1600), (1000, .ignite)] := by
  refine ⟨by decide +kernel, ?_⟩
  rintro ⟨post, mid, pre, r, l2, p, len, e, h1, _⟩
  cases post with
  | nil => simp at e
  | cons x post =>
    simp only [List.cons_append, List.cons.injEq] at e
    have := h1 x (List.mem_cons_self ..)
    rw [← e.1] at this
    exact this rfl

/-- The switch does nothing while the button is held: it stays on, and explodes when the
    button is let go. -/
theorem C97_switch_counterexample :
    (run ({}, []) [(1000, .latchOn), (1500, .preonDone), (2000, .press false 1600), (3700, .poll), (3800, .latchOff),
      (4000, .release 900), (5000, .poll)]).2 =
      [(5000, .explode), (4000, .letGo 900), (2000, .arm 1600), (1000, .ignite)] := by decide +kernel

end Verif.Prop.Detonator
