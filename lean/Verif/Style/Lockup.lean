import Verif.Transition.Props
import Verif.Func.Pulse
import Mathlib.Tactic.Linarith
import Mathlib.Tactic.Ring
/-!
# Lockup layers (C110)

Model of `LockupTrL` (styles/lockup.h:108-193) with `TransitionHelper` (transitions/base.h:106-133), of
`LockupL` (styles/lockup.h:36-93), of the features a style handles (blades/blade_base.h:8-18,63-72,
styles/style_ptr.h:12-23) and of `LockupPulseF` (functions/effect_increment.h:28-43).

The transitions are any at all: a type of states with `begin`, `run`, `done` and `getColor`.  The
colours are any type; the value of the condition is an input of the frame.
-/
namespace Verif.Style.Lockup
open Verif.Transition (Env Sched lastTime)

/-- A transition as its users see it, transitions/README and transitions/base.h. -/
structure Trans (C : Type) where
  S : Type
  begin : S → S
  run : S → Env → S
  done : S → Bool
  color : S → C → C → Nat → C

variable {C : Type}

/-- `TransitionHelper`, transitions/base.h:106-133. -/
structure Helper (T : Trans C) where
  tr : T.S
  active : Bool

/-- `begin`, transitions/base.h:109-112. -/
def Helper.begin {T : Trans C} (h : Helper T) : Helper T := ⟨T.begin h.tr, true⟩

/-- `run`, transitions/base.h:113-118. -/
def Helper.run {T : Trans C} (h : Helper T) (e : Env) : Helper T :=
  if h.active then ⟨T.run h.tr e, !T.done (T.run h.tr e)⟩ else h

/-- `getColor`, transitions/base.h:125-130. -/
def Helper.color {T : Trans C} (h : Helper T) (a b : C) (led : Nat) : C := if h.active then T.color h.tr a b led else b

/-- `LockupTrState`, styles/lockup.h:113-117. -/
inductive Phase
  | inactive | active | skipped
deriving DecidableEq, Repr

/-- The members of `LockupTrL`. -/
structure St (B E : Trans C) where
  phase : Phase
  b : Helper B
  e : Helper E

/-- One frame: whether the lockup of this type is going on, and the condition. -/
structure Frame where
  env : Env
  lockup : Bool
  cond : Bool

/-- `run`, styles/lockup.h:131-160. -/
def step {B E : Trans C} (s : St B E) (f : Frame) : St B E :=
  match s.phase with
  | .inactive =>
    if f.lockup then
      if f.cond then ⟨.active, s.b.begin.run f.env, s.e.run f.env⟩ else ⟨.skipped, s.b.run f.env, s.e.run f.env⟩
    else ⟨.inactive, s.b.run f.env, s.e.run f.env⟩
  | .active =>
    if f.lockup then ⟨.active, s.b.run f.env, s.e.run f.env⟩ else ⟨.inactive, s.b.run f.env, s.e.begin.run f.env⟩
  | .skipped =>
    if f.lockup then ⟨.skipped, s.b.run f.env, s.e.run f.env⟩ else ⟨.inactive, s.b.run f.env, s.e.run f.env⟩

/-- `getColor`, styles/lockup.h:174-191: `on` is the colour given, `off` is transparent. -/
def color {B E : Trans C} (s : St B E) (on off : C) (led : Nat) : C :=
  if s.b.active = false ∧ s.e.active = false then
    if s.phase = .active then on else off
  else if s.phase = .active then s.b.color (s.e.color on off led) on led
  else s.e.color (s.b.color off on led) off led

/-- A new style. -/
def init {B E : Trans C} (b : B.S) (e : E.S) : St B E := ⟨.inactive, ⟨b, false⟩, ⟨e, false⟩⟩

/-! ## What is shown -/

/-- The frames of the lockup going on, if any. -/
def going (fs : List Frame) : List Frame := (fs.reverse.takeWhile (·.lockup)).reverse

/-- The lockup going on is to be shown: the condition held when it began. -/
def Shown (fs : List Frame) : Prop := ∃ f rest, going fs = f :: rest ∧ f.cond = true

theorem going_snoc (fs : List Frame) (f : Frame) : going (fs ++ [f]) = if f.lockup then going fs ++ [f] else [] := by
  unfold going
  rw [List.reverse_append]
  simp only [List.reverse_cons, List.reverse_nil, List.nil_append, List.singleton_append, List.takeWhile_cons]
  cases f.lockup <;> simp

theorem snoc_induction {P : List Frame → Prop} (h0 : P []) (h1 : ∀ fs f, P fs → P (fs ++ [f])) (fs : List Frame) : P fs := by
  have : ∀ fs : List Frame, P fs.reverse := by
    intro fs
    induction fs with
    | nil => exact h0
    | cons f fs ih => rw [List.reverse_cons]; exact h1 _ _ ih
  have h := this fs.reverse
  rwa [List.reverse_reverse] at h

theorem phase_eq {B E : Trans C} (b : B.S) (e : E.S) (fs : List Frame) :
    (fs.foldl step (init (B := B) (E := E) b e)).phase =
      match going fs with
      | [] => .inactive
      | f :: _ => if f.cond then .active else .skipped := by
  induction fs using snoc_induction with
  | h0 => rfl
  | h1 fs f ih =>
    rw [List.foldl_append, going_snoc]
    simp only [List.foldl_cons, List.foldl_nil]
    generalize fs.foldl step (init b e) = s at ih
    generalize going fs = gs at ih
    unfold step
    cases gs with
    | nil =>
      simp only at ih
      rw [ih]
      cases f.lockup <;> cases hc : f.cond <;> simp [hc]
    | cons g gs =>
      simp only at ih
      cases hg : g.cond <;> simp only [hg, if_true, Bool.false_eq_true, if_false] at ih <;> rw [ih] <;>
        cases f.lockup <;> simp [hg]

/-- The effect is shown during a lockup exactly if its condition held when this lockup began; later
changes of the condition, lockups before and other types of lockup have no influence. -/
theorem C110_shown {B E : Trans C} (b : B.S) (e : E.S) (fs : List Frame) :
    (fs.foldl step (init (B := B) (E := E) b e)).phase = .active ↔ Shown fs := by
  rw [phase_eq]
  unfold Shown
  cases going fs with
  | nil => simp
  | cons f r => cases hc : f.cond <;> simp [hc]

/-- When no transition is running the colour is the full colour if the lockup is to be shown, and
transparent otherwise. -/
theorem C110_settled {B E : Trans C} (b : B.S) (e : E.S) (fs : List Frame) (on off : C) (led : Nat)
    (hb : (fs.foldl step (init (B := B) (E := E) b e)).b.active = false)
    (he : (fs.foldl step (init (B := B) (E := E) b e)).e.active = false) :
    (Shown fs → color (fs.foldl step (init (B := B) (E := E) b e)) on off led = on) ∧
    (¬ Shown fs → color (fs.foldl step (init (B := B) (E := E) b e)) on off led = off) := by
  unfold color
  rw [if_pos ⟨hb, he⟩, ← C110_shown b e fs]
  exact ⟨fun h => by rw [if_pos h], fun h => by rw [if_neg h]⟩

/-- As long as there is no lockup which is to be shown the layer is transparent. -/
theorem C110_transparent {B E : Trans C} (b : B.S) (e : E.S) (fs : List Frame) (on off : C) (led : Nat)
    (h : ∀ pre, pre <+: fs → ¬ Shown pre) : color (fs.foldl step (init (B := B) (E := E) b e)) on off led = off := by
  have key : ∀ fs : List Frame, (∀ pre, pre <+: fs → ¬ Shown pre) →
      (fs.foldl step (init (B := B) (E := E) b e)).b.active = false ∧ (fs.foldl step (init (B := B) (E := E) b e)).e.active = false := by
    intro fs
    induction fs using snoc_induction with
    | h0 => intro _; exact ⟨rfl, rfl⟩
    | h1 fs f ih =>
      intro h
      obtain ⟨h1, h2⟩ := ih (fun pre hp => h pre (hp.trans (List.prefix_append _ _)))
      have a1 : (fs.foldl step (init (B := B) (E := E) b e)).phase ≠ .active :=
        fun hh => h fs (List.prefix_append _ _) ((C110_shown b e fs).1 hh)
      have a2 : ((fs ++ [f]).foldl step (init (B := B) (E := E) b e)).phase ≠ .active :=
        fun hh => h _ (List.prefix_refl _) ((C110_shown b e _).1 hh)
      rw [List.foldl_append] at a2 ⊢
      simp only [List.foldl_cons, List.foldl_nil] at a2 ⊢
      generalize fs.foldl step (init b e) = s at *
      unfold step at a2 ⊢
      cases hp : s.phase with
      | active => exact absurd hp a1
      | inactive =>
        rw [hp] at a2
        cases hl : f.lockup <;> cases hc : f.cond <;> simp_all [Helper.run]
      | skipped =>
        cases hl : f.lockup <;> simp_all [Helper.run]
  obtain ⟨h1, h2⟩ := key fs h
  exact (C110_settled b e fs on off led h1 h2).2 (h fs (List.prefix_refl _))

/-! ## The transitions end -/

/-- Begun in any state the transition is done `hi` ms later, for frames at most `g` apart. -/
def EndsBy (T : Trans C) (g hi : Nat) : Prop :=
  ∀ (s : T.S) (e : Env) (fs : List Env), Sched g e.time fs → e.time + hi ≤ lastTime e.time fs →
    T.done ((e :: fs).foldl T.run (T.begin s)) = true

/-- A helper once inactive stays so. -/
theorem helper_rest {T : Trans C} (h : Helper T) (hi : h.active = false) (fs : List Env) : (fs.foldl Helper.run h) = h := by
  induction fs with
  | nil => rfl
  | cons e fs ih =>
    rw [List.foldl_cons]
    have : h.run e = h := by unfold Helper.run; rw [hi]; rfl
    rw [this]; exact ih

/-- A helper still active has run its transition in all frames, and it is not done. -/
theorem helper_active {T : Trans C} (h : Helper T) (fs : List Env) (hf : fs ≠ []) (ha : (fs.foldl Helper.run h).active = true) :
    T.done (fs.foldl T.run h.tr) = false := by
  induction fs generalizing h with
  | nil => exact absurd rfl hf
  | cons e fs ih =>
    have h0 : h.active = true := by
      cases hh : h.active
      · rw [helper_rest h hh] at ha; rw [hh] at ha; exact ha
      · rfl
    have e1 : h.run e = ⟨T.run h.tr e, !T.done (T.run h.tr e)⟩ := by unfold Helper.run; rw [if_pos h0]
    rw [List.foldl_cons] at ha ⊢
    cases fs with
    | nil =>
      rw [List.foldl_nil, e1] at ha
      simpa using ha
    | cons e2 fs =>
      have := ih (h.run e) (by simp) ha
      rw [e1] at this
      exact this

theorem helper_ends {T : Trans C} {g hi : Nat} (hT : EndsBy T g hi) (h : Helper T) (e : Env) (fs : List Env)
    (hs : Sched g e.time fs) (ht : e.time + hi ≤ lastTime e.time fs) : ((e :: fs).foldl Helper.run h.begin).active = false := by
  cases ha : ((e :: fs).foldl Helper.run h.begin).active
  · rfl
  · have h1 := helper_active h.begin (e :: fs) (by simp) ha
    have h2 := hT h.tr e fs hs ht
    exact absurd (h2.symm.trans h1) (by simp)

/-- After the change nothing begins any more. -/
theorem steady {B E : Trans C} (fs : List Frame) (l : Bool) (hl : ∀ f ∈ fs, f.lockup = l) (s : St B E)
    (hp : s.phase = .inactive ↔ l = false) :
    (fs.foldl step s).phase = s.phase ∧ (fs.foldl step s).b = (fs.map (·.env)).foldl Helper.run s.b ∧
    (fs.foldl step s).e = (fs.map (·.env)).foldl Helper.run s.e := by
  induction fs generalizing s with
  | nil => exact ⟨rfl, rfl, rfl⟩
  | cons f fs ih =>
    have hf := hl f (by simp)
    have e1 : step s f = ⟨s.phase, s.b.run f.env, s.e.run f.env⟩ := by
      unfold step
      rw [hf]
      cases h : s.phase <;> cases l <;> simp_all
    have := ih (fun g hg => hl g (by simp [hg])) (step s f) (by rw [e1]; exact hp)
    rw [e1] at this
    rw [List.foldl_cons, e1]
    exact this

theorem sched_snoc {g t : Nat} {es : List Env} {e : Env} (h : Sched g t es) (h1 : lastTime t es ≤ e.time)
    (h2 : e.time ≤ lastTime t es + g) : Sched g t (es ++ [e]) := by
  induction es generalizing t with
  | nil => exact ⟨h1, h2, trivial⟩
  | cons a es ih => exact ⟨h.1, h.2.1, ih h.2.2 h1 h2⟩

theorem sched_join {g t : Nat} {es fs : List Env} (h : Sched g t es) (h1 : Sched g (lastTime t es) fs) : Sched g t (es ++ fs) := by
  induction es generalizing t with
  | nil => exact h1
  | cons a es ih => exact ⟨h.1, h.2.1, ih h.2.2 h1⟩

theorem sched_le {g t : Nat} {es : List Env} (h : Sched g t es) : t ≤ lastTime t es := by
  induction es generalizing t with
  | nil => exact Nat.le_refl _
  | cons a es ih => exact Nat.le_trans h.1 (ih h.2.2)

/-- An active helper was begun in some frame and has been run in all frames since, the latest of which
was at time `t`. -/
def Begun {T : Trans C} (g t : Nat) (h : Helper T) : Prop :=
  h.active = true → ∃ (h0 : Helper T) (e : Env) (es : List Env), Sched g e.time es ∧ lastTime e.time es = t ∧
    h = (e :: es).foldl Helper.run h0.begin

theorem begun_run {T : Trans C} {g t : Nat} {h : Helper T} (hb : Begun g t h) (e : Env) (h1 : t ≤ e.time) (h2 : e.time ≤ t + g) :
    Begun g e.time (h.run e) := by
  intro ha
  have h0 : h.active = true := by
    cases hh : h.active
    · unfold Helper.run at ha; rw [hh] at ha; simp at ha; rw [hh] at ha; exact ha
    · rfl
  obtain ⟨h0, a, es, s1, s2, s3⟩ := hb h0
  refine ⟨h0, a, es ++ [e], sched_snoc s1 (by omega) (by omega), ?_, ?_⟩
  · rw [Verif.Transition.lastTime_append]; rfl
  · rw [s3, ← List.cons_append, List.foldl_append]; rfl

theorem begun_begin {T : Trans C} {g : Nat} (h : Helper T) (e : Env) : Begun g e.time (h.begin.run e) :=
  fun _ => ⟨h, e, [], trivial, rfl, rfl⟩

theorem begun_step {B E : Trans C} {g t : Nat} {s : St B E} (f : Frame) (h1 : t ≤ f.env.time) (h2 : f.env.time ≤ t + g)
    (hb : Begun g t s.b) (he : Begun g t s.e) : Begun g f.env.time (step s f).b ∧ Begun g f.env.time (step s f).e := by
  have rb := begun_run hb f.env h1 h2
  have re := begun_run he f.env h1 h2
  have bb := begun_begin (g := g) s.b f.env
  have be := begun_begin (g := g) s.e f.env
  unfold step
  cases s.phase <;> cases f.lockup <;> cases f.cond <;> simp <;> constructor <;> assumption

theorem begun_frames {B E : Trans C} {g : Nat} (fs : List Frame) (t : Nat) (s : St B E) (hs : Sched g t (fs.map (·.env)))
    (hb : Begun g t s.b) (he : Begun g t s.e) :
    Begun g (lastTime t (fs.map (·.env))) (fs.foldl step s).b ∧ Begun g (lastTime t (fs.map (·.env))) (fs.foldl step s).e := by
  induction fs generalizing t s with
  | nil => exact ⟨hb, he⟩
  | cons f fs ih =>
    obtain ⟨h1, h2⟩ := begun_step f hs.1 hs.2.1 hb he
    exact ih f.env.time (step s f) hs.2.2 h1 h2

theorem begun_ends {T : Trans C} {g hi t : Nat} (hT : EndsBy T g hi) {h : Helper T} (hb : Begun g t h) (fs : List Env)
    (hs : Sched g t fs) (ht : t + hi ≤ lastTime t fs) : (fs.foldl Helper.run h).active = false := by
  cases ha : h.active
  · rw [helper_rest h ha]; exact ha
  · obtain ⟨h0, e, es, s1, s2, s3⟩ := hb ha
    have hle := sched_le s1
    rw [s2] at hle
    rw [s3, ← List.foldl_append, List.cons_append]
    apply helper_ends hT h0 e (es ++ fs) (sched_join s1 (by rw [s2]; exact hs))
    rw [Verif.Transition.lastTime_append, s2]
    omega

/-- Whatever happened before: when the lockup has been going on, or has not, since frame `f` and both
transitions have had their time since, the picture is settled: the full colour if this lockup is to be
shown, and otherwise nothing. -/
theorem C110_settles {B E : Trans C} {g hb he t0 : Nat} (hB : EndsBy B g hb) (hE : EndsBy E g he) (b : B.S) (e : E.S)
    (before : List Frame) (f : Frame) (after : List Frame) (hl : ∀ f' ∈ after, f'.lockup = f.lockup)
    (hs : Sched g t0 ((before ++ f :: after).map (·.env)))
    (ht : f.env.time + max hb he ≤ lastTime f.env.time (after.map (·.env))) (on off : C) (led : Nat) :
    (Shown (before ++ f :: after) → color ((before ++ f :: after).foldl step (init (B := B) (E := E) b e)) on off led = on) ∧
    (¬ Shown (before ++ f :: after) → color ((before ++ f :: after).foldl step (init (B := B) (E := E) b e)) on off led = off) := by
  have hsplit : before ++ f :: after = (before ++ [f]) ++ after := by simp
  rw [hsplit] at hs ⊢
  rw [List.map_append] at hs
  obtain ⟨s1, s2⟩ := Verif.Transition.sched_append hs
  have hlt : lastTime t0 ((before ++ [f]).map (·.env)) = f.env.time := by
    rw [List.map_append, Verif.Transition.lastTime_append]; rfl
  rw [hlt] at s2
  obtain ⟨bb, be⟩ := begun_frames (before ++ [f]) t0 (init (B := B) (E := E) b e) s1 (fun h => nomatch h) (fun h => nomatch h)
  rw [hlt] at bb be
  have hph := phase_eq (B := B) (E := E) b e (before ++ [f])
  have hst := steady after f.lockup hl ((before ++ [f]).foldl step (init (B := B) (E := E) b e)) (by
    rw [hph, going_snoc]
    cases f.lockup
    · simp
    · simp only [if_true]
      cases hg : going before with
      | nil => cases hc : f.cond <;> simp [hc]
      | cons x y => cases hc : x.cond <;> simp [hc])
  apply C110_settled
  · rw [List.foldl_append, hst.2.1]
    exact begun_ends hB bb _ s2 (by omega)
  · rw [List.foldl_append, hst.2.2]
    exact begun_ends hE be _ s2 (by omega)

/-! ## No jumps -/

/-- In the frame it begins the transition shows the first colour and is not done. -/
def StartsAt (T : Trans C) (e : Env) : Prop :=
  ∀ s : T.S, T.done (T.run (T.begin s) e) = false ∧ ∀ a b led, T.color (T.run (T.begin s) e) a b led = a

theorem starts_helper {T : Trans C} {e : Env} (h : StartsAt T e) (k : Helper T) (a b : C) (led : Nat) :
    (k.begin.run e).color a b led = a := by
  unfold Helper.color Helper.run Helper.begin
  simp only [if_true]
  rw [(h k.tr).1]
  simp only [Bool.not_false, if_true]
  exact (h k.tr).2 a b led

theorem color_eq {B E : Trans C} (s : St B E) (on off : C) (led : Nat) :
    color s on off led = if s.phase = .active then s.b.color (s.e.color on off led) on led
      else s.e.color (s.b.color off on led) off led := by
  unfold color
  split
  · next h => unfold Helper.color; rw [h.1, h.2]; rfl
  · rfl

/-- A lockup which begins or ends makes no jump: in this frame the colour is the one which would have
been shown without the change, if the transition which is not begun now, or the one which is, was not
running. -/
theorem C110_continuous_partial {B E : Trans C} (s : St B E) (f : Frame) (hB : StartsAt B f.env) (hE : StartsAt E f.env)
    (hs : s.phase ≠ .skipped) (hr : f.lockup = true → s.b.active = false) (hr2 : f.lockup = false → s.e.active = false)
    (on off : C) (led : Nat) :
    color (step s f) on off led = color (⟨s.phase, s.b.run f.env, s.e.run f.env⟩ : St B E) on off led := by
  rw [color_eq, color_eq]
  have rest : ∀ {T : Trans C} (h : Helper T), h.active = false → h.run f.env = h := by
    intro T h hh; unfold Helper.run; rw [hh]; rfl
  have hcol : ∀ {T : Trans C} (h : Helper T) (a b : C), h.active = false → h.color a b led = b := by
    intro T h a b hh; unfold Helper.color; rw [hh]; rfl
  cases hp : s.phase with
  | skipped => exact absurd hp hs
  | inactive =>
    cases hl : f.lockup with
    | false =>
      have : step s f = ⟨.inactive, s.b.run f.env, s.e.run f.env⟩ := by unfold step; rw [hp]; simp [hl]
      rw [this]
    | true =>
      cases hc : f.cond with
      | false =>
        have : step s f = ⟨.skipped, s.b.run f.env, s.e.run f.env⟩ := by unfold step; rw [hp]; simp [hl, hc]
        rw [this]; rfl
      | true =>
        have : step s f = ⟨.active, s.b.begin.run f.env, s.e.run f.env⟩ := by unfold step; rw [hp]; simp [hl, hc]
        rw [this]
        simp only [if_true, reduceCtorEq, if_false]
        rw [starts_helper hB, rest s.b (hr hl), hcol s.b _ _ (hr hl)]
  | active =>
    cases hl : f.lockup with
    | true =>
      have : step s f = ⟨.active, s.b.run f.env, s.e.run f.env⟩ := by unfold step; rw [hp]; simp [hl]
      rw [this]
    | false =>
      have : step s f = ⟨.inactive, s.b.run f.env, s.e.begin.run f.env⟩ := by unfold step; rw [hp]; simp [hl]
      rw [this]
      simp only [reduceCtorEq, if_false, if_true]
      rw [starts_helper hE, rest s.e (hr2 hl), hcol s.e _ _ (hr2 hl)]

/-! ## An example: linear fades -/

/-- A linear fade over `m` ms between opacities, transitions/base.h:70-104 and fade.h without rounding:
the state is `restart_`, `start_millis_` and `len_`; real time. -/
def fade (m : Nat) : Trans Rat where
  S := Bool × Nat × Nat × Rat
  begin s := (true, s.2)
  run s e :=
    let s1 : Nat × Nat := if s.1 then (e.time, m) else (s.2.1, s.2.2.1)
    if s1.2 = 0 then (false, s1.1, 0, 1)
    else if e.time - s1.1 > s1.2 then (false, s1.1, 0, 1)
    else (false, s1.1, s1.2, ((e.time - s1.1 : Nat) : Rat) / s1.2)
  done s := s.2.2.1 == 0
  color s a b _ := a + (b - a) * s.2.2.2

theorem fade_run (m : Nat) (g : Nat) (fs : List Env) : ∀ (t0 t len : Nat) (x : Rat), Sched g t fs → t0 ≤ t →
    ((fs.foldl (fade m).run (false, t0, len, x)).2.1 = t0) ∧
    ((fs.foldl (fade m).run (false, t0, len, x)).1 = false) ∧
    (t0 + len < lastTime t fs → fs ≠ [] → (fs.foldl (fade m).run (false, t0, len, x)).2.2.1 = 0) ∧
    (len = 0 → (fs.foldl (fade m).run (false, t0, len, x)).2.2.1 = 0) := by
  induction fs with
  | nil => intro t0 t len x _ _; exact ⟨rfl, rfl, fun _ h => absurd rfl h, fun h => h⟩
  | cons e fs ih =>
    intro t0 t len x hs ht
    have hr : ∃ y, (fade m).run (false, t0, len, x) e = (false, t0, (if len = 0 then 0 else if e.time - t0 > len then 0 else len), y) := by
      by_cases h1 : len = 0
      · exact ⟨1, by simp [fade, h1]⟩
      · by_cases h2 : e.time - t0 > len
        · exact ⟨1, by simp [fade, h1, h2]⟩
        · exact ⟨_, by simp [fade, h1, h2]; rfl⟩
    obtain ⟨y, hy⟩ := hr
    have hf : (e :: fs).foldl (fade m).run (false, t0, len, x) =
        fs.foldl (fade m).run ((fade m).run (false, t0, len, x) e) := rfl
    rw [hf, hy]
    have hle : t ≤ e.time := hs.1
    obtain ⟨i1, i2, i3, i4⟩ := ih t0 e.time (if len = 0 then 0 else if e.time - t0 > len then 0 else len) y hs.2.2 (by omega)
    refine ⟨i1, i2, ?_, fun h => i4 (by rw [if_pos h])⟩
    intro hlt _
    by_cases hz : (if len = 0 then 0 else if e.time - t0 > len then 0 else len) = 0
    · exact i4 hz
    · cases fs with
      | nil =>
        exfalso
        apply hz
        simp only [lastTime] at hlt
        by_cases h1 : len = 0
        · rw [if_pos h1]
        · rw [if_neg h1, if_pos (by omega)]
      | cons a fs =>
        apply i3 _ (by simp)
        simp only [lastTime] at hlt ⊢
        have : (if len = 0 then 0 else if e.time - t0 > len then 0 else len) ≤ len := by (repeat' split) <;> omega
        omega

/-- Its hypotheses are met: a fade ends a millisecond after its time, and starts with the first colour. -/
theorem fade_ends (m g : Nat) : EndsBy (fade m) g (m + 1) := by
  intro s e fs hs ht
  rw [List.foldl_cons]
  by_cases hm : m = 0
  · have : (fade m).run ((fade m).begin s) e = (false, e.time, 0, 1) := by simp [fade, hm]
    rw [this]
    have := (fade_run m g fs e.time e.time 0 1 hs (Nat.le_refl _)).2.2.2 rfl
    simp only [fade] at this ⊢
    simpa using this
  · have : (fade m).run ((fade m).begin s) e = (false, e.time, m, 0) := by simp [fade, hm]
    rw [this]
    have hne : fs ≠ [] := by intro h; subst h; simp only [lastTime] at ht; omega
    have := (fade_run m g fs e.time e.time m 0 hs (Nat.le_refl _)).2.2.1 (by omega) hne
    simp only [fade] at this ⊢
    simpa using this

theorem fade_starts (m : Nat) (hm : 0 < m) (e : Env) : StartsAt (fade m) e := by
  intro s
  have h0 : m ≠ 0 := by omega
  constructor
  · simp [fade, h0]
  · intro a b led; simp [fade, h0]

/-- A frame of the examples. -/
def fr (t : Nat) (l : Bool) : Frame := ⟨⟨t, 10, 0⟩, l, true⟩

/-- A lockup of a second with fades of 100 and 200 ms: half in after 50 ms, full, half out, nothing. -/
example :
    let s0 : St (fade 100) (fade 200) := init (false, 0, 0, 0) (false, 0, 0, 0)
    color ([fr 0 true, fr 50 true].foldl step s0) 1 0 3 = 1/2 ∧
    color ([fr 0 true, fr 50 true, fr 150 true].foldl step s0) 1 0 3 = 1 ∧
    color ([fr 0 true, fr 50 true, fr 150 true, fr 1000 false, fr 1100 false].foldl step s0) 1 0 3 = 1/2 ∧
    color ([fr 0 true, fr 50 true, fr 150 true, fr 1000 false, fr 1100 false, fr 1201 false].foldl step s0) 1 0 3 = 0 := by
  decide +kernel

/-- Without the condition there are jumps: a lockup begun again while its first beginning is still
fading in goes from 9 % to 91 % at once. -/
theorem C110_jump_counterexample :
    let s0 : St (fade 1000) (fade 1000) := init (false, 0, 0, 0) (false, 0, 0, 0)
    let s1 := [fr 0 true, fr 10 false, fr 100 false].foldl step s0
    color s1 1 0 3 = 91/1000 ∧ color (step s1 (fr 100 true)) 1 0 3 = 91/100 := by decide +kernel

/-! ## `LockupL` -/

/-- `SaberBase::LockupType`, common/saber_base.h. -/
inductive Type_
  | none | normal | drag | armed | autofire | melt | lightningBlock
deriving DecidableEq, Repr

/-- `FeatureForLockupType`, styles/lockup.h:12-23, and the bits of blades/blade_base.h:8-18. -/
def feature : Type_ → Nat
  | .drag => 8
  | .lightningBlock => 32
  | .melt => 16
  | _ => 0

/-- The features handled by the layers of a style: `HandleFeature` of each `LockupTrL`
(blades/blade_base.h:63-65, styles/lockup.h:128-130) after `ResetHandledTypes`. -/
def handledBy (layers : List Type_) : Nat := layers.foldl (fun h t => h ||| feature t) 0

/-- `IsHandled`, styles/style_ptr.h:19-21. -/
def isHandled (handled : Nat) (f : Nat) : Bool := handled &&& f != 0

/-- What one LED of `LockupL` shows: nothing, or a colour by a factor. -/
inductive Pixel (C : Type)
  | transparent
  | of (c : C) (factor : Int)
deriving DecidableEq, Repr

/-- `getColor` of `LockupL`, styles/lockup.h:67-92 (with a drag colour; without one `drag = lockup`). -/
def lockupL (handled : Nat) (leds : Nat) (t : Type_) (lockup drag : C) (lockupShape dragShape lbShape : Int) : Pixel C :=
  if isHandled handled (feature t) then .transparent
  else match t with
    | .melt | .drag => .of drag (if leds = 1 then 32768 else dragShape)
    | .lightningBlock => .of lockup lbShape
    | .normal | .armed | .autofire => .of lockup lockupShape
    | .none => .transparent

theorem handled_iff (layers : List Type_) (t : Type_) :
    isHandled (handledBy layers) (feature t) = true ↔ t ∈ layers ∧ (t = .drag ∨ t = .melt ∨ t = .lightningBlock) := by
  have key : ∀ (layers : List Type_) (h : Nat), (layers.foldl (fun h t => h ||| feature t) h) &&& feature t =
      (h &&& feature t) ||| (if t ∈ layers then feature t else 0) := by
    intro layers
    induction layers with
    | nil => intro h; simp
    | cons a l ih =>
      intro h
      rw [List.foldl_cons, ih, Nat.and_or_distrib_right, Nat.or_assoc]
      congr 1
      by_cases hta : t = a
      · subst hta
        by_cases hm : t ∈ l <;> simp [hm]
      · have h0 : feature a &&& feature t = 0 := by cases a <;> cases t <;> simp_all [feature]
        rw [h0]
        by_cases hm : t ∈ l <;> simp [hta, hm]
  unfold isHandled handledBy
  rw [key]
  by_cases hm : t ∈ layers
  · simp only [Nat.zero_and, hm, if_true, Nat.zero_or, true_and]
    cases t <;> simp [feature]
  · simp [hm]

/-- Drag, melt and lightning block are shown by `LockupL` exactly if the style has no layer of its own for
them: never twice and never not at all.  The other lockups it always shows, and without a lockup it is
transparent. -/
theorem C110_once (layers : List Type_) (leds : Nat) (t : Type_) (lockup drag : C) (a b c : Int) :
    lockupL (handledBy layers) leds t lockup drag a b c = .transparent ↔
      t = .none ∨ (t ∈ layers ∧ (t = .drag ∨ t = .melt ∨ t = .lightningBlock)) := by
  unfold lockupL
  have h := handled_iff layers t
  by_cases hh : isHandled (handledBy layers) (feature t) = true
  · rw [if_pos hh]; simp [h.1 hh]
  · rw [if_neg hh]
    rw [h] at hh
    cases t <;> simp_all

/-- When shown, each type has its colour and shape; on a blade of one LED the drag is always full. -/
theorem C110_shape (leds : Nat) (lockup drag : C) (a b c : Int) :
    lockupL 0 leds .normal lockup drag a b c = .of lockup a ∧ lockupL 0 leds .armed lockup drag a b c = .of lockup a ∧
    lockupL 0 leds .autofire lockup drag a b c = .of lockup a ∧ lockupL 0 leds .lightningBlock lockup drag a b c = .of lockup c ∧
    (leds ≠ 1 → lockupL 0 leds .drag lockup drag a b c = .of drag b ∧ lockupL 0 leds .melt lockup drag a b c = .of drag b) ∧
    lockupL 0 1 .drag lockup drag a b c = .of drag 32768 ∧ lockupL 0 1 .melt lockup drag a b c = .of drag 32768 := by
  refine ⟨rfl, rfl, rfl, rfl, ?_, rfl, rfl⟩
  intro h
  simp [lockupL, isHandled, feature, h]

example : lockupL (handledBy [.melt, .normal]) 144 .drag "l" "d" 1 2 3 = .of "d" 2 ∧
    lockupL (handledBy [.melt, .normal]) 144 .melt "l" "d" 1 2 3 = .transparent ∧
    lockupL (handledBy [.melt, .normal]) 144 .normal "l" "d" 1 2 3 = .of "l" 1 := by decide

/-! ## `LockupPulseF` -/

/-- `LockupPulseSVF::calculate`, functions/effect_increment.h:35-41. -/
def lockupPulse (lockup : Bool) : Int := if lockup then 32768 else 0

/-- "Returns 32768 once for each time the given lockup occurs": in fact it does so in every frame, so
a counter (`IncrementWithReset`) which is to count lockups counts the frames of a single one. -/
theorem C110_pulse_counterexample (n : Nat) (hn : n ≤ 32768) :
    Verif.Func.incResetRun 32768 1 ((List.replicate n true).map (fun l => (lockupPulse l, 0))) 0 = some n := by
  rw [Verif.Func.C48_reset (by omega) (by omega) (by omega)]
  have : ∀ k, Verif.Func.sinceReset ((List.replicate n true).map (fun l => (lockupPulse l, 0))) k = k + n := by
    clear hn
    induction n with
    | zero => intro k; rfl
    | succ n ih =>
      intro k
      rw [List.replicate_succ, List.map_cons]
      have := ih (k + 1)
      unfold Verif.Func.sinceReset at this ⊢
      rw [List.foldl_cons]
      simp only [lockupPulse] at this ⊢
      rw [show k + (n + 1) = k + 1 + n by omega, ← this]
      rfl
  rw [this]
  congr 1
  omega

end Verif.Style.Lockup
