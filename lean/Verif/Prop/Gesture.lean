/-
  Twist and shake gestures: props/prop_base.h:834-936 (`StrokeType`, `Stroke`,
  `GetStrokeGroup`, `DoGesture`), 939-969 (`DetectTwist`), 972-999 (`DetectShake`).

  The tests on the motion sensor are not modelled: a history is the sequence of strokes
  the two detectors see ("left", "right", "no twist"; "thrust", "yank", "no thrust"), with
  their times, interleaved in any way.
-/
namespace Verif.Prop.Gesture

/-! ## Model -/

/-- `StrokeType` (prop_base.h:834-842) -/
inductive Ty
  | twistClose | twistLeft | twistRight | shakeClose | shakeFwd | shakeRew
  deriving DecidableEq, Repr

/-- prop_base.h:843-848 -/
structure Stroke where
  ty : Ty
  start : Nat
  fin : Nat
  deriving DecidableEq, Repr

/-- `strokes[5]` (prop_base.h:850); `e` is the newest. -/
structure St where
  a : Stroke
  b : Stroke
  c : Stroke
  d : Stroke
  e : Stroke
  deriving DecidableEq, Repr

/-- All zero. -/
def St.init : St := ⟨⟨.twistClose, 0, 0⟩, ⟨.twistClose, 0, 0⟩, ⟨.twistClose, 0, 0⟩, ⟨.twistClose, 0, 0⟩, ⟨.twistClose, 0, 0⟩⟩

/-- `GetStrokeGroup` (prop_base.h:881-893) -/
def group : Ty → Ty
  | .twistClose | .twistLeft | .twistRight => .twistClose
  | _ => .shakeClose

/-- `uint32_t` subtraction; times are below 2^32 -/
def sub (x y : Nat) : Nat := (x + 4294967296 - y) % 4294967296

/-- `length()` (prop_base.h:847) -/
def Stroke.length (x : Stroke) : Nat := sub x.fin x.start

/-- `DoGesture`, the part after the two early returns (prop_base.h:917-935) -/
def doGesture2 (s : St) (g : Ty) (now : Nat) : St × Bool :=
  if s.e.fin = 0 ∧ group g = group s.e.ty then ({ s with e := { s.e with fin := now } }, true)
  else if group g = g then (s, false)
  else if s.e.length > 10 then (⟨s.b, s.c, s.d, s.e, ⟨g, now, 0⟩⟩, false)
  else ({ s with e := ⟨g, now, 0⟩ }, false)

/-- `DoGesture` (prop_base.h:905-936) -/
def doGesture (s : St) (g : Ty) (now : Nat) : St × Bool :=
  if g = s.e.ty ∧ s.e.fin = 0 then (s, false)
  else if g = s.e.ty ∧ sub now s.e.fin < 50 then ({ s with e := { s.e with fin := now } }, false)
  else doGesture2 s g now

/-- The test in `DetectTwist` (prop_base.h:950-967) -/
def isTwist (s : St) : Bool :=
  ((s.e.ty == .twistLeft && s.d.ty == .twistRight) || (s.e.ty == .twistRight && s.d.ty == .twistLeft)) &&
  (decide (s.e.length > 90) && decide (s.e.length < 300) && decide (s.d.length > 90) && decide (s.d.length < 300)) &&
  decide (sub s.e.start s.d.fin < 200)

/-- The test in `DetectShake` (prop_base.h:983-994): five strokes, the newest forward,
    alternating, at most 250 ms apart. -/
def isShake (s : St) : Bool :=
  s.e.ty == .shakeFwd && s.d.ty == .shakeRew && decide (sub s.e.start s.d.fin ≤ 250) &&
  s.c.ty == .shakeFwd && decide (sub s.d.start s.c.fin ≤ 250) &&
  s.b.ty == .shakeRew && decide (sub s.c.start s.b.fin ≤ 250) &&
  s.a.ty == .shakeFwd && decide (sub s.b.start s.a.fin ≤ 250)

inductive Event
  | twist
  | shake
  deriving DecidableEq, Repr

/-- One call of `DetectTwist` or `DetectShake` which sees `g`. -/
def step (s : St) (g : Ty) (now : Nat) : St × Option Event :=
  let r := doGesture s g now
  if r.2 then
    if group g = .twistClose then (r.1, if isTwist r.1 then some .twist else none)
    else if isShake r.1 then ({ r.1 with e := { r.1.e with ty := .shakeClose } }, some .shake)
    else (r.1, none)
  else (r.1, none)

/-- What was seen when. -/
abbrev Hist := List (Nat × Ty)

/-- The state after a history (latest first). -/
def run : Hist → St
  | [] => St.init
  | x :: h => (step (run h) x.2 x.1).1

/-! ## Specification -/

/-- Times increase (weakly) and stay between 1 and 2^32 - 300 (49.7 days). -/
def Timed : Hist → Prop
  | [] => True
  | x :: h => (∀ y ∈ h, y.1 ≤ x.1) ∧ 0 < x.1 ∧ x.1 + 300 < 4294967296 ∧ Timed h

/-- In the history, a stroke of type `ty` began at `s` and was over at `e`. -/
structure Seen (h : Hist) (ty : Ty) (s e : Nat) : Prop where
  began : (s, ty) ∈ h
  ended : ∃ g, group g = group ty ∧ (e, g) ∈ h
  order : s ≤ e

/-! ## Lemmas -/

/-- What is known about a recorded stroke. -/
structure Good (h : Hist) (now : Nat) (x : Stroke) : Prop where
  hs : x.start ≤ now
  hf : x.fin ≤ now
  real : x.ty ≠ group x.ty → (x.start, x.ty) ∈ h
  over : x.ty ≠ group x.ty → x.fin ≠ 0 → x.start ≤ x.fin ∧ ∃ g, group g = group x.ty ∧ (x.fin, g) ∈ h

/-- Closed strokes other than the newest last more than 10 ms. -/
def Long (x : Stroke) : Prop := x.ty ≠ group x.ty → x.fin ≠ 0 → x.start + 10 < x.fin

structure Inv (h : Hist) (now : Nat) (s : St) : Prop where
  ga : Good h now s.a
  gb : Good h now s.b
  gc : Good h now s.c
  gd : Good h now s.d
  ge : Good h now s.e
  la : Long s.a
  lb : Long s.b
  lc : Long s.c
  ld : Long s.d
  oab : s.a.fin ≤ s.b.start
  obc : s.b.fin ≤ s.c.start
  ocd : s.c.fin ≤ s.d.start
  ode : s.d.fin ≤ s.e.start
  /-- while the newest stroke lasts nothing else of its group is seen -/
  held : s.e.fin = 0 → s.e.ty ≠ group s.e.ty →
    ∀ x ∈ h, s.e.start < x.1 → group x.2 = group s.e.ty → x.2 = s.e.ty

theorem Good.mono {h h' : Hist} {now now' : Nat} {x : Stroke} (g : Good h now x) (hh : ∀ y ∈ h, y ∈ h')
    (hn : now ≤ now') : Good h' now' x :=
  ⟨Nat.le_trans g.hs hn, Nat.le_trans g.hf hn, fun h1 => hh _ (g.real h1), fun h1 h2 =>
    ⟨(g.over h1 h2).1, by obtain ⟨k, hk⟩ := (g.over h1 h2).2; exact ⟨k, hk.1, hh _ hk.2⟩⟩⟩

theorem sub_eq {x y : Nat} (h : y ≤ x) (hx : x < 4294967296) : sub x y = x - y := by
  unfold sub; omega

theorem doGesture_cases (s : St) (g : Ty) (now : Nat) :
    (doGesture s g now = (s, false) ∧ (g = s.e.ty ∧ s.e.fin = 0 ∨ group g = g)) ∨
    (doGesture s g now = ({ s with e := { s.e with fin := now } }, false) ∧ g = s.e.ty ∧ s.e.fin ≠ 0) ∨
    (doGesture s g now = ({ s with e := { s.e with fin := now } }, true) ∧ s.e.fin = 0 ∧
      group g = group s.e.ty ∧ g ≠ s.e.ty) ∨
    (doGesture s g now = (⟨s.b, s.c, s.d, s.e, ⟨g, now, 0⟩⟩, false) ∧ group g ≠ g ∧ s.e.length > 10) ∨
    (doGesture s g now = ({ s with e := ⟨g, now, 0⟩ }, false) ∧ group g ≠ g) := by
  unfold doGesture
  by_cases h1 : g = s.e.ty ∧ s.e.fin = 0
  · rw [if_pos h1]; exact Or.inl ⟨rfl, Or.inl h1⟩
  · rw [if_neg h1]
    by_cases h2 : g = s.e.ty ∧ sub now s.e.fin < 50
    · rw [if_pos h2]
      refine Or.inr (Or.inl ⟨rfl, h2.1, ?_⟩)
      intro h0
      exact h1 ⟨h2.1, h0⟩
    · rw [if_neg h2]
      unfold doGesture2
      by_cases h3 : s.e.fin = 0 ∧ group g = group s.e.ty
      · rw [if_pos h3]
        exact Or.inr (Or.inr (Or.inl ⟨rfl, h3.1, h3.2, fun h => h1 ⟨h, h3.1⟩⟩))
      · rw [if_neg h3]
        by_cases h4 : group g = g
        · rw [if_pos h4]; exact Or.inl ⟨rfl, Or.inr h4⟩
        · rw [if_neg h4]
          by_cases h5 : s.e.length > 10
          · rw [if_pos h5]; exact Or.inr (Or.inr (Or.inr (Or.inl ⟨rfl, h4, h5⟩)))
          · rw [if_neg h5]; exact Or.inr (Or.inr (Or.inr (Or.inr ⟨rfl, h4⟩)))

theorem doGesture_inv {h : Hist} {now t : Nat} {s : St} {g : Ty} (hi : Inv h now s) (hn : now ≤ t)
    (hh : ∀ y ∈ h, y.1 ≤ t) (h0 : 0 < t) (hw : t + 300 < 4294967296) :
    Inv ((t, g) :: h) t (doGesture s g t).1 := by
  have hm : ∀ y ∈ h, y ∈ (t, g) :: h := fun y hy => List.mem_cons_of_mem _ hy
  have gg : ∀ {x : Stroke}, Good h now x → Good ((t, g) :: h) t x := fun k => k.mono hm hn
  have hes := hi.ge.hs
  have hefin := hi.ge.hf
  rcases doGesture_cases s g t with ⟨hd, hc⟩ | ⟨hd, h1, h2⟩ | ⟨hd, h1, h2, h3⟩ | ⟨hd, h1, h2⟩ | ⟨hd, h1⟩ <;> rw [hd]
  · refine ⟨gg hi.ga, gg hi.gb, gg hi.gc, gg hi.gd, gg hi.ge, hi.la, hi.lb, hi.lc, hi.ld, hi.oab, hi.obc,
      hi.ocd, hi.ode, ?_⟩
    intro f0 f1 x hx hx1 hx2
    rcases List.mem_cons.mp hx with rfl | hx
    · rcases hc with ⟨hc, _⟩ | hc
      · exact hc
      · -- a close of the same group would have ended it
        exfalso
        simp only [] at hx2
        have hne : g ≠ s.e.ty := by
          intro h'; rw [h'] at hc; exact f1 hc.symm
        have : doGesture s g t = ({ s with e := { s.e with fin := t } }, true) := by
          unfold doGesture doGesture2
          rw [if_neg (fun h' => hne h'.1), if_neg (fun h' => hne h'.1), if_pos ⟨f0, hx2⟩]
        rw [this] at hd
        simp at hd
    · exact hi.held f0 f1 x hx hx1 hx2
  · refine ⟨gg hi.ga, gg hi.gb, gg hi.gc, gg hi.gd, ?_, hi.la, hi.lb, hi.lc, hi.ld, hi.oab, hi.obc,
      hi.ocd, hi.ode, ?_⟩
    · refine ⟨by simp only []; omega, Nat.le_refl _, fun k => hm _ (hi.ge.real k), fun k _ => ⟨by simp only []; omega, ?_⟩⟩
      exact ⟨g, by rw [h1], by simp⟩
    · intro f0
      simp only [] at f0
      omega
  · refine ⟨gg hi.ga, gg hi.gb, gg hi.gc, gg hi.gd, ?_, hi.la, hi.lb, hi.lc, hi.ld, hi.oab, hi.obc,
      hi.ocd, hi.ode, ?_⟩
    · refine ⟨by simp only []; omega, Nat.le_refl _, fun k => hm _ (hi.ge.real k), fun k _ => ⟨by simp only []; omega, ?_⟩⟩
      exact ⟨g, h2, by simp⟩
    · intro f0
      simp only [] at f0
      omega
  · refine ⟨gg hi.gb, gg hi.gc, gg hi.gd, gg hi.ge, ?_, hi.lb, hi.lc, hi.ld, ?_, hi.obc, hi.ocd, hi.ode, ?_, ?_⟩
    · exact ⟨Nat.le_refl _, Nat.zero_le _, fun _ => by simp, fun _ k => absurd rfl k⟩
    · intro k1 k2
      have := (hi.ge.over k1 k2).1
      have hl := h2
      unfold Stroke.length at hl
      rw [sub_eq this (by omega)] at hl
      simp only []
      omega
    · simp only []; omega
    · intro _ _ x hx hx1
      rcases List.mem_cons.mp hx with rfl | hx
      · simp only [] at hx1; omega
      · have := hh x hx
        simp only [] at hx1
        omega
  · refine ⟨gg hi.ga, gg hi.gb, gg hi.gc, gg hi.gd, ?_, hi.la, hi.lb, hi.lc, hi.ld, hi.oab, hi.obc, hi.ocd, ?_, ?_⟩
    · exact ⟨Nat.le_refl _, Nat.zero_le _, fun _ => by simp, fun _ k => absurd rfl k⟩
    · have := hi.gd.hf
      simp only []; omega
    · intro _ _ x hx hx1
      rcases List.mem_cons.mp hx with rfl | hx
      · simp only [] at hx1; omega
      · have := hh x hx
        simp only [] at hx1
        omega

theorem step_inv {h : Hist} {now t : Nat} {s : St} {g : Ty} (hi : Inv h now s) (hn : now ≤ t)
    (hh : ∀ y ∈ h, y.1 ≤ t) (h0 : 0 < t) (hw : t + 300 < 4294967296) :
    Inv ((t, g) :: h) t (step s g t).1 := by
  have k := doGesture_inv (g := g) hi hn hh h0 hw
  simp only [step]
  generalize doGesture s g t = r at k
  split
  · split
    · exact k
    · split
      · exact ⟨k.ga, k.gb, k.gc, k.gd, ⟨k.ge.hs, k.ge.hf, fun h => absurd rfl h, fun h => absurd rfl h⟩,
          k.la, k.lb, k.lc, k.ld, k.oab, k.obc, k.ocd, k.ode, fun _ h => absurd rfl h⟩
      · exact k
  · exact k

theorem init_inv : Inv [] 0 St.init := by
  have g0 : Good [] 0 ⟨.twistClose, 0, 0⟩ :=
    ⟨Nat.le_refl _, Nat.le_refl _, fun h => absurd rfl h, fun h => absurd rfl h⟩
  exact ⟨g0, g0, g0, g0, g0, fun h => absurd rfl h, fun h => absurd rfl h, fun h => absurd rfl h,
    fun h => absurd rfl h, Nat.le_refl _, Nat.le_refl _, Nat.le_refl _, Nat.le_refl _, fun _ h => absurd rfl h⟩

/-- The time of the latest sample. -/
def nowOf : Hist → Nat
  | [] => 0
  | x :: _ => x.1

theorem run_inv : ∀ (h : Hist), Timed h → Inv h (nowOf h) (run h)
  | [], _ => init_inv
  | x :: h, ⟨h1, h2, h3, h4⟩ => by
      have k := run_inv h h4
      have hn : nowOf h ≤ x.1 := by
        cases h with
        | nil => simp [nowOf]
        | cons y l => exact h1 y (by simp)
      exact step_inv k hn h1 h2 h3

theorem step_event {s : St} {g : Ty} {t : Nat} {ev : Event} (h : (step s g t).2 = some ev) :
    (doGesture s g t) = ({ s with e := { s.e with fin := t } }, true) ∧ s.e.fin = 0 ∧
      group g = group s.e.ty ∧ g ≠ s.e.ty ∧
      (ev = .twist → isTwist { s with e := { s.e with fin := t } } = true ∧ group g = .twistClose) ∧
      (ev = .shake → isShake { s with e := { s.e with fin := t } } = true ∧ group g ≠ .twistClose) := by
  rcases doGesture_cases s g t with ⟨hd, _⟩ | ⟨hd, _⟩ | ⟨hd, h1, h2, h3⟩ | ⟨hd, _⟩ | ⟨hd, _⟩ <;>
    simp only [step, hd] at h
  · simp at h
  · simp at h
  · refine ⟨hd, h1, h2, h3, ?_, ?_⟩
    · intro he; subst he
      simp only [if_true] at h
      split at h
      · rename_i hg
        refine ⟨?_, hg⟩
        split at h
        · assumption
        · simp at h
      · split at h <;> simp at h
    · intro he; subst he
      simp only [if_true] at h
      split at h
      · split at h <;> simp at h
      · rename_i hg
        refine ⟨?_, hg⟩
        split at h
        · assumption
        · simp at h
  · simp at h
  · simp at h

/-! ## C83 -/

/-- C83 (twist): whenever a twist is signalled, whatever else the sensors saw before, the
    prop really was twisted one way for 91 to 299 ms, then less than 200 ms later the
    other way, again for 91 to 299 ms and uninterrupted, until this moment. -/
theorem C83_twist (h : Hist) (t : Nat) (g : Ty) (ht : Timed ((t, g) :: h))
    (hev : (step (run h) g t).2 = some .twist) :
    ∃ x y s1 e1 s2, ((x = .twistLeft ∧ y = .twistRight) ∨ (x = .twistRight ∧ y = .twistLeft)) ∧
      Seen h x s1 e1 ∧ (s2, y) ∈ h ∧ s1 + 90 < e1 ∧ e1 < s1 + 300 ∧ e1 ≤ s2 ∧ s2 < e1 + 200 ∧
      s2 + 90 < t ∧ t < s2 + 300 ∧
      (∀ z ∈ h, s2 < z.1 → group z.2 = .twistClose → z.2 = y) ∧ group g = .twistClose ∧ g ≠ y := by
  obtain ⟨h1, h2, h3, h4⟩ := ht
  simp only [] at h1 h2 h3
  have k := run_inv h h4
  have hn : nowOf h ≤ t := by
    cases h with
    | nil => simp [nowOf]
    | cons y l => exact h1 y (by simp)
  obtain ⟨_, e0, hg, hne, htw, _⟩ := step_event hev
  obtain ⟨htw, hgt⟩ := htw rfl
  generalize run h = s at *
  simp only [isTwist, Bool.and_eq_true, Bool.or_eq_true, decide_eq_true_eq, beq_iff_eq] at htw
  obtain ⟨⟨hty, ⟨⟨⟨l1, l2⟩, l3⟩, l4⟩⟩, l5⟩ := htw
  unfold Stroke.length at l1 l2 l3 l4
  simp only [] at l1 l2 l5
  have hes := k.ge.hs
  have hds := k.gd.hs
  have hdf := k.gd.hf
  rw [sub_eq (by omega) (by omega)] at l1 l2
  have ho := k.ode
  rw [sub_eq ho (by omega)] at l5
  have hdne : s.d.ty ≠ group s.d.ty := by
    rcases hty with ⟨_, q⟩ | ⟨_, q⟩ <;> rw [q] <;> decide
  have hene : s.e.ty ≠ group s.e.ty := by
    rcases hty with ⟨q, _⟩ | ⟨q, _⟩ <;> rw [q] <;> decide
  have hd0 : s.d.fin ≠ 0 := by
    intro h0
    rw [h0] at l3 l4
    unfold sub at l3 l4
    omega
  obtain ⟨q1, q2⟩ := k.gd.over hdne hd0
  rw [sub_eq q1 (by omega)] at l3 l4
  have hr1 := k.gd.real hdne
  have hr2 := k.ge.real hene
  refine ⟨s.d.ty, s.e.ty, s.d.start, s.d.fin, s.e.start, ?_, ⟨hr1, q2, q1⟩, hr2, by omega, by omega, ho,
    by omega, by omega, by omega, ?_, hgt, hne⟩
  · rcases hty with ⟨p, q⟩ | ⟨p, q⟩
    · exact Or.inr ⟨q, p⟩
    · exact Or.inl ⟨q, p⟩
  · intro z hz hz1 hz2
    exact k.held e0 hene z hz hz1 (by rw [hz2, ← hg, hgt])

/-- C83 (shake): whenever a shake is signalled, there really were five strokes, forward
    and back alternately, at most 250 ms apart, the last one ending at this moment and the
    earlier ones lasting more than 10 ms each.  (Nothing is seen in the first quarter of a
    second after the start.) -/
theorem C83_shake (h : Hist) (t : Nat) (g : Ty) (ht : Timed ((t, g) :: h)) (hb : ∀ x ∈ h, 250 < x.1)
    (hev : (step (run h) g t).2 = some .shake) :
    ∃ s1 e1 s2 e2 s3 e3 s4 e4 s5 : Nat,
      Seen h .shakeFwd s1 e1 ∧ Seen h .shakeRew s2 e2 ∧ Seen h .shakeFwd s3 e3 ∧ Seen h .shakeRew s4 e4 ∧
      (s5, .shakeFwd) ∈ h ∧
      s1 + 10 < e1 ∧ e1 ≤ s2 ∧ s2 ≤ e1 + 250 ∧ s2 + 10 < e2 ∧ e2 ≤ s3 ∧ s3 ≤ e2 + 250 ∧
      s3 + 10 < e3 ∧ e3 ≤ s4 ∧ s4 ≤ e3 + 250 ∧ s4 + 10 < e4 ∧ e4 ≤ s5 ∧ s5 ≤ e4 + 250 ∧ s5 ≤ t ∧
      (∀ z ∈ h, s5 < z.1 → group z.2 = .shakeClose → z.2 = .shakeFwd) ∧ group g = .shakeClose ∧
      g ≠ .shakeFwd := by
  obtain ⟨h1, h2, h3, h4⟩ := ht
  simp only [] at h1 h2 h3
  have k := run_inv h h4
  have hn : nowOf h ≤ t := by
    cases h with
    | nil => simp [nowOf]
    | cons y l => exact h1 y (by simp)
  obtain ⟨_, e0, hg, hne, _, htw⟩ := step_event hev
  obtain ⟨htw, hgt⟩ := htw rfl
  generalize run h = s at *
  simp only [isShake, Bool.and_eq_true, decide_eq_true_eq, beq_iff_eq] at htw
  obtain ⟨⟨⟨⟨⟨⟨⟨⟨te, td⟩, sd⟩, tc⟩, sc⟩, tb⟩, sb⟩, ta⟩, sa⟩ := htw
  have fwd : ∀ x : Stroke, x.ty = .shakeFwd → x.ty ≠ group x.ty := by
    intro x hx; rw [hx]; decide
  have rew : ∀ x : Stroke, x.ty = .shakeRew → x.ty ≠ group x.ty := by
    intro x hx; rw [hx]; decide
  have hes := k.ge.hs
  have key : ∀ (x y : Stroke), Good h (nowOf h) x → Good h (nowOf h) y → Long x → x.ty ≠ group x.ty →
      y.ty ≠ group y.ty → x.fin ≤ y.start → sub y.start x.fin ≤ 250 →
      Seen h x.ty x.start x.fin ∧ x.start + 10 < x.fin ∧ y.start ≤ x.fin + 250 := by
    intro x y gx gy lx nx ny ho hsep
    have hys := gy.hs
    rw [sub_eq ho (by omega)] at hsep
    have hy := hb _ (gy.real ny)
    simp only [] at hy
    have hx0 : x.fin ≠ 0 := by omega
    obtain ⟨q1, q2⟩ := gx.over nx hx0
    exact ⟨⟨gx.real nx, q2, q1⟩, lx nx hx0, by omega⟩
  obtain ⟨a1, a2, a3⟩ := key s.a s.b k.ga k.gb k.la (fwd _ ta) (rew _ tb) k.oab sa
  obtain ⟨b1, b2, b3⟩ := key s.b s.c k.gb k.gc k.lb (rew _ tb) (fwd _ tc) k.obc sb
  obtain ⟨c1, c2, c3⟩ := key s.c s.d k.gc k.gd k.lc (fwd _ tc) (rew _ td) k.ocd sc
  obtain ⟨d1, d2, d3⟩ := key s.d s.e k.gd k.ge k.ld (rew _ td) (fwd _ te) k.ode sd
  rw [ta] at a1
  rw [tb] at b1
  rw [tc] at c1
  rw [td] at d1
  have he := k.ge.real (fwd _ te)
  rw [te] at he
  have hgs : group g = .shakeClose := by rw [hg, te]; rfl
  refine ⟨_, _, _, _, _, _, _, _, s.e.start, a1, b1, c1, d1, he, a2, k.oab, a3, b2, k.obc, b3, c2, k.ocd, c3,
    d2, k.ode, d3, by omega, ?_, hgs, by rw [← te]; exact hne⟩
  intro z hz hz1 hz2
  have := k.held e0 (fwd _ te) z hz hz1 (by rw [hz2, ← hg, hgs])
  rw [this, te]

/-! ### A clean twist is recognised -/

/-- Samples of one type, one after the other, at the times `l` (latest first). -/
def same (g : Ty) (l : List Nat) : Hist := l.map (·, g)

theorem run_same (g : Ty) : ∀ (l : List Nat) (h : Hist), (run h).e.ty = g → (run h).e.fin = 0 →
    run (same g l ++ h) = run h
  | [], _, _, _ => rfl
  | t :: l, h, h1, h2 => by
      have ih := run_same g l h h1 h2
      show (step (run (same g l ++ h)) g t).1 = _
      rw [ih]
      have hd : doGesture (run h) g t = (run h, false) := by
        unfold doGesture
        rw [if_pos ⟨h1.symm, h2⟩]
      simp only [step, hd]
      rfl

/-- Nothing happens while no twist is seen after a finished stroke. -/
theorem run_rest : ∀ (l : List Nat) (h : Hist), (run h).e.fin ≠ 0 → (run h).e.ty ≠ .twistClose →
    run (same .twistClose l ++ h) = run h
  | [], _, _, _ => rfl
  | t :: l, h, h1, h2 => by
      have ih := run_rest l h h1 h2
      show (step (run (same .twistClose l ++ h)) .twistClose t).1 = _
      rw [ih]
      have hd : doGesture (run h) .twistClose t = (run h, false) := by
        unfold doGesture
        rw [if_neg (fun k => h2 k.1.symm), if_neg (fun k => h2 k.1.symm)]
        unfold doGesture2
        rw [if_neg (fun k => h1 k.1), if_pos (by rfl)]
      simp only [step, hd]
      rfl

/-- C83 (a proper twist is recognised): when the last stroke is over, and is not of the
    same kind as the one to come, then twisting one way from `s1` to `e1` and the other
    way from `s2` to `t`, each for 91 to 299 ms and less than 200 ms apart, is signalled
    as a twist at `t`. -/
theorem C83_clean (h : Hist) (x y : Ty) (s1 e1 s2 t : Nat) (l1 l2 l3 : List Nat)
    (hxy : (x = .twistLeft ∧ y = .twistRight) ∨ (x = .twistRight ∧ y = .twistLeft))
    (h1 : s1 + 90 < e1) (h2 : e1 < s1 + 300) (h3 : e1 ≤ s2) (h4 : s2 < e1 + 200)
    (h5 : s2 + 90 < t) (h6 : t < s2 + 300) (h7 : t < 4294967296)
    (hl : (run h).e.fin ≠ 0) (hx : (run h).e.ty ≠ x) :
    (step (run (same y l3 ++ ((s2, y) :: (same .twistClose l2 ++ ((e1, .twistClose) ::
      (same x l1 ++ ((s1, x) :: h))))))) .twistClose t).2 = some .twist := by
  have hgx : group x ≠ x := by rcases hxy with ⟨a, b⟩ | ⟨a, b⟩ <;> rw [a] <;> decide
  have hgy : group y ≠ y := by rcases hxy with ⟨a, b⟩ | ⟨a, b⟩ <;> rw [b] <;> decide
  have hxg : group x = .twistClose := by rcases hxy with ⟨a, b⟩ | ⟨a, b⟩ <;> rw [a] <;> rfl
  have hyg : group y = .twistClose := by rcases hxy with ⟨a, b⟩ | ⟨a, b⟩ <;> rw [b] <;> rfl
  have hne : x ≠ y := by rcases hxy with ⟨a, b⟩ | ⟨a, b⟩ <;> rw [a, b] <;> decide
  -- the first stroke begins
  have b1 : (run ((s1, x) :: h)).e = ⟨x, s1, 0⟩ := by
    have hd : (doGesture (run h) x s1).1.e = ⟨x, s1, 0⟩ ∧ (doGesture (run h) x s1).2 = false := by
      unfold doGesture
      rw [if_neg (fun k => hx k.1.symm), if_neg (fun k => hx k.1.symm)]
      unfold doGesture2
      rw [if_neg (fun k => hl k.1), if_neg hgx]
      split <;> exact ⟨rfl, rfl⟩
    simp only [run, step, hd.2]
    exact hd.1
  have b2 : run (same x l1 ++ ((s1, x) :: h)) = run ((s1, x) :: h) :=
    run_same x l1 _ (by rw [b1]) (by rw [b1])
  -- it ends
  have b3 : (run ((e1, .twistClose) :: (same x l1 ++ ((s1, x) :: h)))).e = ⟨x, s1, e1⟩ := by
    rw [run]
    simp only [step, b2]
    have hxc : (Ty.twistClose : Ty) ≠ (run ((s1, x) :: h)).e.ty := by
      rw [b1]; intro k; have k : Ty.twistClose = x := k; rw [← k] at hgx; exact hgx rfl
    have hd : doGesture (run ((s1, x) :: h)) .twistClose e1 =
        ({ run ((s1, x) :: h) with e := { (run ((s1, x) :: h)).e with fin := e1 } }, true) := by
      unfold doGesture
      rw [if_neg (fun k => hxc k.1), if_neg (fun k => hxc k.1)]
      unfold doGesture2
      rw [if_pos ⟨by rw [b1], by rw [b1, hxg]; rfl⟩]
    rw [hd]
    simp only [if_true, group, b1]
  have hnc : x ≠ .twistClose := by intro k; rw [k] at hgx; exact hgx rfl
  have b4 := run_rest l2 ((e1, .twistClose) :: (same x l1 ++ ((s1, x) :: h)))
    (by rw [b3]; simp only []; omega) (by rw [b3]; exact hnc)
  generalize hs3 : run ((e1, .twistClose) :: (same x l1 ++ ((s1, x) :: h))) = s3 at *
  -- the second one begins
  have hlen : s3.e.length > 10 := by
    rw [b3]
    unfold Stroke.length
    rw [sub_eq (by simp only []; omega) (by simp only []; omega)]
    simp only []; omega
  have b5 : run ((s2, y) :: (same .twistClose l2 ++ ((e1, .twistClose) :: (same x l1 ++ ((s1, x) :: h))))) =
      ⟨s3.b, s3.c, s3.d, ⟨x, s1, e1⟩, ⟨y, s2, 0⟩⟩ := by
    rw [run]
    simp only [step, b4]
    have hy3 : y ≠ s3.e.ty := by rw [b3]; exact fun k => hne k.symm
    have hd : doGesture s3 y s2 = (⟨s3.b, s3.c, s3.d, s3.e, ⟨y, s2, 0⟩⟩, false) := by
      unfold doGesture
      rw [if_neg (fun k => hy3 k.1), if_neg (fun k => hy3 k.1)]
      unfold doGesture2
      rw [if_neg (by rw [b3]; simp only []; omega), if_neg hgy, if_pos hlen]
    rw [hd, b3]
    rfl
  have b6 := run_same y l3 ((s2, y) :: (same .twistClose l2 ++ ((e1, .twistClose) ::
    (same x l1 ++ ((s1, x) :: h))))) (by rw [b5]) (by rw [b5])
  -- it ends
  have hyc : (Ty.twistClose : Ty) ≠ y := by intro k; rw [← k] at hgy; exact hgy rfl
  rw [b6, b5]
  have hd : doGesture ⟨s3.b, s3.c, s3.d, ⟨x, s1, e1⟩, ⟨y, s2, 0⟩⟩ .twistClose t =
      (⟨s3.b, s3.c, s3.d, ⟨x, s1, e1⟩, ⟨y, s2, t⟩⟩, true) := by
    unfold doGesture
    rw [if_neg (fun k => hyc k.1), if_neg (fun k => hyc k.1)]
    unfold doGesture2
    rw [if_pos ⟨rfl, hyg.symm⟩]
  simp only [step, hd, if_true, group]
  have ht : isTwist ⟨s3.b, s3.c, s3.d, ⟨x, s1, e1⟩, ⟨y, s2, t⟩⟩ = true := by
    simp only [isTwist, Bool.and_eq_true, Bool.or_eq_true, decide_eq_true_eq, beq_iff_eq]
    simp only [Stroke.length]
    rw [sub_eq (x := t) (y := s2) (by omega) (by omega), sub_eq (x := e1) (y := s1) (by omega) (by omega),
      sub_eq (x := s2) (y := e1) (by omega) (by omega)]
    refine ⟨⟨?_, ⟨⟨⟨by omega, by omega⟩, by omega⟩, by omega⟩⟩, by omega⟩
    rcases hxy with ⟨a, b⟩ | ⟨a, b⟩
    · exact Or.inr ⟨b, a⟩
    · exact Or.inl ⟨b, a⟩
  rw [if_pos ht]

/-- A twist and a shake, and what is needed for the theorems. -/
example : Timed ((2430, .twistClose) :: same .twistRight [2400, 2350] ++ [(2300, .twistRight), (2260, .twistClose),
    (2130, .twistLeft), (2125, .twistLeft)]) := by simp [Timed, same]
example : (step (run (same .twistRight [2400, 2350] ++ [(2300, .twistRight), (2260, .twistClose),
    (2130, .twistLeft), (2125, .twistLeft)])) .twistClose 2430).2 = some .twist := by decide +kernel
example : (step (run [(2430, .shakeFwd), (2400, .shakeClose), (2350, .shakeRew), (2300, .shakeClose), (2260, .shakeFwd),
    (2200, .twistClose), (2100, .shakeClose), (2050, .shakeRew), (2000, .shakeClose), (1900, .shakeFwd)])
    .shakeRew 2440).2 = some .shake := by decide +kernel

/-- C83 (rest): a prop which is not moved signals nothing. -/
theorem C83_rest (h : Hist) (hh : ∀ x ∈ h, group x.2 = x.2) (g : Ty) (hg : group g = g) (t : Nat) :
    (step (run h) g t).2 = none := by
  have key : ∀ s : St, s.e.ty = .twistClose → ∀ g t, group g = g →
      (step s g t).2 = none ∧ (step s g t).1.e.ty = .twistClose := by
    intro s hs g t hg
    have hsh : isTwist { s with e := { s.e with fin := t } } = false := by
      simp [isTwist, hs]
    rcases doGesture_cases s g t with ⟨hd, _⟩ | ⟨hd, _⟩ | ⟨hd, h1, h2, h3⟩ | ⟨hd, h1, _⟩ | ⟨hd, h1⟩
    · simp only [step, hd]; exact ⟨rfl, hs⟩
    · simp only [step, hd]; exact ⟨rfl, hs⟩
    · exfalso
      rw [hs] at h2 h3
      exact h3 (hg.symm.trans h2)
    · exact absurd hg h1
    · exact absurd hg h1
  have hr : (run h).e.ty = .twistClose := by
    induction h with
    | nil => rfl
    | cons x h ih =>
      rw [run]
      exact (key _ (ih (fun y hy => hh y (by simp [hy]))) x.2 x.1 (hh x (by simp))).2
  exact (key _ hr g t hg).1

/-- Shakes can be recognised from the wrong motion right after the start: an unfinished
    stroke counts as having ended at time 0. -/
theorem C83_start_counterexample :
    (step (run [(240, .shakeFwd), (230, .twistClose), (225, .twistRight), (210, .shakeRew), (200, .shakeClose),
      (180, .shakeFwd), (170, .shakeClose), (150, .shakeRew), (140, .shakeClose), (120, .shakeFwd)])
      .shakeClose 245).2 = some .shake := by decide +kernel

end Verif.Prop.Gesture
