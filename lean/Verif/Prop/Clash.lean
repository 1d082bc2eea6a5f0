/-
  When is a contact a clash: props/prop_base.h:201-252 (`IgnoreClash`, `Clash2`,
  `Clash`), 817-823 (`DoAccel`, the interrupt side), 1103-1112 (`Loop`), 1735-1757
  (`Event`) and common/saber_base.h:495-509 (`SetClashStrength`, `UpdateClashStrength`).

  Times are real milliseconds (unbounded); the code sees them modulo 2^32.  Strengths
  are natural numbers (floats in the code; only compared).
-/
namespace Verif.Prop.Clash

/-! ## Model -/

/-- 2^32 -/
def W : Nat := 4294967296

/-- `last_clash_`, `clash_timeout_`, `clash_pending_`, `pending_clash_is_stab_`,
    `pending_clash_strength_` (prop_base.h:121-126) and `SaberBase::clash_strength_`. -/
structure St where
  last : Nat
  timeout : Nat
  pend : Bool
  pstab : Bool
  pstr : Nat
  strength : Nat
  deriving DecidableEq, Repr

/-- prop_base.h:121-126 -/
def St.init : St := ⟨0, 100, false, false, 0, 0⟩

/-- `now - then` for `uint32_t` -/
def since (now last : Nat) : Nat := (now % W + W - last) % W

/-- `IgnoreClash` (prop_base.h:201-210) at time `now`. -/
def ignore (s : St) (now ms : Nat) : St :=
  if s.pend then s
  else
    let ms' := if since now s.last < s.timeout then max ms (s.timeout - since now s.last) else ms
    { s with last := now % W, timeout := ms' }

/-- What `Event` (called from `Clash2`) does, seen from here: the calls of `IgnoreClash`
    it makes (turning on does, for instance) with their times, whether the event was
    handled, and when it returns. -/
structure Handler where
  calls : List (Nat × Nat)
  handled : Bool
  done : Nat

/-- A clash announced: when, kind, strength, and how it was handled. -/
structure Fired where
  time : Nat
  stab : Bool
  str : Nat
  handled : Bool
  deriving DecidableEq, Repr

/-- `Clash2` (prop_base.h:212-227).  The effects it starts when the event is not
    handled are those of the announcement. -/
def clash2 (s : St) (now : Nat) (stab : Bool) (str : Nat) (h : Handler) : St × List Fired :=
  let s1 := { s with strength := str }
  let s2 := h.calls.foldl (fun s c => ignore s c.1 c.2) s1
  (ignore s2 h.done (if h.handled then 400 else 100), [⟨now, stab, str, h.handled⟩])

/-- `Clash` (prop_base.h:229-252); `btn` = `current_modifiers & ~MODE_ON`. -/
def clash (s : St) (now : Nat) (stab : Bool) (str : Nat) (btn : Bool) (h : Handler) :
    St × List Fired :=
  if since now s.last < s.timeout then
    (if s.pend then { s with pstr := max s.pstr str, last := now % W }
     else { s with strength := max s.strength str, last := now % W }, [])
  else if btn then
    ({ s with last := now % W, timeout := 3, pend := true, pstab := stab, pstr := str }, [])
  else clash2 s now stab str h

/-- The second part of `Loop` (prop_base.h:1109-1112). -/
def poll (s : St) (now : Nat) (h : Handler) : St × List Fired :=
  if s.pend ∧ s.timeout ≤ since now s.last then
    clash2 { s with pend := false } now s.pstab s.pstr h
  else (s, [])

inductive Op
  | report (now : Nat) (stab : Bool) (str : Nat) (btn : Bool) (h : Handler)
  | poll (now : Nat) (h : Handler)
  | press (now : Nat)
  | release (now : Nat)
  | ignore (now ms : Nat)

/-- Press and release: the start of `Event` (prop_base.h:1738-1745). -/
def step (s : St) : Op → St × List Fired
  | .report now stab str btn h => clash s now stab str btn h
  | .poll now h => poll s now h
  | .press now => (ignore s now 50, [])
  | .release now => (ignore { s with pend := false } now 50, [])
  | .ignore now ms => (ignore s now ms, [])

/-- A history: the clashes announced, in order. -/
def run (s : St) : List Op → St × List Fired
  | [] => (s, [])
  | o :: l =>
    let r := step s o
    let q := run r.1 l
    (q.1, r.2 ++ q.2)

/-! ## Specification -/

/-- When an operation begins and ends. -/
def Op.start : Op → Nat
  | .report now _ _ _ _ => now
  | .poll now _ => now
  | .press now => now
  | .release now => now
  | .ignore now _ => now

/-- The handler's calls take place between the start and the end of it. -/
def Handler.Ordered (h : Handler) (t : Nat) : Prop :=
  (∀ c ∈ h.calls, t ≤ c.1 ∧ c.1 ≤ h.done) ∧ t ≤ h.done ∧
    h.calls.Pairwise (fun a b => a.1 ≤ b.1)

def Op.done : Op → Nat
  | .report now _ _ _ h => max now h.done
  | .poll now h => max now h.done
  | .press now => now
  | .release now => now
  | .ignore now _ => now

def Op.Ok : Op → Prop
  | .report now _ _ _ h => h.Ordered now
  | .poll now h => h.Ordered now
  | _ => True

/-- Operations happen one after the other. -/
def Timed : Nat → List Op → Prop
  | _, [] => True
  | t, o :: l => t ≤ o.start ∧ o.Ok ∧ Timed o.done l

/-! ## Lemmas: the real end of the quiet period -/

/-- The state describes a quiet period from real time `lt` on for `s.timeout`; `lt` is
    not in the future. -/
structure Tie (s : St) (lt now : Nat) : Prop where
  hl : s.last = lt % W
  hn : lt ≤ now

theorem since_le {s : St} {lt now t : Nat} (h : Tie s lt now) (ht : now ≤ t) :
    since t s.last ≤ t - lt := by
  have hn := h.hn
  rw [since, h.hl, W]
  omega

theorem since_eq {s : St} {lt now t : Nat} (h : Tie s lt now) (ht : now ≤ t) (hw : t - lt < W) :
    since t s.last = t - lt := by
  have hn := h.hn
  rw [since, h.hl]
  unfold W at *
  omega

/-- The quiet period never becomes shorter. -/
theorem ignore_tie {s : St} {lt now t ms : Nat} (h : Tie s lt now) (ht : now ≤ t) :
    ∃ lt', Tie (ignore s t ms) lt' t ∧ lt + s.timeout ≤ lt' + (ignore s t ms).timeout ∧
      (s.pend = false → t + ms ≤ lt' + (ignore s t ms).timeout) ∧
      (ignore s t ms).pend = s.pend ∧ lt ≤ lt' := by
  have hn := h.hn
  unfold ignore
  by_cases hp : s.pend = true
  · rw [if_pos hp]
    refine ⟨lt, ⟨h.hl, by omega⟩, by omega, fun h' => ?_, rfl, by omega⟩
    rw [h'] at hp; cases hp
  · rw [if_neg hp]
    refine ⟨t, ⟨rfl, by omega⟩, ?_, fun _ => ?_, rfl, by omega⟩
    · have hle := since_le h ht
      simp only []
      split <;> omega
    · simp only []
      split <;> omega

theorem ignores_tie : ∀ (l : List (Nat × Nat)) {s : St} {lt now e : Nat}, Tie s lt now →
    (∀ c ∈ l, now ≤ c.1 ∧ c.1 ≤ e) → now ≤ e → l.Pairwise (fun a b => a.1 ≤ b.1) →
    ∃ lt', Tie (l.foldl (fun s c => ignore s c.1 c.2) s) lt' e ∧
      lt + s.timeout ≤ lt' + (l.foldl (fun s c => ignore s c.1 c.2) s).timeout ∧
      (l.foldl (fun s c => ignore s c.1 c.2) s).pend = s.pend ∧ lt ≤ lt'
  | [], s, lt, now, e, h, _, hne, _ => ⟨lt, ⟨h.hl, Nat.le_trans h.hn hne⟩, Nat.le_refl _, rfl, Nat.le_refl _⟩
  | c :: l, s, lt, now, e, h, hb, hne, hp => by
      have hc := hb c (by simp)
      obtain ⟨lt1, t1, m1, _, p1, g1⟩ := ignore_tie (ms := c.2) h hc.1
      rw [List.pairwise_cons] at hp
      obtain ⟨lt2, t2, m2, p2, g2⟩ := ignores_tie l (e := e) t1
        (fun d hd => ⟨hp.1 d hd, (hb d (by simp [hd])).2⟩) hc.2 hp.2
      simp only [List.foldl_cons]
      exact ⟨lt2, t2, by omega, by rw [p2, p1], by omega⟩

theorem clash2_tie {s : St} {lt now t : Nat} {stab : Bool} {str : Nat} {h : Handler}
    (ht : Tie s lt now) (hnt : now ≤ t) (ho : h.Ordered t) :
    ∃ lt', Tie (clash2 s t stab str h).1 lt' (max t h.done) ∧
      lt + s.timeout ≤ lt' + (clash2 s t stab str h).1.timeout ∧
      (s.pend = false → h.done + (if h.handled then 400 else 100) ≤
        lt' + (clash2 s t stab str h).1.timeout) ∧
      (clash2 s t stab str h).1.pend = s.pend ∧ lt ≤ lt' := by
  obtain ⟨h1, h2, h3⟩ := ho
  have h0 : Tie { s with strength := str } lt t := ⟨ht.hl, Nat.le_trans ht.hn hnt⟩
  obtain ⟨lt1, t1, m1, p1, g1⟩ := ignores_tie h.calls (e := h.done) h0 h1 h2 h3
  obtain ⟨lt2, t2, m2, q2, p2, g2⟩ := ignore_tie (ms := if h.handled then 400 else 100) t1
    (Nat.le_refl _)
  refine ⟨lt2, ⟨t2.hl, by have := t2.hn; omega⟩, ?_, ?_, ?_, by omega⟩
  · simp only [clash2]
    have : ({ s with strength := str } : St).timeout = s.timeout := rfl
    omega
  · intro hp
    simp only [clash2]
    exact q2 (p1.trans hp)
  · simp only [clash2]
    exact p2.trans p1

/-- One operation: the quiet period never becomes shorter, and a clash is announced
    only after it. -/
theorem step_tie {s : St} {lt now : Nat} {o : Op} (ht : Tie s lt now) (hn : now ≤ o.start)
    (hok : o.Ok) :
    ∃ lt', Tie (step s o).1 lt' o.done ∧ lt + s.timeout ≤ lt' + (step s o).1.timeout ∧ lt ≤ lt' ∧
      ∀ f ∈ (step s o).2, f.time = o.start ∧ lt + s.timeout ≤ f.time := by
  have hlt := ht.hn
  cases o with
  | report t stab str btn h =>
    simp only [Op.start] at hn
    simp only [step, clash, Op.done]
    by_cases h1 : since t s.last < s.timeout
    · rw [if_pos h1]
      by_cases hp : s.pend = true
      · rw [if_pos hp]
        exact ⟨t, ⟨rfl, by omega⟩, by simp only []; omega, by omega, by simp⟩
      · rw [if_neg hp]
        exact ⟨t, ⟨rfl, by omega⟩, by simp only []; omega, by omega, by simp⟩
    · rw [if_neg h1]
      have hq : lt + s.timeout ≤ t := by
        have := since_le ht hn
        omega
      cases btn with
      | true =>
        rw [if_pos rfl]
        exact ⟨t, ⟨rfl, by omega⟩, by simp only []; omega, by omega, by simp⟩
      | false =>
        rw [if_neg (by simp)]
        obtain ⟨lt', a, b, _, _, d⟩ := clash2_tie (stab := stab) (str := str) ht hn hok
        refine ⟨lt', a, b, d, ?_⟩
        intro f hf
        simp only [clash2, List.mem_singleton] at hf
        subst hf
        exact ⟨rfl, hq⟩
  | poll t h =>
    simp only [Op.start] at hn
    simp only [step, poll, Op.done]
    by_cases h1 : s.pend = true ∧ s.timeout ≤ since t s.last
    · rw [if_pos h1]
      have hq : lt + s.timeout ≤ t := by
        have := since_le ht hn
        have := h1.2
        omega
      obtain ⟨lt', a, b, _, _, d⟩ := clash2_tie (s := { s with pend := false }) (stab := s.pstab)
        (str := s.pstr) ⟨ht.hl, ht.hn⟩ hn hok
      refine ⟨lt', a, b, d, ?_⟩
      intro f hf
      simp only [clash2, List.mem_singleton] at hf
      subst hf
      exact ⟨rfl, hq⟩
    · rw [if_neg h1]
      exact ⟨lt, ⟨ht.hl, by omega⟩, by simp only []; omega, by omega, by simp⟩
  | press t =>
    simp only [Op.start] at hn
    obtain ⟨lt', a, b, _, _, d⟩ := ignore_tie (ms := 50) ht hn
    exact ⟨lt', a, b, d, by simp [step]⟩
  | release t =>
    simp only [Op.start] at hn
    obtain ⟨lt', a, b, _, _, d⟩ := ignore_tie (s := { s with pend := false }) (ms := 50)
      ⟨ht.hl, ht.hn⟩ hn
    exact ⟨lt', a, b, d, by simp [step]⟩
  | ignore t ms =>
    simp only [Op.start] at hn
    obtain ⟨lt', a, b, _, _, d⟩ := ignore_tie (ms := ms) ht hn
    exact ⟨lt', a, b, d, by simp [step]⟩

theorem run_tie : ∀ (l : List Op) {s : St} {lt now : Nat}, Tie s lt now → Timed now l →
    ∀ f ∈ (run s l).2, lt + s.timeout ≤ f.time
  | [], _, _, _, _, _, f, hf => by simp [run] at hf
  | o :: l, s, lt, now, ht, ⟨h1, h2, h3⟩, f, hf => by
      obtain ⟨lt', a, b, d, e⟩ := step_tie ht h1 h2
      simp only [run, List.mem_append] at hf
      rcases hf with hf | hf
      · exact (e f hf).2
      · have := run_tie l a h3 f hf
        omega

theorem reach : ∀ (l : List Op) {s : St} {lt now : Nat}, Tie s lt now → Timed now l →
    ∃ lt' now', Tie (run s l).1 lt' now' ∧ now ≤ now' ∧ (∀ l2, Timed now (l ++ l2) → Timed now' l2)
  | [], s, lt, now, ht, _ => ⟨lt, now, ht, Nat.le_refl _, fun _ h => h⟩
  | o :: l, s, lt, now, ht, ⟨h1, h2, h3⟩ => by
      obtain ⟨lt1, a, b, d, e⟩ := step_tie ht h1 h2
      obtain ⟨lt', now', x, y, z⟩ := reach l a h3
      have hsd : o.start ≤ o.done := by cases o <;> simp only [Op.start, Op.done] <;> omega
      refine ⟨lt', now', x, by omega, ?_⟩
      intro l2 hl2
      exact z l2 hl2.2.2

theorem Timed.left : ∀ (l : List Op) {l2 : List Op} {now : Nat}, Timed now (l ++ l2) → Timed now l
  | [], _, _, _ => trivial
  | _ :: l, _, _, ⟨a, b, c⟩ => ⟨a, b, Timed.left l c⟩

theorem init_tie : Tie St.init 0 0 := ⟨rfl, Nat.le_refl _⟩

/-! ## C80 -/

/-- C80 (quiet after a request): in every history, once contacts have been asked to be
    ignored for `ms` milliseconds at `t` while no clash is waiting for a button, no clash
    is announced before `t + ms`, whatever happens in between and however long ago the
    prop was started. -/
theorem C80_ignore (l1 l2 : List Op) (t ms : Nat) (h : Timed 0 (l1 ++ .ignore t ms :: l2))
    (hp : (run St.init l1).1.pend = false) :
    ∀ f ∈ (run (run St.init l1).1 (.ignore t ms :: l2)).2, t + ms ≤ f.time := by
  obtain ⟨lt, now, a, _, c⟩ := reach l1 init_tie h.left
  obtain ⟨h1, _, h3⟩ := c _ h
  simp only [Op.start] at h1
  obtain ⟨lt', x, _, z, _, _⟩ := ignore_tie (ms := ms) a h1
  intro f hf
  simp only [run, step, List.nil_append] at hf
  have := run_tie l2 x h3 f hf
  have := z hp
  omega

/-- C80 (buttons): pressing a button, with no clash waiting, or releasing one in any
    case, keeps clashes away for 50 ms; a clash which was waiting when the button is
    released is dropped. -/
theorem C80_button (l1 l2 : List Op) (t : Nat) (o : Op)
    (ho : o = .release t ∨ o = .press t ∧ (run St.init l1).1.pend = false)
    (h : Timed 0 (l1 ++ o :: l2)) :
    ∀ f ∈ (run (run St.init l1).1 (o :: l2)).2, t + 50 ≤ f.time := by
  obtain ⟨lt, now, a, _, c⟩ := reach l1 init_tie h.left
  obtain ⟨h1, _, h3⟩ := c _ h
  rcases ho with rfl | ⟨rfl, hp⟩
  · simp only [Op.start] at h1
    obtain ⟨lt', x, _, z, _, _⟩ := ignore_tie (s := { (run St.init l1).1 with pend := false }) (ms := 50)
      ⟨a.hl, a.hn⟩ h1
    intro f hf
    simp only [run, step, List.nil_append] at hf
    have := run_tie l2 x h3 f hf
    have := z rfl
    omega
  · simp only [Op.start] at h1
    obtain ⟨lt', x, _, z, _, _⟩ := ignore_tie (ms := 50) a h1
    intro f hf
    simp only [run, step, List.nil_append] at hf
    have := run_tie l2 x h3 f hf
    have := z hp
    omega

/-- C80 (one clash per hit): after a clash has been announced and handled (not handled),
    the next one comes at least 400 (100) ms later — unless another one was already
    waiting for a button when it was announced. -/
theorem C80_gap_partial (l1 l2 : List Op) (o : Op) (h : Timed 0 (l1 ++ o :: l2))
    (f : Fired) (hf : f ∈ (step (run St.init l1).1 o).2)
    (hp : (step (run St.init l1).1 o).1.pend = false) :
    ∀ g ∈ (run (step (run St.init l1).1 o).1 l2).2, f.time + (if f.handled then 400 else 100) ≤ g.time := by
  obtain ⟨lt, now, a, _, c⟩ := reach l1 init_tie h.left
  obtain ⟨h1, h2, h3⟩ := c _ h
  generalize (run St.init l1).1 = s at *
  cases o with
  | press t => simp [step] at hf
  | release t => simp [step] at hf
  | ignore t ms => simp [step] at hf
  | report t stab str btn hd =>
    simp only [Op.start] at h1
    simp only [step, clash] at hf hp ⊢
    by_cases c1 : since t s.last < s.timeout
    · rw [if_pos c1] at hf; simp at hf
    · rw [if_neg c1] at hf hp ⊢
      cases btn with
      | true => rw [if_pos rfl] at hf; simp at hf
      | false =>
        rw [if_neg (by simp)] at hf hp ⊢
        obtain ⟨lt', x, y, z, w, d⟩ := clash2_tie (stab := stab) (str := str) a h1 h2
        intro g hg
        have hr := run_tie l2 x h3 g hg
        have hz := z (by rw [← w]; exact hp)
        simp only [clash2, List.mem_singleton] at hf
        subst hf
        have := h2.2.1
        simp only []
        omega
  | poll t hd =>
    simp only [Op.start] at h1
    simp only [step, poll] at hf hp ⊢
    by_cases c1 : s.pend = true ∧ s.timeout ≤ since t s.last
    · rw [if_pos c1] at hf hp ⊢
      obtain ⟨lt', x, y, z, w, d⟩ := clash2_tie (s := { s with pend := false }) (stab := s.pstab)
        (str := s.pstr) ⟨a.hl, a.hn⟩ h1 h2
      intro g hg
      have hr := run_tie l2 x h3 g hg
      have hz := z rfl
      simp only [clash2, List.mem_singleton] at hf
      subst hf
      have := h2.2.1
      simp only []
      omega
    · rw [if_neg c1] at hf; simp at hf

/-- Reports following each other within 100 ms, with their times. -/
def Burst : Nat → List Op → Prop
  | _, [] => True
  | t, .report u _ _ _ _ :: l => u - t < 100 ∧ Burst u l
  | t, .poll _ _ :: l => Burst t l
  | _, _ :: _ => False

/-- The strength reported in a burst. -/
def strongest : Nat → List Op → Nat
  | m, [] => m
  | m, .report _ _ str _ _ :: l => strongest (max m str) l
  | m, _ :: l => strongest m l

theorem burst_quiet : ∀ (l : List Op) {s : St} {lt now : Nat}, Tie s lt now → Timed now l → Burst lt l →
    100 ≤ s.timeout → s.pend = false →
    (run s l).2 = [] ∧ (run s l).1.strength = strongest s.strength l ∧ (run s l).1.pend = false
  | [], s, _, _, _, _, _, _, hp => ⟨rfl, rfl, hp⟩
  | .report u stab str btn h :: l, s, lt, now, ht, ⟨h1, h2, h3⟩, ⟨b1, b2⟩, h100, hp => by
      simp only [Op.start] at h1
      have hin : since u s.last < s.timeout := by
        have := since_le ht h1
        omega
      have hst : step s (.report u stab str btn h) =
          ({ s with strength := max s.strength str, last := u % W }, []) := by
        simp only [step, clash]
        rw [if_pos hin, if_neg (by simp [hp])]
      have ht' : Tie { s with strength := max s.strength str, last := u % W } u (max u h.done) :=
        ⟨rfl, by omega⟩
      have := burst_quiet l ht' h3 b2 h100 hp
      simp only [run, hst, strongest]
      exact ⟨by simpa using this.1, this.2⟩
  | .poll u h :: l, s, lt, now, ht, ⟨h1, h2, h3⟩, b, h100, hp => by
      simp only [Op.start] at h1
      have hst : step s (.poll u h) = (s, []) := by
        simp only [step, poll]
        rw [if_neg (by simp [hp])]
      have := burst_quiet l (lt := lt) (now := max u h.done) ⟨ht.hl, by have := ht.hn; omega⟩ h3
        (by simpa [Burst] using b) h100 hp
      simp only [run, hst, strongest]
      exact ⟨by simpa using this.1, this.2⟩
  | .press _ :: _, _, _, _, _, _, b, _, _ => b.elim
  | .release _ :: _, _, _, _, _, _, b, _, _ => b.elim
  | .ignore _ _ :: _, _, _, _, _, _, b, _, _ => b.elim

theorem ignore_free {s : St} (t ms : Nat) (hp : s.pend = false) :
    (ignore s t ms).last = t % W ∧ ms ≤ (ignore s t ms).timeout ∧ (ignore s t ms).strength = s.strength := by
  unfold ignore
  rw [if_neg (by simp [hp])]
  refine ⟨rfl, ?_, rfl⟩
  simp only []
  generalize since t s.last = x
  split
  · exact Nat.le_max_left _ _
  · exact Nat.le_refl _

theorem ignores_pend : ∀ (cs : List (Nat × Nat)) (s : St), s.pend = false →
    (cs.foldl (fun s c => ignore s c.1 c.2) s).pend = false ∧
    (cs.foldl (fun s c => ignore s c.1 c.2) s).strength = s.strength
  | [], _, hs => ⟨hs, rfl⟩
  | c :: cs, s, hs => by
      have h1 : (ignore s c.1 c.2).pend = false ∧ (ignore s c.1 c.2).strength = s.strength := by
        unfold ignore; rw [if_neg (by simp [hs])]; exact ⟨hs, rfl⟩
      have := ignores_pend cs _ h1.1
      simp only [List.foldl_cons]
      exact ⟨this.1, this.2.trans h1.2⟩

/-- No request to ignore contacts is for more than `M` ms. -/
def Op.Within (M : Nat) : Op → Prop
  | .report _ _ _ _ h => ∀ c ∈ h.calls, c.2 ≤ M
  | .poll _ h => ∀ c ∈ h.calls, c.2 ≤ M
  | .ignore _ ms => ms ≤ M
  | _ => True

theorem ignore_within {s : St} {t ms B : Nat} (h : s.timeout ≤ B) (hm : ms ≤ B) :
    (ignore s t ms).timeout ≤ B := by
  unfold ignore
  split
  · exact h
  · simp only []
    split <;> omega

theorem ignores_within {B : Nat} : ∀ (cs : List (Nat × Nat)) (s : St), s.timeout ≤ B → (∀ c ∈ cs, c.2 ≤ B) →
    (cs.foldl (fun s c => ignore s c.1 c.2) s).timeout ≤ B
  | [], _, h, _ => h
  | c :: cs, s, h, hc => by
      simp only [List.foldl_cons]
      exact ignores_within cs _ (ignore_within h (hc c (by simp))) (fun d hd => hc d (by simp [hd]))

theorem step_within {M : Nat} {s : St} {o : Op} (h : s.timeout ≤ max M 400) (ho : o.Within M) :
    (step s o).1.timeout ≤ max M 400 := by
  have hc2 : ∀ (s : St) (t : Nat) (stab : Bool) (str : Nat) (hd : Handler), s.timeout ≤ max M 400 →
      (∀ c ∈ hd.calls, c.2 ≤ M) → (clash2 s t stab str hd).1.timeout ≤ max M 400 := by
    intro s t stab str hd h1 h2
    simp only [clash2]
    refine ignore_within (ignores_within _ _ h1 (fun c hc => ?_)) ?_
    · have := h2 c hc; omega
    · split <;> omega
  cases o with
  | report t stab str btn hd =>
    simp only [step, clash]
    split
    · split <;> exact h
    · split
      · simp only []; omega
      · exact hc2 _ _ _ _ _ h ho
  | poll t hd =>
    simp only [step, poll]
    split
    · exact hc2 _ _ _ _ _ h ho
    · exact h
  | press t => exact ignore_within h (by omega)
  | release t => exact ignore_within h (by omega)
  | ignore t ms =>
    have ho' : ms ≤ M := ho
    exact ignore_within h (by omega)

theorem run_within {M : Nat} : ∀ (l : List Op) (s : St), s.timeout ≤ max M 400 → (∀ o ∈ l, o.Within M) →
    (run s l).1.timeout ≤ max M 400
  | [], _, h, _ => h
  | o :: l, s, h, ho => by
      simp only [run]
      exact run_within l _ (step_within h (ho o (by simp))) (fun x hx => ho x (by simp [hx]))

/-- When a history is over. -/
def finished : Nat → List Op → Nat
  | t, [] => t
  | _, o :: l => finished o.done l

theorem reach_fin : ∀ (l : List Op) {s : St} {lt now : Nat}, Tie s lt now → Timed now l →
    ∃ lt', Tie (run s l).1 lt' (finished now l) ∧ (∀ l2, Timed now (l ++ l2) → Timed (finished now l) l2)
  | [], s, lt, now, ht, _ => ⟨lt, ht, fun _ h => h⟩
  | o :: l, s, lt, now, ht, ⟨h1, h2, h3⟩ => by
      obtain ⟨lt1, a, b, d, e⟩ := step_tie ht h1 h2
      obtain ⟨lt', x, z⟩ := reach_fin l a h3
      exact ⟨lt', x, fun l2 hl2 => z l2 hl2.2.2⟩

/-- After the history `l1` no clash is waiting and nothing has happened for at least 400
    ms (more, if contacts were asked to be ignored for longer); less than 2^32 ms (49.7
    days) have passed since the start. -/
structure Calm (M : Nat) (l1 : List Op) (t : Nat) : Prop where
  timed : Timed 0 l1
  within : ∀ o ∈ l1, o.Within M
  pend : (run St.init l1).1.pend = false
  quiet : finished 0 l1 + max M 400 ≤ t
  young : t < W

theorem Calm.out {M : Nat} {l1 : List Op} {t : Nat} (h : Calm M l1 t) :
    ∃ lt, Tie (run St.init l1).1 lt (finished 0 l1) ∧
      ¬ since t (run St.init l1).1.last < (run St.init l1).1.timeout := by
  obtain ⟨lt, a, _⟩ := reach_fin l1 init_tie h.timed
  refine ⟨lt, a, ?_⟩
  have hw := run_within l1 St.init (by simp [St.init]; omega) h.within
  have hn := a.hn
  have hq := h.quiet
  have hy := h.young
  rw [since_eq a (by omega) (by omega)]
  omega

/-- C80 (heard, and vibration): after calm, a contact with no button held is announced at
    once, with its kind and strength; all further contacts, as long as each comes within
    100 ms of the one before, are not announced but raise the strength of that clash to
    the strongest of them. -/
theorem C80_vibration (M : Nat) (l1 l : List Op) (t : Nat) (stab : Bool) (str : Nat) (h : Handler)
    (hc : Calm M l1 t) (ho : h.Ordered t) (hd : h.done = t) (htm : Timed t l) (hb : Burst t l) :
    (run (run St.init l1).1 (.report t stab str false h :: l)).2 = [⟨t, stab, str, h.handled⟩] ∧
    (run (run St.init l1).1 (.report t stab str false h :: l)).1.strength = strongest str l := by
  obtain ⟨lt, hs, hout⟩ := hc.out
  have hp := hc.pend
  have hq := hc.quiet
  generalize (run St.init l1).1 = s at *
  have hst : step s (.report t stab str false h) = clash2 s t stab str h := by
    simp only [step, clash]
    rw [if_neg hout, if_neg (by simp)]
  obtain ⟨lt', x, y, z, w, d⟩ := clash2_tie (stab := stab) (str := str) hs (by omega) ho
  have hpn : (clash2 s t stab str h).1.pend = false := by rw [w]; exact hp
  have hlast : (clash2 s t stab str h).1.last = t % W ∧ 100 ≤ (clash2 s t stab str h).1.timeout ∧
      (clash2 s t stab str h).1.strength = str := by
    have hf := ignores_pend h.calls { s with strength := str } hp
    simp only [clash2]
    generalize h.calls.foldl (fun s c => ignore s c.1 c.2) { s with strength := str } = s2 at hf
    obtain ⟨g1, g2, g3⟩ := ignore_free h.done (if h.handled then 400 else 100) hf.1
    rw [g1, g3, hd]
    rw [hd] at g2
    refine ⟨rfl, Nat.le_trans ?_ g2, hf.2⟩
    cases h.handled <;> decide
  have ht' : Tie (clash2 s t stab str h).1 t t := ⟨hlast.1, by omega⟩
  have hq := burst_quiet l ht' htm hb hlast.2.1 hpn
  simp only [run, hst]
  constructor
  · rw [hq.1]; rfl
  · rw [hq.2.1, hlast.2.2]

theorem ignore_now {s : St} {lt now t ms : Nat} (h : Tie s lt now) (hp : s.pend = false) (ht : now ≤ t)
    (hw : t - lt < W) :
    Tie (ignore s t ms) t t ∧ (ignore s t ms).pend = false ∧
      (ignore s t ms).timeout = max ms (lt + s.timeout - t) := by
  have hs := since_eq h ht hw
  have hn := h.hn
  unfold ignore
  rw [if_neg (by simp [hp])]
  refine ⟨⟨rfl, Nat.le_refl _⟩, hp, ?_⟩
  simp only [hs]
  split <;> omega

theorem step_free {s : St} {u : Nat} {stab : Bool} {str : Nat} {h : Handler}
    (hn : ¬ since u s.last < s.timeout) :
    (step s (.report u stab str false h)).2 = [⟨u, stab, str, h.handled⟩] := by
  simp only [step, clash]
  rw [if_neg hn, if_neg (by simp)]
  simp only [clash2]

theorem run_two {s : St} {t ms t2 ms2 : Nat} {o : Op} :
    (run s [.ignore t ms, .ignore t2 ms2, o]).2 = (step (ignore (ignore s t ms) t2 ms2) o).2 := by
  simp only [run, step, List.nil_append, List.append_nil]

/-- C80 (no longer than asked): after calm, two requests to ignore contacts, the second
    any time later, keep contacts from being announced until the later of their two ends
    (`C80_ignore`) but not longer. -/
theorem C80_exact (M : Nat) (l1 : List Op) (t ms t2 ms2 u : Nat) (stab : Bool) (str : Nat) (h : Handler)
    (hc : Calm M l1 t) (h2 : t ≤ t2) (hu : t2 ≤ u) (hu1 : t + ms ≤ u) (hu2 : t2 + ms2 ≤ u) (hu3 : u < W) :
    (run (run St.init l1).1 [.ignore t ms, .ignore t2 ms2, .report u stab str false h]).2 =
      [⟨u, stab, str, h.handled⟩] := by
  obtain ⟨lt, hs, hout⟩ := hc.out
  have hp := hc.pend
  have hq := hc.quiet
  have hy := hc.young
  generalize (run St.init l1).1 = s at *
  have hn := hs.hn
  rw [since_eq hs (by omega) (by omega)] at hout
  obtain ⟨a1, a2, a3⟩ := ignore_now (ms := ms) (t := t) hs hp (by omega) (by omega)
  obtain ⟨b1, b2, b3⟩ := ignore_now (ms := ms2) a1 a2 h2 (by omega)
  rw [run_two]
  apply step_free
  rw [since_eq b1 hu (by omega), b3, a3]
  clear a1 a2 a3 b1 b2 b3 hs hp
  omega

/-- A request of 100 ms at 10000 ms and one of 30 ms at 10020 ms: contacts count again
    at 10100 ms. -/
example : (run (run St.init []).1 [.ignore 10000 100, .ignore 10020 30,
      .report 10100 false 7 false ⟨[], true, 10100⟩]).2 = [⟨10100, false, 7, true⟩] ∧
    (run (run St.init []).1 [.ignore 10000 100, .ignore 10020 30,
      .report 10099 false 7 false ⟨[], true, 10099⟩]).2 = [] := by decide +kernel

/-- Contacts less than 3 ms apart, and the times at which `Loop` runs meanwhile. -/
def Close : Nat → List Op → Prop
  | _, [] => True
  | t, .report u _ _ _ _ :: l => u - t < 3 ∧ Close u l
  | t, .poll u _ :: l => u - t < 3 ∧ Close t l
  | _, _ :: _ => False

/-- The time of the last contact. -/
def latest : Nat → List Op → Nat
  | t, [] => t
  | _, .report u _ _ _ _ :: l => latest u l
  | t, _ :: l => latest t l

theorem close_wait : ∀ (l : List Op) {s : St} {lt now : Nat}, Tie s lt now → Timed now l → Close lt l →
    s.timeout = 3 → s.pend = true →
    (run s l).2 = [] ∧ (run s l).1.pstr = strongest s.pstr l ∧ (run s l).1.pend = true ∧
      (run s l).1.pstab = s.pstab ∧ (run s l).1.timeout = 3 ∧
      Tie (run s l).1 (latest lt l) (finished now l)
  | [], s, _, _, ht, _, _, h3, hp => ⟨rfl, rfl, hp, rfl, h3, ht⟩
  | .report u stab str btn h :: l, s, lt, now, ht, ⟨h1, h2, h3⟩, ⟨b1, b2⟩, h4, hp => by
      simp only [Op.start] at h1
      have hin : since u s.last < s.timeout := by
        have := since_le ht h1
        omega
      have hst : step s (.report u stab str btn h) =
          ({ s with pstr := max s.pstr str, last := u % W }, []) := by
        simp only [step, clash]
        rw [if_pos hin, if_pos hp]
      have ht' : Tie { s with pstr := max s.pstr str, last := u % W } u (max u h.done) :=
        ⟨rfl, by omega⟩
      have := close_wait l ht' h3 b2 h4 hp
      simp only [run, hst, strongest, latest, finished, Op.done]
      exact ⟨by simpa using this.1, this.2⟩
  | .poll u h :: l, s, lt, now, ht, ⟨h1, h2, h3⟩, ⟨b1, b2⟩, h4, hp => by
      simp only [Op.start] at h1
      have hst : step s (.poll u h) = (s, []) := by
        simp only [step, poll]
        rw [if_neg]
        have := since_le ht h1
        omega
      have := close_wait l (lt := lt) (now := max u h.done) ⟨ht.hl, by have := ht.hn; omega⟩ h3 b2 h4 hp
      simp only [run, hst, strongest, latest, finished, Op.done]
      exact ⟨by simpa using this.1, this.2⟩
  | .press _ :: _, _, _, _, _, _, b, _, _ => b.elim
  | .release _ :: _, _, _, _, _, _, b, _, _ => b.elim
  | .ignore _ _ :: _, _, _, _, _, _, b, _, _ => b.elim

/-- C80 (a contact while a button is held): after calm it is not announced at once; if no
    button is released, it is announced by the first `Loop` at least 3 ms after the last
    of the contacts (each less than 3 ms after the one before), with the strength of the
    strongest and the kind of the first. -/
theorem C80_held (M : Nat) (l1 l : List Op) (t u : Nat) (stab : Bool) (str : Nat) (h hu : Handler)
    (hc : Calm M l1 t) (htm : Timed t l) (hb : Close t l) (hu1 : finished t l ≤ u)
    (hu2 : latest t l + 3 ≤ u) (hu3 : u < W) :
    (run (run St.init l1).1 (.report t stab str true h :: l ++ [.poll u hu])).2 =
      [⟨u, stab, strongest str l, hu.handled⟩] := by
  obtain ⟨lt, hs, hout⟩ := hc.out
  generalize (run St.init l1).1 = s at *
  obtain ⟨s1, hs1⟩ : ∃ s1 : St, s1 = { s with last := t % W, timeout := 3, pend := true, pstab := stab, pstr := str } := ⟨_, rfl⟩
  have hst : step s (.report t stab str true h) = (s1, []) := by
    simp only [step, clash]
    rw [if_neg hout, if_pos (by trivial), hs1]
  have ht' : Tie s1 t t := ⟨by rw [hs1], Nat.le_refl _⟩
  obtain ⟨a, b, c, d, e, f⟩ := close_wait l ht' htm hb (by rw [hs1]) (by rw [hs1])
  have happ : ∀ (l : List Op) (s : St), run s (l ++ [.poll u hu]) =
      ((step (run s l).1 (.poll u hu)).1, (run s l).2 ++ (step (run s l).1 (.poll u hu)).2) := by
    intro l
    induction l with
    | nil => intro s; simp [run]
    | cons o l ih => intro s; simp only [List.cons_append, run, ih, List.append_assoc]
  have hrun : (run s (.report t stab str true h :: l ++ [.poll u hu])).2 =
      (run s1 (l ++ [.poll u hu])).2 := by
    simp only [List.cons_append, run, hst, List.nil_append]
  rw [hrun, happ, a, List.nil_append]
  simp only [step, poll]
  have hsince := since_eq f hu1 (by omega)
  rw [if_pos ⟨c, by rw [hsince, e]; omega⟩]
  simp only [clash2, d, b]
  have h1 : s1.pstab = stab := by rw [hs1]
  have h2 : s1.pstr = str := by rw [hs1]
  rw [h1, h2]

/-! ### The hypotheses can be met -/

private def hd (t : Nat) (b : Bool) : Handler := ⟨[], b, t⟩

example : Calm 300 [.report 1000 false 7 false (hd 1000 false), .press 2000, .release 2100] 2600 := by
  refine ⟨?_, ?_, by decide +kernel, by decide, by decide⟩
  · simp [Timed, Op.start, Op.Ok, Op.done, Handler.Ordered, hd]
  · intro o ho
    simp only [List.mem_cons, List.not_mem_nil, or_false] at ho
    rcases ho with rfl | rfl | rfl <;> simp [Op.Within, hd]

example : (run St.init [.report 1000 false 7 false (hd 1000 false), .report 1050 false 9 false (hd 1050 false),
    .report 1140 false 2 false (hd 1140 false), .report 1250 true 3 false (hd 1250 true)]).2 =
    [⟨1000, false, 7, false⟩, ⟨1250, true, 3, true⟩] := by decide +kernel

example : (run St.init [.press 900, .report 1000 false 7 true (hd 1000 false),
    .report 1002 false 9 true (hd 1002 false), .poll 1004 (hd 1004 false), .poll 1005 (hd 1005 false)]).2 =
    [⟨1005, false, 9, false⟩] := by decide +kernel

example : (run St.init [.press 900, .report 1000 false 7 true (hd 1000 false), .release 1002,
    .poll 1010 (hd 1010 false)]).2 = [] := by decide +kernel

/-! ### Defects -/

/-- One hit can be announced twice at the same moment: a clash is waiting because a
    button was held; the button press is then used up by some command (which clears the
    modifiers without a release); the next contact is announced at once without starting
    a quiet period, and the same `Loop` announces the waiting one too. -/
theorem C80_double_counterexample :
    (run St.init [.press 900, .report 1000 false 7 true (hd 1000 false),
      .report 1004 false 5 false (hd 1004 false), .poll 1004 (hd 1004 false)]).2 =
    [⟨1004, false, 5, false⟩, ⟨1004, false, 7, false⟩] := by decide +kernel

/-- While a button is held, a contact 3 ms or more after a stronger one, seen by `Loop`
    before the waiting one is announced, replaces it: strength 7 is forgotten. -/
theorem C80_weaker_counterexample :
    (run St.init [.press 900, .report 1000 false 7 true (hd 1000 false),
      .report 1003 false 2 true (hd 1003 false), .poll 1003 (hd 1003 false),
      .poll 1006 (hd 1006 false)]).2 = [⟨1006, false, 2, false⟩] := by decide +kernel

/-- A contact exactly 2^32 ms (49.7 days) after the last one is ignored. -/
theorem C80_wrap_counterexample :
    (run St.init [.report 1000 false 7 false (hd 1000 false),
      .report (1000 + 4294967296) false 9 false (hd (1000 + 4294967296) false)]).2 =
    [⟨1000, false, 7, false⟩] := by decide +kernel

/-! ### Between the interrupt and the loop (prop_base.h:817-823, 1105-1108) -/

/-- `clash_pending1_`, `pending_clash_is_stab1_`, `pending_clash_strength1_` -/
structure Mail where
  flag : Bool
  stab : Bool
  str : Nat
  deriving DecidableEq, Repr

/-- `DoAccel` over the threshold (prop_base.h:817-823). -/
def deliver (m : Mail) (x : Bool × Nat) : Mail :=
  if m.flag then { m with str := max x.2 m.str } else ⟨true, x.1, x.2⟩

/-- `Loop` (prop_base.h:1105-1108): the flag is cleared, then kind and strength are read;
    `mid` are the interrupts between.  The result is what is passed to `Clash`. -/
def take (m : Mail) (mid : List (Bool × Nat)) : Mail × Option (Bool × Nat) :=
  if m.flag then
    let m' := mid.foldl deliver { m with flag := false }
    (m', some (m'.stab, m'.str))
  else (mid.foldl deliver m, none)

theorem deliver_all : ∀ (l : List (Bool × Nat)) (m : Mail), m.flag = true →
    l.foldl deliver m = ⟨true, m.stab, l.foldl (fun a x => max a x.2) m.str⟩
  | [], ⟨f, a, b⟩, h => by simp only [] at h; subst h; rfl
  | x :: l, m, h => by
      have : deliver m x = ⟨true, m.stab, max m.str x.2⟩ := by
        unfold deliver; rw [if_pos h, Nat.max_comm, h]
      simp only [List.foldl_cons, this]
      exact deliver_all l _ rfl

/-- C80 (nothing lost from the interrupt): contacts found by the interrupt since the last
    `Loop` reach `Clash` as one, with the kind of the first and the strength of the
    strongest, if no interrupt comes between clearing the flag and reading. -/
theorem C80_mail (x : Bool × Nat) (l : List (Bool × Nat)) (m : Mail) (h : m.flag = false) :
    (take ((x :: l).foldl deliver m) []).2 = some (x.1, l.foldl (fun a x => max a x.2) x.2) ∧
    (take ((x :: l).foldl deliver m) []).1.flag = false := by
  have h1 : deliver m x = ⟨true, x.1, x.2⟩ := by
    unfold deliver; rw [if_neg (by simp [h])]
  rw [List.foldl_cons, h1, deliver_all l _ rfl]
  exact ⟨rfl, rfl⟩

/-- If one does, the strength of the earlier contacts is lost (7 becomes 2). -/
theorem C80_race_counterexample :
    (take (deliver ⟨false, false, 0⟩ (false, 7)) [(false, 2)]).2 = some (false, 2) := by decide +kernel

end Verif.Prop.Clash
