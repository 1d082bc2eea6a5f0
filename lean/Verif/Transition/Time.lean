import Verif.Transition.Colors
/-!
# When transitions end
-/
set_option linter.unusedSimpArgs false
namespace Verif.Transition
open Verif.Color

/-- frames in order of time after time `t`, with at most `g` milliseconds from each to the next -/
def Sched (g : Nat) : Nat → List Env → Prop
  | _, [] => True
  | t, e :: fs => t ≤ e.time ∧ e.time ≤ t + g ∧ Sched g e.time fs

/-- the time of the last frame -/
def lastTime (t : Nat) : List Env → Nat
  | [] => t
  | e :: fs => lastTime e.time fs

theorem lastTime_append (t : Nat) (fs gs : List Env) : lastTime t (fs ++ gs) = lastTime (lastTime t fs) gs := by
  induction fs generalizing t with
  | nil => rfl
  | cons e fs ih => exact ih _

theorem sched_append {g t : Nat} {fs gs : List Env} (h : Sched g t (fs ++ gs)) : Sched g t fs ∧ Sched g (lastTime t fs) gs := by
  induction fs generalizing t with
  | nil => exact ⟨trivial, h⟩
  | cons e fs ih =>
    have := ih h.2.2
    exact ⟨⟨h.1, h.2.1, this.1⟩, this.2⟩

theorem sched_le {g t : Nat} {fs : List Env} (h : Sched g t fs) : t ≤ lastTime t fs := by
  induction fs generalizing t with
  | nil => exact Nat.le_refl _
  | cons e fs ih => exact Nat.le_trans h.1 (ih h.2.2)

theorem frames_append (t : Tr) (fs gs : List Env) : t.frames (fs ++ gs) = (t.frames fs).frames gs := by
  simp [Tr.frames]

/-! ## The clock -/

/-- what `update` does to the clock, for any scale -/
def Timer.tick (t : Timer) (e : Env) : Timer :=
  if t.done then t else if (e.now + 4294967296 - t.start) % 4294967296 > t.len then { t with len := 0 } else t

theorem update_tick (t : Timer) (e : Env) (s : Nat) : (t.update e s).1 = t.tick e := by
  unfold Timer.update Timer.tick
  split
  · rfl
  · split <;> rfl

theorem tick_tick (t : Timer) (e : Env) : (t.tick e).tick e = t.tick e := by
  unfold Timer.tick
  by_cases h : t.done
  · rw [if_pos h, if_pos h]
  · rw [if_neg h]
    by_cases h2 : (e.now + 4294967296 - t.start) % 4294967296 > t.len
    · rw [if_pos h2, if_pos (show Timer.done { t with len := 0 } = true from rfl)]
    · rw [if_neg h2, if_neg h, if_neg h2]

theorem leaf_timer (k : Kind) (l : Leaf) (e : Env) : (l.run k e).timer = (l.timer.run e).tick e := by
  cases k <;> simp only [Leaf.run, update_tick, tick_tick]

/-- a clock that was started with duration `m` at time `s`, at time `t` -/
structure Clock (c : Timer) (m s t : Nat) : Prop where
  restart : c.restart = false
  start : c.start = s % 4294967296
  len : c.len = if m < t - s then 0 else m

theorem clock_begin {c : Timer} {e : Env} {m : Nat} (hm : c.ms e = m) (h : m < 4294967296) :
    Clock ((c.begin.run e).tick e) m e.time e.time := by
  have e1 : c.begin.run e = ⟨false, e.now, m, c.ms⟩ := by
    unfold Timer.begin Timer.run
    have : toU32 (c.ms e) = m := by rw [hm]; unfold toU32; omega
    simp only [if_true, this]
  rw [e1]
  have e2 : Timer.tick ⟨false, e.now, m, c.ms⟩ e = ⟨false, e.now, m, c.ms⟩ := by
    unfold Timer.tick
    split
    · rfl
    · rename_i hd
      rw [if_neg]
      show ¬ (e.now + 4294967296 - e.now) % 4294967296 > m
      omega
  rw [e2]
  exact ⟨rfl, rfl, by show m = _; rw [if_neg (by omega)]⟩

theorem clock_step {c : Timer} {m s t g : Nat} {e : Env} (hc : Clock c m s t) (h : m + g < 4294967296) (hs : s ≤ t) (h1 : t ≤ e.time) (h2 : e.time ≤ t + g) :
    Clock ((c.run e).tick e) m s e.time := by
  obtain ⟨hr, hst, hl⟩ := hc
  rw [timer_run_of hr]
  unfold Timer.tick
  by_cases hlt : m < t - s
  · rw [if_pos hlt] at hl
    rw [if_pos (show c.done = true by unfold Timer.done; rw [hl]; rfl)]
    exact ⟨hr, hst, by rw [hl, if_pos (by omega)]⟩
  · rw [if_neg hlt] at hl
    have hd : (e.now + 4294967296 - c.start) % 4294967296 = e.time - s := by
      rw [hst]; unfold Env.now
      omega
    rw [hd]
    by_cases hz : c.done = true
    · rw [if_pos hz]
      have hz : c.len = 0 := by simpa [Timer.done] using hz
      refine ⟨hr, hst, ?_⟩
      rw [hz]
      split
      · rfl
      · omega
    · rw [if_neg hz]
      by_cases h3 : e.time - s > c.len
      · rw [if_pos h3]
        exact ⟨hr, hst, by show 0 = _; rw [if_pos (by omega)]⟩
      · rw [if_neg h3]
        exact ⟨hr, hst, by rw [if_neg (by omega)]; exact hl⟩

theorem clock_done {c : Timer} {m s t : Nat} (hc : Clock c m s t) : c.done = true ↔ m = 0 ∨ m < t - s := by
  unfold Timer.done
  rw [hc.len, beq_iff_eq]
  split <;> omega

theorem timed_frames {k : Kind} {m s g : Nat} (hg : m + g < 4294967296) : ∀ {fs : List Env} {l : Leaf} {t : Nat}, Clock l.timer m s t → s ≤ t → Sched g t fs →
    ∃ l', (Tr.timed k l).frames fs = Tr.timed k l' ∧ Clock l'.timer m s (lastTime t fs)
  | [], l, t, hc, _, _ => ⟨l, rfl, hc⟩
  | e :: fs, l, t, hc, hs, h => by
    have h1 : Clock (Leaf.run k l e).timer m s e.time := by
      rw [leaf_timer]; exact clock_step hc hg hs h.1 h.2.1
    exact timed_frames hg (l := Leaf.run k l e) h1 (Nat.le_trans hs h.1) h.2.2

/-- a timed transition, some frames after it began -/
theorem timed_begin {k : Kind} {l : Leaf} {m g : Nat} {e : Env} {fs : List Env} (hm : l.timer.ms e = m) (hg : m + g < 4294967296) (h : Sched g e.time fs) :
    ∃ l', (Tr.timed k l).begin.frames (e :: fs) = Tr.timed k l' ∧ Clock l'.timer m e.time (lastTime e.time fs) := by
  have h1 : Clock (Leaf.run k { l with timer := l.timer.begin } e).timer m e.time e.time := by
    rw [leaf_timer]; exact clock_begin hm (by omega)
  exact timed_frames (k := k) hg (l := Leaf.run k { l with timer := l.timer.begin } e) h1 (Nat.le_refl _) h

/-! ## Sequences -/

/-- what `TrConcat` does from the frame at which its first part is done -/
theorem concat2_false {a b : Tr} {fs : List Env} : (Tr.concat2 false a b).frames fs = .concat2 false a (b.frames fs) := by
  induction fs generalizing b with
  | nil => rfl
  | cons e fs ih => exact ih (b := b.go false e)

theorem concat3_false {a b : Tr} {i : Nat → OD} {fs : List Env} : (Tr.concat3 false a b i).frames fs = .concat3 false a (b.frames fs) i := by
  induction fs generalizing b with
  | nil => rfl
  | cons e fs ih => exact ih (b := b.go false e)

/-- frame `x` of `fs` is the first at which `a` is done -/
def FirstDone (a : Tr) (fs pre : List Env) (x : Env) (post : List Env) : Prop :=
  fs = pre ++ x :: post ∧ (a.frames (pre ++ [x])).done = true ∧ ∀ p q, pre = p ++ q → p ≠ [] → (a.frames p).done = false

theorem firstDone_cons {a : Tr} {e : Env} {fs pre : List Env} {x : Env} {post : List Env} (hn : (a.run e).done = false) (h : FirstDone (a.run e) fs pre x post) :
    FirstDone a (e :: fs) (e :: pre) x post := by
  obtain ⟨h1, h2, h3⟩ := h
  refine ⟨by rw [h1]; rfl, h2, ?_⟩
  intro p q hp hne
  cases p with
  | nil => exact absurd rfl hne
  | cons y p =>
    simp only [List.cons_append, List.cons.injEq] at hp
    obtain ⟨rfl, hp⟩ := hp
    show ((a.run e).frames p).done = false
    by_cases hz : p = []
    · subst hz; exact hn
    · exact h3 p q hp hz

theorem firstDone_here {a : Tr} {e : Env} {fs : List Env} (h : (a.run e).done = true) : FirstDone a (e :: fs) [] e fs :=
  ⟨rfl, h, fun p q hp hne => by
    cases p with
    | nil => exact absurd rfl hne
    | cons => simp at hp⟩

theorem concat2_frames {a b : Tr} : ∀ {fs : List Env}, fs ≠ [] →
    ((Tr.concat2 true a b).frames fs = .concat2 true (a.frames fs) b ∧ (∀ p q, fs = p ++ q → p ≠ [] → (a.frames p).done = false)) ∨
    ∃ pre x post, FirstDone a fs pre x post ∧ (Tr.concat2 true a b).frames fs = .concat2 false (a.frames (pre ++ [x])) (b.begin.frames (x :: post)) := by
  intro fs
  induction fs generalizing a with
  | nil => intro h; exact absurd rfl h
  | cons e fs ih =>
    intro _
    have hrun : (Tr.concat2 true a b).run e = _ := run_concat2 true a b e
    simp only [if_true] at hrun
    cases hd : (a.run e).done with
    | true =>
      rw [hd] at hrun
      simp only [Bool.not_true, Bool.false_eq_true, if_false] at hrun
      right
      refine ⟨[], e, fs, firstDone_here hd, ?_⟩
      show ((Tr.concat2 true a b).run e).frames fs = _
      rw [hrun, concat2_false]; rfl
    | false =>
      rw [hd] at hrun
      simp only [Bool.not_false, if_true] at hrun
      have hfr : (Tr.concat2 true a b).frames (e :: fs) = (Tr.concat2 true (a.run e) b).frames fs := by
        show ((Tr.concat2 true a b).run e).frames fs = _
        rw [hrun]
      by_cases hz : fs = []
      · subst hz
        left
        refine ⟨hfr, ?_⟩
        intro p q hp hne
        cases p with
        | nil => exact absurd rfl hne
        | cons y p =>
          simp only [List.cons_append, List.cons.injEq] at hp
          obtain ⟨rfl, hp⟩ := hp
          have hp := List.append_eq_nil_iff.mp hp.symm
          rw [hp.1]; exact hd
      · rcases ih (a := a.run e) hz with ⟨h1, h2⟩ | ⟨pre, x, post, h1, h2⟩
        · left
          refine ⟨by rw [hfr, h1]; rfl, ?_⟩
          intro p q hp hne
          cases p with
          | nil => exact absurd rfl hne
          | cons y p =>
            simp only [List.cons_append, List.cons.injEq] at hp
            obtain ⟨rfl, hp⟩ := hp
            by_cases hy : p = []
            · subst hy; exact hd
            · exact h2 p q hp hy
        · right
          exact ⟨e :: pre, x, post, firstDone_cons hd h1, by rw [hfr, h2]; rfl⟩

theorem concat3_frames {a b : Tr} {i : Nat → OD} : ∀ {fs : List Env}, fs ≠ [] →
    ((Tr.concat3 true a b i).frames fs = .concat3 true (a.frames fs) b i ∧ (∀ p q, fs = p ++ q → p ≠ [] → (a.frames p).done = false)) ∨
    ∃ pre x post, FirstDone a fs pre x post ∧ (Tr.concat3 true a b i).frames fs = .concat3 false (a.frames (pre ++ [x])) (b.begin.frames (x :: post)) i := by
  intro fs
  induction fs generalizing a with
  | nil => intro h; exact absurd rfl h
  | cons e fs ih =>
    intro _
    have hrun : (Tr.concat3 true a b i).run e = _ := run_concat3 true a b i e
    simp only [if_true] at hrun
    cases hd : (a.run e).done with
    | true =>
      rw [hd] at hrun
      simp only [Bool.not_true, Bool.false_eq_true, if_false] at hrun
      right
      refine ⟨[], e, fs, firstDone_here hd, ?_⟩
      show ((Tr.concat3 true a b i).run e).frames fs = _
      rw [hrun, concat3_false]; rfl
    | false =>
      rw [hd] at hrun
      simp only [Bool.not_false, if_true] at hrun
      have hfr : (Tr.concat3 true a b i).frames (e :: fs) = (Tr.concat3 true (a.run e) b i).frames fs := by
        show ((Tr.concat3 true a b i).run e).frames fs = _
        rw [hrun]
      by_cases hz : fs = []
      · subst hz
        left
        refine ⟨hfr, ?_⟩
        intro p q hp hne
        cases p with
        | nil => exact absurd rfl hne
        | cons y p =>
          simp only [List.cons_append, List.cons.injEq] at hp
          obtain ⟨rfl, hp⟩ := hp
          have hp := List.append_eq_nil_iff.mp hp.symm
          rw [hp.1]; exact hd
      · rcases ih (a := a.run e) hz with ⟨h1, h2⟩ | ⟨pre, x, post, h1, h2⟩
        · left
          refine ⟨by rw [hfr, h1]; rfl, ?_⟩
          intro p q hp hne
          cases p with
          | nil => exact absurd rfl hne
          | cons y p =>
            simp only [List.cons_append, List.cons.injEq] at hp
            obtain ⟨rfl, hp⟩ := hp
            by_cases hy : p = []
            · subst hy; exact hd
            · exact h2 p q hp hy
        · right
          exact ⟨e :: pre, x, post, firstDone_cons hd h1, by rw [hfr, h2]; rfl⟩

theorem join_frames {a b : Tr} {fs : List Env} : (Tr.join a b).frames fs = .join (a.frames fs) (b.frames fs) := by
  induction fs generalizing a b with
  | nil => rfl
  | cons e fs ih => exact ih (a := a.go false e) (b := b.go false e)

theorem joinR_frames {a b : Tr} {fs : List Env} : (Tr.joinR a b).frames fs = .joinR (a.frames fs) (b.frames fs) := by
  induction fs generalizing a b with
  | nil => rfl
  | cons e fs ih => exact ih (a := a.go false e) (b := b.go false e)

/-- `TrExtend` once it is extending -/
theorem extend_true {m s g : Nat} (hg : m + g < 4294967296) : ∀ {fs : List Env} {c : Timer} {a : Tr} {t : Nat}, Clock c m s t → s ≤ t → Sched g t fs →
    ∃ c', (Tr.extend true c a).frames fs = .extend true c' (a.frames fs) ∧ Clock c' m s (lastTime t fs)
  | [], c, a, t, hc, _, _ => ⟨c, rfl, hc⟩
  | e :: fs, c, a, t, hc, hs, h => by
    have h1 : Clock ((c.run e).tick e) m s e.time := clock_step hc hg hs h.1 h.2.1
    obtain ⟨c', h2, h3⟩ := extend_true hg (a := a.run e) h1 (Nat.le_trans hs h.1) h.2.2
    refine ⟨c', ?_, h3⟩
    show ((Tr.extend true c a).run e).frames fs = _
    rw [run_extend]
    simp only [Bool.not_true, Bool.false_and, Bool.or_false, Bool.false_eq_true, if_false, if_true, update_tick]
    exact h2

theorem run_ms (c : Timer) (e : Env) : (c.run e).ms = c.ms := by
  unfold Timer.run; split <;> rfl

theorem extend_frames {m g : Nat} (hg : m + g < 4294967296) : ∀ {fs : List Env} {c : Timer} {a : Tr} {t : Nat}, fs ≠ [] → (∀ e, c.ms e = m) → Sched g t fs →
    (∃ c', (Tr.extend false c a).frames fs = .extend false c' (a.frames fs) ∧ (∀ p q, fs = p ++ q → p ≠ [] → (a.frames p).done = false)) ∨
    ∃ pre x post c', FirstDone a fs pre x post ∧ (Tr.extend false c a).frames fs = .extend true c' (a.frames fs) ∧ Clock c' m x.time (lastTime x.time post) := by
  intro fs
  induction fs with
  | nil => intro _ _ _ h; exact absurd rfl h
  | cons e fs ih =>
    intro c a t _ hm hs
    have hrun : (Tr.extend false c a).run e = _ := run_extend false c a e
    simp only [Bool.not_false, Bool.true_and, Bool.false_or] at hrun
    cases hd : (a.run e).done with
    | true =>
      rw [hd] at hrun
      simp only [if_true, update_tick] at hrun
      right
      obtain ⟨c', h1, h2⟩ := extend_true hg (a := a.run e) (clock_begin (hm e) (by omega)) (Nat.le_refl _) hs.2.2
      refine ⟨[], e, fs, c', firstDone_here hd, ?_, h2⟩
      show ((Tr.extend false c a).run e).frames fs = _
      rw [hrun]; exact h1
    | false =>
      rw [hd] at hrun
      simp only [Bool.false_eq_true, if_false] at hrun
      have hfr : (Tr.extend false c a).frames (e :: fs) = (Tr.extend false (c.run e) (a.run e)).frames fs := by
        show ((Tr.extend false c a).run e).frames fs = _
        rw [hrun]
      by_cases hz : fs = []
      · subst hz
        left
        refine ⟨_, hfr, ?_⟩
        intro p q hp hne
        cases p with
        | nil => exact absurd rfl hne
        | cons y p =>
          simp only [List.cons_append, List.cons.injEq] at hp
          obtain ⟨rfl, hp⟩ := hp
          have hp := List.append_eq_nil_iff.mp hp.symm
          rw [hp.1]; exact hd
      · rcases ih (a := a.run e) (c := c.run e) hz (by rw [run_ms]; exact hm) hs.2.2 with ⟨c', h1, h2⟩ | ⟨pre, x, post, c', h1, h2, h3⟩
        · left
          refine ⟨c', by rw [hfr, h1]; rfl, ?_⟩
          intro p q hp hne
          cases p with
          | nil => exact absurd rfl hne
          | cons y p =>
            simp only [List.cons_append, List.cons.injEq] at hp
            obtain ⟨rfl, hp⟩ := hp
            by_cases hy : p = []
            · subst hy; exact hd
            · exact h2 p q hp hy
        · right
          exact ⟨e :: pre, x, post, c', firstDone_cons hd h1, by rw [hfr, h2]; rfl, h3⟩

end Verif.Transition
