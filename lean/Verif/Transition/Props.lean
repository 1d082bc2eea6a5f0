import Verif.Transition.Time
/-!
# C46: transitions run from the old colour to the new one
-/
set_option linter.unusedSimpArgs false
namespace Verif.Transition
open Verif.Color

/-! ## The end -/

/-- **C46** (the end).  However transitions are combined, whatever state they were left in and whatever the frame
times are: once a transition that was begun reports that it is done, every LED has the second colour.  (A blinking
transition is excluded, see `C46_blink_counterexample`; a repeated one must be repeated at least once.) -/
theorem C46_final {t : Tr} (hp : t.Plain) (hc : t.Colors) {n : Nat} {e : Env} {fs : List Env} (hf : ∀ f ∈ e :: fs, f.leds = n)
    (hd : (t.begin.frames (e :: fs)).done = true) {a b : OD} (ha : a.c.ok 16) (hb : b.c.ok 16) {led : Nat} (hl : led < n) :
    (t.begin.frames (e :: fs)).color a b led = some b := by
  obtain ⟨h1, h2, h3⟩ := begin_live hf hp hc
  exact live_final hl h2 h1 h3 hd ha hb

/-- **C46** (between).  At every frame in between, every LED has a well-defined 16-bit colour. -/
theorem C46_defined {t : Tr} (hp : t.Plain) (hc : t.Colors) {n : Nat} {e : Env} {fs : List Env} (hf : ∀ f ∈ e :: fs, f.leds = n)
    {a b : OD} (ha : a.c.ok 16) (hb : b.c.ok 16) (led : Nat) :
    ∃ c, (t.begin.frames (e :: fs)).color a b led = some c ∧ c.c.ok 16 := by
  obtain ⟨h1, h2, h3⟩ := begin_live hf hp hc
  exact live_defined h1 h3 ha hb

/-! ## The start -/

/-- the transition does not end with the frame it begins at -/
def Tr.Starts (e : Env) : Tr → Prop
  | .timed (.blink _ width) l => toU32 (l.timer.ms e) ≠ 0 ∧ 0 < width e
  | .timed _ l => toU32 (l.timer.ms e) ≠ 0
  | .instant => False
  | .concat2 _ a _ | .concat3 _ a _ _ | .extend _ _ a | .loop a => a.Starts e
  | .join a b | .joinR a b => a.Starts e ∧ b.Starts e
  | .loopN _ n a => a.Starts e ∧ 1 ≤ n e
  | .loopUntil _ pu a o => a.Starts e ∧ (pu e = true → o.Starts e)

theorem update_first {c : Timer} {e : Env} {s : Nat} (h : toU32 (c.ms e) ≠ 0) :
    (c.begin.run e).update e s = (⟨false, e.now, toU32 (c.ms e), c.ms⟩, 0) := by
  have e1 : c.begin.run e = ⟨false, e.now, toU32 (c.ms e), c.ms⟩ := by
    unfold Timer.begin Timer.run
    simp only [if_true]
  rw [e1]
  unfold Timer.update
  rw [if_neg (by unfold Timer.done; simpa using h), if_neg]
  · show (_, bend _ _ _) = _
    have : (e.now + 4294967296 - e.now) % 4294967296 = 0 := by omega
    simp only [this, bend, Nat.mul_zero, Nat.zero_mod, Nat.zero_div]
  · show ¬ (e.now + 4294967296 - e.now) % 4294967296 > _
    have : (e.now + 4294967296 - e.now) % 4294967296 = 0 := by omega
    rw [this]; omega

theorem update_again {m : Nat} {e : Env} {s : Nat} {ms : Env → Int} (h : m ≠ 0) :
    Timer.update ⟨false, e.now, m, ms⟩ e s = (⟨false, e.now, m, ms⟩, 0) := by
  unfold Timer.update
  rw [if_neg (by unfold Timer.done; simpa using h), if_neg]
  · show (_, bend _ _ _) = _
    have : (e.now + 4294967296 - e.now) % 4294967296 = 0 := by omega
    simp only [this, bend, Nat.mul_zero, Nat.zero_mod, Nat.zero_div]
  · show ¬ (e.now + 4294967296 - e.now) % 4294967296 > _
    have : (e.now + 4294967296 - e.now) % 4294967296 = 0 := by omega
    rw [this]; omega

theorem timed_starts {k : Kind} {l : Leaf} {e : Env} (hk : k.Ok) (h : (Tr.timed k l).Starts e) (hn : e.leds < 16777216) {a b : OD} (ha : a.c.ok 16) (hb : b.c.ok 16)
    {led : Nat} (hl : led < e.leds) :
    (Leaf.run k { l with timer := l.timer.begin } e).timer.done = false ∧ (Leaf.run k { l with timer := l.timer.begin } e).color k a b led = some a := by
  have hm : toU32 (l.timer.ms e) ≠ 0 := by cases k <;> first | exact h | exact h.1
  constructor
  · rw [leaf_timer, ← update_tick _ _ 0, update_first hm]
    show (toU32 (l.timer.ms e) == 0) = false
    simpa using hm
  · cases k with
    | fade =>
      simp only [Leaf.run, update_first hm, Leaf.color]
      exact mix_zero ha hb (by decide)
    | smooth =>
      simp only [Leaf.run, update_first hm, Leaf.color, show smoothStep 0 = 0 by decide]
      exact mix_zero ha hb (by decide)
    | boing n =>
      simp only [Leaf.run, update_first hm, Leaf.color, show boingStep 0 = 0 by decide]
      exact mix_zero ha hb (by decide)
    | delay =>
      simp only [Leaf.run, update_first hm, Leaf.color, Timer.done]
      rw [if_neg (by simpa using hm)]
    | blink n w =>
      have hw : 0 < w e := h.2
      simp only [Leaf.run, update_first hm, Leaf.color]
      rw [if_pos (show ((0 % 32768 : Nat) : Int) < w e by simpa using hw), if_pos rfl]
    | wipe =>
      simp only [Leaf.run, update_first hm, Leaf.color]
      have : overlap 0 0 led = 0 := by unfold overlap; omega
      rw [this]
      exact mix_zero ha hb (by decide)
    | wipeIn =>
      simp only [Leaf.run, update_first hm, Leaf.color]
      have h1 : toU32 ((256 * e.leds : Nat) - ((0 : Nat) : Int)) = 256 * e.leds := by unfold toU32; omega
      rw [h1]
      have : overlap (256 * e.leds) (e.leds * 256) led = 0 := by unfold overlap; omega
      rw [this]
      exact mix_zero ha hb (by decide)
    | centerWipe p =>
      simp only [Leaf.run, update_first hm, update_again hm, Leaf.color]
      have hc := center_le (n := e.leds) (hk e)
      have : overlap (clamp ((center (p e) e.leds : Nat) - ((0 : Nat) : Int)) 0 (center (p e) e.leds : Nat)).toNat
          (clamp ((center (p e) e.leds : Nat) + ((0 : Nat) : Int)) (center (p e) e.leds : Nat) (256 * e.leds : Nat)).toNat led = 0 := by
        unfold overlap clamp
        generalize center (p e) e.leds = c at *
        have e1 : (if (c : Int) - (0 : Nat) < 0 then 0 else if (c : Int) - (0 : Nat) > (c : Int) then (c : Int) else (c : Int) - (0 : Nat)).toNat = c := by
          split
          · omega
          · split <;> omega
        have e2 : (if (c : Int) + (0 : Nat) < c then (c : Int) else if (c : Int) + (0 : Nat) > (256 * e.leds : Nat) then ((256 * e.leds : Nat) : Int) else (c : Int) + (0 : Nat)).toNat = c := by
          split
          · omega
          · split <;> omega
        rw [e1, e2]
        omega
      rw [this]
      exact mix_zero ha hb (by decide)
    | centerWipeIn p =>
      simp only [Leaf.run, update_first hm, update_again hm, Leaf.color]
      have hc := center_le (n := e.leds) (hk e)
      have : overlap (clamp ((0 : Nat) : Int) 0 (center (p e) e.leds : Nat)).toNat
          (clamp ((256 * e.leds : Nat) - ((0 : Nat) : Int)) (center (p e) e.leds : Nat) (256 * e.leds : Nat)).toNat led = 256 := by
        unfold overlap clamp
        generalize center (p e) e.leds = c at *
        have e1 : (if ((0 : Nat) : Int) < 0 then 0 else if ((0 : Nat) : Int) > (c : Int) then (c : Int) else ((0 : Nat) : Int)).toNat = 0 := by
          split
          · omega
          · split <;> omega
        have e2 : (if ((256 * e.leds : Nat) : Int) - (0 : Nat) < c then (c : Int) else if ((256 * e.leds : Nat) : Int) - (0 : Nat) > (256 * e.leds : Nat) then ((256 * e.leds : Nat) : Int) else ((256 * e.leds : Nat) : Int) - (0 : Nat)).toNat = 256 * e.leds := by
          split
          · omega
          · split <;> omega
        rw [e1, e2]
        omega
      rw [this]
      exact mix_full hb ha (by decide) (by decide) rfl

/-- positions of centre wipes are between 0 and 32768 -/
def Tr.Centred : Tr → Prop
  | .timed k _ => k.Ok
  | .instant => True
  | .concat2 _ a b | .concat3 _ a b _ | .join a b | .joinR a b | .loopUntil _ _ a b => a.Centred ∧ b.Centred
  | .extend _ _ a | .loop a | .loopN _ _ a => a.Centred

theorem starts_go {e : Env} (hn : e.leds < 16777216) {led : Nat} (hl : led < e.leds) :
    ∀ {t : Tr}, t.Centred → t.Colors → t.Starts e →
      (t.go true e).done = false ∧ ∀ {a b : OD}, a.c.ok 16 → b.c.ok 16 → (t.go true e).color a b led = some a := by
  intro t
  induction t with
  | timed k l =>
    intro hp _ h
    exact ⟨(timed_starts (a := ⟨fun _ => 0, false⟩) (b := ⟨fun _ => 0, false⟩) hp h hn (fun _ => by show (0:Nat) < 65536; decide) (fun _ => by show (0:Nat) < 65536; decide) hl).1,
      fun ha hb => (timed_starts hp h hn ha hb hl).2⟩
  | instant => intro _ _ h; exact absurd h id
  | concat2 r t u iht ihu =>
    intro hp hc h
    obtain ⟨h1, h2⟩ := iht hp.1 hc.1 h
    have : (Tr.concat2 r t u).go true e = .concat2 true (t.go true e) u := by
      simp only [Tr.go, Bool.true_or, if_true]
      rw [if_neg (by rw [h1]; decide)]
    rw [this]
    exact ⟨rfl, fun ha hb => h2 ha hb⟩
  | concat3 r t u i iht ihu =>
    intro hp hc h
    obtain ⟨h1, h2⟩ := iht hp.1 hc.1 h
    have : (Tr.concat3 r t u i).go true e = .concat3 true (t.go true e) u i := by
      simp only [Tr.go, Bool.true_or, if_true]
      rw [if_neg (by rw [h1]; decide)]
    rw [this]
    exact ⟨rfl, fun ha hb => h2 ha (hc.2.2 _)⟩
  | join t u iht ihu =>
    intro hp hc h
    obtain ⟨h1, h2⟩ := iht hp.1 hc.1 h.1
    obtain ⟨h3, h4⟩ := ihu hp.2 hc.2 h.2
    refine ⟨by simp only [Tr.go, Tr.done, h1]; rfl, fun ha hb => ?_⟩
    simp only [Tr.go, Tr.color, h2 ha hb]
    exact h4 ha hb
  | joinR t u iht ihu =>
    intro hp hc h
    obtain ⟨h1, h2⟩ := iht hp.1 hc.1 h.1
    obtain ⟨h3, h4⟩ := ihu hp.2 hc.2 h.2
    refine ⟨by simp only [Tr.go, Tr.done, h1]; rfl, fun ha hb => ?_⟩
    simp only [Tr.go, Tr.color, h2 ha hb]
    exact h4 ha ha
  | extend x m t iht =>
    intro hp hc h
    obtain ⟨h1, h2⟩ := iht hp hc h
    have : (Tr.extend x m t).go true e = .extend false (m.run e) (t.go true e) := by
      simp only [Tr.go, Bool.not_true, Bool.false_and, extendRun, Bool.not_false, Bool.true_and, h1, Bool.false_eq_true, if_false]
    rw [this]
    exact ⟨rfl, fun ha hb => h2 ha hb⟩
  | loop t iht =>
    intro hp hc h
    obtain ⟨h1, h2⟩ := iht hp hc h
    exact ⟨rfl, fun ha hb => by simp only [Tr.go, Bool.true_or, Tr.color]; exact h2 ha hb⟩
  | loopN l m t iht =>
    intro hp hc h
    obtain ⟨h1, h2⟩ := iht hp hc h.1
    have hm := h.2
    simp only [Tr.go, Bool.true_or, if_true]
    split
    · refine ⟨?_, fun ha hb => h2 ha hb⟩
      show (m e + 1 - 1 == 0) = false
      simp; omega
    · refine ⟨?_, fun ha hb => h2 ha hb⟩
      show (m e + 1 == 0) = false
      simp; omega
  | loopUntil p pu t o iht iho =>
    intro hp hc h
    obtain ⟨h1, h2⟩ := iht hp.1 hc.1 h.1
    simp only [Tr.go, Bool.not_true, Bool.false_and, Bool.false_eq_true, if_false, Bool.true_or]
    split
    · rename_i hpu
      obtain ⟨h3, h4⟩ := iho hp.2 hc.2 (h.2 hpu)
      refine ⟨by simp only [Tr.done, h3]; rfl, fun ha hb => ?_⟩
      simp only [Tr.color, h2 ha ha]
      exact h4 ha hb
    · refine ⟨rfl, fun ha hb => ?_⟩
      simp only [Tr.color, h2 ha ha]
      rfl

/-- **C46** (the start).  However transitions are combined and whatever state they were left in: at the first frame
after it was begun a transition (one that does not end right there, as one of zero length does) is not done and every
LED still has the first colour. -/
theorem C46_start {t : Tr} {e : Env} (hp : t.Centred) (hc : t.Colors) (hs : t.Starts e) (hn : e.leds < 16777216)
    {a b : OD} (ha : a.c.ok 16) (hb : b.c.ok 16) {led : Nat} (hl : led < e.leds) :
    (t.begin.run e).done = false ∧ (t.begin.run e).color a b led = some a := by
  obtain ⟨h1, h2⟩ := starts_go hn hl hp hc hs
  have : t.begin.run e = t.go true e := go_begin t e false
  rw [this]
  exact ⟨h1, h2 ha hb⟩

/-! ## Order and duration -/

/-- **C46** (sequences).  `TrConcat` runs its first part alone until the first frame at which that part is done; at this
very frame the second part begins, and it sees this and all later frames. -/
theorem C46_sequence (r : Bool) (a b : Tr) {fs : List Env} (hf : fs ≠ []) :
    ((Tr.concat2 r a b).begin.frames fs = .concat2 true (a.begin.frames fs) b ∧ (∀ p q, fs = p ++ q → p ≠ [] → (a.begin.frames p).done = false)) ∨
    ∃ pre x post, fs = pre ++ x :: post ∧ (a.begin.frames (pre ++ [x])).done = true ∧ (∀ p q, pre = p ++ q → p ≠ [] → (a.begin.frames p).done = false) ∧
      (Tr.concat2 r a b).begin.frames fs = .concat2 false (a.begin.frames (pre ++ [x])) (b.begin.frames (x :: post)) := by
  rcases concat2_frames (a := a.begin) (b := b) hf with h | ⟨pre, x, post, ⟨h1, h2, h3⟩, h⟩
  · exact Or.inl h
  · exact Or.inr ⟨pre, x, post, h1, h2, h3, h⟩

/-- how long a transition lasts: when frames are at most `g` ms apart it is not done before `lo` ms and done from `hi`
ms on -/
inductive Lasts (g : Nat) : Tr → Nat → Nat → Prop
  | zero {k : Kind} {l : Leaf} : (∀ e, l.timer.ms e = 0) → g < 4294967296 → Lasts g (.timed k l) 0 0
  | timed {k : Kind} {l : Leaf} {m : Nat} : (∀ e, l.timer.ms e = m) → 0 < m → m + g < 4294967296 → Lasts g (.timed k l) (m + 1) (m + 1)
  | instant : Lasts g .instant 0 0
  | concat2 {r a b la ha lb hb} : Lasts g a la ha → Lasts g b lb hb → Lasts g (.concat2 r a b) (la + lb) (ha + g + hb)
  | concat3 {r a b i la ha lb hb} : Lasts g a la ha → Lasts g b lb hb → Lasts g (.concat3 r a b i) (la + lb) (ha + g + hb)
  | join {a b la ha lb hb} : Lasts g a la ha → Lasts g b lb hb → Lasts g (.join a b) (max la lb) (max ha hb)
  | joinR {a b la ha lb hb} : Lasts g a la ha → Lasts g b lb hb → Lasts g (.joinR a b) (max la lb) (max ha hb)
  | extend {x : Bool} {c : Timer} {a la ha} {m : Nat} : Lasts g a la ha → (∀ e, c.ms e = m) → 0 < m → m + g < 4294967296 → Lasts g (.extend x c a) (la + (m + 1)) (ha + g + (m + 1))

theorem firstDone_time {a : Tr} {g la ha : Nat} {e : Env} {fs pre : List Env} {x : Env} {post : List Env} (hs : Sched g e.time fs)
    (ih : ∀ {e : Env} {fs : List Env}, Sched g e.time fs →
      ((a.begin.frames (e :: fs)).done = true → e.time + la ≤ lastTime e.time fs) ∧ (e.time + ha ≤ lastTime e.time fs → (a.begin.frames (e :: fs)).done = true))
    (h : FirstDone a.begin (e :: fs) pre x post) :
    e.time + la ≤ x.time ∧ x.time ≤ e.time + ha + g ∧ Sched g x.time post ∧ lastTime e.time fs = lastTime x.time post := by
  obtain ⟨h1, h2, h3⟩ := h
  cases pre with
  | nil =>
    simp only [List.nil_append, List.cons.injEq] at h1
    obtain ⟨rfl, rfl⟩ := h1
    have := (ih (e := e) (fs := []) trivial).1 h2
    exact ⟨this, by omega, hs, rfl⟩
  | cons y pre =>
    simp only [List.cons_append, List.cons.injEq] at h1
    obtain ⟨rfl, rfl⟩ := h1
    have h4 := sched_append hs
    have h5 := h4.2
    have h6 : Sched g e.time (pre ++ [x]) := by
      have : pre ++ x :: post = (pre ++ [x]) ++ post := by simp
      rw [this] at hs
      exact (sched_append hs).1
    have h7 := (ih h6).1 h2
    rw [lastTime_append] at h7
    have h8 := h3 (e :: pre) [] (by simp) (by simp)
    have h9 := (ih h4.1).2
    refine ⟨h7, ?_, h5.2.2, by rw [lastTime_append]; rfl⟩
    have : ¬ e.time + ha ≤ lastTime e.time pre := fun hh => by rw [h9 hh] at h8; cases h8
    have := h5.2.1
    omega

theorem notDone_time {a : Tr} {g la ha : Nat} {e : Env} {fs : List Env} (hs : Sched g e.time fs)
    (ih : ∀ {e : Env} {fs : List Env}, Sched g e.time fs →
      ((a.begin.frames (e :: fs)).done = true → e.time + la ≤ lastTime e.time fs) ∧ (e.time + ha ≤ lastTime e.time fs → (a.begin.frames (e :: fs)).done = true))
    (h : ∀ p q, e :: fs = p ++ q → p ≠ [] → (a.begin.frames p).done = false) : lastTime e.time fs < e.time + ha := by
  have h1 := h (e :: fs) [] (by simp) (by simp)
  have h2 := (ih hs).2
  by_cases hh : e.time + ha ≤ lastTime e.time fs
  · rw [h2 hh] at h1; cases h1
  · omega

/-- **C46** (duration).  A transition of `m` ms is done at the first frame more than `m` ms after the frame it began at.
A sequence lasts as long as its parts together, give or take the time between two frames for each of them; joined
transitions last as long as the longest one.  `millis()` may wrap around in between. -/
theorem C46_time {g : Nat} {t : Tr} {lo hi : Nat} (h : Lasts g t lo hi) : ∀ {e : Env} {fs : List Env}, Sched g e.time fs →
    ((t.begin.frames (e :: fs)).done = true → e.time + lo ≤ lastTime e.time fs) ∧
    (e.time + hi ≤ lastTime e.time fs → (t.begin.frames (e :: fs)).done = true) := by
  induction h with
  | @zero k l hm hg =>
    intro e fs hs
    obtain ⟨l', h1, h2⟩ := timed_begin (k := k) (l := l) (m := 0) (hm e) (by omega) hs
    rw [h1]
    have := clock_done h2
    exact ⟨fun _ => by have := sched_le hs; omega, fun _ => this.mpr (Or.inl rfl)⟩
  | @timed k l m hm hpos hg =>
    intro e fs hs
    obtain ⟨l', h1, h2⟩ := timed_begin (k := k) (l := l) (m := m) (hm e) hg hs
    rw [h1]
    have h3 : (Tr.timed k l').done = true ↔ m = 0 ∨ m < lastTime e.time fs - e.time := clock_done h2
    rw [h3]
    have := sched_le hs
    constructor <;> intro h4 <;> omega
  | instant => intro e fs hs; exact ⟨fun _ => sched_le hs, fun _ => by
      have : ∀ fs : List Env, Tr.instant.frames fs = Tr.instant := by
        intro fs
        induction fs with
        | nil => rfl
        | cons e fs ih => exact ih
      show (Tr.instant.frames (e :: fs)).done = true
      rw [this]; rfl⟩
  | @concat2 r a b la ha lb hb _ _ iha ihb =>
    intro e fs hs
    rcases concat2_frames (a := a.begin) (b := b) (fs := e :: fs) (by simp) with ⟨h1, h2⟩ | ⟨pre, x, post, h1, h2⟩
    · have h3 := notDone_time hs iha h2
      have h1 : (Tr.concat2 r a b).begin.frames (e :: fs) = _ := h1
      rw [h1]
      exact ⟨fun hd => (by cases hd), fun h4 => by omega⟩
    · obtain ⟨h3, h4, h5, h6⟩ := firstDone_time hs iha h1
      have h2 : (Tr.concat2 r a b).begin.frames (e :: fs) = _ := h2
      rw [h2, h6]
      have h7 := ihb h5
      exact ⟨fun hd => by have := h7.1 (by simpa [Tr.done] using hd); omega, fun h8 => by simpa [Tr.done] using h7.2 (by omega)⟩
  | @concat3 r a b i la ha lb hb _ _ iha ihb =>
    intro e fs hs
    rcases concat3_frames (a := a.begin) (b := b) (i := i) (fs := e :: fs) (by simp) with ⟨h1, h2⟩ | ⟨pre, x, post, h1, h2⟩
    · have h3 := notDone_time hs iha h2
      have h1 : (Tr.concat3 r a b i).begin.frames (e :: fs) = _ := h1
      rw [h1]
      exact ⟨fun hd => (by cases hd), fun h4 => by omega⟩
    · obtain ⟨h3, h4, h5, h6⟩ := firstDone_time hs iha h1
      have h2 : (Tr.concat3 r a b i).begin.frames (e :: fs) = _ := h2
      rw [h2, h6]
      have h7 := ihb h5
      exact ⟨fun hd => by have := h7.1 (by simpa [Tr.done] using hd); omega, fun h8 => by simpa [Tr.done] using h7.2 (by omega)⟩
  | @join a b la ha lb hb _ _ iha ihb =>
    intro e fs hs
    have h1 : (Tr.join a b).begin.frames (e :: fs) = _ := join_frames (a := a.begin) (b := b.begin) (fs := e :: fs)
    rw [h1]
    have h2 := iha hs
    have h3 := ihb hs
    simp only [Tr.done, Bool.and_eq_true]
    exact ⟨fun hd => by have := h2.1 hd.1; have := h3.1 hd.2; omega, fun h4 => ⟨h2.2 (by omega), h3.2 (by omega)⟩⟩
  | @joinR a b la ha lb hb _ _ iha ihb =>
    intro e fs hs
    have h1 : (Tr.joinR a b).begin.frames (e :: fs) = _ := joinR_frames (a := a.begin) (b := b.begin) (fs := e :: fs)
    rw [h1]
    have h2 := iha hs
    have h3 := ihb hs
    simp only [Tr.done, Bool.and_eq_true]
    exact ⟨fun hd => by have := h2.1 hd.1; have := h3.1 hd.2; omega, fun h4 => ⟨h2.2 (by omega), h3.2 (by omega)⟩⟩
  | @extend x c a la ha m _ hm hpos hg iha =>
    intro e fs hs
    rcases extend_frames hg (fs := e :: fs) (c := c) (a := a.begin) (t := e.time) (by simp) hm ⟨Nat.le_refl _, by omega, hs⟩ with ⟨c', h1, h2⟩ | ⟨pre, y, post, c', h1, h2, hc⟩
    · have h3 := notDone_time hs iha h2
      have h1 : (Tr.extend x c a).begin.frames (e :: fs) = _ := h1
      rw [h1]
      exact ⟨fun hd => (by cases hd), fun h4 => by omega⟩
    · obtain ⟨h3, h4, h5, h6⟩ := firstDone_time hs iha h1
      have h2 : (Tr.extend x c a).begin.frames (e :: fs) = _ := h2
      rw [h2, h6]
      have h7 : (Tr.extend true c' (a.begin.frames (e :: fs))).done = true ↔ _ := clock_done hc
      rw [h7]
      constructor <;> intro h8 <;> omega

end Verif.Transition
