import Verif.Blade.Ws2811
/-!
# C71: frames are not mixed up; C72: switching off the power
-/
set_option linter.unusedSimpArgs false
set_option linter.unusedVariables false
namespace Verif.Blade.Ws

/-! ## C71 -/

/-- the pixels are the blade's own: black, or its latest rendering -/
def Own (p : Pix) (b last : Nat) : Prop := p = .black b ∨ p = .style b last

/-- every frame sent was the blade's own -/
def Clean (s : Sys) : Prop := ∀ x ∈ s.sent, x.2.2.1 = true → Own x.2.1 x.1 x.2.2.2

/-- no other blade holds the buffer -/
def Mine (s : Sys) (b : Nat) : Prop := s.cur = none ∨ s.cur = some b

/-- the blade's frame is in the buffer -/
def Holds (s : Sys) (b : Nat) : Prop := (s.bl b).had = true → Own s.buf b (s.bl b).last

def Inv (s : Sys) : Prop := Clean s ∧ ∀ b, s.cur = some b → (s.bl b).pc = .waitEnd → Holds s b

theorem mod_fields (s : Sys) (b : Nat) (f : B → B) : (s.mod b f).cur = s.cur ∧ (s.mod b f).buf = s.buf ∧ (s.mod b f).sent = s.sent := ⟨rfl, rfl, rfl⟩

theorem power_cases (s : Sys) (b : Nat) (v : Bool) :
    ((power s b v).cur = s.cur ∧ (power s b v).buf = s.buf ∧ (power s b v).sent = s.sent ∧ (s.bl b).powered = v) ∨
    ((power s b v).cur = none ∧ (power s b v).buf = .black b ∧ (∀ x ∈ (power s b v).sent, x ∈ s.sent ∨ x.1 = b ∧ x.2.1 = .black b)) := by
  unfold power
  simp only
  cases hp : (s.bl b).powered <;> cases v
  · left; simp [mod_fields]
  · right
    refine ⟨rfl, rfl, ?_⟩
    intro x hx
    simp only [Bool.not_false, Bool.and_self, if_true, mod_fields] at hx
    rcases List.mem_append.1 hx with hx | hx
    · exact Or.inl hx
    · right; have := List.eq_of_mem_replicate hx; subst this; exact ⟨rfl, rfl⟩
  · right
    refine ⟨rfl, rfl, ?_⟩
    intro x hx
    simp [mod_fields] at hx
    rcases hx with hx | hx
    · exact Or.inl hx
    · right; subst hx; exact ⟨rfl, rfl⟩
  · left; simp [mod_fields]

theorem power_clean {s : Sys} {b : Nat} {v : Bool} (h : Clean s) : Clean (power s b v) := by
  rcases power_cases s b v with ⟨_, _, h3, _⟩ | ⟨_, _, h3⟩
  · unfold Clean; rw [h3]; exact h
  · intro x hx hh
    rcases h3 x hx with hx | ⟨e1, e2⟩
    · exact h x hx hh
    · left; rw [e1, e2]

theorem power_mine {s : Sys} {b : Nat} {v : Bool} (h : Mine s b) : Mine (power s b v) b := by
  rcases power_cases s b v with ⟨h1, _⟩ | ⟨h1, _⟩
  · unfold Mine; rw [h1]; exact h
  · left; exact h1

theorem powerOff_clean {d t : Nat} {s : Sys} {b : Nat} (h : Clean s) : Clean (powerOff d t s b) := by
  rw [powerOff_eq]
  split
  · exact power_clean (s := s.mod b (begun t)) h
  · exact h

theorem powerOff_mine {d t : Nat} {s : Sys} {b : Nat} (h : Mine s b) : Mine (powerOff d t s b) b := by
  rw [powerOff_eq]
  split
  · exact power_mine (s := s.mod b (begun t)) h
  · exact h

theorem retry_inv {s : Sys} {b : Nat} (h : Clean s) (hm : Mine s b) : Inv (retry s b) := by
  refine ⟨h, fun i hi => ?_⟩
  unfold retry at hi
  simp only [mod_fields] at hi
  rcases hm with e | e <;> rw [e] at hi <;> simp at hi

theorem endFrame_inv {d : Nat} {e : Env} {s : Sys} {b : Nat} (h : Clean s) (hm : Mine s b) (hh : Holds s b) : Inv (endFrame d e s b) := by
  unfold endFrame
  split
  · have hc : Clean (send s b) := by
      intro x hx hx2
      rcases List.mem_append.1 hx with hx | hx
      · exact h x hx hx2
      · simp at hx; subst hx; exact hh hx2
    unfold finish
    split
    · exact retry_inv (powerOff_clean hc) (powerOff_mine hm)
    · exact retry_inv hc hm
  · refine ⟨h, fun i hi hpc => ?_⟩
    have hib : i = b := by
      rcases hm with e | e <;> rw [(mod_fields _ _ _).1, e] at hi
      · cases hi
      · cases hi; rfl
    subst hib
    unfold Holds
    rw [mod_self]
    exact hh

theorem render_holds (e : Env) (s : Sys) (b : Nat) : Holds (render e s b) b := by
  unfold render
  simp only
  split
  · intro _; right; simp [upd_eq]
  · intro hh; rw [mod_self] at hh; cases hh

theorem render_fields (e : Env) (s : Sys) (b : Nat) : (render e s b).cur = s.cur ∧ (render e s b).sent = s.sent := by
  unfold render
  simp only
  split <;> exact ⟨rfl, rfl⟩

theorem beginFrame_inv {d : Nat} {e : Env} {s : Sys} {b : Nat} (h : Clean s) (hm : Mine s b) : Inv (beginFrame d e s b) := by
  unfold beginFrame
  split
  · simp only
    have hc : Clean (render e s b) := by unfold Clean; rw [(render_fields e s b).2]; exact h
    have hm2 : Mine (render e s b) b := by unfold Mine; rw [(render_fields e s b).1]; exact hm
    split
    · exact endFrame_inv hc hm2 (render_holds e s b)
    · split
      · exact retry_inv (s := (render e s b).mod b fun x => { x with run := false }) hc hm2
      · rename_i hp _
        refine endFrame_inv (power_clean hc) (power_mine hm2) ?_
        intro _
        left
        rcases power_cases (render e s b) b true with ⟨_, _, _, h4⟩ | ⟨_, h2, _⟩
        · exact absurd h4 hp
        · exact h2
  · refine ⟨h, fun i hi hpc => ?_⟩
    have hib : i = b := by
      rcases hm with e | e <;> rw [(mod_fields _ _ _).1, e] at hi
      · cases hi
      · cases hi; rfl
    subst hib
    rw [mod_self] at hpc
    cases hpc

theorem retry_inv' {s : Sys} {b : Nat} (h : Inv s) : Inv (retry s b) := by
  refine ⟨h.1, fun i hi hpc => ?_⟩
  by_cases e : i = b
  · subst e; rw [retry_self] at hpc; cases hpc
  · rw [retry_other e] at hpc
    unfold Holds
    rw [retry_other e]
    have : s.cur = some i := by
      unfold retry at hi
      simp only [mod_fields] at hi
      split at hi
      · cases hi
      · exact hi
    exact h.2 i this hpc

theorem loop_inv {d : Nat} {e : Env} {s : Sys} {b : Nat} (h : Inv s) : Inv (loop d e s b) := by
  unfold loop
  simp only
  split
  · exact retry_inv' h
  · split
    · exact retry_inv' h
    · split
      · exact retry_inv' h
      · have hc : Clean { s with cur := some b } := h.1
        have hm : Mine { s with cur := some b } b := Or.inr rfl
        split
        · exact retry_inv (powerOff_clean hc) (powerOff_mine hm)
        · exact beginFrame_inv hc hm
  · split
    · exact beginFrame_inv h.1 (Or.inr (by assumption))
    · exact retry_inv' h
  · rename_i hpc
    split
    · rename_i hc
      exact endFrame_inv h.1 (Or.inr hc) (h.2 b hc hpc)
    · exact retry_inv' h

theorem mod_inv {s : Sys} {b : Nat} {f : B → B} (h : Inv s) (hf : ∀ x, (f x).pc = x.pc ∧ (f x).had = x.had ∧ (f x).last = x.last) : Inv (s.mod b f) := by
  refine ⟨h.1, fun i hi hpc => ?_⟩
  unfold Holds
  by_cases e : i = b
  · subst e
    rw [mod_self, (hf _).1] at hpc
    rw [mod_self, (hf _).2.1, (hf _).2.2]
    exact h.2 i hi hpc
  · rw [mod_other e] at hpc ⊢
    exact h.2 i hi hpc

theorem power_inv {s : Sys} {b : Nat} {v : Bool} (h : Inv s) : Inv (power s b v) := by
  refine ⟨power_clean h.1, fun i hi hpc => ?_⟩
  rcases power_cases s b v with ⟨h1, h2, _⟩ | ⟨h1, _⟩
  · unfold Holds
    rw [h1] at hi
    rw [h2]
    by_cases e : i = b
    · subst e; rw [power_self] at hpc ⊢; exact h.2 i hi hpc
    · rw [power_other e] at hpc ⊢; exact h.2 i hi hpc
  · rw [h1] at hi; cases hi

theorem step_inv {d : Nat} {s : Sys} {b : Nat} {op : Op} (h : Inv s) : Inv (step d s b op) := by
  cases op with
  | loop e => exact loop_inv h
  | deactivate => exact mod_inv (power_inv h) fun x => ⟨rfl, rfl, rfl⟩
  | _ => exact mod_inv h fun x => ⟨rfl, rfl, rfl⟩

theorem reach_inv {delay : Nat → Nat} {G : Sys → Nat → Op → Prop} {s : Sys} {t : Nat} {w : Nat → Nat} (h : Reach delay G s t w) : Inv s := by
  induction h with
  | init => exact ⟨fun x hx => (by cases hx), fun b hb => by cases hb⟩
  | step b op t' _ _ _ _ _ ih => exact step_inv ih

/-- Any number of blades share the pixel buffer; their loops, ignitions, effects, and blade changes are interleaved in any way.  Every frame sent
is the sending blade's own latest rendering, or black; never a mixture or the pixels of another blade. -/
theorem C71_own {delay : Nat → Nat} {s : Sys} {t : Nat} {w : Nat → Nat} (h : Reach delay (fun _ _ _ => True) s t w) {b last : Nat} {p : Pix}
    (hs : (b, p, true, last) ∈ s.sent) : p = .black b ∨ p = .style b last :=
  (reach_inv h).1 _ hs rfl

theorem retry_free {s : Sys} {b : Nat} (h : Mine s b) : (retry s b).cur = none := by
  unfold retry
  simp only [mod_fields]
  rcases h with e | e <;> simp [e]

theorem retry_sent (s : Sys) (b : Nat) : (retry s b).sent = s.sent := rfl

/-- When no blade holds the buffer, a blade that runs and has power sends its rendering as soon as the pin is ready, and leaves the buffer free. -/
theorem C71_turn {d : Nat} {e : Env} {s : Sys} {b : Nat} (hpc : (s.bl b).pc = .top) (hs : (s.bl b).style = true) (hr : (s.bl b).run = true) (hq : (s.bl b).req = false)
    (hp : (s.bl b).powered = true) (hc : s.cur = none) (h1 : e.rb = true) (h2 : e.re = true) :
    (b, Pix.style b s.n, true, s.n) ∈ (loop d e s b).sent ∧ (loop d e s b).cur = none := by
  obtain ⟨r, hr0⟩ : ∃ r, r = render e { s with cur := some b } b := ⟨_, rfl⟩
  have hb : r.bl b = { s.bl b with allow := e.allow && !(s.bl b).on, last := s.n, had := true } ∧ r.buf = .style b s.n ∧ r.cur = some b := by
    rw [hr0]; unfold render; simp only [hs, if_true, upd_eq]; exact ⟨trivial, trivial, trivial⟩
  have e1 : loop d e s b = endFrame d e r b := by
    unfold loop
    simp only [hpc, hs, hr, hc, hq, Bool.not_true, Bool.or_self, Bool.false_eq_true, if_false, Option.isSome_none]
    unfold beginFrame
    simp only [h1, if_true]
    rw [← hr0, hb.1]
    simp only [hp, if_true]
  rw [e1]
  have hmem : (b, Pix.style b s.n, true, s.n) ∈ (send r b).sent := by
    unfold send
    apply List.mem_append_right
    rw [hb.1, hb.2.1]
    exact List.mem_singleton.2 rfl
  have hqc : Mine (send r b) b := Or.inr hb.2.2
  have hpo : ∀ q : Sys, (b, Pix.style b s.n, true, s.n) ∈ q.sent → (b, Pix.style b s.n, true, s.n) ∈ (powerOff d e.t q b).sent := by
    intro q hq
    rw [powerOff_eq]
    split
    · rw [(mod_fields _ _ _).2.2]
      unfold power
      simp only [mod_self]
      rw [(mod_fields _ _ _).2.2]
      split
      · exact List.mem_append_left _ hq
      · split
        · exact List.mem_append_left _ hq
        · exact hq
    · exact hq
  unfold endFrame
  rw [if_pos h2, retry_sent]
  unfold finish
  split
  · exact ⟨hpo _ (by rw [(mod_fields _ _ _).2.2]; exact hmem), retry_free (powerOff_mine (by unfold Mine; rw [(mod_fields _ _ _).1]; exact hqc))⟩
  · exact ⟨hmem, retry_free hqc⟩

/-! ### Running a list of operations -/

/-- blade, operation, time -/
def exec (delay : Nat → Nat) : Sys → List (Nat × Op × Nat) → Sys
  | s, [] => s
  | s, (b, op, _) :: l => exec delay (step (delay b) s b op) l

def okOp (s : Sys) (b : Nat) (t t' : Nat) : Op → Bool
  | .loop e => (s.bl b).linked && decide (t ≤ t') && decide (e.t = t')
  | _ => decide (t ≤ t')

def okRun (delay : Nat → Nat) : Sys → Nat → List (Nat × Op × Nat) → Bool
  | _, _, [] => true
  | s, t, (b, op, t') :: l => okOp s b t t' op && okRun delay (step (delay b) s b op) t' l

theorem exec_reach {delay : Nat → Nat} : ∀ (l : List (Nat × Op × Nat)) {s : Sys} {t : Nat} {w : Nat → Nat}, Reach delay (fun _ _ _ => True) s t w → okRun delay s t l = true →
    ∃ t' w', Reach delay (fun _ _ _ => True) (exec delay s l) t' w'
  | [], s, t, w, h, _ => ⟨t, w, h⟩
  | (b, op, t') :: l, s, t, w, h, hok => by
    simp only [okRun, Bool.and_eq_true] at hok
    have h1 : Enabled s b op ∧ t ≤ t' ∧ ∀ e, op = .loop e → e.t = t' := by
      cases op with
      | loop e =>
        have := hok.1
        simp only [okOp, Bool.and_eq_true, decide_eq_true_eq] at this
        exact ⟨this.1.1, this.1.2, fun e' he => by cases he; exact this.2⟩
      | _ => exact ⟨trivial, by simpa [okOp] using hok.1, fun e he => by cases he⟩
    exact exec_reach l (h.step b op t' h1.1 trivial h1.2.1 h1.2.2) hok.2

/-- two blades of a saber, both ignited; blade 1 renders while blade 0 waits to send -/
def demo : List (Nat × Op × Nat) :=
  [(0, .activate, 1), (1, .activate, 1), (0, .setStyle, 1), (1, .setStyle, 1), (0, .on, 2), (1, .on, 2),
   (0, .loop ⟨3, true, true, false⟩, 3), (1, .loop ⟨3, true, true, false⟩, 3), (0, .loop ⟨3, true, true, false⟩, 3), (1, .loop ⟨4, true, true, false⟩, 4),
   (0, .loop ⟨5, true, false, false⟩, 5), (1, .loop ⟨5, true, true, false⟩, 5), (0, .loop ⟨6, true, true, false⟩, 6), (1, .loop ⟨6, true, true, false⟩, 6)]
example : okRun (fun _ => 0) Sys.init 0 demo = true ∧ (0, Pix.style 0 2, true, 2) ∈ (exec (fun _ => 0) Sys.init demo).sent ∧ (1, Pix.style 1 3, true, 3) ∈ (exec (fun _ => 0) Sys.init demo).sent := by
  decide

/-- A style taken away while its blade waits to begin a frame: the blade then sends what another blade left in the buffer. -/
theorem C71_nostyle_counterexample : ∃ s t w, Reach (fun _ => 0) (fun _ _ _ => True) s t w ∧ ∃ n last, (1, Pix.style 0 n, false, last) ∈ s.sent := by
  obtain ⟨t, w, h⟩ := exec_reach (delay := fun _ => 0)
    [(0, .activate, 1), (1, .activate, 1), (0, .setStyle, 1), (1, .setStyle, 1), (0, .on, 2), (1, .on, 2),
     (0, .loop ⟨3, true, true, false⟩, 3), (1, .loop ⟨3, true, true, false⟩, 3), (0, .loop ⟨3, true, true, false⟩, 3), (1, .loop ⟨4, true, true, false⟩, 4),
     (0, .loop ⟨5, true, true, false⟩, 5), (1, .loop ⟨5, false, true, false⟩, 5), (1, .unsetStyle, 6), (1, .loop ⟨7, true, true, false⟩, 7)] Reach.init (by decide)
  exact ⟨_, t, w, h, 2, 1, by decide⟩

/-- A blade without power that is deactivated while it waits to begin a frame keeps the buffer: another blade can then run its loop for ever, at
whatever times and with the pin always ready, and never sends a frame. -/
theorem C71_stuck_counterexample : ∃ s t w, Reach (fun _ => 0) (fun _ _ _ => True) s t w ∧ (s.bl 0).linked = false ∧ (s.bl 1).linked = true ∧ (s.bl 1).on = true ∧
    (s.bl 1).style = true ∧ (s.bl 1).run = true ∧ ∀ es : List Env, (es.foldl (fun s e => loop 0 e s 1) s).sent = [] := by
  obtain ⟨t, w, h⟩ := exec_reach (delay := fun _ => 0)
    [(0, .activate, 1), (0, .setStyle, 1), (0, .on, 2), (0, .loop ⟨3, false, true, false⟩, 3), (0, .loop ⟨3, false, true, false⟩, 3), (0, .deactivate, 4),
     (1, .activate, 4), (1, .setStyle, 4), (1, .on, 5)] Reach.init (by decide)
  refine ⟨_, t, w, h, by decide, by decide, by decide, by decide, by decide, fun es => ?_⟩
  have key : ∀ (es : List Env) (s : Sys), s.cur = some 0 → ((s.bl 1).pc = .start ∨ (s.bl 1).pc = .top) → s.sent = [] → (es.foldl (fun s e => loop 0 e s 1) s).sent = [] := by
    intro es
    induction es with
    | nil => intro s _ _ h; exact h
    | cons e es ih =>
      intro s hc hp hs
      have hl : loop 0 e s 1 = retry s 1 := by
        unfold loop
        rcases hp with hp | hp
        · simp only [hp]
        · simp only [hp, hc]
          split <;> rfl
      rw [List.foldl_cons, hl]
      apply ih
      · unfold retry; simp [mod_fields, hc]
      · right; rw [retry_self]
      · exact hs
  exact key es _ (by decide) (by decide) (by decide)

/-! ## C72 -/

/-- how one loop step changes the timing of its own blade: nothing but perhaps the start of the delay, or power off after the delay -/
def Timed (d t : Nat) (x x' : B) : Prop :=
  ((x'.start = x.start ∨ x'.start = (begun t x).start) ∧ (x.powered = true → x'.powered = true)) ∨ (over d t x = true ∧ x'.start = 0)

theorem over_congr {d t : Nat} {x y : B} (h : y.start = x.start) : over d t y = over d t x ∧ (begun t y).start = (begun t x).start := by
  have : (begun t y).start = (begun t x).start := by
    unfold begun; rw [h]; split <;> simp [*]
  exact ⟨by unfold over; rw [this], this⟩

theorem powerOff_timed (d t : Nat) (s : Sys) (b : Nat) : Timed d t (s.bl b) ((powerOff d t s b).bl b) := by
  rw [powerOff_self]
  split
  · right; exact ⟨by assumption, rfl⟩
  · left; exact ⟨Or.inr rfl, fun h => by unfold begun; split <;> exact h⟩

theorem timed_pre {d t : Nat} {x y z : B} (h : Timed d t y z) (h1 : y.start = x.start) (h2 : x.powered = true → y.powered = true) : Timed d t x z := by
  obtain ⟨e1, e2⟩ := over_congr (d := d) (t := t) h1
  unfold Timed at *
  rw [e1, e2, h1] at h
  rcases h with ⟨ha, hb⟩ | h
  · exact Or.inl ⟨ha, fun hx => hb (h2 hx)⟩
  · exact Or.inr h

theorem timed_post {d t : Nat} {x y z : B} (h : Timed d t x y) (h1 : z.start = y.start) (h2 : z.powered = y.powered) : Timed d t x z := by
  unfold Timed at *; rw [h1, h2]; exact h

theorem timed_refl (d t : Nat) (x : B) : Timed d t x x := Or.inl ⟨Or.inl rfl, id⟩

theorem timed_retry {d t : Nat} {x : B} {s : Sys} {b : Nat} (h : Timed d t x (s.bl b)) : Timed d t x ((retry s b).bl b) := by
  rw [retry_self]; exact timed_post h rfl rfl

theorem endFrame_timed (d : Nat) (e : Env) (s : Sys) (b : Nat) : Timed d e.t (s.bl b) ((endFrame d e s b).bl b) := by
  unfold endFrame
  split
  · apply timed_retry
    unfold finish
    split
    · have := powerOff_timed d e.t ((send s b).mod b fun x => { x with req := true }) b
      rw [mod_self] at this
      exact timed_pre this rfl id
    · exact timed_refl _ _ _
  · rw [mod_self]; exact timed_post (timed_refl d e.t _) rfl rfl

theorem render_self (e : Env) (s : Sys) (b : Nat) : (render e s b).bl b = { s.bl b with allow := (s.bl b).style && (e.allow && !(s.bl b).on), last := if (s.bl b).style then s.n else (s.bl b).last, had := (s.bl b).style } := by
  unfold render
  simp only
  cases hs : (s.bl b).style with
  | true => simp [upd_eq, hs]
  | false => simp [mod_self, hs]

theorem beginFrame_timed (d : Nat) (e : Env) (s : Sys) (b : Nat) : Timed d e.t (s.bl b) ((beginFrame d e s b).bl b) := by
  unfold beginFrame
  split
  · simp only
    split
    · refine timed_pre (endFrame_timed d e _ b) ?_ ?_
      · rw [render_self]
      · intro h; rw [render_self]; exact h
    · split
      · rw [retry_self, mod_self, render_self]
        exact timed_post (timed_refl d e.t _) rfl rfl
      · refine timed_pre (endFrame_timed d e _ b) ?_ ?_
        · rw [power_self, render_self]
        · intro h; rw [power_self]
  · rw [mod_self]; exact timed_post (timed_refl d e.t _) rfl rfl

theorem loop_timed (d : Nat) (e : Env) (s : Sys) (b : Nat) : Timed d e.t (s.bl b) ((loop d e s b).bl b) := by
  have hr : Timed d e.t (s.bl b) ((retry s b).bl b) := by rw [retry_self]; exact timed_post (timed_refl d e.t _) rfl rfl
  unfold loop
  simp only
  split
  · exact hr
  · split
    · exact hr
    · split
      · exact hr
      · split
        · exact timed_retry (powerOff_timed d e.t { s with cur := some b } b)
        · exact beginFrame_timed d e { s with cur := some b } b
  · split
    · exact beginFrame_timed d e s b
    · exact hr
  · split
    · exact endFrame_timed d e s b
    · exact hr

/-- a running delay began after the last ignition or effect -/
def Delayed (s : Sys) (t : Nat) (w : Nat → Nat) : Prop := ∀ b, w b ≤ t ∧ ((s.bl b).start ≠ 0 → ∃ t0, t0 % 4294967296 = (s.bl b).start ∧ t0 ≤ t ∧ w b ≤ t0)

theorem step_start (d : Nat) (s : Sys) (b : Nat) {op : Op} (h : ∀ e, op ≠ .loop e) : ((step d s b op).bl b).start = if op.wakes = true then 0 else (s.bl b).start := by
  cases op with
  | loop e => exact absurd rfl (h e)
  | deactivate => simp only [step, Op.wakes]; rw [mod_self, power_self]; rfl
  | _ => simp only [step, Op.wakes]; rw [mod_self]; rfl

theorem reach_delayed {delay : Nat → Nat} {G : Sys → Nat → Op → Prop} {s : Sys} {t : Nat} {w : Nat → Nat} (h : Reach delay G s t w) : Delayed s t w := by
  induction h with
  | init => exact fun b => ⟨Nat.le_refl _, fun h => absurd rfl h⟩
  | @step s t w b op t' h he hg ht hte ih =>
    intro i
    obtain ⟨i1, i2⟩ := ih i
    by_cases hib : i = b
    · subst hib
      by_cases hop : ∃ e, op = .loop e
      · obtain ⟨e, rfl⟩ := hop
        have het := hte e rfl
        simp only [Op.wakes, Bool.false_eq_true, and_false, if_false]
        refine ⟨by omega, fun hne => ?_⟩
        rcases loop_timed (delay i) e s i with ⟨h1, _⟩ | ⟨_, h1⟩
        · simp only [step] at hne
          by_cases hz : (s.bl i).start = 0
          · rcases h1 with h1 | h1
            · rw [h1] at hne; exact absurd hz hne
            · refine ⟨t', ?_, Nat.le_refl _, by omega⟩
              simp only [step]
              rw [h1]
              unfold begun
              rw [if_pos hz, het]
          · obtain ⟨t0, a, b, c⟩ := i2 hz
            refine ⟨t0, ?_, by omega, c⟩
            simp only [step]
            rcases h1 with h1 | h1
            · rw [h1]; exact a
            · rw [h1]; unfold begun; rw [if_neg hz]; exact a
        · simp only [step] at hne; exact absurd h1 hne
      · have hs := step_start (delay i) s i (op := op) (fun e he => hop ⟨e, he⟩)
        rw [hs]
        cases hwk : op.wakes with
        | true => simp
        | false =>
          simp only [Bool.false_eq_true, and_false, if_false]
          refine ⟨by omega, fun hne => ?_⟩
          obtain ⟨t0, a, b, c⟩ := i2 hne
          exact ⟨t0, a, by omega, c⟩
    · rw [step_other hib]
      simp only [hib, false_and, if_false]
      refine ⟨by omega, fun hne => ?_⟩
      obtain ⟨t0, a, b, c⟩ := i2 hne
      exact ⟨t0, a, by omega, c⟩

theorem mod_sub_le {a b : Nat} (h : b ≤ a) : (a % 4294967296 + 4294967296 - b % 4294967296) % 4294967296 ≤ a - b := by
  have e : (a - b) % 4294967296 = (a % 4294967296 + 4294967296 - b % 4294967296) % 4294967296 := by
    obtain ⟨c, rfl⟩ : ∃ c, a = b + c := ⟨a - b, by omega⟩
    rw [Nat.add_sub_cancel_left]
    omega
  rw [← e]
  exact Nat.mod_le _ _

/-- A blade's loop switches its power off only when the blade was neither ignited nor had an effect during the whole power-off delay. -/
theorem C72_delay {delay : Nat → Nat} (hd : ∀ b, delay b ≤ 4294967295) {s : Sys} {t : Nat} {w : Nat → Nat} (h : Reach delay (fun _ _ _ => True) s t w) {b : Nat} {e : Env}
    (ht : t ≤ e.t) (h1 : (s.bl b).powered = true) (h2 : ((loop (delay b) e s b).bl b).powered = false) : w b + delay b ≤ e.t := by
  obtain ⟨i1, i2⟩ := reach_delayed h b
  rcases loop_timed (delay b) e s b with ⟨_, h3⟩ | ⟨h3, _⟩
  · rw [h3 h1] at h2; cases h2
  · unfold over at h3
    simp only [Bool.not_eq_true', decide_eq_false_iff_not, Nat.not_lt] at h3
    by_cases hz : (s.bl b).start = 0
    · unfold begun at h3
      rw [if_pos hz] at h3
      simp only at h3
      have : (e.t % 4294967296 + 4294967296 - e.t % 4294967296) % 4294967296 = 0 := by
        rw [Nat.add_sub_cancel_left]
      rw [this] at h3
      omega
    · obtain ⟨t0, a, c, c2⟩ := i2 hz
      unfold begun at h3
      rw [if_neg hz, ← a] at h3
      have : (e.t % 4294967296 + 4294967296 - t0 % 4294967296) % 4294967296 ≤ e.t - t0 := by
        clear h3 h2 h1 h hd i1 i2 a c2 hz
        exact mod_sub_le (Nat.le_trans c ht)
      omega

/-- When the delay is over the power goes off at the blade's next turn, and the blade stops running. -/
theorem C72_off {d : Nat} {e : Env} {s : Sys} {b : Nat} (hpc : (s.bl b).pc = .top) (hs : (s.bl b).style = true) (hr : (s.bl b).run = true) (hq : (s.bl b).req = true)
    (hc : s.cur = none) (h0 : (s.bl b).start ≠ 0) (ht : d ≤ (e.t % 4294967296 + 4294967296 - (s.bl b).start) % 4294967296) :
    ((loop d e s b).bl b).powered = false ∧ ((loop d e s b).bl b).run = false ∧ (loop d e s b).cur = none := by
  have e1 : loop d e s b = retry (powerOff d e.t { s with cur := some b } b) b := by
    unfold loop
    simp only [hpc, hs, hr, hc, hq, Bool.not_true, Bool.or_self, Bool.false_eq_true, if_false, Option.isSome_none, if_true]
  have ho : over d e.t (s.bl b) = true := by
    unfold over begun
    rw [if_neg h0]
    simp only [Bool.not_eq_true', decide_eq_false_iff_not, Nat.not_lt]
    exact ht
  have hs2 := powerOff_self d e.t { s with cur := some b } b
  rw [if_pos ho] at hs2
  have hm : Mine (powerOff d e.t { s with cur := some b } b) b := powerOff_mine (Or.inr rfl)
  rw [e1]
  refine ⟨?_, ?_, retry_free hm⟩
  · rw [retry_self, hs2]
  · rw [retry_self, hs2]

/-! ### A blade that is on -/

/-- no ignition while the blade waits to send a frame whose style asked to be disabled -/
def NoRace (s : Sys) (b : Nat) (op : Op) : Prop := op = .on → (s.bl b).pc = .waitEnd → (s.bl b).allow = false

structure Lit (x : B) : Prop where
  req : x.req = true → x.on = false
  allow : x.pc = .waitEnd → x.allow = true → x.on = false
  run : x.on = true → x.run = true

theorem powerOff_lit {d t : Nat} {s : Sys} {b : Nat} (h : (s.bl b).on = false) : ((powerOff d t s b).bl b).on = false := by
  rw [powerOff_self]
  split
  · exact h
  · unfold begun; split <;> exact h

theorem lit_dark {x : B} (h : x.on = false) : Lit x := ⟨fun _ => h, fun _ _ => h, fun h' => by rw [h] at h'; cases h'⟩

theorem retry_dark {s : Sys} {b : Nat} (h : (s.bl b).on = false) : Lit ((retry s b).bl b) := by rw [retry_self]; exact lit_dark h

theorem retry_lit {s : Sys} {b : Nat} (h1 : (s.bl b).req = true → (s.bl b).on = false) (h3 : (s.bl b).on = true → (s.bl b).run = true) : Lit ((retry s b).bl b) := by
  rw [retry_self]; exact ⟨h1, fun h => (by cases h), h3⟩

theorem endFrame_lit {d : Nat} {e : Env} {s : Sys} {b : Nat} (h1 : (s.bl b).req = true → (s.bl b).on = false) (h2 : (s.bl b).allow = true → (s.bl b).on = false)
    (h3 : (s.bl b).on = true → (s.bl b).run = true) : Lit ((endFrame d e s b).bl b) := by
  unfold endFrame
  split
  · unfold finish
    split
    · rename_i hpa
      simp only [Bool.and_eq_true] at hpa
      exact retry_dark (powerOff_lit (by rw [mod_self]; exact h2 hpa.2))
    · exact retry_lit h1 h3
  · rw [mod_self]; exact ⟨h1, fun _ => h2, h3⟩

theorem beginFrame_lit {d : Nat} {e : Env} {s : Sys} {b : Nat} (h1 : (s.bl b).req = true → (s.bl b).on = false)
    (h3 : (s.bl b).on = true → (s.bl b).run = true) : Lit ((beginFrame d e s b).bl b) := by
  have ha : ((render e s b).bl b).allow = true → (s.bl b).on = false := by
    rw [render_self]
    simp only [Bool.and_eq_true, Bool.not_eq_true']
    exact fun h => h.2.2
  have ho : ((render e s b).bl b).on = (s.bl b).on ∧ ((render e s b).bl b).req = (s.bl b).req ∧ ((render e s b).bl b).run = (s.bl b).run := by
    rw [render_self]; exact ⟨rfl, rfl, rfl⟩
  unfold beginFrame
  split
  · simp only
    split
    · apply endFrame_lit
      · rw [ho.1, ho.2.1]; exact h1
      · rw [ho.1]; exact ha
      · rw [ho.1, ho.2.2]; exact h3
    · split
      · rename_i hal
        exact retry_dark (by rw [mod_self]; exact ho.1.trans (ha hal))
      · apply endFrame_lit
        · rw [power_self]; simp only; rw [ho.1, ho.2.1]; exact h1
        · rw [power_self]; intro h; cases h
        · rw [power_self]; simp only; rw [ho.1, ho.2.2]; exact h3
  · rw [mod_self]; exact ⟨h1, fun h => (by cases h), h3⟩

theorem loop_lit {d : Nat} {e : Env} {s : Sys} {b : Nat} (h : Lit (s.bl b)) : Lit ((loop d e s b).bl b) := by
  have hr : Lit ((retry s b).bl b) := retry_lit h.req h.run
  unfold loop
  simp only
  split
  · exact hr
  · split
    · exact hr
    · split
      · exact hr
      · split
        · rename_i hq
          exact retry_dark (powerOff_lit (s := { s with cur := some b }) (h.req hq))
        · exact beginFrame_lit (s := { s with cur := some b }) h.req h.run
  · split
    · exact beginFrame_lit h.req h.run
    · exact hr
  · rename_i hpc
    split
    · exact endFrame_lit h.req (h.allow hpc) h.run
    · exact hr

theorem reach_lit {delay : Nat → Nat} {s : Sys} {t : Nat} {w : Nat → Nat} (h : Reach delay NoRace s t w) : ∀ b, Lit (s.bl b) := by
  induction h with
  | init => exact fun b => ⟨fun h => (by cases h), fun _ h => (by cases h), fun h => (by cases h)⟩
  | @step s t w b op t' h he hg ht hte ih =>
    intro i
    by_cases hib : i = b
    · subst hib
      have hi := ih i
      cases op with
      | loop e => exact loop_lit hi
      | on =>
        simp only [step]; rw [mod_self]
        exact ⟨fun h => (by cases h), fun h1 h2 => (by rw [hg rfl h1] at h2; cases h2), fun _ => rfl⟩
      | effect => simp only [step]; rw [mod_self]; exact ⟨fun h => (by cases h), hi.allow, fun _ => rfl⟩
      | off idle => simp only [step]; rw [mod_self]; exact lit_dark rfl
      | setStyle => simp only [step]; rw [mod_self]; exact ⟨hi.req, hi.allow, fun _ => rfl⟩
      | unsetStyle => simp only [step]; rw [mod_self]; exact ⟨hi.req, hi.allow, hi.run⟩
      | activate => simp only [step]; rw [mod_self]; exact ⟨hi.req, hi.allow, fun _ => rfl⟩
      | deactivate =>
        simp only [step]; rw [mod_self, power_self]
        exact ⟨hi.req, fun _ h => (by cases h), hi.run⟩
    · rw [step_other hib]; exact ih i

/-- A blade that is on keeps running and its loop never switches off its power — provided no ignition comes while the blade waits to send a frame whose style
had asked for power off. -/
theorem C72_on_partial {delay : Nat → Nat} {s : Sys} {t : Nat} {w : Nat → Nat} (h : Reach delay NoRace s t w) {b : Nat} (hon : (s.bl b).on = true) :
    (s.bl b).run = true ∧ (s.bl b).req = false := by
  have := reach_lit h b
  refine ⟨this.run hon, ?_⟩
  cases hr : (s.bl b).req with
  | false => rfl
  | true => rw [this.req hr] at hon; cases hon

/-- The race: the blade is ignited while it waits to send a last black frame.  It is on, yet it loses its power and stops running: it stays dark,
whatever its loop is given, until the next effect. -/
theorem C72_race_counterexample : ∃ s t w, Reach (fun _ => 0) (fun _ _ _ => True) s t w ∧ (s.bl 0).on = true ∧ (s.bl 0).linked = true ∧ (s.bl 0).style = true ∧
    (s.bl 0).powered = false ∧ ∀ es : List Env, (es.foldl (fun s e => loop 0 e s 0) s).sent = s.sent := by
  obtain ⟨t, w, h⟩ := exec_reach (delay := fun _ => 0)
    [(0, .activate, 1), (0, .setStyle, 1), (0, .on, 2), (0, .loop ⟨3, true, true, false⟩, 3), (0, .loop ⟨3, true, true, false⟩, 3), (0, .off false, 4),
     (0, .loop ⟨5, true, false, true⟩, 5), (0, .on, 6), (0, .loop ⟨7, true, true, true⟩, 7)] Reach.init (by decide +kernel)
  refine ⟨_, t, w, h, by decide +kernel, by decide +kernel, by decide +kernel, by decide +kernel, fun es => ?_⟩
  have key : ∀ (es : List Env) (s : Sys), (s.bl 0).pc = .top → (s.bl 0).run = false → (es.foldl (fun s e => loop 0 e s 0) s).sent = s.sent := by
    intro es
    induction es with
    | nil => intro s _ _; rfl
    | cons e es ih =>
      intro s hp hr
      have hl : loop 0 e s 0 = retry s 0 := by
        unfold loop
        simp [hp, hr]
      rw [List.foldl_cons, hl, ih]
      · rfl
      · rw [retry_self]
      · rw [retry_self]; exact hr
  exact key es _ (by decide +kernel) (by decide +kernel)

/-! ### Concrete cases -/

/-- ignited at 2, off at 4, the style allows power off from 5 on -/
def demoOff : List (Nat × Op × Nat) :=
  [(0, .activate, 1), (0, .setStyle, 1), (0, .on, 2), (0, .loop ⟨3, true, true, false⟩, 3), (0, .loop ⟨3, true, true, false⟩, 3), (0, .off false, 4),
   (0, .loop ⟨5, true, true, true⟩, 5)]
example : okRun (fun _ => 500) Sys.init 0 demoOff = true ∧ ((exec (fun _ => 500) Sys.init demoOff).bl 0).powered = true ∧
    ((loop 500 ⟨505, true, true, true⟩ (exec (fun _ => 500) Sys.init demoOff) 0).bl 0).powered = false ∧
    ((loop 500 ⟨504, true, true, true⟩ (exec (fun _ => 500) Sys.init demoOff) 0).bl 0).powered = true := by decide +kernel
example : ((exec (fun _ => 500) Sys.init demoOff).bl 0).pc = .top ∧ ((exec (fun _ => 500) Sys.init demoOff).bl 0).req = true ∧ ((exec (fun _ => 500) Sys.init demoOff).bl 0).start = 5 := by decide +kernel
example : ∃ s t w, Reach (fun _ => 0) NoRace s t w ∧ (s.bl 0).on = true :=
  ⟨_, 1, _, Reach.init.step 0 .on 1 trivial (fun _ h => by cases h) (by decide) (fun e h => by cases h), rfl⟩

end Verif.Blade.Ws
