import Verif.Transition.Model
/-!
# Transitions: the colours shown
-/
set_option linter.unusedSimpArgs false
namespace Verif.Transition
open Verif.Color (OD mixOD C27_mixcolors)

/-! ## Timed transitions -/

theorem update_le (t : Timer) (e : Env) (scale : Nat) : (t.update e scale).2 ≤ scale := by
  unfold Timer.update
  split
  · exact Nat.le_refl _
  · rename_i hd
    split
    · exact Nat.le_refl _
    · rename_i hl
      simp only
      unfold bend
      generalize (e.now + 4294967296 - t.start) % 4294967296 = d at *
      have h0 : 0 < t.len := by
        unfold Timer.done at hd
        simp at hd; omega
      generalize t.len = n at *
      by_cases hs : scale * d < 4294967296
      · rw [Nat.mod_eq_of_lt hs]
        have : scale * d ≤ scale * n := Nat.mul_le_mul_left _ (by omega)
        exact Nat.div_le_of_le_mul (by rw [Nat.mul_comm n]; exact this)
      · have h1 : scale * d % 4294967296 ≤ scale * n := by
          have : scale * d ≤ scale * n := Nat.mul_le_mul_left _ (by omega)
          have := Nat.mod_lt (scale * d) (show 0 < 4294967296 by decide)
          omega
        exact Nat.div_le_of_le_mul (by rw [Nat.mul_comm n]; exact h1)

theorem update_done {t : Timer} {e : Env} {scale : Nat} (h : (t.update e scale).1.done = true) : (t.update e scale).2 = scale := by
  unfold Timer.update at *
  split
  · rfl
  · rename_i hd
    rw [if_neg hd] at h
    split
    · rfl
    · rename_i hl
      rw [if_neg hl] at h
      exact absurd h hd

theorem update_of_done {t : Timer} {e : Env} {scale : Nat} (h : t.done = true) : t.update e scale = (t, scale) := by
  unfold Timer.update; rw [if_pos h]

theorem update_restart {t : Timer} {e : Env} {scale : Nat} : (t.update e scale).1.restart = t.restart := by
  unfold Timer.update
  split
  · rfl
  · split <;> rfl

/-- what the state of a timed transition is when it is done, for a blade with `n` LEDs -/
def Leaf.Final (n : Nat) : Kind → Leaf → Prop
  | .fade, l => l.lo = 16384
  | .smooth, l => l.lo = 16384
  | .delay, _ => True
  | .wipe, l => l.lo = 256 * n
  | .wipeIn, l => l.lo = 0 ∧ l.hi = n * 256
  | .boing _, l => l.lo = 16384
  | .blink _ _, _ => True
  | .centerWipe _, l => l.lo = 0 ∧ l.hi = 256 * n
  | .centerWipeIn _, l => l.hi ≤ l.lo

/-- not the blinking transition, which ends with the first colour -/
def Kind.plain : Kind → Bool
  | .blink _ _ => false
  | _ => true

/-- positions are between 0 and 32768 -/
def Kind.Ok : Kind → Prop
  | .centerWipe pos | .centerWipeIn pos => ∀ e, pos e ≤ 32768
  | _ => True

theorem smooth_end : smoothStep 32768 = 16384 := by decide

theorem boing_end (n : Nat) : boingStep (16384 * (n * 2 + 1)) = 16384 := by
  unfold boingStep
  have h1 : 16384 * (n * 2 + 1) / 16384 % 2 = 1 := by omega
  have h2 : 16384 * (n * 2 + 1) % 16384 = 0 := by omega
  rw [if_pos h1, h2]

theorem center_le {p n : Nat} (h : p ≤ 32768) : center p n ≤ 256 * n := by
  unfold center
  have : p * n ≤ 32768 * n := Nat.mul_le_mul_right _ h
  omega

theorem run_restart (t : Timer) (e : Env) : (t.run e).restart = false := by
  unfold Timer.run
  split
  · rfl
  · rename_i h; simpa using h

theorem leaf_run_restart (k : Kind) (l : Leaf) (e : Env) : (l.run k e).timer.restart = false := by
  cases k <;> simp only [Leaf.run, update_restart, run_restart]

theorem leaf_run_final {k : Kind} (hk : k.Ok) (l : Leaf) (e : Env) (hd : (l.run k e).timer.done = true) : (l.run k e).Final e.leds k := by
  cases k with
  | fade => simp only [Leaf.run] at hd ⊢; exact update_done hd
  | smooth =>
    simp only [Leaf.run] at hd ⊢
    show smoothStep _ = _
    rw [update_done hd, smooth_end]
  | delay => trivial
  | wipe => simp only [Leaf.run] at hd ⊢; exact update_done hd
  | wipeIn =>
    simp only [Leaf.run] at hd ⊢
    refine ⟨?_, rfl⟩
    show toU32 _ = 0
    rw [update_done hd, Int.sub_self]; rfl
  | boing n =>
    simp only [Leaf.run] at hd ⊢
    show boingStep _ = _
    rw [update_done hd, boing_end]
  | blink => trivial
  | centerWipe pos =>
    simp only [Leaf.run] at hd ⊢
    have hc := center_le (n := e.leds) (hk e)
    generalize center (pos e) e.leds = c at *
    have h1 := update_done hd
    have h2 : ((l.timer.run e).update e (256 * e.leds - c)).2 = 256 * e.leds - c := by
      apply update_done
      cases hx : ((l.timer.run e).update e (256 * e.leds - c)).1.done with
      | true => rfl
      | false =>
        -- the first update would have ended it
        unfold Timer.update at hx
        split at hx
        · rename_i h; rw [h] at hx; cases hx
        · rename_i h3
          split at hx
          · cases hx
          · rename_i h4
            have e1 : (l.timer.run e).update e (256 * e.leds - c) = (l.timer.run e, bend ((e.now + 4294967296 - (l.timer.run e).start) % 4294967296) (l.timer.run e).len (256 * e.leds - c)) := by
              unfold Timer.update; rw [if_neg h3, if_neg h4]
            rw [e1] at hd
            simp only at hd
            unfold Timer.update at hd
            rw [if_neg h3, if_neg h4] at hd
            exact absurd hd h3
    constructor
    · show (clamp _ _ _).toNat = 0
      rw [h1]; unfold clamp
      split
      · rfl
      · split <;> omega
    · show (clamp _ _ _).toNat = _
      rw [h2]; unfold clamp
      split
      · omega
      · split <;> omega
  | centerWipeIn pos =>
    simp only [Leaf.run] at hd ⊢
    have hc := center_le (n := e.leds) (hk e)
    generalize center (pos e) e.leds = c at *
    have h1 := update_done hd
    have h2 : ((l.timer.run e).update e (256 * e.leds - c)).2 = 256 * e.leds - c := by
      apply update_done
      cases hx : ((l.timer.run e).update e (256 * e.leds - c)).1.done with
      | true => rfl
      | false =>
        unfold Timer.update at hx
        split at hx
        · rename_i h; rw [h] at hx; cases hx
        · rename_i h3
          split at hx
          · cases hx
          · rename_i h4
            have e1 : (l.timer.run e).update e (256 * e.leds - c) = (l.timer.run e, bend ((e.now + 4294967296 - (l.timer.run e).start) % 4294967296) (l.timer.run e).len (256 * e.leds - c)) := by
              unfold Timer.update; rw [if_neg h3, if_neg h4]
            rw [e1] at hd
            simp only at hd
            unfold Timer.update at hd
            rw [if_neg h3, if_neg h4] at hd
            exact absurd hd h3
    show (clamp _ _ _).toNat ≤ (clamp _ _ _).toNat
    rw [h1, h2]; unfold clamp
    split <;> split <;> (try split) <;> (try split) <;> omega

theorem mix_zero {a b : OD} (ha : a.c.ok 16) (hb : b.c.ok 16) {s : Nat} (hs : s ≤ 15) : mixOD a b (0 : Nat) s = some a := by
  obtain ⟨m, h, _, _, h0, _⟩ := C27_mixcolors hs ha hb (x := 0) (Nat.zero_le _)
  rw [h, h0 rfl]

theorem mix_full {a b : OD} (ha : a.c.ok 16) (hb : b.c.ok 16) {s x : Nat} (hs : s ≤ 15) (h1 : 1 ≤ s) (hx : x = 2 ^ s) : mixOD a b x s = some b := by
  obtain ⟨m, h, _, _, _, h0⟩ := C27_mixcolors hs ha hb (x := x) (Nat.le_of_eq hx)
  rw [h, h0 hx h1]

theorem final_color {n : Nat} {k : Kind} {l : Leaf} (hp : k.plain = true) (h : l.Final n k) (hd : l.timer.done = true) {a b : OD} (ha : a.c.ok 16) (hb : b.c.ok 16)
    {led : Nat} (hl : led < n) : l.color k a b led = some b := by
  cases k with
  | fade => exact mix_full ha hb (by decide) (by decide) h
  | smooth => exact mix_full ha hb (by decide) (by decide) h
  | delay => simp only [Leaf.color, hd, if_true]
  | wipe =>
    have h : l.lo = 256 * n := h
    refine mix_full ha hb (by decide) (by decide) ?_
    unfold overlap
    rw [h]
    show _ = 256
    omega
  | wipeIn =>
    obtain ⟨h1, h2⟩ : l.lo = 0 ∧ l.hi = n * 256 := h
    refine mix_full ha hb (by decide) (by decide) ?_
    unfold overlap
    rw [h1, h2]
    show _ = 256
    omega
  | boing => exact mix_full ha hb (by decide) (by decide) h
  | blink => cases hp
  | centerWipe =>
    obtain ⟨h1, h2⟩ : l.lo = 0 ∧ l.hi = 256 * n := h
    refine mix_full ha hb (by decide) (by decide) ?_
    unfold overlap
    rw [h1, h2]
    show _ = 256
    omega
  | centerWipeIn =>
    have h : l.hi ≤ l.lo := h
    have : overlap l.lo l.hi led = 0 := by unfold overlap; omega
    simp only [Leaf.color, this]
    exact mix_zero hb ha (by decide)

/-! ## All transitions -/

theorem overlap_le (lo hi led : Nat) : overlap lo hi led ≤ 256 := by unfold overlap; omega

theorem smooth_le {x : Nat} (h : x ≤ 32768) : smoothStep x ≤ 16384 := by
  unfold smoothStep
  obtain ⟨y, hy⟩ : ∃ y, x + y = 32768 := ⟨32768 - x, by omega⟩
  have h1 : x * x ≤ 1073741824 := Nat.mul_le_mul h h
  rw [Nat.mod_eq_of_lt (show x * x < 4294967296 by omega)]
  have h2 : (49152 + 4294967296 - x) % 4294967296 = 49152 - x := by omega
  rw [h2]
  -- x² (49152 - x) = 2^44 - (32768 - x)² (16384 + x)
  have h3 : x * x * (49152 - x) ≤ 17592186044416 := by
    have e1 : 49152 - x = 16384 + y := by omega
    rw [e1]
    have hx : x = 32768 - y := by omega
    have key : x * x * (16384 + y) + y * y * (16384 + x) = 17592186044416 := by
      have e3 : (x + y) * (x + y) * 16384 = 17592186044416 := by rw [hy]
      have e4 : x * y * (x + y) = x * y * 32768 := by rw [hy]
      have p1 : x * x * (16384 + y) + y * y * (16384 + x) + 2 * (x * y) * 16384 = (x + y) * (x + y) * 16384 + x * y * (x + y) := by
        simp only [Nat.mul_add, Nat.add_mul]
        have a1 : x * x * y = x * y * x := Nat.mul_right_comm x x y
        have a2 : y * y * x = x * y * y := by rw [Nat.mul_comm (y * y) x, Nat.mul_assoc]
        have a3 : y * x = x * y := Nat.mul_comm _ _
        rw [a1, a2, a3]
        clear a1 a2 a3 e3 e4 h1 h2 h hy hx e1
        generalize x * y * x = P
        generalize x * y * y = Q
        generalize x * x = X
        generalize y * y = Y
        generalize x * y = C
        omega
      have p2 := p1.trans (congr (congrArg HAdd.hAdd e3) e4)
      clear p1 e3 e4 h2 h1
      generalize x * x * (16384 + y) = A at *
      generalize y * y * (16384 + x) = B at *
      generalize x * y = C at *
      omega
    omega
  have h4 : x * x / 16384 * (49152 - x) ≤ 1073741824 := by
    have : x * x / 16384 * 16384 ≤ x * x := Nat.div_mul_le_self _ _
    have h5 := Nat.mul_le_mul_right (49152 - x) this
    have : x * x / 16384 * 16384 * (49152 - x) = 16384 * (x * x / 16384 * (49152 - x)) := by
      rw [Nat.mul_comm (x * x / 16384) 16384, Nat.mul_assoc]
    omega
  rw [Nat.mod_eq_of_lt (show x * x / 16384 * (49152 - x) < 4294967296 by omega)]
  omega

theorem boing_le (x : Nat) : boingStep x ≤ 16384 := by
  unfold boingStep; split <;> omega

/-- what is shown after the first frame -/
def Leaf.Bounded : Kind → Leaf → Prop
  | .fade, l | .smooth, l | .boing _, l => l.lo ≤ 16384
  | _, _ => True

theorem leaf_bounded (k : Kind) (l : Leaf) (e : Env) : (l.run k e).Bounded k := by
  cases k with
  | fade => exact update_le _ _ _
  | smooth => exact smooth_le (update_le _ _ _)
  | boing n => exact boing_le _
  | _ => trivial

/-- no blinking transition in it, positions in range, at least one loop -/
def Tr.Plain : Tr → Prop
  | .timed k _ => k.plain = true ∧ k.Ok
  | .instant => True
  | .concat2 _ a b | .concat3 _ a b _ | .join a b | .joinR a b | .loopUntil _ _ a b => a.Plain ∧ b.Plain
  | .extend _ _ a | .loop a => a.Plain
  | .loopN _ n a => a.Plain ∧ ∀ e, 1 ≤ n e

/-- the intermediate colours are 16-bit colours -/
def Tr.Colors : Tr → Prop
  | .timed _ _ | .instant => True
  | .concat2 _ a b | .join a b | .joinR a b | .loopUntil _ _ a b => a.Colors ∧ b.Colors
  | .concat3 _ a b i => a.Colors ∧ b.Colors ∧ ∀ led, (i led).c.ok 16
  | .extend _ _ a | .loop a | .loopN _ _ a => a.Colors

/-- the parts in use have been run since they were begun -/
def Tr.Live (n : Nat) : Tr → Prop
  | .timed k l => l.timer.restart = false ∧ (l.timer.done = true → l.Final n k) ∧ l.Bounded k
  | .instant => True
  | .concat2 r a b | .concat3 r a b _ => if r then a.Live n else b.Live n
  | .join a b | .joinR a b => a.Live n ∧ b.Live n
  | .extend x t a => a.Live n ∧ (x = true → a.done = true ∧ t.restart = false)
  | .loop a => a.Live n
  | .loopN l _ a => a.Live n ∧ (l = 0 → a.done = true)
  | .loopUntil p _ a o => a.Live n ∧ (p = true → o.Live n)

theorem timer_run_of {t : Timer} (h : t.restart = false) (e : Env) : t.run e = t := by
  unfold Timer.run; rw [h]; rfl

/-- a transition that is done stays done -/
theorem done_stays {n : Nat} {e : Env} : ∀ {t : Tr}, t.Live n → t.done = true → (t.go false e).done = true := by
  intro t
  induction t with
  | timed k l =>
    intro h hd
    have hd : l.timer.done = true := hd
    show ((Leaf.run k l e).timer.done) = true
    cases k <;> simp only [Leaf.run, timer_run_of h.1, update_of_done hd] <;> exact hd
  | instant => intros; rfl
  | concat2 r a b iha ihb =>
    intro h hd
    simp only [Tr.done, Bool.and_eq_true, Bool.not_eq_true'] at hd
    obtain ⟨rfl, hd⟩ := hd
    simp only [Tr.go, Bool.or_false, Bool.false_eq_true, if_false, Tr.done, Bool.not_false, Bool.true_and]
    exact ihb h hd
  | concat3 r a b i iha ihb =>
    intro h hd
    simp only [Tr.done, Bool.and_eq_true, Bool.not_eq_true'] at hd
    obtain ⟨rfl, hd⟩ := hd
    simp only [Tr.go, Bool.or_false, Bool.false_eq_true, if_false, Tr.done, Bool.not_false, Bool.true_and]
    exact ihb h hd
  | join a b iha ihb =>
    intro h hd
    simp only [Tr.done, Bool.and_eq_true] at hd
    simp only [Tr.go, Tr.done, Bool.and_eq_true]
    exact ⟨iha h.1 hd.1, ihb h.2 hd.2⟩
  | joinR a b iha ihb =>
    intro h hd
    simp only [Tr.done, Bool.and_eq_true] at hd
    simp only [Tr.go, Tr.done, Bool.and_eq_true]
    exact ⟨iha h.1 hd.1, ihb h.2 hd.2⟩
  | extend x t a iha =>
    intro h hd
    simp only [Tr.done, Bool.and_eq_true] at hd
    obtain ⟨rfl, hd⟩ := hd
    have := h.2 rfl
    simp only [Tr.go, extendRun, Bool.not_false, Bool.true_and, Bool.not_true, Bool.false_and, Bool.false_eq_true, if_false, if_true, Tr.done, timer_run_of this.2, update_of_done hd, hd]
  | loop a iha => intro h hd; cases hd
  | loopN l m a iha =>
    intro h hd
    have hl : l = 0 := by simpa [Tr.done] using hd
    subst hl
    simp [Tr.go, Tr.done]
  | loopUntil p pu a o iha iho =>
    intro h hd
    simp only [Tr.done, Bool.and_eq_true] at hd
    obtain ⟨rfl, hd⟩ := hd
    simp only [Tr.go, Bool.not_false, Bool.true_and, if_true, Tr.done]
    exact iho (h.2 rfl) hd

theorem plain_ok {k : Kind} {l : Leaf} (h : (Tr.timed k l).Plain) : k.Ok := h.2

/-- running keeps the parts in use live, and beginning makes them so -/
theorem live_go {e : Env} : ∀ {t : Tr} {bg : Bool}, t.Plain → (bg = false → t.Live e.leds) → (t.go bg e).Live e.leds := by
  intro t
  induction t with
  | timed k l =>
    intro bg hp _
    exact ⟨leaf_run_restart k _ e, leaf_run_final (plain_ok hp) _ e, leaf_bounded k _ e⟩
  | instant => intros; trivial
  | concat2 r a b iha ihb =>
    intro bg hp h
    simp only [Tr.go]
    by_cases hr : bg || r
    · rw [if_pos hr]
      have ha : bg = false → a.Live e.leds := by
        intro hb; subst hb
        have := h rfl
        simp only [Bool.false_or] at hr
        rw [hr] at this
        exact this
      by_cases hd : (a.go bg e).done
      · rw [if_pos hd]; exact ihb hp.2 (fun h => by cases h)
      · rw [if_neg hd]; exact iha hp.1 ha
    · rw [if_neg hr]
      have hr' : bg = false ∧ r = false := by simpa using hr
      obtain ⟨rfl, rfl⟩ := hr'
      exact ihb hp.2 (fun _ => h rfl)
  | concat3 r a b i iha ihb =>
    intro bg hp h
    simp only [Tr.go]
    by_cases hr : bg || r
    · rw [if_pos hr]
      have ha : bg = false → a.Live e.leds := by
        intro hb; subst hb
        have := h rfl
        simp only [Bool.false_or] at hr
        rw [hr] at this
        exact this
      by_cases hd : (a.go bg e).done
      · rw [if_pos hd]; exact ihb hp.2 (fun h => by cases h)
      · rw [if_neg hd]; exact iha hp.1 ha
    · rw [if_neg hr]
      have hr' : bg = false ∧ r = false := by simpa using hr
      obtain ⟨rfl, rfl⟩ := hr'
      exact ihb hp.2 (fun _ => h rfl)
  | join a b iha ihb => intro bg hp h; exact ⟨iha hp.1 (fun hb => (h hb).1), ihb hp.2 (fun hb => (h hb).2)⟩
  | joinR a b iha ihb => intro bg hp h; exact ⟨iha hp.1 (fun hb => (h hb).1), ihb hp.2 (fun hb => (h hb).2)⟩
  | extend x t a iha =>
    intro bg hp h
    have ha : (a.go bg e).Live e.leds := iha hp (fun hb => (h hb).1)
    simp only [Tr.go, extendRun]
    split
    · rename_i hc
      simp only [Bool.and_eq_true] at hc
      refine ⟨ha, fun _ => ⟨hc.2, ?_⟩⟩
      rw [update_restart, run_restart]
    · split
      · rename_i h1 h2
        simp only [Bool.and_eq_true, Bool.not_eq_true'] at h2
        obtain ⟨rfl, rfl⟩ := h2
        refine ⟨ha, fun _ => ⟨?_, ?_⟩⟩
        · exact done_stays (h rfl).1 ((h rfl).2 rfl).1
        · rw [update_restart, run_restart]
      · exact ⟨ha, fun h => by cases h⟩
  | loop a iha =>
    intro bg hp h
    refine iha hp (fun hb => ?_)
    simp only [Bool.or_eq_false_iff] at hb
    exact h hb.1
  | loopN l m a iha =>
    intro bg hp h
    simp only [Tr.go]
    have hn := hp.2 e
    generalize hl1 : (if (bg || decide (l < 0)) = true then m e + 1 else l) = l1
    by_cases hc : l1 > 0 ∧ (if bg = true then a.begin else a).done = true
    · rw [if_pos hc]
      refine ⟨iha hp.1 (fun hb => (h (by simp only [Bool.or_eq_false_iff] at hb; exact hb.1)).1), ?_⟩
      intro h0
      have h1 : l1 = 1 := by omega
      have hb : bg = false := by
        cases bg
        · rfl
        · simp only [Bool.true_or, if_true] at hl1; omega
      subst hb h1
      exact done_stays (h rfl).1 (by simpa using hc.2)
    · rw [if_neg hc]
      refine ⟨iha hp.1 (fun hb => (h hb).1), ?_⟩
      intro h0
      have hb : bg = false ∧ l = 0 := by
        by_cases hx : (bg || decide (l < 0)) = true
        · rw [if_pos hx] at hl1; omega
        · rw [if_neg hx] at hl1
          simp only [Bool.not_eq_true, Bool.or_eq_false_iff] at hx
          exact ⟨hx.1, by omega⟩
      obtain ⟨rfl, rfl⟩ := hb
      exact done_stays (h rfl).1 ((h rfl).2 rfl)
  | loopUntil p pu a o iha iho =>
    intro bg hp h
    have ha : (a.go (bg || a.done) e).Live e.leds := iha hp.1 (fun hb => by
      simp only [Bool.or_eq_false_iff] at hb
      exact (h hb.1).1)
    simp only [Tr.go]
    split
    · rename_i hc
      simp only [Bool.and_eq_true, Bool.not_eq_true'] at hc
      obtain ⟨rfl, rfl⟩ := hc
      exact ⟨ha, fun _ => iho hp.2 (fun _ => (h rfl).2 rfl)⟩
    · split
      · exact ⟨ha, fun _ => iho hp.2 (fun h => by cases h)⟩
      · exact ⟨ha, fun h => by cases h⟩

theorem plain_go {e : Env} : ∀ {t : Tr} {bg : Bool}, t.Plain → (t.go bg e).Plain := by
  intro t
  induction t with
  | timed k l => intro bg h; exact h
  | instant => intros; trivial
  | concat2 r a b iha ihb =>
    intro bg h
    simp only [Tr.go]
    split
    · split
      · exact ⟨iha h.1, ihb h.2⟩
      · exact ⟨iha h.1, h.2⟩
    · exact ⟨h.1, ihb h.2⟩
  | concat3 r a b i iha ihb =>
    intro bg h
    simp only [Tr.go]
    split
    · split
      · exact ⟨iha h.1, ihb h.2⟩
      · exact ⟨iha h.1, h.2⟩
    · exact ⟨h.1, ihb h.2⟩
  | join a b iha ihb => intro bg h; exact ⟨iha h.1, ihb h.2⟩
  | joinR a b iha ihb => intro bg h; exact ⟨iha h.1, ihb h.2⟩
  | extend x t a iha =>
    intro bg h
    simp only [Tr.go, extendRun]
    split
    · exact iha h
    · split
      · exact iha h
      · exact iha h
  | loop a iha => intro bg h; exact iha h
  | loopN l m a iha =>
    intro bg h
    simp only [Tr.go]
    generalize (if (bg || decide (l < 0)) = true then m e + 1 else l) = l1
    by_cases hc : l1 > 0 ∧ (if bg = true then a.begin else a).done = true
    · rw [if_pos hc]; exact ⟨iha h.1, h.2⟩
    · rw [if_neg hc]; exact ⟨iha h.1, h.2⟩
  | loopUntil p pu a o iha iho =>
    intro bg h
    simp only [Tr.go]
    split
    · exact ⟨iha h.1, iho h.2⟩
    · split
      · exact ⟨iha h.1, iho h.2⟩
      · exact ⟨iha h.1, h.2⟩

theorem colors_go {e : Env} : ∀ {t : Tr} {bg : Bool}, t.Colors → (t.go bg e).Colors := by
  intro t
  induction t with
  | timed k l => intro bg h; exact h
  | instant => intros; trivial
  | concat2 r a b iha ihb =>
    intro bg h
    simp only [Tr.go]
    split
    · split
      · exact ⟨iha h.1, ihb h.2⟩
      · exact ⟨iha h.1, h.2⟩
    · exact ⟨h.1, ihb h.2⟩
  | concat3 r a b i iha ihb =>
    intro bg h
    simp only [Tr.go]
    split
    · split
      · exact ⟨iha h.1, ihb h.2.1, h.2.2⟩
      · exact ⟨iha h.1, h.2.1, h.2.2⟩
    · exact ⟨h.1, ihb h.2.1, h.2.2⟩
  | join a b iha ihb => intro bg h; exact ⟨iha h.1, ihb h.2⟩
  | joinR a b iha ihb => intro bg h; exact ⟨iha h.1, ihb h.2⟩
  | extend x t a iha =>
    intro bg h
    simp only [Tr.go, extendRun]
    split
    · exact iha h
    · split
      · exact iha h
      · exact iha h
  | loop a iha => intro bg h; exact iha h
  | loopN l m a iha =>
    intro bg h
    simp only [Tr.go]
    generalize (if (bg || decide (l < 0)) = true then m e + 1 else l) = l1
    by_cases hc : l1 > 0 ∧ (if bg = true then a.begin else a).done = true
    · rw [if_pos hc]; exact iha h
    · rw [if_neg hc]; exact iha h
  | loopUntil p pu a o iha iho =>
    intro bg h
    simp only [Tr.go]
    split
    · exact ⟨iha h.1, iho h.2⟩
    · split
      · exact ⟨iha h.1, iho h.2⟩
      · exact ⟨iha h.1, h.2⟩

/-! ## The colour shown is always a colour -/

theorem mix_some {a b : OD} (ha : a.c.ok 16) (hb : b.c.ok 16) {x s : Nat} (hs : s ≤ 15) (hx : x ≤ 2 ^ s) : ∃ c, mixOD a b x s = some c ∧ c.c.ok 16 := by
  obtain ⟨m, h, _, h1, _⟩ := C27_mixcolors hs ha hb hx
  refine ⟨m, h, fun ch => ?_⟩
  have h2 := h1 ch
  have h3 := ha ch
  have h4 := hb ch
  omega

theorem leaf_defined {k : Kind} {l : Leaf} (h : l.Bounded k) {a b : OD} (ha : a.c.ok 16) (hb : b.c.ok 16) (led : Nat) :
    ∃ c, l.color k a b led = some c ∧ c.c.ok 16 := by
  cases k with
  | fade => exact mix_some ha hb (by decide) h
  | smooth => exact mix_some ha hb (by decide) h
  | boing n => exact mix_some ha hb (by decide) h
  | delay =>
    simp only [Leaf.color]
    split
    · exact ⟨_, rfl, hb⟩
    · exact ⟨_, rfl, ha⟩
  | blink n w =>
    simp only [Leaf.color]
    split
    · exact ⟨_, rfl, ha⟩
    · exact ⟨_, rfl, hb⟩
  | wipe => exact mix_some ha hb (by decide) (overlap_le _ _ _)
  | wipeIn => exact mix_some ha hb (by decide) (overlap_le _ _ _)
  | centerWipe p => exact mix_some ha hb (by decide) (overlap_le _ _ _)
  | centerWipeIn p => exact mix_some hb ha (by decide) (overlap_le _ _ _)

/-- the colour of a running transition is a colour -/
theorem live_defined {n : Nat} {led : Nat} : ∀ {t : Tr} {a b : OD}, t.Live n → t.Colors → a.c.ok 16 → b.c.ok 16 → ∃ c, t.color a b led = some c ∧ c.c.ok 16 := by
  intro t
  induction t with
  | timed k l => intro a b h _ ha hb; exact leaf_defined h.2.2 ha hb led
  | instant => intro a b _ _ ha hb; exact ⟨b, rfl, hb⟩
  | concat2 r t u iht ihu =>
    intro a b h hc ha hb
    cases r
    · exact ihu h hc.2 ha hb
    · exact iht h hc.1 ha hb
  | concat3 r t u i iht ihu =>
    intro a b h hc ha hb
    cases r
    · simp only [Tr.color]
      split
      · exact ⟨b, rfl, hb⟩
      · exact ihu h hc.2.1 (hc.2.2 _) hb
    · exact iht h hc.1 ha (hc.2.2 _)
  | join t u iht ihu =>
    intro a b h hc ha hb
    obtain ⟨c, e, ok⟩ := iht h.1 hc.1 ha hb
    simp only [Tr.color, e]
    exact ihu h.2 hc.2 ok hb
  | joinR t u iht ihu =>
    intro a b h hc ha hb
    obtain ⟨c, e, ok⟩ := iht h.1 hc.1 ha hb
    simp only [Tr.color, e]
    exact ihu h.2 hc.2 ha ok
  | extend x m t iht => intro a b h hc ha hb; exact iht h.1 hc ha hb
  | loop t iht => intro a b h hc ha hb; exact iht h hc ha hb
  | loopN l m t iht => intro a b h hc ha hb; exact iht h.1 hc ha hb
  | loopUntil p pu t o iht iho =>
    intro a b h hc ha hb
    obtain ⟨c, e, ok⟩ := iht h.1 hc.1 ha ha
    simp only [Tr.color, e]
    cases p
    · exact ⟨c, rfl, ok⟩
    · exact iho (h.2 rfl) hc.2 ok hb

/-- the colour of a transition that is done -/
theorem live_final {n : Nat} {led : Nat} (hl : led < n) :
    ∀ {t : Tr} {a b : OD}, t.Plain → t.Live n → t.Colors → t.done = true → a.c.ok 16 → b.c.ok 16 → t.color a b led = some b := by
  intro t
  induction t with
  | timed k l => intro a b hp h _ hd ha hb; exact final_color hp.1 (h.2.1 hd) hd ha hb hl
  | instant => intros; rfl
  | concat2 r t u iht ihu =>
    intro a b hp h hc hd ha hb
    simp only [Tr.done, Bool.and_eq_true, Bool.not_eq_true'] at hd
    obtain ⟨rfl, hd⟩ := hd
    exact ihu hp.2 h hc.2 hd ha hb
  | concat3 r t u i iht ihu =>
    intro a b hp h hc hd ha hb
    have hd : (!r && u.done) = true := hd
    simp only [Tr.color, hd, if_true]
  | join t u iht ihu =>
    intro a b hp h hc hd ha hb
    simp only [Tr.done, Bool.and_eq_true] at hd
    simp only [Tr.color, iht hp.1 h.1 hc.1 hd.1 ha hb]
    exact ihu hp.2 h.2 hc.2 hd.2 hb hb
  | joinR t u iht ihu =>
    intro a b hp h hc hd ha hb
    simp only [Tr.done, Bool.and_eq_true] at hd
    simp only [Tr.color, iht hp.1 h.1 hc.1 hd.1 ha hb]
    exact ihu hp.2 h.2 hc.2 hd.2 ha hb
  | extend x m t iht =>
    intro a b hp h hc hd ha hb
    simp only [Tr.done, Bool.and_eq_true] at hd
    exact iht hp h.1 hc (h.2 hd.1).1 ha hb
  | loop t iht => intro a b hp h hc hd; exact absurd hd (by simp [Tr.done])
  | loopN l m t iht =>
    intro a b hp h hc hd ha hb
    have hd : l = 0 := by simpa [Tr.done] using hd
    exact iht hp.1 h.1 hc (h.2 hd) ha hb
  | loopUntil p pu t o iht iho =>
    intro a b hp h hc hd ha hb
    simp only [Tr.done, Bool.and_eq_true] at hd
    obtain ⟨rfl, hd⟩ := hd
    obtain ⟨c, e, ok⟩ := live_defined (led := led) h.1 hc.1 ha ha
    simp only [Tr.color, e]
    exact iho hp.2 (h.2 rfl) hc.2 hd ok hb

theorem live_frames {n : Nat} : ∀ {fs : List Env} {t : Tr}, (∀ f ∈ fs, f.leds = n) → t.Plain → t.Colors → t.Live n →
    (t.frames fs).Live n ∧ (t.frames fs).Plain ∧ (t.frames fs).Colors
  | [], t, _, hp, hc, hl => ⟨hl, hp, hc⟩
  | e :: fs, t, hf, hp, hc, hl => by
    have he : e.leds = n := hf e (by simp)
    have h1 : (t.run e).Live n := by
      rw [← he]; exact live_go hp (fun _ => he ▸ hl)
    exact live_frames (t := t.run e) (fun f h => hf f (by simp [h])) (plain_go hp) (colors_go hc) h1

theorem begin_live {n : Nat} {e : Env} {fs : List Env} {t : Tr} (hf : ∀ f ∈ e :: fs, f.leds = n) (hp : t.Plain) (hc : t.Colors) :
    ((t.begin.frames (e :: fs)).Live n ∧ (t.begin.frames (e :: fs)).Plain ∧ (t.begin.frames (e :: fs)).Colors) := by
  have he : e.leds = n := hf e (by simp)
  have h0 : t.begin.run e = t.go true e := go_begin t e false
  have h1 : (t.go true e).Live n := by
    rw [← he]; exact live_go hp (fun h => by cases h)
  have h2 : t.begin.frames (e :: fs) = (t.go true e).frames fs := by
    rw [← h0]; rfl
  rw [h2]
  exact live_frames (fun f h => hf f (by simp [h])) (plain_go hp) (colors_go hc) h1

end Verif.Transition
