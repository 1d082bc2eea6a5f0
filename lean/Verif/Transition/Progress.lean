import Verif.Transition.Props
import Verif.Transition.Smooth
/-!
# C46: progress of a transition
-/
set_option linter.unusedSimpArgs false
namespace Verif.Transition
open Verif.Color

/-- progress after `el` of `m` milliseconds -/
def progress (scale m el : Nat) : Nat := if m < el then scale else scale * el / m

theorem progress_mono {scale m el el' : Nat} (h0 : 0 < m) (h : el ≤ el') : progress scale m el ≤ progress scale m el' := by
  unfold progress
  split
  · rw [if_pos (by omega)]
  · split
    · have : scale * el ≤ scale * m := Nat.mul_le_mul_left _ (by omega)
      have h2 := Nat.div_le_div_right (c := m) this
      rw [Nat.mul_div_cancel _ h0] at h2
      exact h2
    · exact Nat.div_le_div_right (Nat.mul_le_mul_left _ h)

theorem progress_le {scale m el : Nat} (h0 : 0 < m) : progress scale m el ≤ scale := by
  unfold progress
  split
  · exact Nat.le_refl _
  · have : scale * el ≤ scale * m := Nat.mul_le_mul_left _ (by omega)
    have h2 := Nat.div_le_div_right (c := m) this
    rw [Nat.mul_div_cancel _ h0] at h2
    exact h2

/-- the value `update` returns, from the state of the clock afterwards -/
theorem update_value {c : Timer} {x : Env} {m s scale : Nat} (h0 : 0 < m) (hw : scale * m < 4294967296) (hm : m < 4294967296) (hs : s ≤ x.time)
    (hc : Clock (c.tick x) m s x.time) : (c.update x scale).2 = progress scale m (x.time - s) := by
  by_cases hd : (c.tick x).done = true
  · have h1 := (clock_done hc).mp hd
    rw [← update_tick c x scale] at hd
    rw [update_done hd]
    unfold progress
    rw [if_pos (by omega)]
  · have h1 : ¬ m < x.time - s := fun h => hd ((clock_done hc).mpr (Or.inr h))
    have hct : c.tick x = c := by
      unfold Timer.tick at hd ⊢
      split
      · rfl
      · rename_i h2
        split
        · rename_i h3
          rw [if_neg h2, if_pos h3] at hd
          exact absurd rfl hd
        · rfl
    rw [hct] at hc hd
    have hl := hc.len
    rw [if_neg h1] at hl
    have hst := hc.start
    have hdiff : (x.now + 4294967296 - c.start) % 4294967296 = x.time - s := by
      rw [hst]; unfold Env.now; omega
    unfold Timer.update progress
    rw [if_neg hd, hdiff, hl, if_neg (by omega), if_neg h1]
    show scale * (x.time - s) % 4294967296 / m = _
    have : scale * (x.time - s) ≤ scale * m := Nat.mul_le_mul_left _ (by omega)
    rw [Nat.mod_eq_of_lt (by omega)]

theorem timed_last {k : Kind} {m s g : Nat} (hg : m + g < 4294967296) : ∀ {fs : List Env} {l : Leaf} {x : Env}, Clock (Leaf.run k l x).timer m s x.time → s ≤ x.time → Sched g x.time fs →
    ∃ l' y, (Tr.timed k (Leaf.run k l x)).frames fs = Tr.timed k (Leaf.run k l' y) ∧ Clock (Leaf.run k l' y).timer m s y.time ∧ y ∈ x :: fs ∧ y.time = lastTime x.time fs ∧ s ≤ y.time
  | [], l, x, hc, hs, _ => ⟨l, x, rfl, hc, by simp, rfl, hs⟩
  | e :: fs, l, x, hc, hs, h => by
    have h1 : Clock (Leaf.run k (Leaf.run k l x) e).timer m s e.time := by
      rw [leaf_timer]; exact clock_step hc hg hs h.1 h.2.1
    obtain ⟨l', y, h2, h3, h4, h5, h6⟩ := timed_last hg h1 (Nat.le_trans hs h.1) h.2.2
    exact ⟨l', y, h2, h3, List.mem_cons_of_mem _ h4, h5, h6⟩

/-- the state of a timed transition at its last frame -/
theorem timed_state {k : Kind} {l : Leaf} {m g : Nat} {e : Env} {fs : List Env} (hm : l.timer.ms e = m) (hg : m + g < 4294967296) (h : Sched g e.time fs) :
    ∃ l' y, (Tr.timed k l).begin.frames (e :: fs) = Tr.timed k (Leaf.run k l' y) ∧ Clock (Leaf.run k l' y).timer m e.time y.time ∧ y ∈ e :: fs ∧
      y.time = lastTime e.time fs ∧ e.time ≤ y.time := by
  have h1 : Clock (Leaf.run k { l with timer := l.timer.begin } e).timer m e.time e.time := by
    rw [leaf_timer]; exact clock_begin hm (by omega)
  exact timed_last (k := k) hg (l := { l with timer := l.timer.begin }) h1 (Nat.le_refl _) h

theorem run_progress {k : Kind} {l : Leaf} {y : Env} {m s scale : Nat} (h0 : 0 < m) (hw : scale * m < 4294967296) (hm : m < 4294967296) (hs : s ≤ y.time)
    (hc : Clock (Leaf.run k l y).timer m s y.time) : ((l.timer.run y).update y scale).2 = progress scale m (y.time - s) := by
  rw [leaf_timer] at hc
  exact update_value h0 hw hm hs hc

/-- the colour `d` is at least as close to `b` as the colour `c`, in every channel and seen from `a` -/
def Closer (a b c d : OD) : Prop := ∀ ch, (a.c ch ≤ b.c ch → c.c ch ≤ d.c ch) ∧ (b.c ch ≤ a.c ch → d.c ch ≤ c.c ch)

theorem mix_mono {a b : OD} (ha : a.c.ok 16) (hb : b.c.ok 16) {s x y : Nat} (hs : s ≤ 15) (h : x ≤ y) (hy : y ≤ 2 ^ s) :
    ∃ c d, mixOD a b x s = some c ∧ mixOD a b y s = some d ∧ Closer a b c d := by
  obtain ⟨c, h1, h2, _⟩ := C27_mixcolors hs ha hb (Nat.le_trans h hy)
  obtain ⟨d, h3, h4, _⟩ := C27_mixcolors hs ha hb hy
  refine ⟨c, d, h1, h3, fun ch => ?_⟩
  rw [mixColor_eq hs ha hb (Nat.le_trans h hy)] at h2
  rw [mixColor_eq hs ha hb hy] at h4
  have h2 := congrFun (Option.some.inj h2) ch
  have h4 := congrFun (Option.some.inj h4) ch
  rw [← h2, ← h4]
  unfold mixed
  constructor
  · intro hab
    exact Nat.div_le_div_right (wsum_mono h hy hab)
  · intro hab
    rw [wsum_swap (Nat.le_trans h hy), wsum_swap hy]
    exact Nat.div_le_div_right (wsum_mono (by omega) (Nat.sub_le _ _) hab)

/-- **C46** (progress, `_partial`: the fade must be shorter than 262 seconds, see the counterexample).  A fade of `m` ms
shows exactly the share `el / m` of the second colour after `el` ms, rounded down to 1/16384; it never goes backwards
from one frame to a later one. -/
theorem C46_fade_partial {l : Leaf} {m g : Nat} {e : Env} {fs gs : List Env} (hm : l.timer.ms e = m) (h0 : 0 < m) (hw : m < 262144) (hg : g < 2147483648)
    (h : Sched g e.time (fs ++ gs)) {a b : OD} (ha : a.c.ok 16) (hb : b.c.ok 16) (led : Nat) :
    ((Tr.timed .fade l).begin.frames (e :: fs)).color a b led = mixOD a b (progress 16384 m (lastTime e.time fs - e.time)) 14 ∧
    ∃ c d, ((Tr.timed .fade l).begin.frames (e :: fs)).color a b led = some c ∧
      ((Tr.timed .fade l).begin.frames (e :: (fs ++ gs))).color a b led = some d ∧ Closer a b c d := by
  have key : ∀ fs, Sched g e.time fs →
      ((Tr.timed .fade l).begin.frames (e :: fs)).color a b led = mixOD a b (progress 16384 m (lastTime e.time fs - e.time)) 14 := by
    intro fs hs
    obtain ⟨l', y, h1, h2, h3, h4, h5⟩ := timed_state (k := .fade) hm (by omega) hs
    rw [h1, ← h4]
    show mixOD a b ((l'.timer.run y).update y 16384).2 14 = _
    rw [run_progress h0 (by omega) (by omega) h5 h2]
  have hf := (sched_append h).1
  refine ⟨key fs hf, ?_⟩
  rw [key fs hf, key _ h]
  refine mix_mono ha hb (by decide) (progress_mono h0 ?_) (progress_le h0)
  rw [lastTime_append]
  have := sched_le (sched_append h).2
  omega

/-- **C46** (progress of a smooth fade, `_partial`): as for the fade, except that the rounding may let it go back by a
single one of its 16384 steps (it does, see `C46_smooth_counterexample`) -/
theorem C46_smooth_partial {l : Leaf} {m g : Nat} {e : Env} {fs gs : List Env} (hm : l.timer.ms e = m) (h0 : 0 < m) (hw : m < 131072) (hg : g < 2147483648)
    (h : Sched g e.time (fs ++ gs)) :
    ∃ x y : Nat, (∀ (a b : OD) (led : Nat), ((Tr.timed .smooth l).begin.frames (e :: fs)).color a b led = mixOD a b x 14) ∧
      (∀ (a b : OD) (led : Nat), ((Tr.timed .smooth l).begin.frames (e :: (fs ++ gs))).color a b led = mixOD a b y 14) ∧ x ≤ y + 1 ∧ y ≤ 16384 := by
  have key : ∀ fs, Sched g e.time fs → ∀ a b led,
      ((Tr.timed .smooth l).begin.frames (e :: fs)).color a b led = mixOD a b (smoothStep (progress 32768 m (lastTime e.time fs - e.time))) 14 := by
    intro fs hs a b led
    obtain ⟨l', y, h1, h2, h3, h4, h5⟩ := timed_state (k := .smooth) hm (by omega) hs
    rw [h1, ← h4]
    show mixOD a b (smoothStep ((l'.timer.run y).update y 32768).2) 14 = _
    rw [run_progress h0 (by omega) (by omega) h5 h2]
  have hf := (sched_append h).1
  refine ⟨_, _, key fs hf, key _ h, smooth_mono (progress_mono h0 ?_) (progress_le h0), smooth_le (progress_le h0)⟩
  rw [lastTime_append]
  have := sched_le (sched_append h).2
  omega

/-! ## What does not hold -/

def black : OD := ⟨fun _ => 0, false⟩
def white : OD := ⟨fun _ => 65535, false⟩

/-- a timed transition of `m` ms -/
def ofMs (k : Kind) (m : Nat) : Tr := .timed k ⟨⟨false, 0, 0, fun _ => m⟩, 0, 0⟩

def at_ (t : Nat) : Env := ⟨t, 10, 0⟩

/-- A fade of five minutes is back at the first colour after 4 minutes 22 seconds: `scale * t` overflows. -/
theorem C46_wrap_counterexample :
    (((ofMs .fade 300000).begin.frames [at_ 0, at_ 262143]).color black white 0).map (fun c => c.c .r) = some 57263 ∧
    (((ofMs .fade 300000).begin.frames [at_ 0, at_ 262143, at_ 262144]).color black white 0).map (fun c => c.c .r) = some 0 := by
  constructor <;> decide +kernel

/-- The smooth fade goes back by one step. -/
theorem C46_smooth_counterexample :
    (((ofMs .smooth 32768).begin.frames [at_ 0, at_ 1024]).color black white 0).map (fun c => c.c .r) = some 187 ∧
    (((ofMs .smooth 32768).begin.frames [at_ 0, at_ 1024, at_ 1025]).color black white 0).map (fun c => c.c .r) = some 183 := by
  constructor <;> decide +kernel

/-- A blinking transition shows the first colour again when it is done. -/
theorem C46_blink_counterexample :
    let t := (ofMs (.blink 2 (fun _ => 16384)) 100).begin.frames [at_ 0, at_ 60, at_ 101]
    t.done = true ∧ (t.color black white 0).map (fun c => c.c .r) = some 0 := by
  constructor <;> decide +kernel

/-! ## Non-vacuity -/

/-- a sequence: fade, hold, wipe; with a delay joined to it -/
def sample : Tr := .join (.concat2 false (ofMs .fade 100) (.concat3 false (.extend false ⟨false, 0, 0, fun _ => 50⟩ (ofMs .wipe 200)) (ofMs (.centerWipe (fun _ => 16384)) 30) (fun _ => white))) (ofMs .delay 77)

example : sample.Plain ∧ sample.Colors ∧ sample.Centred ∧ sample.Starts (at_ 5) ∧ Lasts 20 sample 384 444 := by
  refine ⟨⟨⟨⟨rfl, trivial⟩, ⟨rfl, trivial⟩, rfl, fun _ => by show 16384 ≤ 32768; decide⟩, rfl, trivial⟩, ⟨⟨trivial, trivial, trivial, fun _ _ => by show 65535 < 65536; decide⟩, trivial⟩,
    ⟨⟨trivial, trivial, fun _ => by show 16384 ≤ 32768; decide⟩, trivial⟩, ⟨show toU32 100 ≠ 0 by decide, show toU32 77 ≠ 0 by decide⟩, ?_⟩
  have h : Lasts 20 sample (max ((100 + 1) + (((200 + 1) + (50 + 1)) + (30 + 1))) (77 + 1)) (max ((100 + 1) + 20 + (((200 + 1) + 20 + (50 + 1)) + 20 + (30 + 1))) (77 + 1)) :=
    .join (.concat2 (.timed (fun _ => rfl) (by decide) (by decide)) (.concat3 (.extend (.timed (fun _ => rfl) (by decide) (by decide)) (fun _ => rfl) (by decide) (by decide))
      (.timed (fun _ => rfl) (by decide) (by decide)))) (.timed (fun _ => rfl) (by decide) (by decide))
  exact h

example : Sched 20 (at_ 5).time ([at_ 20, at_ 30] ++ [at_ 50]) := by
  simp only [Sched, at_, List.cons_append, List.nil_append]; decide

end Verif.Transition
