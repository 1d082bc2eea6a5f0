import Verif.Transition.Progress
/-!
# C47: wipes
-/
set_option linter.unusedSimpArgs false
namespace Verif.Transition
open Verif.Color

/-- the sum of `f` over the LEDs of a blade -/
def total (f : Nat → Nat) : Nat → Nat
  | 0 => 0
  | n + 1 => total f n + f n

theorem total_overlap {lo hi : Nat} (h : lo ≤ hi) : ∀ n, total (overlap lo hi) n = min hi (256 * n) - min lo (256 * n)
  | 0 => by simp [total]
  | n + 1 => by
    rw [total, total_overlap h n]
    unfold overlap
    omega

/-- every LED has its share `f` of 256 of the second colour -/
def Shares (s : Tr) (n : Nat) (f : Nat → Nat) : Prop :=
  ∀ led, led < n → f led ≤ 256 ∧ ∀ {a b : OD}, a.c.ok 16 → b.c.ok 16 →
    s.color a b led = mixOD a b (f led) 8 ∨ s.color a b led = mixOD b a (256 - f led : Nat) 8

/-- **C47** (`TrWipe`, `_partial`: blade size times duration must be less than 2^24, 116 s for 144 LEDs).  After `el` of `m` ms
the shares of the second colour add up to `el / m` of the blade, the LEDs are completed in order from the first one, and no
LED goes back at a later frame. -/
theorem C47_wipe_partial {l : Leaf} {m g n : Nat} {e : Env} {fs gs : List Env} (hm : l.timer.ms e = m) (h0 : 0 < m) (hw : n * m < 16777216) (hn : 0 < n) (hg : g < 2147483648)
    (hl : ∀ f ∈ e :: (fs ++ gs), f.leds = n) (h : Sched g e.time (fs ++ gs)) :
    ∃ f f' : Nat → Nat, Shares ((Tr.timed .wipe l).begin.frames (e :: fs)) n f ∧ Shares ((Tr.timed .wipe l).begin.frames (e :: (fs ++ gs))) n f' ∧
      total f n = progress (256 * n) m (lastTime e.time fs - e.time) ∧
      (∀ i j, i < j → 0 < f j → f i = 256) ∧ ∀ i, f i ≤ f' i := by
  have hm2 : m < 16777216 := by
    have : 1 * m ≤ n * m := Nat.mul_le_mul_right _ hn
    omega
  have hw2 : 256 * n * m < 4294967296 := by rw [Nat.mul_assoc]; omega
  have key : ∀ fs, (∀ f ∈ e :: fs, f.leds = n) → Sched g e.time fs →
      Shares ((Tr.timed .wipe l).begin.frames (e :: fs)) n (overlap 0 (progress (256 * n) m (lastTime e.time fs - e.time))) := by
    intro fs hl hs led _
    refine ⟨overlap_le _ _ _, fun _ _ => Or.inl ?_⟩
    obtain ⟨l', y, h1, h2, h3, h4, h5⟩ := timed_state (k := .wipe) hm (by omega) hs
    rw [h1, ← h4]
    show mixOD _ _ (overlap 0 ((l'.timer.run y).update y (256 * y.leds)).2 led) 8 = _
    rw [hl y h3, run_progress h0 hw2 (by omega) h5 h2]
  have hf := (sched_append h).1
  refine ⟨_, _, key fs (fun f hf => hl f (by simp only [List.mem_cons, List.mem_append] at hf ⊢; rcases hf with hf | hf <;> simp [hf])) hf, key _ hl h, ?_, ?_, ?_⟩
  · have := progress_le (scale := 256 * n) (el := lastTime e.time fs - e.time) h0
    rw [total_overlap (Nat.zero_le _)]; omega
  · intro i j hij
    unfold overlap; omega
  · intro i
    have : progress (256 * n) m (lastTime e.time fs - e.time) ≤ progress (256 * n) m (lastTime e.time (fs ++ gs) - e.time) := by
      refine progress_mono h0 ?_
      rw [lastTime_append]
      have := sched_le (sched_append h).2
      omega
    unfold overlap; omega

/-- **C47** (`TrWipeIn`, `_partial` as `C47_wipe_partial`): the same from the last LED to the first -/
theorem C47_wipeIn_partial {l : Leaf} {m g n : Nat} {e : Env} {fs gs : List Env} (hm : l.timer.ms e = m) (h0 : 0 < m) (hw : n * m < 16777216) (hn : 0 < n) (hg : g < 2147483648)
    (hl : ∀ f ∈ e :: (fs ++ gs), f.leds = n) (h : Sched g e.time (fs ++ gs)) :
    ∃ f f' : Nat → Nat, Shares ((Tr.timed .wipeIn l).begin.frames (e :: fs)) n f ∧ Shares ((Tr.timed .wipeIn l).begin.frames (e :: (fs ++ gs))) n f' ∧
      total f n = progress (256 * n) m (lastTime e.time fs - e.time) ∧
      (∀ i j, i < j → j < n → 0 < f i → f j = 256) ∧ ∀ i, f i ≤ f' i := by
  have hm2 : m < 16777216 := by
    have : 1 * m ≤ n * m := Nat.mul_le_mul_right _ hn
    omega
  have hn2 : n < 16777216 := by
    have : n * 1 ≤ n * m := Nat.mul_le_mul_left _ h0
    omega
  have hw2 : 256 * n * m < 4294967296 := by rw [Nat.mul_assoc]; omega
  have key : ∀ fs, (∀ f ∈ e :: fs, f.leds = n) → Sched g e.time fs →
      Shares ((Tr.timed .wipeIn l).begin.frames (e :: fs)) n (overlap (256 * n - progress (256 * n) m (lastTime e.time fs - e.time)) (256 * n)) := by
    intro fs hl hs led _
    refine ⟨overlap_le _ _ _, fun _ _ => Or.inl ?_⟩
    obtain ⟨l', y, h1, h2, h3, h4, h5⟩ := timed_state (k := .wipeIn) hm (by omega) hs
    rw [h1, ← h4]
    show mixOD _ _ (overlap (toU32 ((256 * y.leds : Nat) - (((l'.timer.run y).update y (256 * y.leds)).2 : Int))) (y.leds * 256) led) 8 = _
    rw [hl y h3, run_progress h0 hw2 (by omega) h5 h2]
    have hp := progress_le (scale := 256 * n) (el := y.time - e.time) h0
    have : toU32 ((256 * n : Nat) - ((progress (256 * n) m (y.time - e.time) : Nat) : Int)) = 256 * n - progress (256 * n) m (y.time - e.time) := by
      unfold toU32
      generalize progress (256 * n) m (y.time - e.time) = p at *
      omega
    rw [this, Nat.mul_comm n 256]
  have hf := (sched_append h).1
  refine ⟨_, _, key fs (fun f hf => hl f (by simp only [List.mem_cons, List.mem_append] at hf ⊢; rcases hf with hf | hf <;> simp [hf])) hf, key _ hl h, ?_, ?_, ?_⟩
  · have := progress_le (scale := 256 * n) (el := lastTime e.time fs - e.time) h0
    rw [total_overlap (Nat.sub_le _ _)]; omega
  · intro i j hij hj
    unfold overlap; omega
  · intro i
    have : progress (256 * n) m (lastTime e.time fs - e.time) ≤ progress (256 * n) m (lastTime e.time (fs ++ gs) - e.time) := by
      refine progress_mono h0 ?_
      rw [lastTime_append]
      have := sched_le (sched_append h).2
      omega
    unfold overlap; omega

theorem center_update {k : Kind} {l : Leaf} {y : Env} {m s c n : Nat} (hc : c ≤ 256 * n) (h0 : 0 < m) (hw : 256 * n * m < 4294967296) (hm : m < 4294967296) (hs : s ≤ y.time)
    (hck : Clock (Leaf.run k l y).timer m s y.time) :
    ((l.timer.run y).update y (256 * n - c)).2 = progress (256 * n - c) m (y.time - s) ∧
    (((l.timer.run y).update y (256 * n - c)).1.update y c).2 = progress c m (y.time - s) := by
  have h1 : (256 * n - c) * m ≤ 256 * n * m := Nat.mul_le_mul_right _ (Nat.sub_le _ _)
  have h2 : c * m ≤ 256 * n * m := Nat.mul_le_mul_right _ hc
  refine ⟨run_progress h0 (by omega) hm hs hck, ?_⟩
  rw [update_tick]
  rw [leaf_timer] at hck
  refine update_value h0 (by omega) hm hs ?_
  rw [tick_tick]; exact hck

/-- **C47** (`TrCenterWipe`, `_partial` as `C47_wipe_partial`).  From the position `c` (in 1/256 of an LED) the second colour spreads
to both ends at once: what is lit is a contiguous stretch around `c`, whose length is the share `el / m` of each side (rounded down
on each side), and no LED goes back. -/
theorem C47_centerWipe_partial {l : Leaf} {pos m g n : Nat} {e : Env} {fs gs : List Env} (hp : pos ≤ 32768) (hm : l.timer.ms e = m) (h0 : 0 < m) (hw : n * m < 16777216) (hn : 0 < n) (hg : g < 2147483648)
    (hl : ∀ f ∈ e :: (fs ++ gs), f.leds = n) (h : Sched g e.time (fs ++ gs)) :
    ∃ f f' : Nat → Nat, Shares ((Tr.timed (.centerWipe (fun _ => pos)) l).begin.frames (e :: fs)) n f ∧ Shares ((Tr.timed (.centerWipe (fun _ => pos)) l).begin.frames (e :: (fs ++ gs))) n f' ∧
      total f n = progress (pos * n / 128) m (lastTime e.time fs - e.time) + progress (256 * n - pos * n / 128) m (lastTime e.time fs - e.time) ∧
      (∀ i j k, i < j → j < k → 0 < f i → 0 < f k → f j = 256) ∧ ∀ i, f i ≤ f' i := by
  have hm2 : m < 16777216 := by
    have : 1 * m ≤ n * m := Nat.mul_le_mul_right _ hn
    omega
  have hw2 : 256 * n * m < 4294967296 := by rw [Nat.mul_assoc]; omega
  have hc : center pos n ≤ 256 * n := center_le hp
  have hcd : center pos n = pos * n / 128 := rfl
  rw [← hcd]
  have key : ∀ fs, (∀ f ∈ e :: fs, f.leds = n) → Sched g e.time fs →
      Shares ((Tr.timed (.centerWipe (fun _ => pos)) l).begin.frames (e :: fs)) n (overlap (center pos n - progress (center pos n) m (lastTime e.time fs - e.time))
        (center pos n + progress (256 * n - center pos n) m (lastTime e.time fs - e.time))) := by
    intro fs hl hs led _
    refine ⟨overlap_le _ _ _, fun _ _ => Or.inl ?_⟩
    obtain ⟨l', y, h1, h2, h3, h4, h5⟩ := timed_state (k := .centerWipe (fun _ => pos)) hm (by omega) hs
    rw [h1, ← h4]
    obtain ⟨u1, u2⟩ := center_update hc h0 hw2 (by omega) h5 h2
    simp only [Tr.color, Leaf.color, Leaf.run, hl y h3, u1, u2]
    have p1 := progress_le (scale := center pos n) (el := y.time - e.time) h0
    have p2 := progress_le (scale := 256 * n - center pos n) (el := y.time - e.time) h0
    congr 3
    · unfold clamp
      generalize progress (center pos n) m (y.time - e.time) = p at *
      generalize center pos n = c at *
      split
      · omega
      · split <;> omega
    · unfold clamp
      generalize progress (256 * n - center pos n) m (y.time - e.time) = p at *
      generalize center pos n = c at *
      split
      · omega
      · split <;> omega
  have hf := (sched_append h).1
  refine ⟨_, _, key fs (fun f hf => hl f (by simp only [List.mem_cons, List.mem_append] at hf ⊢; rcases hf with hf | hf <;> simp [hf])) hf, key _ hl h, ?_, ?_, ?_⟩
  · have p1 := progress_le (scale := center pos n) (el := lastTime e.time fs - e.time) h0
    have p2 := progress_le (scale := 256 * n - center pos n) (el := lastTime e.time fs - e.time) h0
    rw [total_overlap (by omega)]; omega
  · intro i j k hij hjk
    unfold overlap; omega
  · intro i
    have hle : lastTime e.time fs - e.time ≤ lastTime e.time (fs ++ gs) - e.time := by
      rw [lastTime_append]
      have := sched_le (sched_append h).2
      omega
    have p1 := progress_mono (scale := center pos n) h0 hle
    have p2 := progress_mono (scale := 256 * n - center pos n) h0 hle
    unfold overlap; omega

/-- **C47** (`TrCenterWipeIn`, `_partial` as `C47_wipe_partial`): from both ends to the position `c`.  What still has the first colour is
a contiguous stretch around `c`. -/
theorem C47_centerWipeIn_partial {l : Leaf} {pos m g n : Nat} {e : Env} {fs gs : List Env} (hp : pos ≤ 32768) (hm : l.timer.ms e = m) (h0 : 0 < m) (hw : n * m < 16777216) (hn : 0 < n) (hg : g < 2147483648)
    (hl : ∀ f ∈ e :: (fs ++ gs), f.leds = n) (h : Sched g e.time (fs ++ gs)) :
    ∃ f f' : Nat → Nat, Shares ((Tr.timed (.centerWipeIn (fun _ => pos)) l).begin.frames (e :: fs)) n f ∧ Shares ((Tr.timed (.centerWipeIn (fun _ => pos)) l).begin.frames (e :: (fs ++ gs))) n f' ∧
      total f n = progress (pos * n / 128) m (lastTime e.time fs - e.time) + progress (256 * n - pos * n / 128) m (lastTime e.time fs - e.time) ∧
      (∀ i j k, i < j → j < k → f i < 256 → f k < 256 → f j = 0) ∧ ∀ i, f i ≤ f' i := by
  have hm2 : m < 16777216 := by
    have : 1 * m ≤ n * m := Nat.mul_le_mul_right _ hn
    omega
  have hw2 : 256 * n * m < 4294967296 := by rw [Nat.mul_assoc]; omega
  have hc : center pos n ≤ 256 * n := center_le hp
  have hcd : center pos n = pos * n / 128 := rfl
  rw [← hcd]
  have key : ∀ fs, (∀ f ∈ e :: fs, f.leds = n) → Sched g e.time fs →
      Shares ((Tr.timed (.centerWipeIn (fun _ => pos)) l).begin.frames (e :: fs)) n (fun led => 256 - overlap (progress (center pos n) m (lastTime e.time fs - e.time))
        (256 * n - progress (256 * n - center pos n) m (lastTime e.time fs - e.time)) led) := by
    intro fs hl hs led _
    refine ⟨Nat.sub_le _ _, fun _ _ => Or.inr ?_⟩
    have ho := overlap_le (progress (center pos n) m (lastTime e.time fs - e.time)) (256 * n - progress (256 * n - center pos n) m (lastTime e.time fs - e.time)) led
    obtain ⟨l', y, h1, h2, h3, h4, h5⟩ := timed_state (k := .centerWipeIn (fun _ => pos)) hm (by omega) hs
    rw [Nat.sub_sub_self ho]
    rw [h1, ← h4]
    obtain ⟨u1, u2⟩ := center_update hc h0 hw2 (by omega) h5 h2
    simp only [Tr.color, Leaf.color, Leaf.run, hl y h3, u1, u2]
    have p1 := progress_le (scale := center pos n) (el := y.time - e.time) h0
    have p2 := progress_le (scale := 256 * n - center pos n) (el := y.time - e.time) h0
    congr 3
    · unfold clamp
      generalize progress (center pos n) m (y.time - e.time) = p at *
      generalize center pos n = c at *
      split
      · omega
      · split <;> omega
    · unfold clamp
      generalize progress (256 * n - center pos n) m (y.time - e.time) = p at *
      generalize center pos n = c at *
      split
      · omega
      · split <;> omega
  have hf := (sched_append h).1
  have htot : ∀ (f : Nat → Nat), (∀ i, f i ≤ 256) → ∀ k, total (fun led => 256 - f led) k + total f k = 256 * k := by
    intro f hf k
    induction k with
    | zero => rfl
    | succ k ih => simp only [total]; have := hf k; omega
  refine ⟨_, _, key fs (fun f hf => hl f (by simp only [List.mem_cons, List.mem_append] at hf ⊢; rcases hf with hf | hf <;> simp [hf])) hf, key _ hl h, ?_, ?_, ?_⟩
  · have p1 := progress_le (scale := center pos n) (el := lastTime e.time fs - e.time) h0
    have p2 := progress_le (scale := 256 * n - center pos n) (el := lastTime e.time fs - e.time) h0
    have := htot _ (overlap_le (progress (center pos n) m (lastTime e.time fs - e.time)) (256 * n - progress (256 * n - center pos n) m (lastTime e.time fs - e.time))) n
    rw [total_overlap (by omega)] at this
    omega
  · intro i j k hij hjk
    unfold overlap; omega
  · intro i
    have hle : lastTime e.time fs - e.time ≤ lastTime e.time (fs ++ gs) - e.time := by
      rw [lastTime_append]
      have := sched_le (sched_append h).2
      omega
    have p1 := progress_mono (scale := center pos n) h0 hle
    have p2 := progress_mono (scale := 256 * n - center pos n) h0 hle
    unfold overlap; omega

/-- A wipe over 144 LEDs that takes two minutes starts again after 116.5 seconds. -/
theorem C47_counterexample :
    let s := fun fs => (((ofMs .wipe 120000).begin.frames (fs.map fun t => (⟨t, 144, 0⟩ : Env))).color black white 0).map (fun c => c.c .r)
    s [0, 116508] = some 65535 ∧ s [0, 116508, 116509] = some 0 := by
  constructor <;> decide +kernel

example : (144 * 500 < 16777216) ∧ total (overlap 0 (progress (256 * 144) 500 333)) 144 = 24551 := by decide +kernel

end Verif.Transition
