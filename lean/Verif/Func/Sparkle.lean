import Verif.Num.Model
import Mathlib.Tactic.Linarith
import Mathlib.Tactic.Ring

/-!
# Sparkle (C102)

Model of `functions/sparkle.h`: random sparks which spread along the blade and die out.

The array `sparks_` has four entries more than the blade has LEDs; LED `k` is entry `k + 2`.  It is
a function from indices here, which the code only reads and writes inside the array
(`C102_inside`).  The random numbers are inputs.
-/
namespace Verif.Func.Sparkle

open Verif.Num (sub32 clampi32)

/-! ## Model -/

/-- Conversion to `short`. -/
def s16 (x : Int) : Int := (x + 32768) % 65536 - 32768

/-- Conversion to `uint16_t`. -/
def u16 (x : Int) : Int := x % 65536

/-- Assignment to an array element. -/
def upd (s : Nat → Int) (i : Nat) (v : Int) : Nat → Int := fun j => if j = i then v else s j

/-- `x` of the loop, functions/sparkle.h:37 (`>> 10` rounds down). -/
def blur (s : Nat → Int) (i : Nat) : Int := ((s (i-1) + s (i+1)) * 200 + s i * 570) / 1024

/-- `count` passes of the loop, functions/sparkle.h:30-41, from index `i`; `fifo` is `fifo[0]`. -/
def loop : Nat → Nat → (Nat → Int) → Int → (Nat → Int) × Int
  | 0, _, s, fifo => (s, fifo)
  | count+1, i, s, fifo => loop count (i+1) (upd s (i-1) (s16 fifo)) (u16 (blur s i))

/-- The update, functions/sparkle.h:26-43: the loop and the two assignments after it (`fifo[1]`
stays 0). -/
def update (N : Nat) (s : Nat → Int) : Nat → Int :=
  let r := loop N 2 s 0
  upd (upd r.1 N (s16 r.2)) (N+1) (s16 0)

/-- A new spark at LED `k`, functions/sparkle.h:44-46. -/
def spark (s : Nat → Int) (k : Nat) (intensity : Int) : Nat → Int :=
  upd s (k+2) (s16 (s (k+2) + intensity))

/-- State of `SparkleBase`: `sparks_` and `last_update_`. -/
structure St where
  sparks : Nat → Int
  last : Nat

/-- `SparkleBase::run`, functions/sparkle.h:18-48, on a blade with `N` LEDs at time `m`.  `draw` is
the first random number and `k` the second one, which is below `N`. -/
def run (N m : Nat) (chance intensity : Int) (draw k : Nat) (st : St) : St :=
  if sub32 m st.last ≥ 10 then
    let s := update N st.sparks
    { sparks := if (draw : Int) < chance then spark s k intensity else s, last := m }
  else st

/-- The freshly allocated array, functions/sparkle.h:21-23. -/
def init (last : Nat) : St := { sparks := fun _ => 0, last := last }

/-- `getInteger`, functions/sparkle.h:51. -/
def getInteger (s : Nat → Int) (led : Nat) : Int := clampi32 (s (led + 2)) 0 256 * 128

/-! ## Specification -/

/-- Sum of the first `n` entries. -/
def total (s : Nat → Int) : Nat → Int
  | 0 => 0
  | n+1 => total s n + s n

/-- All the light on a blade of `N` LEDs. -/
def light (N : Nat) (s : Nat → Int) : Int := total s (N + 3)

/-- Light is never negative and only inside the array's inner part. -/
def Ok (N : Nat) (s : Nat → Int) : Prop :=
  (∀ j, 0 ≤ s j) ∧ s 0 = 0 ∧ (∀ j, N + 2 ≤ j → s j = 0) ∧ light N s < 32768

/-! ## Lemmas -/

theorem total_nonneg (s : Nat → Int) (h : ∀ j, 0 ≤ s j) (n : Nat) : 0 ≤ total s n := by
  induction n with
  | zero => exact Int.le_refl 0
  | succ n ih => have := h n; simp only [total]; omega

theorem total_mono (s : Nat → Int) (h : ∀ j, 0 ≤ s j) (n m : Nat) (hnm : n ≤ m) : total s n ≤ total s m := by
  induction hnm with
  | refl => exact Int.le_refl _
  | step _ ih => rename_i m _; have := h m; simp only [total]; omega

theorem le_total (s : Nat → Int) (h : ∀ j, 0 ≤ s j) (n j : Nat) (hj : j < n) : s j ≤ total s n := by
  have h1 : total s (j+1) ≤ total s n := total_mono s h _ _ hj
  have h2 := total_nonneg s h j
  simp only [total] at h1
  omega

theorem ok_le (N : Nat) (s : Nat → Int) (h : Ok N s) (j : Nat) : s j < 32768 := by
  obtain ⟨h0, _, hz, hl⟩ := h
  by_cases hj : j < N + 3
  · have := le_total s h0 _ j hj; unfold light at hl; omega
  · have := hz j (by omega); omega

theorem blur_nonneg (s : Nat → Int) (h : ∀ j, 0 ≤ s j) (i : Nat) : 0 ≤ blur s i := by
  unfold blur; have := h (i-1); have := h i; have := h (i+1); omega

theorem blur_lt (N : Nat) (s : Nat → Int) (h : Ok N s) (i : Nat) : blur s i < 32768 := by
  have := ok_le N s h (i-1); have := ok_le N s h i; have := ok_le N s h (i+1)
  unfold blur; omega

theorem s16_u16 (x : Int) (h0 : 0 ≤ x) (h1 : x < 32768) : s16 (u16 x) = x := by
  unfold s16 u16; omega

/-- What the loop leaves behind: entry `j` holds the blurred value of entry `j`, except that the
last one is still in `fifo`. -/
theorem loop_eq (s : Nat → Int) : ∀ (count i : Nat) (r : Nat → Int) (f : Int), 2 ≤ i →
    (∀ j, i - 1 ≤ j → r j = s j) →
    (∀ j, 0 ≤ blur s j ∧ blur s j < 32768) →
    (∀ j, (loop count i r f).1 j =
      if count = 0 then r j else if j = i - 1 then s16 f
      else if i ≤ j ∧ j + 1 < i + count then blur s j else r j) ∧
    (loop count i r f).2 = if count = 0 then f else u16 (blur s (i + count - 1)) := by
  intro count
  induction count with
  | zero => intro i r f _ _ _; simp [loop]
  | succ count ih =>
    intro i r f hi hr hb
    have hbl : blur r i = blur s i := by
      unfold blur
      rw [hr (i-1) (by omega), hr i (by omega), hr (i+1) (by omega)]
    simp only [loop, hbl]
    obtain ⟨h1, h2⟩ := ih (i+1) (upd r (i-1) (s16 f)) (u16 (blur s i)) (by omega)
      (by intro j hj; unfold upd; rw [if_neg (by omega), hr j (by omega)]) hb
    constructor
    · intro j
      rw [h1]
      by_cases hc : count = 0
      · subst hc
        simp only [if_true]
        rw [if_neg (by omega)]
        unfold upd
        split
        · rfl
        · rw [if_neg (by omega)]
      · rw [if_neg hc, if_neg (show ¬ count + 1 = 0 by omega), show i + 1 - 1 = i by omega]
        by_cases hj : j = i - 1
        · rw [if_pos hj, if_neg (by omega), if_neg (by omega)]
          unfold upd; rw [if_pos hj]
        · rw [if_neg hj]
          by_cases hj2 : j = i
          · subst hj2
            rw [if_pos rfl, if_pos (by omega)]
            exact s16_u16 _ (hb j).1 (hb j).2
          · rw [if_neg hj2]
            by_cases hj3 : i ≤ j ∧ j + 1 < i + (count + 1)
            · rw [if_pos (by omega), if_pos hj3]
            · rw [if_neg (by omega), if_neg hj3]
              unfold upd; rw [if_neg hj]
    · rw [h2]
      by_cases hc : count = 0
      · subst hc; simp
      · rw [if_neg hc, if_neg (by omega)]
        congr 2; omega

/-- The update, entry by entry. -/
theorem update_eq (N : Nat) (hN : 0 < N) (s : Nat → Int) (h : Ok N s) (j : Nat) :
    update N s j = if j = N + 1 then 0 else if j = N then blur s (N + 1) else if j = 1 then 0
      else if 2 ≤ j ∧ j < N then blur s j else s j := by
  have hb : ∀ j, 0 ≤ blur s j ∧ blur s j < 32768 := fun j => ⟨blur_nonneg s h.1 j, blur_lt N s h j⟩
  obtain ⟨h1, h2⟩ := loop_eq s N 2 s 0 (by omega) (fun _ _ => rfl) hb
  unfold update upd
  split
  · simp [s16]
  · split
    · rw [h2, if_neg (by omega), show 2 + N - 1 = N + 1 by omega]
      exact s16_u16 _ (hb _).1 (hb _).2
    · rw [h1, if_neg (by omega)]
      simp only [show 2 - 1 = 1 by rfl]
      split
      · simp [s16]
      · by_cases hj : 2 ≤ j ∧ j < N
        · rw [if_pos (by omega), if_pos hj]
        · rw [if_neg (by omega), if_neg hj]

/-- Sum of the blurred entries 2 to `n - 1`. -/
def blurSum (s : Nat → Int) : Nat → Int
  | 0 => 0
  | n+1 => blurSum s n + if 2 ≤ n then blur s n else 0

theorem blurSum_le (s : Nat → Int) (h : ∀ j, 0 ≤ s j) : ∀ n, 2 ≤ n →
    1024 * blurSum s n ≤ 200 * total s (n-1) + 570 * total s n + 200 * total s (n+1) := by
  intro n hn
  induction n with
  | zero => omega
  | succ n ih =>
    by_cases hn1 : n = 1
    · subst hn1
      have : blurSum s 2 = 0 := by simp [blurSum]
      rw [this]
      have := total_nonneg s h (2-1); have := total_nonneg s h 2; have := total_nonneg s h 3
      simp only [show (1:Nat) + 1 = 2 by rfl, show (2:Nat) + 1 = 3 by rfl]
      omega
    · have := ih (by omega)
      obtain ⟨m, rfl⟩ : ∃ m, n = m + 1 := ⟨n - 1, by omega⟩
      simp only [blurSum, total, show m + 1 + 1 - 1 = m + 1 by omega, show m + 1 - 1 = m by omega] at *
      have hb : 1024 * blur s (m+1) ≤ 200 * s m + 570 * s (m+1) + 200 * s (m+1+1) := by
        unfold blur; rw [show m + 1 - 1 = m by omega]; omega
      rw [if_pos (show 2 ≤ m + 1 by omega)]
      rw [show m + 2 = m + 1 + 1 by omega]
      omega

theorem blurSum_nonneg (s : Nat → Int) (h : ∀ j, 0 ≤ s j) (n : Nat) : 0 ≤ blurSum s n := by
  induction n with
  | zero => exact Int.le_refl 0
  | succ n ih => simp only [blurSum]; have := blur_nonneg s h n; split <;> omega

theorem update_total (N : Nat) (hN : 0 < N) (s : Nat → Int) (h : Ok N s) :
    ∀ n, n ≤ N → total (update N s) n = blurSum s n := by
  intro n
  induction n with
  | zero => intro _; rfl
  | succ n ih =>
    intro hn
    simp only [total, blurSum, ih (by omega), update_eq N hN s h n]
    rw [if_neg (by omega), if_neg (by omega)]
    by_cases h1 : n = 1
    · subst h1; simp
    · rw [if_neg h1]
      by_cases h2 : 2 ≤ n
      · rw [if_pos (by omega), if_pos h2]
      · rw [if_neg (by omega), if_neg h2]
        have : n = 0 := by omega
        subst this
        rw [h.2.1]

theorem update_light (N : Nat) (hN : 0 < N) (s : Nat → Int) (h : Ok N s) :
    light N (update N s) = blurSum s N + blur s (N + 1) := by
  unfold light
  simp only [total]
  rw [update_total N hN s h N (by omega), update_eq N hN s h N, update_eq N hN s h (N+1),
    update_eq N hN s h (N+2)]
  rw [if_neg (show ¬ N = N + 1 by omega), if_pos rfl, if_pos rfl, if_neg (show ¬ N + 2 = N + 1 by omega),
    if_neg (show ¬ N + 2 = N by omega), if_neg (show ¬ N + 2 = 1 by omega), if_neg (by omega),
    h.2.2.1 (N+2) (by omega)]
  omega

/-- Each update takes away at least 54/1024 of the light. -/
theorem update_decay (N : Nat) (hN : 0 < N) (s : Nat → Int) (h : Ok N s) :
    1024 * light N (update N s) ≤ 970 * light N s := by
  rw [update_light N hN s h]
  have h1 := blurSum_le s h.1 (N+2) (by omega)
  have h2 : blurSum s (N+2) = blurSum s N + (if 2 ≤ N then blur s N else 0) + blur s (N+1) := by
    simp only [blurSum]; rw [if_pos (show 2 ≤ N + 1 by omega)]
  have h3 := blur_nonneg s h.1 N
  have h4 := total_mono s h.1 (N+2-1) (N+3) (by omega)
  have h5 := total_mono s h.1 (N+2) (N+3) (by omega)
  unfold light
  simp only [show N + 2 + 1 = N + 3 by omega] at h1
  split at h2 <;> omega

theorem update_ok (N : Nat) (hN : 0 < N) (s : Nat → Int) (h : Ok N s) : Ok N (update N s) := by
  refine ⟨?_, ?_, ?_, ?_⟩
  · intro j
    rw [update_eq N hN s h]
    have := blur_nonneg s h.1 (N+1); have := blur_nonneg s h.1 j; have := h.1 j
    (repeat' split) <;> omega
  · rw [update_eq N hN s h, if_neg (by omega), if_neg (by omega), if_neg (by omega), if_neg (by omega)]
    exact h.2.1
  · intro j hj
    rw [update_eq N hN s h, if_neg (by omega), if_neg (by omega), if_neg (by omega), if_neg (by omega)]
    exact h.2.2.1 j hj
  · have := update_decay N hN s h
    have := h.2.2.2
    have := total_nonneg s h.1 (N+3)
    unfold light at *
    omega

theorem total_upd (s : Nat → Int) (i : Nat) (v : Int) : ∀ n, i < n →
    total (upd s i v) n = total s n - s i + v := by
  have below : ∀ n, n ≤ i → total (upd s i v) n = total s n := by
    intro n
    induction n with
    | zero => intro _; rfl
    | succ n ih =>
      intro hn
      simp only [total]; rw [ih (by omega)]; unfold upd; rw [if_neg (by omega)]
  intro n hn
  induction n with
  | zero => omega
  | succ n ih =>
    simp only [total]
    by_cases h : n = i
    · subst h; rw [below n (by omega)]; unfold upd; rw [if_pos rfl]; omega
    · rw [ih (by omega)]; unfold upd; rw [if_neg h]; omega

theorem spark_ok (N k : Nat) (hk : k < N) (s : Nat → Int) (h : Ok N s) (I : Int) (hI : 0 ≤ I)
    (hfit : light N s + I < 32768) : Ok N (spark s k I) ∧ light N (spark s k I) = light N s + I := by
  have h1 := le_total s h.1 (N+3) (k+2) (by omega)
  have hl := hfit
  unfold light at hl
  have h0 := h.1 (k+2)
  have e : s16 (s (k+2) + I) = s (k+2) + I := by unfold s16; omega
  have el : light N (spark s k I) = light N s + I := by
    unfold light spark
    rw [total_upd _ _ _ _ (by omega), e]; omega
  refine ⟨⟨?_, ?_, ?_, ?_⟩, el⟩
  · intro j; unfold spark upd; split
    · rw [e]; omega
    · exact h.1 j
  · unfold spark upd; rw [if_neg (by omega)]; exact h.2.1
  · intro j hj; unfold spark upd; rw [if_neg (by omega)]; exact h.2.2.1 j hj
  · rw [el]; exact hfit

/-! ## Theorems -/

/-- The inputs of one call: time and two random numbers. -/
structure In where
  m : Nat
  draw : Nat
  k : Nat

/-- Any sequence of calls. -/
def runs (N : Nat) (chance I : Int) : List In → St → St
  | [], st => st
  | i :: r, st => runs N chance I r (run N i.m chance I i.draw i.k st)

/-- Whatever the random numbers and the timing, with an intensity of at most 1727 (the default is
1024) the light never overflows: all values stay between 0 and 32767 and there is never more light
than 19 sparks. -/
theorem C102_bounded (N : Nat) (hN : 0 < N) (chance I : Int) (hI : 0 ≤ I) (hI' : I ≤ 1727) (t0 : Nat)
    (ins : List In) (hk : ∀ i ∈ ins, i.k < N) :
    Ok N (runs N chance I ins (init t0)).sparks ∧
    54 * light N (runs N chance I ins (init t0)).sparks ≤ 1024 * I := by
  have key : ∀ (ins : List In) (st : St), (∀ i ∈ ins, i.k < N) → Ok N st.sparks →
      54 * light N st.sparks ≤ 1024 * I →
      Ok N (runs N chance I ins st).sparks ∧ 54 * light N (runs N chance I ins st).sparks ≤ 1024 * I := by
    intro ins
    induction ins with
    | nil => intro st _ h1 h2; exact ⟨h1, h2⟩
    | cons i r ih =>
      intro st hk h1 h2
      simp only [runs]
      apply ih _ (fun j hj => hk j (by simp [hj]))
      · unfold run
        split
        · simp only
          have hu := update_ok N hN _ h1
          have hd := update_decay N hN _ h1
          split
          · exact (spark_ok N i.k (hk i (by simp)) _ hu I hI (by omega)).1
          · exact hu
        · exact h1
      · unfold run
        split
        · simp only
          have hu := update_ok N hN _ h1
          have hd := update_decay N hN _ h1
          split
          · rw [(spark_ok N i.k (hk i (by simp)) _ hu I hI (by omega)).2]; omega
          · omega
        · exact h2
  have hz : ∀ n, total (fun _ => 0) n = 0 := by
    intro n; induction n with
    | zero => rfl
    | succ n ih => simp only [total, ih]; rfl
  apply key ins _ hk
  · refine ⟨fun _ => Int.le_refl 0, rfl, fun _ _ => rfl, ?_⟩
    unfold light init; simp only [hz]; omega
  · unfold light init; simp only [hz]; omega

/-- The value of an LED is between 0 and 32768. -/
theorem C102_range (s : Nat → Int) (led : Nat) : 0 ≤ getInteger s led ∧ getInteger s led ≤ 32768 := by
  unfold getInteger clampi32
  split
  · omega
  · split <;> omega

/-- Sparks die out: without new ones the light falls by at least 54/1024 with each update, as long
as there is any, and is gone after finitely many. -/
theorem C102_dies_out (N : Nat) (hN : 0 < N) (s : Nat → Int) (h : Ok N s) (n : Nat) :
    Ok N ((update N)^[n] s) ∧ 1024^n * light N ((update N)^[n] s) ≤ 970^n * light N s ∧
    (light N s ≤ n → ∀ led, getInteger ((update N)^[n] s) led = 0) := by
  have key : Ok N ((update N)^[n] s) ∧ 1024^n * light N ((update N)^[n] s) ≤ 970^n * light N s ∧
      light N ((update N)^[n] s) ≤ max 0 (light N s - n) := by
    induction n with
    | zero => exact ⟨h, by simp, by simp⟩
    | succ n ih =>
      obtain ⟨h1, h2, h3⟩ := ih
      rw [Function.iterate_succ_apply']
      have hd := update_decay N hN _ h1
      have hn := total_nonneg _ h1.1 (N+3)
      refine ⟨update_ok N hN _ h1, ?_, ?_⟩
      · have e1 : (1024:Int)^(n+1) * light N (update N ((update N)^[n] s)) =
            1024^n * (1024 * light N (update N ((update N)^[n] s))) := by ring
        have e2 : (970:Int)^(n+1) * light N s = 970 * (970^n * light N s) := by ring
        rw [e1, e2]
        have hp : (0:Int) ≤ 1024^n := by positivity
        have := Int.mul_le_mul_of_nonneg_left hd hp
        have e3 : (1024:Int)^n * (970 * light N ((update N)^[n] s)) =
            970 * (1024^n * light N ((update N)^[n] s)) := by ring
        omega
      · unfold light at *
        push_cast
        omega
  refine ⟨key.1, key.2.1, ?_⟩
  intro hle led
  have h0 : light N ((update N)^[n] s) ≤ 0 := by have := key.2.2; omega
  have hs : ((update N)^[n] s) (led + 2) = 0 := by
    have hp := key.1.1 (led + 2)
    by_cases hj : led + 2 < N + 3
    · have := le_total _ key.1.1 (N+3) (led+2) hj
      unfold light at h0; omega
    · exact key.1.2.2.1 _ (by omega)
  unfold getInteger; rw [hs]; rfl

/-- A single spark in the middle of ten LEDs meets the hypotheses. -/
example : Ok 10 (spark (fun _ => 0) 4 1024) ∧ light 10 (spark (fun _ => 0) 4 1024) = 1024 := by
  have hz : ∀ n, total (fun _ => 0) n = 0 := by
    intro n; induction n with
    | zero => rfl
    | succ n ih => simp only [total, ih]; rfl
  have h0 : Ok 10 (fun _ => 0) := ⟨fun _ => Int.le_refl 0, rfl, fun _ _ => rfl, by unfold light; rw [hz]; omega⟩
  have := spark_ok 10 4 (by omega) (fun _ => 0) h0 1024 (by omega) (by unfold light; rw [hz]; omega)
  exact ⟨this.1, by rw [this.2]; unfold light; rw [hz]; omega⟩

/-- Light spreads evenly to both neighbours: after an update an LED has 570/1024 of its own light
and 200/1024 of that of each neighbour, and nothing from elsewhere.  This is claimed for all LEDs
but the last two, which are wrong (`C102_end_counterexample`), and with nothing outside the blade. -/
theorem C102_spread_partial (N : Nat) (s : Nat → Int) (h : Ok N s) (h1 : s 1 = 0) (led : Nat) (hled : led + 2 < N) :
    update N s (led + 2) =
      (200 * (if led = 0 then 0 else s (led - 1 + 2)) + 570 * s (led + 2) + 200 * s (led + 1 + 2)) / 1024 := by
  rw [update_eq N (by omega) s h, if_neg (by omega), if_neg (by omega), if_neg (by omega), if_pos (by omega)]
  unfold blur
  rw [show led + 2 - 1 = led + 1 by omega, show led + 2 + 1 = led + 1 + 2 by omega]
  split
  · subst_vars
    rw [h1]; congr 1; omega
  · rw [show led + 1 = led - 1 + 2 by omega]; congr 1; omega

/-- Nothing leaks out below the first LED. -/
theorem C102_first (N : Nat) (hN : 2 ≤ N) (s : Nat → Int) (h : Ok N s) : update N s 1 = 0 := by
  rw [update_eq N (by omega) s h, if_neg (by omega), if_neg (by omega), if_pos rfl]

/-- Only entries of the allocated array are written. -/
theorem C102_inside (N : Nat) (hN : 0 < N) (s : Nat → Int) (h : Ok N s) (j : Nat) (hj : N + 4 ≤ j) :
    update N s j = s j := by
  rw [update_eq N hN s h, if_neg (by omega), if_neg (by omega), if_neg (by omega), if_neg (by omega)]

/-- The update happens at most every 10 ms. -/
theorem C102_rate (N m : Nat) (chance I : Int) (draw k : Nat) (st : St) (h : sub32 m st.last < 10) :
    run N m chance I draw k st = st := by
  unfold run; rw [if_neg (by omega)]

/-- Without new sparks, the last LED is always dark after an update, whatever was there; the light
it should have goes to the one before it. -/
theorem C102_end_counterexample (N : Nat) (hN : 0 < N) (s : Nat → Int) (h : Ok N s) :
    getInteger (update N s) (N - 1) = 0 ∧
    update N s N = ((s N + s (N + 2)) * 200 + s (N + 1) * 570) / 1024 := by
  constructor
  · unfold getInteger
    rw [show N - 1 + 2 = N + 1 by omega, update_eq N hN s h, if_pos rfl]; rfl
  · rw [update_eq N hN s h, if_neg (by omega), if_pos rfl]; rfl

/-- With an intensity of 20000, three sparks in a row at the same LED leave it dark: the value
overflows. -/
theorem C102_overflow_counterexample :
    (let s1 := spark (update 10 (fun _ => 0)) 4 20000
     let s2 := spark (update 10 s1) 4 20000
     let s3 := spark (update 10 s2) 4 20000
     (getInteger s2 4, getInteger s3 4)) = (32768, 0) := by decide +kernel

end Verif.Func.Sparkle
