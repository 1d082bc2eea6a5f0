import Mathlib.Algebra.Order.Floor.Ring
import Mathlib.Data.Rat.Floor
import Mathlib.Tactic.Linarith
import Mathlib.Tactic.Ring
import Mathlib.Tactic.Positivity
import Mathlib.Tactic.FieldSimp

/-!
# Rotating and sweeping sections (C106)

Model of `ColorCycle` (styles/color_cycle.h:27-113) and `Cylon` (styles/cylon.h:28-98).  `float`
computations are exact rationals; the sine is an input between -1 and 1.  A colour is one channel.
-/
namespace Verif.Style.Cycle

/-- Arguments of the templates. -/
structure P where
  offPct : Rat
  offRpm : Rat
  onPct : Rat
  onRpm : Rat
  fadeMs : Nat

/-- `fade_`, `pos_`, `last_micros_`. -/
structure St where
  fade : Rat
  pos : Rat
  last : Nat

/-- A frame: `micros()` and `is_on()`. -/
structure Frame where
  us : Nat
  on : Bool
deriving DecidableEq, Repr

/-- `delta`, styles/color_cycle.h:33-36. -/
def delta (last us : Nat) : Nat :=
  if (us + 4294967296 - last) % 4294967296 > 1000000 then 1 else (us + 4294967296 - last) % 4294967296

/-- The new `fade_`, styles/color_cycle.h:38-40. -/
def newFade (p : P) (s : St) (f : Frame) : Rat :=
  max 0 (min 1 (s.fade + (if f.on then 1 else -1) * ((delta s.last f.us : Rat) / 1000 / p.fadeMs)))

/-- `current_rpm`, styles/color_cycle.h:42. -/
def rpm (p : P) (fade : Rat) : Rat := p.offRpm * (1 - fade) + p.onRpm * fade

/-- `current_percentage`, styles/color_cycle.h:43-44. -/
def pct (p : P) (fade : Rat) : Rat := p.offPct * (1 - fade) + p.onPct * fade

/-- `ColorCycleBase::run`, styles/color_cycle.h:29-46. -/
def run (p : P) (s : St) (f : Frame) : St :=
  { fade := newFade p s f
    pos := Int.fract (s.pos + (delta s.last f.us : Rat) / 60000000 * rpm p (newFade p s f))
    last := f.us }

/-- `Cylon::run`, styles/cylon.h:79-84: `on_rpm` is passed for `off_rpm`. -/
def cylonRun (p : P) (s : St) (f : Frame) : St := run { p with offRpm := p.onRpm } s f

/-- One LED in units of the position. -/
abbrev U : Nat := 16384

/-- `start_` and `end_` of `ColorCycle`, styles/color_cycle.h:47-58. -/
def section_ (n : Nat) (p : P) (s : St) : Nat × Nat :=
  if pct p s.fade = 100 then (0, n * U)
  else if pct p s.fade = 0 then (0, 0)
  else (⌊s.pos * (n * U : Nat)⌋.toNat, ⌊Int.fract (s.pos + pct p s.fade / 100) * (n * U : Nat)⌋.toNat)

/-- The lower end of the section of `Cylon`, styles/cylon.h:48-49; `sine` is `sinf(pos_ * M_PI * 2)`. -/
def cylonPos (sine fraction : Rat) : Rat := 1/2 + sine * (1 - fraction) / 2 - fraction / 2

/-- `start_` and `end_` of `Cylon`, styles/cylon.h:50-62. -/
def cylonSection (n : Nat) (p : P) (s : St) (sine : Rat) : Nat × Nat :=
  if pct p s.fade = 100 then (0, n * U)
  else if pct p s.fade = 0 then (0, 0)
  else (⌊cylonPos sine (pct p s.fade / 100) * (n * U : Nat)⌋.toNat,
        ⌊(cylonPos sine (pct p s.fade / 100) + pct p s.fade / 100) * (n * U : Nat)⌋.toNat)

/-- `(Range(a, b) & Range(c, d)).size()`, common/range.h:4-17. -/
def inter (a b c d : Nat) : Nat := if max a c ≥ min b d then 0 else min b d - max a c

/-- `getMix`, styles/color_cycle.h:62-72. -/
def getMix (n : Nat) (se : Nat × Nat) (led : Nat) : Nat :=
  if se.1 ≤ se.2 then inter se.1 se.2 (led * U) (led * U + U)
  else inter 0 se.2 (led * U) (led * U + U) + inter se.1 (n * U) (led * U) (led * U + U)

/-- The same of `Cylon`, styles/cylon.h:91-92. -/
def cylonMix (se : Nat × Nat) (led : Nat) : Nat := inter se.1 se.2 (led * U) (led * U + U)

/-- `MixColors(.., .., x, 14)` for one channel, common/color.h:521-523. -/
def mix (a b x : Nat) : Nat := (a * (U - x) + b * x) / U

/-- `getColor`, styles/color_cycle.h:105-111 and styles/cylon.h:90-97. -/
def color (base off on : Nat) (fade : Rat) (m : Nat) : Nat := mix base (mix off on ⌊16384 * fade⌋.toNat) m

/-! ## The lit section -/

/-- Whether a point of the ring is between `a` and `b`, going upwards and around the end. -/
def lit (a b u : Nat) : Bool := if a ≤ b then decide (a ≤ u) && decide (u < b) else decide (u < b) || decide (a ≤ u)

theorem count_in (a b : Nat) (n : Nat) : ∀ s, (List.range' s n).countP (fun u => decide (a ≤ u) && decide (u < b)) = inter a b s (s + n) := by
  induction n with
  | zero => intro s; simp [inter]
  | succ n ih =>
    intro s
    rw [List.range'_succ, List.countP_cons, ih (s + 1)]
    unfold inter
    by_cases h1 : a ≤ s <;> by_cases h2 : s < b
    · simp only [h1, h2, decide_true, Bool.and_self, if_true]; (repeat' split) <;> omega
    · simp only [h1, h2, decide_true, decide_false, Bool.and_false, Bool.false_eq_true, if_false]; (repeat' split) <;> omega
    · simp only [h1, h2, decide_true, decide_false, Bool.false_and, Bool.false_eq_true, if_false]; (repeat' split) <;> omega
    · simp only [h1, h2, decide_false, Bool.false_and, Bool.false_eq_true, if_false]; (repeat' split) <;> omega

theorem count_or (f g h : Nat → Bool) (l : List Nat) (hd : ∀ u ∈ l, h u = (f u || g u) ∧ ¬ (f u = true ∧ g u = true)) :
    l.countP h = l.countP f + l.countP g := by
  induction l with
  | nil => rfl
  | cons u l ih =>
    obtain ⟨h1, h2⟩ := hd u (by simp)
    rw [List.countP_cons, List.countP_cons, List.countP_cons, ih (fun v hv => hd v (by simp [hv])), h1]
    cases hf : f u <;> cases hg : g u <;> simp [hf, hg] at h2 ⊢ <;> omega

/-- The brightness of an LED of the ring is the part of it which lies in the lit section, for every
place of the section, also across the end of the ring. -/
theorem C106_mix (n a b led : Nat) (hl : led < n) :
    getMix n (a, b) led = (List.range' (led * U) U).countP (lit a b) ∧ getMix n (a, b) led ≤ U := by
  have e : getMix n (a, b) led = (List.range' (led * U) U).countP (lit a b) := by
    unfold getMix
    by_cases h : a ≤ b
    · simp only [h, if_true]
      rw [← count_in a b U (led * U)]
      apply List.countP_congr
      intro u _
      simp [lit, h]
    · simp only [h, if_false]
      rw [← count_in 0 b U (led * U), ← count_in a (n * U) U (led * U)]
      symm
      apply count_or
      intro u hu
      have hu2 : u < n * U := by
        have := List.mem_range'_1.mp hu
        have h3 : (led + 1) * U ≤ n * U := Nat.mul_le_mul_right U hl
        have h4 : (led + 1) * U = led * U + U := by ring
        omega
      have h1 : lit a b u = (decide (u < b) || decide (a ≤ u)) := by simp [lit, h]
      rw [h1]
      refine ⟨by simp [hu2], ?_⟩
      simp only [Bool.and_eq_true, decide_eq_true_eq]
      omega
  refine ⟨e, ?_⟩
  rw [e]
  have := List.countP_le_length (p := lit a b) (l := List.range' (led * U) U)
  simpa using this

theorem cylon_mix_eq (n a b led : Nat) (h : a ≤ b) : cylonMix (a, b) led = getMix n (a, b) led := by
  unfold cylonMix getMix
  simp [h]

/-- Sum over the LEDs. -/
def total (f : Nat → Nat) : Nat → Nat
  | 0 => 0
  | n+1 => total f n + f n

/-- All LEDs together show exactly the section: nothing is lost or shown twice at the edges of LEDs
or at the end of the ring. -/
theorem C106_total (n a b : Nat) (hb : b ≤ n * U) (ha : a ≤ n * U) :
    total (getMix n (a, b)) n = if a ≤ b then b - a else n * U - (a - b) := by
  have key : ∀ m, m ≤ n → total (getMix n (a, b)) m = (List.range' 0 (m * U)).countP (lit a b) := by
    intro m
    induction m with
    | zero => intro _; simp [total]
    | succ m ih =>
      intro hm
      have e : List.range' 0 ((m + 1) * U) = List.range' 0 (m * U) ++ List.range' (m * U) U := by
        have := List.range'_append (s := 0) (m := m * U) (n := U) (step := 1)
        rw [show (m + 1) * U = m * U + U by ring]
        rw [← this]
        simp
      rw [total, e, List.countP_append, ih (by omega), (C106_mix n a b m (by omega)).1]
  rw [key n (Nat.le_refl n)]
  by_cases h : a ≤ b
  · have e1 : (List.range' 0 (n * U)).countP (lit a b) = (List.range' 0 (n * U)).countP (fun u => decide (a ≤ u) && decide (u < b)) := by
      apply List.countP_congr
      intro u _
      simp [lit, h]
    rw [e1, count_in, if_pos h]
    unfold inter
    split <;> omega
  · have e1 : (List.range' 0 (n * U)).countP (lit a b) =
        (List.range' 0 (n * U)).countP (fun u => decide (0 ≤ u) && decide (u < b)) +
        (List.range' 0 (n * U)).countP (fun u => decide (a ≤ u) && decide (u < n * U)) := by
      apply count_or
      intro u hu
      have hu2 : u < n * U := by have := List.mem_range'_1.mp hu; omega
      have h1 : lit a b u = (decide (u < b) || decide (a ≤ u)) := by simp [lit, h]
      rw [h1]
      refine ⟨by simp [hu2], ?_⟩
      simp only [Bool.and_eq_true, decide_eq_true_eq]
      omega
    rw [e1, count_in, count_in, if_neg h]
    unfold inter
    (repeat' split) <;> omega

/-- A section of two and a half LEDs across the end of a ring of four. -/
example : total (getMix 4 (3 * U, U + U / 2)) 4 = 2 * U + U / 2 ∧ getMix 4 (3 * U, U + U / 2) 1 = U / 2 ∧
    getMix 4 (3 * U, U + U / 2) 2 = 0 := by decide +kernel

/-- The lit part of the ring is the given percentage of it, to one part in 16384 of an LED (unless
the percentage is so close to 100 that less than this part is dark). -/
theorem C106_percent_partial (n : Nat) (p : P) (s : St) (hp : 0 ≤ s.pos ∧ s.pos < 1) (hpct : 0 < pct p s.fade)
    (hpct2 : pct p s.fade / 100 * (n * U : Nat) ≤ (n * U : Nat) - 1) (hn : 0 < n) :
    |(total (getMix n (section_ n p s)) n : Rat) - pct p s.fade / 100 * (n * U : Nat)| < 1 := by
  obtain ⟨hp0, hp1⟩ := hp
  generalize hN : n * U = N at *
  have hN0 : 0 < N := by rw [← hN]; exact Nat.mul_pos hn (by decide)
  have hNq : (0 : Rat) < (N : Rat) := by exact_mod_cast hN0
  generalize hq : pct p s.fade = q at *
  have hq100 : q < 100 := by
    by_contra hc
    have h1 : (1 : Rat) ≤ q / 100 := by linarith
    have h2 : (N : Rat) ≤ q / 100 * N := by nlinarith
    linarith
  generalize hf : q / 100 = f at *
  have hf0 : 0 < f := by rw [← hf]; linarith
  have hf1 : f < 1 := by rw [← hf]; linarith
  unfold section_
  rw [hq, hN, hf, if_neg (by linarith), if_neg (by linarith)]
  -- both ends as whole numbers
  have hX0 : 0 ≤ s.pos * (N : Rat) := by positivity
  have hA := Int.floor_le (s.pos * (N : Rat))
  have hA' := Int.lt_floor_add_one (s.pos * (N : Rat))
  have hA0 : 0 ≤ ⌊s.pos * (N : Rat)⌋ := Int.floor_nonneg.mpr hX0
  have hfr0 : 0 ≤ Int.fract (s.pos + f) := Int.fract_nonneg _
  have hfr1 : Int.fract (s.pos + f) < 1 := Int.fract_lt_one _
  have hY0 : 0 ≤ Int.fract (s.pos + f) * (N : Rat) := by positivity
  have hB := Int.floor_le (Int.fract (s.pos + f) * (N : Rat))
  have hB' := Int.lt_floor_add_one (Int.fract (s.pos + f) * (N : Rat))
  have hB0 : 0 ≤ ⌊Int.fract (s.pos + f) * (N : Rat)⌋ := Int.floor_nonneg.mpr hY0
  obtain ⟨a, ea⟩ := Int.eq_ofNat_of_zero_le hA0
  obtain ⟨b, eb⟩ := Int.eq_ofNat_of_zero_le hB0
  rw [ea] at hA hA'
  rw [eb] at hB hB'
  simp only [ea, eb, Int.toNat_natCast]
  push_cast at hA hA' hB hB'
  have haN : a ≤ N := by
    have : (a : Rat) ≤ N := by nlinarith
    exact_mod_cast this
  have hbN : b ≤ N := by
    have : (b : Rat) ≤ N := by nlinarith
    exact_mod_cast this
  rw [C106_total n a b (by rw [hN]; exact hbN) (by rw [hN]; exact haN), hN]
  by_cases hw : s.pos + f < 1
  · -- not across the end
    have e : Int.fract (s.pos + f) = s.pos + f := Int.fract_eq_self.mpr ⟨by linarith, hw⟩
    rw [e] at hB hB'
    have hab : a ≤ b := by
      have h1 : (a : Rat) < b + 1 := by nlinarith
      have : a < b + 1 := by exact_mod_cast h1
      omega
    rw [if_pos hab]
    have : ((b - a : Nat) : Rat) = (b : Rat) - a := by push_cast [Nat.cast_sub hab]; ring
    rw [this, abs_lt]
    constructor <;> nlinarith
  · have e : Int.fract (s.pos + f) = s.pos + f - 1 := by
      rw [Int.fract_eq_iff]
      exact ⟨by linarith, by linarith, 1, by push_cast; ring⟩
    rw [e] at hB hB'
    have hab : b < a := by
      have h1 : (b : Rat) < a := by nlinarith
      exact_mod_cast h1
    rw [if_neg (by omega)]
    have : ((N - (a - b) : Nat) : Rat) = (N : Rat) - (a - b) := by
      push_cast [Nat.cast_sub (show a - b ≤ N by omega), Nat.cast_sub (Nat.le_of_lt hab)]; ring
    rw [this, abs_lt]
    constructor <;> nlinarith

/-- Without the condition: while fading to 100 percent the whole ring may be dark for a moment. -/
theorem C106_percent_counterexample :
    section_ 1 ⟨100, 60, 0, 60, 1000⟩ ⟨1/131072, 1/32768 + 1/131072, 0⟩ = (0, 0) ∧
    pct ⟨100, 60, 0, 60, 1000⟩ (1/131072 : Rat) > 99 := by
  unfold section_ pct
  norm_num

/-! ## The two groups of arguments -/

theorem mix_zero (a b : Nat) : mix a b 0 = a := by unfold mix; simp

theorem mix_full (a b : Nat) : mix a b U = b := by unfold mix; simp

/-- At 0 percent the whole blade has the base colour, at 100 percent it has the lit colour; fully
off this is the off colour, fully on the on colour.  The same for both styles. -/
theorem C106_groups (n : Nat) (p : P) (s : St) (sine : Rat) (base off on led : Nat) (hl : led < n) :
    (pct p s.fade = 0 → color base off on s.fade (getMix n (section_ n p s) led) = base ∧
      color base off on s.fade (cylonMix (cylonSection n p s sine) led) = base) ∧
    (pct p s.fade = 100 → s.fade = 0 → color base off on s.fade (getMix n (section_ n p s) led) = off ∧
      color base off on s.fade (cylonMix (cylonSection n p s sine) led) = off) ∧
    (pct p s.fade = 100 → s.fade = 1 → color base off on s.fade (getMix n (section_ n p s) led) = on ∧
      color base off on s.fade (cylonMix (cylonSection n p s sine) led) = on) := by
  have hfull : inter 0 (n * U) (led * U) (led * U + U) = U := by
    have h3 : (led + 1) * U ≤ n * U := Nat.mul_le_mul_right U hl
    have h4 : (led + 1) * U = led * U + U := by ring
    have : U = 16384 := rfl
    unfold inter
    rw [if_neg (by omega)]
    omega
  have hnone : inter 0 0 (led * U) (led * U + U) = 0 := by unfold inter; rw [if_pos (by omega)]
  refine ⟨fun h => ?_, fun h h0 => ?_, fun h h1 => ?_⟩
  · have e1 : section_ n p s = (0, 0) := by unfold section_; rw [h]; norm_num
    have e2 : cylonSection n p s sine = (0, 0) := by unfold cylonSection; rw [h]; norm_num
    rw [e1, e2]
    simp only [getMix, cylonMix, Nat.le_refl, if_true, hnone, color, mix_zero, and_self]
  · have e1 : section_ n p s = (0, n * U) := by unfold section_; rw [if_pos h]
    have e2 : cylonSection n p s sine = (0, n * U) := by unfold cylonSection; rw [if_pos h]
    rw [e1, e2, h0]
    simp only [getMix, cylonMix, Nat.zero_le, if_true, hfull, color, mix_full, mul_zero, Int.floor_zero, Int.toNat_zero, mix_zero, and_self]
  · have e1 : section_ n p s = (0, n * U) := by unfold section_; rw [if_pos h]
    have e2 : cylonSection n p s sine = (0, n * U) := by unfold cylonSection; rw [if_pos h]
    rw [e1, e2, h1]
    have e3 : ⌊(16384 : Rat) * 1⌋.toNat = U := by norm_num; rfl
    simp only [getMix, cylonMix, Nat.zero_le, if_true, hfull, color, mix_full, e3, and_self]

/-- Fully off the percentage and speed are those of the off group, fully on those of the on group. -/
theorem C106_ends (p : P) :
    pct p 0 = p.offPct ∧ pct p 1 = p.onPct ∧ rpm p 0 = p.offRpm ∧ rpm p 1 = p.onRpm := by
  unfold pct rpm
  refine ⟨?_, ?_, ?_, ?_⟩ <;> ring

/-- Frames, not more than a second apart from each other: time passed, in microseconds. -/
def Paced : Nat → List (Nat × Bool) → List Frame → Prop
  | _, [], fs => fs = []
  | last, (d, on) :: ds, fs => ∃ r, fs = ⟨(last + d) % 4294967296, on⟩ :: r ∧ d ≤ 1000000 ∧ Paced ((last + d) % 4294967296) ds r

theorem delta_paced (last d : Nat) (hl : last < 4294967296) (hd : d ≤ 1000000) : delta last ((last + d) % 4294967296) = d := by
  have e : ((last + d) % 4294967296 + 4294967296 - last) % 4294967296 = d := by omega
  unfold delta
  rw [e, if_neg (by omega)]

/-- Time passed. -/
def elapsed : List (Nat × Bool) → Nat
  | [] => 0
  | d :: ds => d.1 + elapsed ds

theorem fade_up (x y : Rat) (hy : 0 ≤ y) (hx : 0 ≤ x) : max 0 (min 1 (x + 1 * y)) = min 1 (x + y) := by
  rw [one_mul]
  exact max_eq_right (le_min (by norm_num) (by linarith))

/-- While the blade is on the state fades in proportion to time to the on group, and is there after
the fade time; clock wrap around and lengths of the frames have no influence. -/
theorem C106_fade_on (p : P) (hp : 0 < p.fadeMs) (ds : List (Nat × Bool)) (fs : List Frame) (s : St) (hs : 0 ≤ s.fade ∧ s.fade ≤ 1)
    (hl : s.last < 4294967296) (hon : ∀ d ∈ ds, d.2 = true) (hpa : Paced s.last ds fs) :
    (fs.foldl (run p) s).fade = min 1 (s.fade + (elapsed ds : Rat) / 1000 / p.fadeMs) := by
  have hpq : (0 : Rat) < p.fadeMs := by exact_mod_cast hp
  induction ds generalizing fs s with
  | nil =>
    simp only [Paced] at hpa
    subst hpa
    simp only [List.foldl, elapsed]
    rw [min_eq_right]
    · simp
    · simp; exact hs.2
  | cons d ds ih =>
    obtain ⟨d, on⟩ := d
    obtain ⟨r, h1, h2, h3⟩ := hpa
    have hd : on = true := hon (d, on) (by simp)
    subst hd
    subst h1
    have hdl := delta_paced s.last d hl h2
    have hd0 : (0 : Rat) ≤ (d : Rat) / 1000 / p.fadeMs := by positivity
    have hf : (run p s ⟨(s.last + d) % 4294967296, true⟩).fade = min 1 (s.fade + (d : Rat) / 1000 / p.fadeMs) := by
      simp only [run, newFade, hdl, if_true]
      exact fade_up _ _ hd0 hs.1
    have hr := ih r (run p s ⟨(s.last + d) % 4294967296, true⟩)
      ⟨by rw [hf]; exact le_min (by norm_num) (by linarith), by rw [hf]; exact min_le_left _ _⟩
      (Nat.mod_lt _ (by norm_num)) (fun e he => hon e (by simp [he])) h3
    simp only [List.foldl]
    rw [hr, hf]
    have he0 : (0 : Rat) ≤ (elapsed ds : Rat) / 1000 / p.fadeMs := by positivity
    have e1 : ((elapsed ((d, true) :: ds) : Nat) : Rat) / 1000 / p.fadeMs = (d : Rat) / 1000 / p.fadeMs + (elapsed ds : Rat) / 1000 / p.fadeMs := by
      simp only [elapsed]; push_cast; ring
    rw [e1]
    rcases le_total 1 (s.fade + (d : Rat) / 1000 / p.fadeMs) with h | h
    · rw [min_eq_left h, min_eq_left (by linarith), min_eq_left (by linarith)]
    · rw [min_eq_right h, ← add_assoc]

/-- While the blade is off the state fades to the off group. -/
theorem C106_fade_off (p : P) (hp : 0 < p.fadeMs) (ds : List (Nat × Bool)) (fs : List Frame) (s : St) (hs : 0 ≤ s.fade ∧ s.fade ≤ 1)
    (hl : s.last < 4294967296) (hon : ∀ d ∈ ds, d.2 = false) (hpa : Paced s.last ds fs) :
    (fs.foldl (run p) s).fade = max 0 (s.fade - (elapsed ds : Rat) / 1000 / p.fadeMs) := by
  have hpq : (0 : Rat) < p.fadeMs := by exact_mod_cast hp
  induction ds generalizing fs s with
  | nil =>
    simp only [Paced] at hpa
    subst hpa
    simp only [List.foldl, elapsed]
    rw [max_eq_right]
    · simp
    · simp; exact hs.1
  | cons d ds ih =>
    obtain ⟨d, on⟩ := d
    obtain ⟨r, h1, h2, h3⟩ := hpa
    have hd : on = false := hon (d, on) (by simp)
    subst hd
    subst h1
    have hdl := delta_paced s.last d hl h2
    have hd0 : (0 : Rat) ≤ (d : Rat) / 1000 / p.fadeMs := by positivity
    have hf : (run p s ⟨(s.last + d) % 4294967296, false⟩).fade = max 0 (s.fade - (d : Rat) / 1000 / p.fadeMs) := by
      simp only [run, newFade, hdl, Bool.false_eq_true, if_false]
      congr 1
      rw [min_eq_right (by linarith [hs.2])]
      ring
    have hr := ih r (run p s ⟨(s.last + d) % 4294967296, false⟩)
      ⟨by rw [hf]; exact le_max_left _ _, by rw [hf]; exact max_le (by norm_num) (by linarith [hs.2])⟩
      (Nat.mod_lt _ (by norm_num)) (fun e he => hon e (by simp [he])) h3
    simp only [List.foldl]
    rw [hr, hf]
    have he0 : (0 : Rat) ≤ (elapsed ds : Rat) / 1000 / p.fadeMs := by positivity
    have e1 : ((elapsed ((d, false) :: ds) : Nat) : Rat) / 1000 / p.fadeMs = (d : Rat) / 1000 / p.fadeMs + (elapsed ds : Rat) / 1000 / p.fadeMs := by
      simp only [elapsed]; push_cast; ring
    rw [e1]
    rcases le_total (s.fade - (d : Rat) / 1000 / p.fadeMs) 0 with h | h
    · rw [max_eq_left h, max_eq_left (by linarith), max_eq_left (by linarith)]
    · rw [max_eq_right h]
      congr 1
      ring

/-! ## Movement -/

theorem fract_fract_add (x y : Rat) : Int.fract (Int.fract x + y) = Int.fract (x + y) := by
  rw [Int.fract_eq_fract]
  exact ⟨-⌊x⌋, by have := Int.self_sub_floor x; push_cast; linarith⟩

/-- Turns made in the frames: the sum over the frames of the speed at that time by the length of the
frame. -/
def turned (p : P) (s : St) : List (Nat × Bool) → List Frame → Rat
  | (d, _) :: ds, f :: fs => (d : Rat) / 60000000 * rpm p (run p s f).fade + turned p (run p s f) ds fs
  | _, _ => 0

/-- The section turns with the current speed, without loss at frame borders or at the end of the
ring. -/
theorem C106_turns (p : P) (ds : List (Nat × Bool)) (fs : List Frame) (s : St) (hs : 0 ≤ s.pos ∧ s.pos < 1)
    (hl : s.last < 4294967296) (hpa : Paced s.last ds fs) :
    (fs.foldl (run p) s).pos = Int.fract (s.pos + turned p s ds fs) ∧
    0 ≤ (fs.foldl (run p) s).pos ∧ (fs.foldl (run p) s).pos < 1 := by
  induction ds generalizing fs s with
  | nil =>
    simp only [Paced] at hpa
    subst hpa
    simp only [List.foldl, turned, add_zero]
    exact ⟨(Int.fract_eq_self.mpr hs).symm, hs⟩
  | cons d ds ih =>
    obtain ⟨d, on⟩ := d
    obtain ⟨r, h1, h2, h3⟩ := hpa
    subst h1
    have hdl := delta_paced s.last d hl h2
    simp only [List.foldl, turned]
    generalize hf : (⟨(s.last + d) % 4294967296, on⟩ : Frame) = f
    have hpos : (run p s f).pos = Int.fract (s.pos + (d : Rat) / 60000000 * rpm p (run p s f).fade) := by
      subst hf
      simp only [run, hdl]
    have hlast : (run p s f).last = (s.last + d) % 4294967296 := by subst hf; rfl
    obtain ⟨e1, e2⟩ := ih r (run p s f) ⟨by rw [hpos]; exact Int.fract_nonneg _, by rw [hpos]; exact Int.fract_lt_one _⟩
      (by rw [hlast]; exact Nat.mod_lt _ (by norm_num)) (by rw [hlast]; exact h3)
    refine ⟨?_, e2⟩
    rw [e1, hpos, fract_fract_add, add_assoc]

/-- Fully on (or fully off) the speed is the one of the group: the number of turns is the speed by
the time. -/
theorem C106_speed (p : P) (hp : 0 < p.fadeMs) (on : Bool) (ds : List (Nat × Bool)) (fs : List Frame) (s : St)
    (hs : 0 ≤ s.pos ∧ s.pos < 1) (hf : s.fade = if on then 1 else 0) (hl : s.last < 4294967296)
    (hon : ∀ d ∈ ds, d.2 = on) (hpa : Paced s.last ds fs) :
    (fs.foldl (run p) s).pos = Int.fract (s.pos + (elapsed ds : Rat) / 60000000 * (if on then p.onRpm else p.offRpm)) := by
  rw [(C106_turns p ds fs s hs hl hpa).1]
  congr 2
  clear hs
  have hpq : (0 : Rat) < p.fadeMs := by exact_mod_cast hp
  induction ds generalizing fs s with
  | nil => simp [turned, elapsed]
  | cons d ds ih =>
    obtain ⟨d, o⟩ := d
    obtain ⟨r, h1, h2, h3⟩ := hpa
    have hd : o = on := hon (d, o) (by simp)
    subst hd
    subst h1
    have hdl := delta_paced s.last d hl h2
    have hd0 : (0 : Rat) ≤ (d : Rat) / 1000 / p.fadeMs := by positivity
    have hfade : (run p s ⟨(s.last + d) % 4294967296, o⟩).fade = if o then 1 else 0 := by
      simp only [run, newFade, hdl, hf]
      cases o
      · simp only [Bool.false_eq_true, if_false]
        rw [max_eq_left]
        exact le_trans (min_le_right _ _) (by linarith)
      · simp only [if_true]
        rw [min_eq_left (by linarith)]
        norm_num
    simp only [turned]
    rw [ih r _ hfade (Nat.mod_lt _ (by norm_num)) (fun e he => hon e (by simp [he])) h3, hfade]
    simp only [elapsed]
    push_cast
    cases o
    · simp only [Bool.false_eq_true, if_false, (C106_ends p).2.2.1]; ring
    · simp only [if_true, (C106_ends p).2.2.2]; ring

/-- A cycle of 60 turns per minute when off, 120 when on: half a turn in a quarter of a second. -/
example : Paced 4294967200 [(125000, true), (125000, true)] [⟨124904, true⟩, ⟨249904, true⟩] ∧
    ([⟨124904, true⟩, ⟨249904, true⟩].foldl (run ⟨10, 60, 50, 120, 100⟩) ⟨1, 3/4, 4294967200⟩).pos = 1/4 := by
  constructor
  · simp [Paced]
  · norm_num [run, newFade, delta, rpm, Int.fract, Int.floor_eq_iff]

/-- The speed of `Cylon` when off is not the one given for off, but the one for on: with 0 turns for
off and 60 for on it moves when off. -/
theorem C106_cylon_off_counterexample :
    (cylonRun ⟨10, 0, 10, 60, 100⟩ ⟨0, 0, 0⟩ ⟨250000, false⟩).pos = 1/4 := by
  norm_num [cylonRun, run, newFade, delta, rpm, Int.fract, Int.floor_eq_iff]

/-- When on, `Cylon` moves as `ColorCycle`. -/
theorem C106_cylon_on_partial (p : P) (s : St) (f : Frame) (hf : newFade p s f = 1) :
    cylonRun p s f = run p s f := by
  have e : newFade { p with offRpm := p.onRpm } s f = newFade p s f := rfl
  unfold cylonRun run
  rw [e, hf]
  simp [rpm]

/-- The section of `Cylon` stays on the blade: it has the given part of the blade (to one unit) and
never leaves it. -/
theorem C106_cylon_section (n : Nat) (p : P) (s : St) (sine : Rat) (hs : -1 ≤ sine ∧ sine ≤ 1)
    (hq : 0 ≤ pct p s.fade ∧ pct p s.fade ≤ 100) :
    (cylonSection n p s sine).1 ≤ (cylonSection n p s sine).2 ∧ (cylonSection n p s sine).2 ≤ n * U ∧
    |((cylonSection n p s sine).2 : Rat) - (cylonSection n p s sine).1 - pct p s.fade / 100 * (n * U : Nat)| < 1 := by
  unfold cylonSection
  generalize n * U = N
  generalize pct p s.fade = q at *
  have hN : (0 : Rat) ≤ N := by positivity
  by_cases h1 : q = 100
  · rw [if_pos h1, h1]
    norm_num
  rw [if_neg h1]
  by_cases h0 : q = 0
  · rw [if_pos h0, h0]
    norm_num
  rw [if_neg h0]
  generalize hf : q / 100 = f
  have hf0 : 0 ≤ f := by rw [← hf]; linarith [hq.1]
  have hf1 : f ≤ 1 := by rw [← hf]; linarith [hq.2]
  have hc0 : 0 ≤ cylonPos sine f := by unfold cylonPos; nlinarith [hs.1]
  have hc1 : cylonPos sine f + f ≤ 1 := by unfold cylonPos; nlinarith [hs.2]
  generalize cylonPos sine f = c at *
  have hA := Int.floor_le (c * (N : Rat))
  have hA' := Int.lt_floor_add_one (c * (N : Rat))
  have hA0 : 0 ≤ ⌊c * (N : Rat)⌋ := Int.floor_nonneg.mpr (by positivity)
  have hB := Int.floor_le ((c + f) * (N : Rat))
  have hB' := Int.lt_floor_add_one ((c + f) * (N : Rat))
  have hB0 : 0 ≤ ⌊(c + f) * (N : Rat)⌋ := Int.floor_nonneg.mpr (by positivity)
  obtain ⟨a, ea⟩ := Int.eq_ofNat_of_zero_le hA0
  obtain ⟨b, eb⟩ := Int.eq_ofNat_of_zero_le hB0
  rw [ea] at hA hA'
  rw [eb] at hB hB'
  simp only [ea, eb, Int.toNat_natCast]
  push_cast at hA hA' hB hB'
  refine ⟨?_, ?_, ?_⟩
  · have h1 : (a : Rat) < b + 1 := by nlinarith
    have : a < b + 1 := by exact_mod_cast h1
    omega
  · have : (b : Rat) ≤ N := by nlinarith
    exact_mod_cast this
  · rw [abs_lt]
    constructor <;> nlinarith

/-- At the ends of its way the section touches the ends of the blade. -/
theorem C106_cylon_reach (fraction : Rat) :
    cylonPos (-1) fraction = 0 ∧ cylonPos 1 fraction + fraction = 1 ∧ cylonPos 0 fraction + fraction / 2 = 1/2 := by
  unfold cylonPos
  refine ⟨?_, ?_, ?_⟩ <;> ring

example : cylonSection 10 ⟨20, 60, 20, 60, 1⟩ ⟨1, 0, 0⟩ 1 = (8 * U, 10 * U) := by
  norm_num [cylonSection, pct, cylonPos]
  decide

end Verif.Style.Cycle
