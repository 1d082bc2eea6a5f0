import Verif.Style.SinTable
import Mathlib.Algebra.Order.Floor.Ring
import Mathlib.Data.Rat.Floor
import Mathlib.Tactic.Linarith
import Mathlib.Tactic.Ring
import Mathlib.Tactic.Positivity
import Mathlib.Tactic.FieldSimp
/-!
# Oscillators and functions of movement (C113)

Model of `Sin`, `Saw` and `PulsingF` (functions/sin.h), `TwistAngle` (functions/twist_angle.h:13-26),
`BladeAngleX` (functions/blade_angle.h), `SwingSpeed` (functions/swing_speed.h), `ClashImpactFX`
(functions/clash_impact.h) and `MarbleF` (functions/marble.h).  `float` is exact rational arithmetic.
-/
namespace Verif.Func.Osc

/-! ## Phase -/

/-- `pos_` and `last_micros_`. -/
structure Ph where
  pos : Rat
  last : Nat

/-- `now - last_micros_`, functions/sin.h:28. -/
def delta (last us : Nat) : Nat := (us + 4294967296 - last) % 4294967296

/-- The new phase with `speed` turns per microsecond: `rpm / 60000000` for `Sin` and `Saw`
(functions/sin.h:27-30, 59-62), `1 / (1000 * ms)` for `PulsingF` (functions/sin.h:79-82). -/
def phase (speed : Rat) (s : Ph) (us : Nat) : Ph := ⟨Int.fract (s.pos + delta s.last us * speed), us⟩

/-- Conversion to `int`: towards zero. -/
def trunc (x : Rat) : Int := if 0 ≤ x then ⌊x⌋ else ⌈x⌉

/-- Value of `Saw`, functions/sin.h:63-65. -/
def saw (pos : Rat) (low high : Int) : Int := trunc (low + pos * (high - low))

/-- The entry of the sine table, functions/sin.h:33, 83. -/
def entry (pos : Rat) : Int := Style.sinAt ⌊pos * 1024⌋.toNat

/-- Value of `Sin`, functions/sin.h:31-34. -/
def sine (pos : Rat) (low high : Int) : Int := trunc (((entry pos : Rat) / 32768 + 1 / 2) * (high - low) + low)

/-- Value of `PulsingF`, functions/sin.h:83. -/
def pulse (pos : Rat) : Int := entry pos + 16384

/-- The readings of a clock of 32 bits after the time steps. -/
def clock : Nat → List Nat → List Nat
  | _, [] => []
  | last, d :: ds => (last + d) % 4294967296 :: clock ((last + d) % 4294967296) ds

theorem fract_fract_add (x y : Rat) : Int.fract (Int.fract x + y) = Int.fract (x + y) := by
  rw [Int.fract_eq_fract]
  exact ⟨-⌊x⌋, by have := Int.self_sub_floor x; push_cast; linarith⟩

/-- The phase turns with constant speed whatever the frames, over the wrap around of the clock too. -/
theorem C113_phase (speed : Rat) (ds : List Nat) (hd : ∀ d ∈ ds, d < 4294967296) (s : Ph) (hl : s.last < 4294967296) (hne : ds ≠ []) :
    ((clock s.last ds).foldl (phase speed) s).pos = Int.fract (s.pos + ds.sum * speed) := by
  have key : ∀ (ds : List Nat) (s : Ph), (∀ d ∈ ds, d < 4294967296) → s.last < 4294967296 →
      Int.fract ((clock s.last ds).foldl (phase speed) s).pos = Int.fract (s.pos + ds.sum * speed) := by
    intro ds
    induction ds with
    | nil => intro s _ _; simp [clock]
    | cons d ds ih =>
      intro s hd hl
      have h1 : d < 4294967296 := hd d (by simp)
      have hdl : delta s.last ((s.last + d) % 4294967296) = d := by unfold delta; omega
      simp only [clock, List.foldl_cons]
      have hp : phase speed s ((s.last + d) % 4294967296) = ⟨Int.fract (s.pos + d * speed), (s.last + d) % 4294967296⟩ := by
        unfold phase; rw [hdl]
      rw [hp]
      have := ih ⟨Int.fract (s.pos + d * speed), (s.last + d) % 4294967296⟩ (fun d' h' => hd d' (by simp [h'])) (Nat.mod_lt _ (by omega))
      simp only at this
      rw [this, fract_fract_add]
      congr 1
      rw [List.sum_cons]
      push_cast
      ring
  have h := key ds s hd hl
  have hin : ∀ (us : List Nat) (s : Ph), us ≠ [] → Int.fract (us.foldl (phase speed) s).pos = (us.foldl (phase speed) s).pos := by
    intro us
    induction us with
    | nil => intro s h; exact absurd rfl h
    | cons u us ih =>
      intro s _
      rw [List.foldl_cons]
      by_cases h : us = []
      · subst h; simp [phase]
      · exact ih _ h
  rw [hin _ _ (by cases ds with | nil => exact absurd rfl hne | cons d ds => simp [clock])] at h
  exact h

/-- After a whole number of turns the phase is the same again: `Sin<Int<rpm>>` has `rpm` periods a minute. -/
theorem C113_period (speed : Rat) (ds : List Nat) (hd : ∀ d ∈ ds, d < 4294967296) (s : Ph) (hl : s.last < 4294967296) (hne : ds ≠ [])
    (hp : 0 ≤ s.pos ∧ s.pos < 1) (k : Int) (hk : (ds.sum : Rat) * speed = k) : ((clock s.last ds).foldl (phase speed) s).pos = s.pos := by
  rw [C113_phase speed ds hd s hl hne, hk, Int.fract_add_intCast]
  exact Int.fract_eq_self.2 hp

/-- A minute at 10 rpm in two unequal frames. -/
example : ((clock 4294967000 [20000000, 40000000]).foldl (phase (10 / 60000000)) ⟨1/3, 4294967000⟩).pos = 1/3 :=
  C113_period (10 / 60000000) [20000000, 40000000] (by simp) ⟨1/3, 4294967000⟩ (by decide) (by simp) (by norm_num) 10 (by norm_num)

/-! ## Values -/

theorem trunc_between (x : Rat) (a b : Int) (h1 : (a : Rat) ≤ x) (h2 : x ≤ b) : a ≤ trunc x ∧ trunc x ≤ b := by
  unfold trunc
  split
  · exact ⟨Int.le_floor.2 h1, by exact_mod_cast (Int.floor_le x).trans h2⟩
  · exact ⟨by exact_mod_cast h1.trans (Int.le_ceil x), Int.ceil_le.2 h2⟩

theorem table_length : Style.sinList.length = 1024 := by decide +kernel

theorem table_all : Style.sinList.all (fun x => decide (-16383 ≤ x) && decide (x ≤ 16383)) = true := by decide +kernel

theorem table_bounds (i : Nat) (h : i < 1024) : -16383 ≤ Style.sinAt i ∧ Style.sinAt i ≤ 16383 := by
  have hi : i < Style.sinList.length := by rw [table_length]; exact h
  have := List.all_eq_true.1 table_all Style.sinList[i] (List.getElem_mem hi)
  unfold Style.sinAt
  rw [List.getD_eq_getElem?_getD, List.getElem?_eq_getElem hi, Option.getD_some]
  simpa using this

theorem index_lt (pos : Rat) (h : 0 ≤ pos ∧ pos < 1) : ⌊pos * 1024⌋.toNat < 1024 := by
  have h1 : ⌊pos * 1024⌋ < 1024 := by rw [Int.floor_lt]; push_cast; linarith [h.2]
  omega

/-- The table is read inside its bounds. -/
theorem C113_index (pos : Rat) (h : 0 ≤ pos ∧ pos < 1) : ⌊pos * 1024⌋.toNat < Style.sinList.length ∧ 0 ≤ ⌊pos * 1024⌋ := by
  rw [table_length]
  exact ⟨index_lt pos h, Int.floor_nonneg.2 (by linarith [h.1])⟩

/-- `Sin` and `Saw` stay between the two values, in either order; `PulsingF` between 0 and 32768. -/
theorem C113_range (pos : Rat) (h : 0 ≤ pos ∧ pos < 1) (low high : Int) :
    (min low high ≤ saw pos low high ∧ saw pos low high ≤ max low high) ∧
    (min low high ≤ sine pos low high ∧ sine pos low high ≤ max low high) ∧ (0 ≤ pulse pos ∧ pulse pos ≤ 32768) := by
  have hb := table_bounds _ (index_lt pos h)
  have hmix : ∀ t : Rat, 0 ≤ t → t ≤ 1 → ((min low high : Int) : Rat) ≤ t * (high - low) + low ∧ t * (high - low) + low ≤ ((max low high : Int) : Rat) := by
    intro t t0 t1
    rcases Int.le_total low high with hl | hl
    · have hl' : (low : Rat) ≤ high := by exact_mod_cast hl
      rw [min_eq_left hl, max_eq_right hl]
      constructor <;> nlinarith
    · have hl' : (high : Rat) ≤ low := by exact_mod_cast hl
      rw [min_eq_right hl, max_eq_left hl]
      constructor <;> nlinarith
  refine ⟨?_, ?_, ?_⟩
  · unfold saw
    rw [add_comm]
    obtain ⟨a, b⟩ := hmix pos h.1 h.2.le
    exact trunc_between _ _ _ a b
  · unfold sine
    have e1 : (-16383 : Rat) ≤ (entry pos : Rat) := by exact_mod_cast hb.1
    have e2 : (entry pos : Rat) ≤ 16383 := by exact_mod_cast hb.2
    obtain ⟨a, b⟩ := hmix ((entry pos : Rat) / 32768 + 1 / 2) (by linarith) (by linarith)
    exact trunc_between _ _ _ a b
  · unfold pulse entry; omega

/-- A quarter and three quarters through the period `Sin` is at the high and the low value but for a 32768th part of the difference, the
table ending at 16383; `Saw` starts at the low one; `PulsingF` reaches 1 and 32767. -/
theorem C113_reach (low high : Int) : sine (1/4) low high = trunc (high - ((high : Rat) - low) / 32768) ∧
    sine (3/4) low high = trunc (low + ((high : Rat) - low) / 32768) ∧ saw 0 low high = low ∧ pulse (1/4) = 32767 ∧ pulse (3/4) = 1 := by
  have tr : ∀ n : Int, trunc (n : Rat) = n := by intro n; unfold trunc; split <;> simp
  have e1 : entry (1/4) = 16383 := by
    unfold entry
    rw [show ⌊(1/4 : Rat) * 1024⌋ = 256 by norm_num]
    have : Style.sinAt 256 = 16383 := by decide +kernel
    exact this
  have e2 : entry (3/4) = -16383 := by
    unfold entry
    rw [show ⌊(3/4 : Rat) * 1024⌋ = 768 by norm_num]
    have : Style.sinAt 768 = -16383 := by decide +kernel
    exact this
  refine ⟨?_, ?_, ?_, ?_, ?_⟩
  · unfold sine; rw [e1]; congr 1; push_cast; ring
  · unfold sine; rw [e2]; congr 1; push_cast; ring
  · unfold saw; rw [zero_mul, add_zero]; exact tr low
  · unfold pulse; rw [e1]; rfl
  · unfold pulse; rw [e2]; rfl

/-- For pairs of entries at equal places of two lists. -/
theorem at_of_all {p : Int → Int → Bool} {l m : List Int} (h : (l.zip m).all (fun x => p x.1 x.2) = true) (i : Nat) (h1 : i < l.length)
    (h2 : i < m.length) : p l[i] m[i] = true := by
  have := List.all_eq_true.1 h (l[i], m[i]) (by
    rw [List.mem_iff_getElem]
    exact ⟨i, by simp; omega, by simp⟩)
  exact this

theorem sinAt_get (i : Nat) (h : i < 1024) : Style.sinAt i = Style.sinList[i]'(by rw [table_length]; exact h) := by
  unfold Style.sinAt
  rw [List.getD_eq_getElem?_getD, List.getElem?_eq_getElem (by rw [table_length]; exact h), Option.getD_some]

theorem get_congr (l : List Int) {i j : Nat} (h : i = j) (hi : i < l.length) (hj : j < l.length) : l[i] = l[j] := by subst h; rfl

/-- The table is a wave: the second half mirrors the first below zero, and it rises in the first quarter, by no more
than 101 a step. -/
theorem C113_table : (∀ i < 512, Style.sinAt (i + 512) = - Style.sinAt i) ∧
    (∀ i < 256, Style.sinAt i < Style.sinAt (i + 1) ∧ Style.sinAt (i + 1) ≤ Style.sinAt i + 101) := by
  constructor
  · intro i hi
    have h : ((Style.sinList.drop 512).zip Style.sinList).all (fun x => decide (x.1 = - x.2)) = true := by decide +kernel
    have := at_of_all (p := fun a b => decide (a = -b)) h i (by rw [List.length_drop, table_length]; omega) (by rw [table_length]; omega)
    rw [decide_eq_true_eq, List.getElem_drop] at this
    rw [sinAt_get _ (by omega), sinAt_get _ (by omega), ← this]
    exact get_congr _ (Nat.add_comm _ _) _ _
  · intro i hi
    have h : ((Style.sinList.take 256).zip (Style.sinList.drop 1)).all (fun x => decide (x.1 < x.2) && decide (x.2 ≤ x.1 + 101)) = true := by decide +kernel
    have := at_of_all (p := fun a b => decide (a < b) && decide (b ≤ a + 101)) h i (by rw [List.length_take, table_length]; omega)
      (by rw [List.length_drop, table_length]; omega)
    rw [Bool.and_eq_true, decide_eq_true_eq, decide_eq_true_eq, List.getElem_drop, List.getElem_take] at this
    rw [sinAt_get _ (by omega), sinAt_get _ (by omega)]
    have e : Style.sinList[1 + i]'(by rw [table_length]; omega) = Style.sinList[i + 1]'(by rw [table_length]; omega) :=
      get_congr _ (Nat.add_comm _ _) _ _
    rw [← e]; exact this

/-! ## `TwistAngle` -/

/-- `TwistAngleSVF<N, OFFSET>::calculate`, functions/twist_angle.h:17-22, for the angle in 65536 parts of a turn. -/
def twist (n offset a : Int) : Int :=
  if (a + offset) * n % 65536 ≥ 0x8000 then 0x10000 - (a + offset) * n % 65536 else (a + offset) * n % 65536

/-- The value is the distance of `(a + OFFSET) * N` to the nearest multiple of a whole turn. -/
theorem C113_twist (n offset a : Int) :
    (∃ k : Int, twist n offset a = |(a + offset) * n - 65536 * k|) ∧ ∀ k : Int, twist n offset a ≤ |(a + offset) * n - 65536 * k| := by
  unfold twist
  generalize (a + offset) * n = x
  constructor
  · by_cases h : x % 65536 ≥ 0x8000
    · rw [if_pos h]
      exact ⟨x / 65536 + 1, by rw [abs_of_nonpos (by omega)]; omega⟩
    · rw [if_neg h]
      exact ⟨x / 65536, by rw [abs_of_nonneg (by omega)]; omega⟩
  · intro k
    rcases abs_cases (x - 65536 * k) with ⟨h1, h2⟩ | ⟨h1, h2⟩ <;> rw [h1] <;> split <;> omega

/-- So it is between 0 and 32768, does not jump anywhere, in particular not where the angle jumps from half a turn to minus
half a turn, and goes up and down `N` times a turn: it is the same after an `N`-th of a turn (`65536 = N * d`). -/
theorem C113_twist_shape (n offset a : Int) :
    (0 ≤ twist n offset a ∧ twist n offset a ≤ 32768) ∧ (∀ b, |twist n offset a - twist n offset b| ≤ |(a - b) * n|) ∧
    twist n offset (a + 65536) = twist n offset a ∧ ∀ d, 65536 = n * d → twist n offset (a + d) = twist n offset a := by
  refine ⟨?_, ?_, ?_, ?_⟩
  · unfold twist; split <;> omega
  · intro b
    have half : ∀ a b : Int, twist n offset a ≤ twist n offset b + |(a - b) * n| := by
      intro a b
      obtain ⟨⟨k, hk⟩, _⟩ := C113_twist n offset b
      have h1 := (C113_twist n offset a).2 k
      have h2 := abs_add_le ((b + offset) * n - 65536 * k) ((a - b) * n)
      have e : (b + offset) * n - 65536 * k + (a - b) * n = (a + offset) * n - 65536 * k := by ring
      rw [e] at h2
      omega
    have h1 := half a b
    have h2 := half b a
    have e : |(b - a) * n| = |(a - b) * n| := by rw [← abs_neg]; congr 1; ring
    rw [e] at h2
    rw [abs_le]
    omega
  · have e : (a + 65536 + offset) * n = (a + offset) * n + 65536 * n := by ring
    unfold twist
    rw [e, Int.add_mul_emod_self_left]
  · intro d hd
    have e : (a + d + offset) * n = (a + offset) * n + 65536 * 1 := by rw [hd]; ring
    unfold twist
    rw [e, Int.add_mul_emod_self_left]

example : twist 2 0 8192 = 16384 ∧ twist 2 0 16384 = 32768 ∧ twist 2 0 32768 = 0 ∧ twist 2 0 (-32768) = 0 := by decide

/-! ## Scaled values -/

/-- `clampi32`, common/math.h:20-24. -/
def clampi (x a b : Int) : Int := if x < a then a else if x > b then b else x

/-- `BladeAngleX`, functions/blade_angle.h, for `v` from 0 (down) to 32768 (up). -/
def bladeAngle (v : Rat) (min max : Int) : Int := clampi (trunc ((v - min) * 32768 / (max - min))) 0 32768

/-- `SwingSpeed`, functions/swing_speed.h. -/
def swingSpeed (v : Rat) (max : Int) : Int := clampi (trunc (v / max * 32768)) 0 32768

/-- `ClashImpactFX`, functions/clash_impact.h; `i` is the strength in hundredths. -/
def clashImpact (i : Rat) (min max : Int) : Int := clampi (trunc ((i - min) * 32768 / max)) 0 32768

theorem trunc_mono {x y : Rat} (h : x ≤ y) : trunc x ≤ trunc y := by
  unfold trunc
  split <;> split
  · exact Int.floor_le_floor h
  · rename_i h1 h2; exact absurd (h1.trans h) h2
  · rename_i h1 h2
    have a : ⌈x⌉ ≤ 0 := Int.ceil_le.2 (by push_cast; exact (not_le.1 h1).le)
    have b : 0 ≤ ⌊y⌋ := Int.floor_nonneg.2 h2
    omega
  · exact Int.ceil_le_ceil h

theorem clampi_mono {x y : Int} (h : x ≤ y) : clampi x 0 32768 ≤ clampi y 0 32768 := by
  unfold clampi; (repeat' split) <;> omega

theorem clampi_zero {x : Int} (h : x ≤ 0) : clampi x 0 32768 = 0 := by unfold clampi; (repeat' split) <;> omega

theorem clampi_full {x : Int} (h : 32768 ≤ x) : clampi x 0 32768 = 32768 := by unfold clampi; (repeat' split) <;> omega

theorem clampi_id {x : Int} (h : 0 ≤ x) (h1 : x ≤ 32768) : clampi x 0 32768 = x := by unfold clampi; (repeat' split) <;> omega

/-- A linear scale from `lo` to `hi`: 0 up to `lo`, 32768 from `hi`, rising, and in between the exact value without its
fraction. -/
def Scale (f : Rat → Int) (lo hi : Rat) : Prop :=
  (∀ v, v ≤ lo → f v = 0) ∧ (∀ v, hi ≤ v → f v = 32768) ∧ (∀ v w, v ≤ w → f v ≤ f w) ∧
  ∀ v, lo ≤ v → v ≤ hi → (f v : Rat) ≤ (v - lo) * 32768 / (hi - lo) ∧ (v - lo) * 32768 / (hi - lo) < f v + 1

theorem scale_gen (lo hi : Rat) (h : lo < hi) : Scale (fun v => clampi (trunc ((v - lo) * 32768 / (hi - lo))) 0 32768) lo hi := by
  have hp : 0 < hi - lo := by linarith
  refine ⟨fun v hv => ?_, fun v hv => ?_, fun v w hvw => ?_, fun v h1 h2 => ?_⟩
  · apply clampi_zero
    have : (v - lo) * 32768 / (hi - lo) ≤ 0 := div_nonpos_of_nonpos_of_nonneg (by linarith) hp.le
    have t := trunc_mono this
    have : trunc 0 = 0 := by unfold trunc; simp
    omega
  · apply clampi_full
    have : (32768 : Rat) ≤ (v - lo) * 32768 / (hi - lo) := by rw [le_div_iff₀ hp]; linarith
    have t := trunc_mono this
    have : trunc 32768 = 32768 := by unfold trunc; norm_num
    omega
  · apply clampi_mono
    apply trunc_mono
    apply div_le_div_of_nonneg_right _ hp.le
    linarith
  · have e0 : 0 ≤ (v - lo) * 32768 / (hi - lo) := div_nonneg (by linarith) hp.le
    have e1 : (v - lo) * 32768 / (hi - lo) ≤ 32768 := by rw [div_le_iff₀ hp]; linarith
    obtain ⟨b1, b2⟩ := trunc_between _ 0 32768 (by exact_mod_cast e0) (by exact_mod_cast e1)
    simp only
    rw [clampi_id b1 b2]
    unfold trunc
    rw [if_pos e0]
    exact ⟨Int.floor_le _, Int.lt_floor_add_one _⟩

/-- The angle of the blade is a linear scale from MIN to MAX, the swing speed from 0 to MAX. -/
theorem C113_scales (min max : Int) (h : min < max) : Scale (fun v => bladeAngle v min max) min max ∧
    (0 < max → Scale (fun v => swingSpeed v max) 0 max) := by
  constructor
  · exact scale_gen min max (by exact_mod_cast h)
  · intro h0
    have := scale_gen 0 max (by exact_mod_cast h0)
    have e : (fun v => swingSpeed v max) = (fun v => clampi (trunc ((v - 0) * 32768 / (max - 0))) 0 32768) := by
      funext v
      unfold swingSpeed
      congr 2
      rw [sub_zero, sub_zero]; ring
    rw [e]; exact this

/-- The strength of a clash is a scale from MIN to MIN + MAX. -/
theorem C113_clash_partial (min max : Int) (h : 0 < max) : Scale (fun v => clashImpact v min max) min (min + max) := by
  have := scale_gen min (min + max) (by have : (0 : Rat) < max := by exact_mod_cast h
                                        linarith)
  have e : (fun v => clashImpact v min max) = (fun v => clampi (trunc ((v - min) * 32768 / ((min : Rat) + max - min))) 0 32768) := by
    funext v
    unfold clashImpact
    congr 3
    ring
  rw [e]; exact this

/-- So it is not a scale from MIN to MAX: with the standard values a clash of strength MAX gives 28672. -/
theorem C113_clash_counterexample : clashImpact 1600 200 1600 = 28672 ∧ ¬ Scale (fun v => clashImpact v 200 1600) 200 1600 := by
  have h : clashImpact 1600 200 1600 = 28672 := by
    unfold clashImpact
    have : trunc (((1600 : Rat) - (200 : Int)) * 32768 / (1600 : Int)) = 28672 := by unfold trunc; norm_num
    rw [this]; decide
  refine ⟨h, fun hs => ?_⟩
  have := hs.2.1 1600 (le_refl _)
  simp only at this
  rw [h] at this
  exact absurd this (by decide)

/-! ## `MarbleF` -/

/-- `speed_` after a frame of `dt` seconds, functions/marble.h:36-44, with the part of gravity `g`, ACCELERATION `a` and FRICTION `f` divided by 32768. -/
def marble (g a f : Rat) (v dt : Rat) : Rat := v + (g + a - v * f) * dt

/-- Without gravity the speed approaches acceleration by friction: each frame takes away a part `f * dt` of the difference. -/
theorem C113_marble (a f : Rat) (hf : f ≠ 0) (dts : List Rat) (v : Rat) :
    dts.foldl (marble 0 a f) v - a / f = (v - a / f) * (dts.map (fun dt => 1 - f * dt)).prod := by
  induction dts generalizing v with
  | nil => simp
  | cons dt dts ih =>
    rw [List.foldl_cons, ih, List.map_cons, List.prod_cons, ← mul_assoc]
    congr 1
    unfold marble
    field_simp
    ring

/-- It never overshoots when the frames are shorter than `1 / f` seconds. -/
theorem C113_marble_bound (a f : Rat) (hf : 0 < f) (dts : List Rat) (hd : ∀ dt ∈ dts, 0 ≤ dt ∧ f * dt ≤ 1) (v : Rat) :
    |dts.foldl (marble 0 a f) v - a / f| ≤ |v - a / f| ∧ 0 ≤ (dts.foldl (marble 0 a f) v - a / f) * (v - a / f) := by
  rw [C113_marble a f (ne_of_gt hf)]
  have hp : 0 ≤ (dts.map (fun dt => 1 - f * dt)).prod ∧ (dts.map (fun dt => 1 - f * dt)).prod ≤ 1 := by
    induction dts with
    | nil => simp
    | cons dt dts ih =>
      obtain ⟨i1, i2⟩ := ih (fun d h => hd d (by simp [h]))
      obtain ⟨d1, d2⟩ := hd dt (by simp)
      have h0 : 0 ≤ f * dt := mul_nonneg hf.le d1
      rw [List.map_cons, List.prod_cons]
      exact ⟨mul_nonneg (by linarith) i1, by nlinarith⟩
  constructor
  · rw [abs_mul, abs_of_nonneg hp.1]
    exact mul_le_of_le_one_right (abs_nonneg _) hp.2
  · have : (v - a / f) * (dts.map (fun dt => 1 - f * dt)).prod * (v - a / f) = (v - a / f) ^ 2 * (dts.map (fun dt => 1 - f * dt)).prod := by ring
    rw [this]
    exact mul_nonneg (sq_nonneg _) hp.1

/-- From rest with acceleration 2 and friction 1, two frames of half a second: three quarters of the final speed. -/
example : [1/2, 1/2].foldl (marble 0 2 1) 0 = 3/2 := by norm_num [marble]

end Verif.Func.Osc
