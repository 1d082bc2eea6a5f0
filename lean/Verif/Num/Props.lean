import Verif.Num.Lemmas

set_option linter.unusedSimpArgs false
namespace Verif.Num

/-! ## C19 modulo and clamping -/

/-- Signed 32-bit range. -/
def I32 (x : Int) : Prop := -2^31 ≤ x ∧ x < 2^31

/-- `MOD x m` is the unique `r` in `[0,m)` congruent to `x`. -/
theorem C19_mod_spec (x m r : Int) (hm : 0 < m) :
    MOD x m = some r ↔ (0 ≤ r ∧ r < m ∧ ∃ k, x = k * m + r) := by
  have key : MOD x m = some (x % m) := by
    unfold MOD bnot
    rw [if_neg (by omega)]
    split
    · rw [Int.tmod_eq_emod_of_nonneg (by omega)]
    · rw [Int.tmod_eq_emod_of_nonneg (by omega)]
      congr 1
      have h1 := Int.emod_nonneg (-x-1) (show m ≠ 0 by omega)
      have h2 := Int.emod_lt_of_pos (-x-1) hm
      have h3 := Int.mul_ediv_add_emod (-x-1) m
      generalize (-x-1) / m = q at h3
      generalize hs : (-x-1) % m = s at *
      have : x = (m + (-s - 1)) + m * (-q-1) := by
        rw [Int.mul_sub, Int.mul_neg]; omega
      rw [this, Int.add_mul_emod_self_left, Int.emod_eq_of_lt (by omega) (by omega)]
  rw [key, Option.some.injEq]
  constructor
  · rintro rfl
    refine ⟨Int.emod_nonneg _ (by omega), Int.emod_lt_of_pos _ hm, x / m, ?_⟩
    have := Int.mul_ediv_add_emod x m
    rw [Int.mul_comm] at this; omega
  · rintro ⟨h1, h2, k, rfl⟩
    rw [Int.add_comm, Int.add_mul_emod_self_right, Int.emod_eq_of_lt h1 h2]

example : MOD (-1) 5 = some 4 ∧ MOD 7 5 = some 2 ∧ MOD (-10) 5 = some 0 := by decide

/-- For 32-bit operands (positive modulus) every intermediate value of `MOD` is
representable, so the `Int` model agrees with `int32_t` arithmetic. -/
theorem C19_mod_no_overflow (x m : Int) (hx : I32 x) (hm : I32 m) (h0 : 0 < m) :
    I32 (bnot x) ∧ I32 ((bnot x).tmod m) ∧ I32 (bnot ((bnot x).tmod m)) ∧
    ∀ r, MOD x m = some r → I32 r := by
  have hb : I32 (bnot x) := by unfold I32 bnot at *; omega
  have ht : I32 ((bnot x).tmod m) := by
    have h1 := Int.tmod_lt_of_pos (bnot x) h0
    have h2 : -m < (bnot x).tmod m := by
      have := Int.tmod_lt_of_pos (-(bnot x)) h0
      rw [Int.neg_tmod] at this; omega
    unfold I32 at *; omega
  refine ⟨hb, ht, by unfold I32 bnot at *; omega, ?_⟩
  intro r hr
  rw [C19_mod_spec x m r h0] at hr
  unfold I32 at *; omega

example : I32 (-2147483648) ∧ I32 7 ∧ (0:Int) < 7 := by unfold I32; decide

/-- Clamping returns the point of `[a,b]` nearest to `x`. -/
theorem C19_clamp_nearest (x a b : Int) (h : a ≤ b) :
    a ≤ clampi32 x a b ∧ clampi32 x a b ≤ b ∧
    ∀ y, a ≤ y → y ≤ b → (clampi32 x a b - x).natAbs ≤ (y - x).natAbs := by
  unfold clampi32
  split
  · refine ⟨by omega, by omega, ?_⟩; intros; omega
  · split
    · refine ⟨by omega, by omega, ?_⟩; intros; omega
    · refine ⟨by omega, by omega, ?_⟩; intros; omega

example : clampi32 7 0 5 = 5 ∧ clampi32 (-7) 0 5 = 0 ∧ clampi32 3 0 5 = 3 := by decide

/-- The sample clamps are exactly saturation to the 16/24-bit signed ranges. -/
theorem C19_clamp_samples (x : Int) :
    clamptoi16 x = max (-2^15) (min x (2^15 - 1)) ∧
    clamptoi24 x = max (-2^23) (min x (2^23 - 1)) := by
  unfold clamptoi16 clamptoi24 clampi32
  constructor <;> repeat' split
  all_goals omega

/-! ## C18 wrapping counters -/

/-- If two (unbounded) times are less than half the counter range apart, all four
comparison operators on the wrapped counters agree with the true order. -/
theorem C18_cyclint_order (w a b : Nat) (h1 : a < b + 2^w) (h2 : b < a + 2^w) :
    (cycLt (BitVec.ofNat (w+1) a) (BitVec.ofNat (w+1) b) = decide (a < b)) ∧
    (cycLe (BitVec.ofNat (w+1) a) (BitVec.ofNat (w+1) b) = decide (a ≤ b)) ∧
    (cycGt (BitVec.ofNat (w+1) a) (BitVec.ofNat (w+1) b) = decide (a > b)) ∧
    (cycGe (BitVec.ofNat (w+1) a) (BitVec.ofNat (w+1) b) = decide (a ≥ b)) := by
  have hp : 2^(w+1) = 2 * 2^w := by rw [Nat.pow_succ]; omega
  have hpos := Nat.two_pow_pos w
  unfold cycLt cycLe cycGt cycGe
  simp only [and_nmask_ne]
  rcases Nat.lt_trichotomy a b with h | h | h
  · rw [toNat_sub_ofNat' b a h (by omega), toNat_sub_ofNat b a (by omega) (by omega)]
    refine ⟨?_, ?_, ?_, ?_⟩ <;> rw [Bool.eq_iff_iff] <;>
      simp only [Bool.not_eq_true', decide_eq_true_eq, decide_eq_false_iff_not] <;> omega
  · subst h
    simp
  · rw [toNat_sub_ofNat' a b h (by omega), toNat_sub_ofNat a b (by omega) (by omega)]
    refine ⟨?_, ?_, ?_, ?_⟩ <;> rw [Bool.eq_iff_iff] <;>
      simp only [Bool.not_eq_true', decide_eq_true_eq, decide_eq_false_iff_not] <;> omega

example : (2^32 + 5 : Nat) < (2^32 - 3) + 2^31 ∧ (2^32 - 3 : Nat) < (2^32 + 5) + 2^31 := by decide

/-- Deadlines: `now + delay` computed on wrapped counters is passed exactly when the
true time has passed the true deadline. -/
theorem C18_cyclint_deadline (w start delay now : Nat) (h1 : now < start + delay + 2^w)
    (h2 : start + delay < now + 2^w) :
    cycGt (BitVec.ofNat (w+1) now) (cycAdd (BitVec.ofNat (w+1) start) (BitVec.ofNat (w+1) delay))
      = decide (now > start + delay) := by
  unfold cycAdd
  rw [← BitVec.ofNat_add]
  exact (C18_cyclint_order w now (start+delay) h1 h2).2.2.1

/-- Subtraction of wrapped counters gives the true elapsed time below the full range. -/
theorem C18_cyclint_elapsed (w a b : Nat) (h : b ≤ a) (h2 : a - b < 2^(w+1)) :
    (cycSub (BitVec.ofNat (w+1) a) (BitVec.ofNat (w+1) b)).toNat = a - b :=
  toNat_sub_ofNat a b h h2

/-- The half-range bound is sharp: at distance exactly half the range both
`a < b` and `b < a` are reported. -/
theorem C18_cyclint_sharp (w a : Nat) :
    cycLt (BitVec.ofNat (w+1) a) (BitVec.ofNat (w+1) (a + 2^w)) = true ∧
    cycLt (BitVec.ofNat (w+1) (a + 2^w)) (BitVec.ofNat (w+1) a) = true := by
  have hp : 2^(w+1) = 2 * 2^w := by rw [Nat.pow_succ]; omega
  have hpos := Nat.two_pow_pos w
  unfold cycLt
  simp only [and_nmask_ne]
  rw [toNat_sub_ofNat' _ _ (by omega) (by omega), toNat_sub_ofNat _ _ (by omega) (by omega)]
  simp; omega

/-! ## C20 ranges and stripes -/

/-- Number of `p < n` satisfying `f` (specification by counting). -/
def countBelow (f : Nat → Bool) : Nat → Nat
  | 0 => 0
  | n+1 => countBelow f n + (if f n then 1 else 0)

/-- Number of points of `[s,e)` satisfying `f`. -/
def countIn (f : Nat → Bool) (s e : Nat) : Nat :=
  countBelow (fun i => f i && decide (s ≤ i)) e

theorem countBelow_ext (f g : Nat → Bool) (n : Nat) (h : ∀ i, i < n → f i = g i) :
    countBelow f n = countBelow g n := by
  induction n with
  | zero => rfl
  | succ n ih => simp only [countBelow]; rw [ih (fun i hi => h i (by omega)), h n (by omega)]

theorem countIn_eq (f : Nat → Bool) (s e : Nat) (h : s ≤ e) :
    countIn f s e = countBelow f e - countBelow f s := by
  have : countBelow f s + countIn f s e = countBelow f e := by
    unfold countIn
    induction e with
    | zero => have : s = 0 := by omega
              subst this; rfl
    | succ e ih =>
      by_cases hs : s ≤ e
      · have := ih hs
        simp only [countBelow, hs, decide_true, Bool.and_true]; omega
      · have hse : s = e + 1 := by omega
        subst hse
        rw [countBelow_ext (fun i => f i && decide (e+1 ≤ i)) (fun _ => false) (e+1)
          (by intro i hi; simp; omega)]
        have : ∀ n, countBelow (fun _ => false) n = 0 := by
          intro n; induction n with
          | zero => rfl
          | succ n ih => simp [countBelow, ih]
        rw [this]; rfl
  omega

theorem countBelow_le (f : Nat → Bool) (n : Nat) : countBelow f n ≤ n := by
  induction n with
  | zero => exact Nat.le_refl _
  | succ n ih => simp only [countBelow]; split <;> omega

theorem countBelow_stripes (width m : Nat) (hm : 0 < m) (hw : width ≤ m) (e : Nat) :
    countBelow (fun i => decide (i % m < width)) e = (e / m) * width + min width (e % m) := by
  induction e with
  | zero => simp [countBelow]
  | succ e ih =>
    simp only [countBelow]
    rw [ih]
    have h1 := Nat.div_add_mod e m
    have h2 := Nat.mod_lt e hm
    by_cases hc : e % m + 1 = m
    · have hd : (e+1) / m = e / m + 1 := by
        have : e + 1 = (e / m + 1) * m := by rw [Nat.add_mul, Nat.mul_comm]; omega
        rw [this, Nat.mul_div_cancel _ hm]
      have hr : (e+1) % m = 0 := by
        have : e + 1 = (e / m + 1) * m := by rw [Nat.add_mul, Nat.mul_comm]; omega
        rw [this, Nat.mul_mod_left]
      rw [hd, hr, Nat.add_mul]
      simp only [decide_eq_true_eq]
      split <;> omega
    · have he : e + 1 = m * (e/m) + (e % m + 1) := by omega
      have hd : (e+1) / m = e / m := by
        have hlt : e % m + 1 < m := by omega
        rw [he, Nat.mul_add_div hm, Nat.div_eq_of_lt hlt]; omega
      have hr : (e+1) % m = e % m + 1 := by
        rw [he, Nat.mul_add_mod, Nat.mod_eq_of_lt (by omega)]
      rw [hd, hr]
      simp only [decide_eq_true_eq]
      split <;> omega

/-- Size of the overlap of two ranges = number of common points. -/
theorem C20_range_overlap (a b : Range) (_ha : a.stop < W32) (_hb : b.stop < W32) (n : Nat)
    (hn : a.stop ≤ n) (_hn' : b.stop ≤ n) :
    (a.inter b).size =
      countBelow (fun i => decide (a.start ≤ i ∧ i < a.stop) && decide (b.start ≤ i ∧ i < b.stop)) n := by
  have gen : ∀ s e n, e ≤ n → countBelow (fun i => decide (s ≤ i ∧ i < e)) n = e - s := by
    intro s e n h
    induction n generalizing e with
    | zero => have : e = 0 := by omega
              subst this; simp [countBelow]
    | succ n ih =>
      simp only [countBelow]
      by_cases hh : e ≤ n
      · rw [ih e hh]; simp only [decide_eq_true_eq]; split <;> omega
      · have he : e = n + 1 := by omega
        subst he
        rw [countBelow_ext _ (fun i => decide (s ≤ i ∧ i < n)) n (by intro i hi; apply decide_eq_decide.mpr; omega), ih n (Nat.le_refl _)]
        simp only [decide_eq_true_eq]; split <;> omega
  have := gen (max a.start b.start) (min a.stop b.stop) n (by omega)
  rw [countBelow_ext (fun i => decide (a.start ≤ i ∧ i < a.stop) && decide (b.start ≤ i ∧ i < b.stop))
    (fun i => decide (max a.start b.start ≤ i ∧ i < min a.stop b.stop)) n
    (by intro i _; rw [← Bool.decide_and]; apply decide_eq_decide.mpr; omega)]
  rw [this]
  unfold Range.inter Range.size sub32 W32 at *
  simp only
  split
  · omega
  · omega

example : ((⟨10, 100⟩ : Range).inter ⟨50, 200⟩).size = 50 := by decide

/-- Overlap of a range with stripes starting at multiples of `m` = number of covered points.
Holds for all 32-bit values, although the intermediate products may wrap around. -/
theorem C20_stripes_at_zero (r : Range) (width m : Nat) (hm : 0 < m) (hw : width ≤ m)
    (hr : r.start ≤ r.stop) (hs : r.stop < W32) :
    r.stripesW width m = some (countIn (fun p => decide (p % m < width)) r.start r.stop) := by
  unfold Range.stripesW stripes0
  rw [if_neg (by omega), if_neg (by omega)]
  simp only [bind, Option.bind, pure]
  rw [countIn_eq _ _ _ hr, countBelow_stripes _ _ hm hw, countBelow_stripes _ _ hm hw]
  have hle : (r.start / m) * width + min width (r.start % m) ≤ (r.stop / m) * width + min width (r.stop % m) := by
    rw [← countBelow_stripes _ _ hm hw, ← countBelow_stripes _ _ hm hw]
    have := countIn_eq (fun i => decide (i % m < width)) r.start r.stop hr
    clear this
    have mono : ∀ (f : Nat → Bool) (a b : Nat), a ≤ b → countBelow f a ≤ countBelow f b := by
      intro f a b hab
      induction hab with
      | refl => exact Nat.le_refl _
      | step _ ih => simp only [countBelow]; omega
    exact mono _ _ _ hr
  have hlt : (r.stop / m) * width + min width (r.stop % m) < W32 := by
    rw [← countBelow_stripes _ _ hm hw]
    exact Nat.lt_of_le_of_lt (countBelow_le _ _) hs
  have hu : ∀ A a, u32 (u32 A + a) = u32 (A + a) := by intro A a; unfold u32; rw [Nat.mod_add_mod]
  rw [hu, hu]
  generalize (r.stop / m) * width + min width (r.stop % m) = E at *
  generalize (r.start / m) * width + min width (r.start % m) = S at *
  congr 1
  unfold sub32 u32 W32 at *
  omega

example : (⟨3, 4294967290⟩ : Range).stripesW 3 7 =
    some (613566755 * 3 + 3 - 3) := by decide

/-- Stripes with an arbitrary offset (also extending to negative repetitions). -/
theorem C20_stripes_general (r stripe : Range) (m : Nat) (_hm : 0 < m)
    (hs : stripe.start ≤ m) (hse : stripe.start ≤ stripe.stop) (hw : stripe.stop - stripe.start ≤ m)
    (hr : r.start ≤ r.stop) (hb : r.stop + m < W32) (hst : stripe.stop < W32) :
    r.stripesR stripe m = some (countIn
      (fun p => decide ((p + (m - stripe.start)) % m < stripe.stop - stripe.start)) r.start r.stop) := by
  unfold Range.stripesR
  have h1 : sub32 m stripe.start = m - stripe.start := by unfold sub32 W32 at *; omega
  have h2 : stripe.size = stripe.stop - stripe.start := by
    unfold Range.size sub32 W32 at *; split <;> omega
  simp only [h1, h2]
  rw [C20_stripes_at_zero _ _ _ _hm hw (by unfold u32 W32 at *; simp only; omega)
    (by unfold u32 W32 at *; simp only; omega)]
  have shift : ∀ (f : Nat → Bool) (k s e : Nat), s ≤ e →
      countIn f (s + k) (e + k) = countIn (fun p => f (p + k)) s e := by
    intro f k s e h
    unfold countIn
    induction e with
    | zero =>
      have : s = 0 := by omega
      subst this
      simp only [countBelow, Nat.zero_add]
      have := countBelow_ext (fun i => f i && decide (k ≤ i)) (fun _ => false) k (by intro i hi; simp; omega)
      rw [this]
      have : ∀ n, countBelow (fun _ => false) n = 0 := by
        intro n; induction n with
        | zero => rfl
        | succ n ih => simp [countBelow, ih]
      rw [this]
    | succ e ih =>
      rw [show e + 1 + k = (e + k) + 1 by omega]
      simp only [countBelow]
      have hd : decide (s + k ≤ e + k) = decide (s ≤ e) := by apply decide_eq_decide.mpr; omega
      simp only [hd]
      by_cases hse : s ≤ e
      · rw [ih hse]
      · have hse' : s = e + 1 := by omega
        subst hse'
        have z : ∀ n, countBelow (fun _ => false) n = 0 := by
          intro n; induction n with
          | zero => rfl
          | succ n ih => simp [countBelow, ih]
        rw [countBelow_ext (fun i => f i && decide (e + 1 + k ≤ i)) (fun _ => false) (e+k) (by intro i hi; simp; omega)]
        rw [countBelow_ext (fun i => f (i+k) && decide (e + 1 ≤ i)) (fun _ => false) e (by intro i hi; simp; omega)]
        rw [z, z]
  have ea : u32 (r.start + (m - stripe.start)) = r.start + (m - stripe.start) := by unfold u32 W32 at *; omega
  have eb : u32 (r.stop + (m - stripe.start)) = r.stop + (m - stripe.start) := by unfold u32 W32 at *; omega
  simp only [ea, eb]
  rw [shift _ _ _ _ hr]

/-- The covered points of `C20_stripes_general` are those lying in some repetition
`[N*m + start, N*m + stop)` with `N` any integer. -/
theorem C20_stripe_points (stripe : Range) (m p : Nat) (hm : 0 < m) (hs : stripe.start ≤ m)
    (_hse : stripe.start ≤ stripe.stop) (hw : stripe.stop - stripe.start ≤ m) :
    ((p + (m - stripe.start)) % m < stripe.stop - stripe.start) ↔
      ∃ N : Int, N * m + stripe.start ≤ p ∧ (p:Int) < N * m + stripe.stop := by
  have h1 := Nat.div_add_mod (p + (m - stripe.start)) m
  have h2 := Nat.mod_lt (p + (m - stripe.start)) hm
  generalize hq : (p + (m - stripe.start)) / m = q at *
  generalize hrr : (p + (m - stripe.start)) % m = t at *
  have h1' : (m:Int) * q + t = p + (m - stripe.start) := by
    have : ((m * q + t : Nat) : Int) = ((p + (m - stripe.start) : Nat) : Int) := by rw [h1]
    push_cast [Int.ofNat_sub hs] at this
    omega
  constructor
  · intro h
    refine ⟨(q:Int) - 1, ?_, ?_⟩ <;> rw [Int.sub_mul, Int.mul_comm] <;> omega
  · rintro ⟨N, ha, hb⟩
    have : N = (q:Int) - 1 := by
      have hm' : (0:Int) < m := by omega
      have e1 : (m:Int) * (N + 1 - q) < m * 1 := by
        rw [Int.mul_sub, Int.mul_add, Int.mul_comm (m:Int) N]; omega
      have e2 : (m:Int) * (-1) < m * (N + 1 - q) := by
        rw [Int.mul_sub, Int.mul_add, Int.mul_comm (m:Int) N]; omega
      have := Int.lt_of_mul_lt_mul_left e1 (by omega)
      have := Int.lt_of_mul_lt_mul_left e2 (by omega)
      omega
    subst this
    rw [Int.sub_mul, Int.mul_comm] at ha hb
    omega

example : (⟨0, 100⟩ : Range).stripesR ⟨8, 12⟩ 10 = some 40 := by decide

/-! ## C21 bit fields -/

theorem fieldMask_bit (w pos bits i : Nat) (_hi : i < w) :
    (fieldMask w pos bits).getLsbD i = decide (pos ≤ i ∧ i < pos + bits) := by
  simp [fieldMask, BitVec.getLsbD_shiftLeft, BitVec.getLsbD_not]
  by_cases h1 : pos ≤ i
  · by_cases h2 : i < pos + bits
    · have : i - pos < bits := by omega
      have h3 : i - pos < w := by omega
      have h4 : ¬ i < pos := by omega
      simp [*]
    · have : ¬ (i - pos < bits) := by omega
      have h3 : i - pos < w := by omega
      have h5 : i - pos - bits < w := by omega
      simp [*]
  · have : i < pos := by omega
    simp [*]

/-- Bit-exact effect of writing a field: bits inside the field come from the value,
all other bits of the register are unchanged; reading the field returns the value.
The value must fit in the field (see `C21_field_spill`). -/
theorem C21_field_set_get {w} (reg v : BitVec w) (pos bits : Nat) (hfit : pos + bits ≤ w)
    (hv : v.toNat < 2^bits) :
    fieldGet pos bits (regSet reg (mkField pos bits v)) = v ∧
    (∀ i, i < w → ¬ (pos ≤ i ∧ i < pos + bits) →
      (regSet reg (mkField pos bits v)).getLsbD i = reg.getLsbD i) ∧
    (∀ i, pos ≤ i → i < pos + bits →
      (regSet reg (mkField pos bits v)).getLsbD i = v.getLsbD (i - pos)) := by
  have hvb : ∀ i, bits ≤ i → v.getLsbD i = false := by
    intro i hi
    rw [BitVec.getLsbD]
    apply Nat.testBit_lt_two_pow
    exact Nat.lt_of_lt_of_le hv (Nat.pow_le_pow_right (by omega) hi)
  have hin : ∀ i, i < w → (regSet reg (mkField pos bits v)).getLsbD i =
      if pos ≤ i ∧ i < pos + bits then v.getLsbD (i - pos) else reg.getLsbD i := by
    intro i hi
    simp only [regSet, mkField, BitVec.getLsbD_or, BitVec.getLsbD_and, BitVec.getLsbD_not,
      fieldMask_bit _ _ _ _ hi, BitVec.getLsbD_shiftLeft]
    by_cases h : pos ≤ i ∧ i < pos + bits
    · have h4 : ¬ i < pos := by omega
      simp [h, hi, h4]
    · rw [if_neg h]
      by_cases h4 : i < pos
      · simp [h, hi, h4]
      · have := hvb (i - pos) (by omega)
        simp [h, hi, this]
  refine ⟨?_, ?_, ?_⟩
  · apply BitVec.eq_of_getLsbD_eq
    intro i hi
    simp only [fieldGet, BitVec.getLsbD_ushiftRight, BitVec.getLsbD_and]
    by_cases hb : i < bits
    · rw [hin _ (by omega), fieldMask_bit _ _ _ _ (by omega), if_pos (by omega)]
      have : pos + i - pos = i := by omega
      rw [this]; simp [hb]
    · rw [hvb i (by omega)]
      by_cases hw : pos + i < w
      · rw [fieldMask_bit _ _ _ _ hw]; simp [hb]
      · rw [BitVec.getLsbD_of_ge _ _ (by omega)]; simp
  · intro i hi hn; rw [hin i hi, if_neg hn]
  · intro i h1 h2; rw [hin i (by omega), if_pos ⟨h1, h2⟩]

example : fieldGet 4 3 (regSet (0xFFFF#16) (mkField 4 3 5#16)) = 5#16 ∧
    regSet (0xFFFF#16) (mkField 4 3 5#16) = 0xFFDF#16 := by decide

/-- Two disjoint fields written together (`a | b`) equal writing one after the other. -/
theorem C21_field_or {w} (reg va vb : BitVec w) (pa ba pb bb : Nat) (_ha : pa + ba ≤ w) (_hb : pb + bb ≤ w)
    (hva : va.toNat < 2^ba) (_hvb : vb.toNat < 2^bb) (hd : pa + ba ≤ pb ∨ pb + bb ≤ pa) :
    regSet reg ((mkField pa ba va).or (mkField pb bb vb)) =
      regSet (regSet reg (mkField pa ba va)) (mkField pb bb vb) := by
  have bound : ∀ i, ba ≤ i → va.getLsbD i = false := by
    intro i hi
    rw [BitVec.getLsbD]
    apply Nat.testBit_lt_two_pow
    exact Nat.lt_of_lt_of_le hva (Nat.pow_le_pow_right (by omega) hi)
  apply BitVec.eq_of_getLsbD_eq
  intro i hi
  simp only [regSet, mkField, Field.or, BitVec.getLsbD_or, BitVec.getLsbD_and, BitVec.getLsbD_not,
      fieldMask_bit _ _ _ _ hi, BitVec.getLsbD_shiftLeft, hi, decide_true, Bool.true_and]
  by_cases h1 : pa ≤ i ∧ i < pa + ba
  · have h2 : ¬ (pb ≤ i ∧ i < pb + bb) := by omega
    simp [h1, h2]
  · have h3 : (!decide (i < pa) && va.getLsbD (i - pa)) = false := by
      by_cases h4 : i < pa
      · simp [h4]
      · rw [bound (i - pa) (by omega)]; simp
    rw [h3]
    by_cases h2 : (pb ≤ i ∧ i < pb + bb) <;> simp [h1, h2]

/-- A value too large for its field is not truncated: it overwrites neighbouring bits.
(So the precondition of `C21_field_set_get` is needed.) -/
theorem C21_field_spill : ∃ (reg v : BitVec 8),
    (regSet reg (mkField 0 2 v)).getLsbD 2 ≠ reg.getLsbD 2 := ⟨0, 4, by decide⟩

/-! ## C26 event identifiers -/

/-- A button constant: exactly one of the 17 possible bits (common/events.h:4 "Max 17!"). -/
def IsButton (b : BitVec 32) : Prop := ∃ k, k < 17 ∧ b = 1#32 <<< k

theorem log2_button (k : Nat) (hk : k < 17) : compressButton (1#32 <<< k) = BitVec.ofNat 32 k := by
  have : ∀ k : Fin 17, compressButton (1#32 <<< k.val) = BitVec.ofNat 32 k.val := by decide +kernel
  exact this ⟨k, hk⟩

theorem eventid_bits (b e m : BitVec 32) (k : Nat) (hk : k < 17) (hb : compressButton b = BitVec.ofNat 32 k)
    (he : e.toNat < 128) (hm : m.toNat < 2^17) :
    (EVENTID b e m).toNat = e.toNat * 2^24 + k * 2^17 + (m &&& ~~~ b).toNat := by
  unfold EVENTID
  rw [hb]
  have h0 : (m &&& ~~~ b).toNat < 2^17 := by
    rw [BitVec.toNat_and]; exact Nat.lt_of_le_of_lt Nat.and_le_left hm
  generalize (m &&& ~~~ b) = x at *
  rw [BitVec.toNat_or, BitVec.toNat_or, BitVec.toNat_shiftLeft, BitVec.toNat_shiftLeft]
  have e1 : (BitVec.ofNat 32 k).toNat = k := by rw [BitVec.toNat_ofNat]; omega
  rw [e1, Nat.shiftLeft_eq, Nat.shiftLeft_eq]
  have e2 : e.toNat * 2^24 % 2^32 = e.toNat * 2^24 := Nat.mod_eq_of_lt (by omega)
  have e3 : k * 2^17 % 2^32 = k * 2^17 := Nat.mod_eq_of_lt (by clear e2; omega)
  rw [e2, e3]
  rw [← Nat.shiftLeft_eq, ← Nat.shiftLeft_eq]
  have l1 : e.toNat <<< 24 ||| k <<< 17 = e.toNat <<< 24 + k <<< 17 :=
    (Nat.shiftLeft_add_eq_or_of_lt (by rw [Nat.shiftLeft_eq]; omega) _).symm
  rw [l1]
  have l2 : e.toNat <<< 24 + k <<< 17 = (e.toNat <<< 7 + k) <<< 17 := by
    simp only [Nat.shiftLeft_eq]; omega
  rw [l2, ← Nat.shiftLeft_add_eq_or_of_lt h0]

/-- Event identifiers of real buttons: equal identifiers mean equal button, equal event
and equal modifiers (apart from the button's own bit, which is masked out). -/
theorem C26_eventid_injective_partial (b b' e e' m m' : BitVec 32) (hb : IsButton b) (hb' : IsButton b')
    (he : e.toNat < 128) (he' : e'.toNat < 128) (hm : m.toNat < 2^17) (hm' : m'.toNat < 2^17) :
    EVENTID b e m = EVENTID b' e' m' ↔ (b = b' ∧ e = e' ∧ m &&& ~~~ b = m' &&& ~~~ b) := by
  obtain ⟨k, hk, rfl⟩ := hb
  obtain ⟨k', hk', rfl⟩ := hb'
  constructor
  · intro h
    have h := congrArg BitVec.toNat h
    rw [eventid_bits _ _ _ k hk (log2_button k hk) he hm, eventid_bits _ _ _ k' hk' (log2_button k' hk') he' hm'] at h
    have h0 : (m &&& ~~~ (1#32 <<< k)).toNat < 2^17 := by
      rw [BitVec.toNat_and]; exact Nat.lt_of_le_of_lt Nat.and_le_left hm
    have h1 : (m' &&& ~~~ (1#32 <<< k')).toNat < 2^17 := by
      rw [BitVec.toNat_and]; exact Nat.lt_of_le_of_lt Nat.and_le_left hm'
    have hee : e.toNat = e'.toNat := by omega
    have hkk : k = k' := by omega
    subst hkk
    refine ⟨rfl, BitVec.eq_of_toNat_eq hee, BitVec.eq_of_toNat_eq (by omega)⟩
  · rintro ⟨h1, rfl, h3⟩
    rw [← h1]
    unfold EVENTID
    rw [h3]

example : IsButton 512#32 ∧ IsButton 1#32 ∧ (0x2D#32).toNat < 128 ∧ (0x1F800#32).toNat < 2^17 :=
  ⟨⟨9, by decide, by decide⟩, ⟨0, by decide, by decide⟩, by decide, by decide⟩

/-- Full uniqueness is false: "no button" (gestures) and `BUTTON_POWER` share their
identifiers, because both compress to 0. -/
theorem C26_eventid_none_power_collision :
    ∃ b b' e m : BitVec 32, b ≠ b' ∧ (m &&& ~~~ b) = m ∧ (m &&& ~~~ b') = m ∧
      EVENTID b e m = EVENTID b' e m := ⟨0, 1, 45, 1024, by decide, by decide, by decide, by decide⟩

/-- ... and this is the only way two gesture/button identifiers can collide. -/
theorem C26_eventid_none_collides_only_with_power (b e e' m m' : BitVec 32) (hb : IsButton b)
    (he : e.toNat < 128) (he' : e'.toNat < 128) (hm : m.toNat < 2^17) (hm' : m'.toNat < 2^17)
    (h : EVENTID 0 e m = EVENTID b e' m') : b = 1#32 ∧ e = e' ∧ m = m' &&& ~~~ 1#32 := by
  obtain ⟨k', hk', rfl⟩ := hb
  have h := congrArg BitVec.toNat h
  rw [eventid_bits _ _ _ 0 (by omega) (by decide) he hm, eventid_bits _ _ _ k' hk' (log2_button k' hk') he' hm'] at h
  have e0 : m &&& ~~~ 0 = m := BitVec.and_allOnes
  rw [e0] at h
  have h1 : (m' &&& ~~~ (1#32 <<< k')).toNat < 2^17 := by
    rw [BitVec.toNat_and]; exact Nat.lt_of_le_of_lt Nat.and_le_left hm'
  have hk0 : k' = 0 := by omega
  subst hk0
  refine ⟨by decide, BitVec.eq_of_toNat_eq (by omega), BitVec.eq_of_toNat_eq ?_⟩
  have : (1#32 <<< 0) = 1#32 := by decide
  rw [this] at h h1
  omega

end Verif.Num
