import Mathlib.Algebra.Order.Field.Basic
import Mathlib.Tactic.Linarith
import Mathlib.Tactic.Ring
import Mathlib.Tactic.Positivity
import Mathlib.Tactic.FieldSimp
import Mathlib.Tactic.LinearCombination
/-!
# The audio filter (C125)

Model of sound/filter.h: the high pass run over the sound in blocks of four samples, the calculation of its coefficients from the
poles, and the helper functions evaluated at compile time. `double` and `float` are idealised as an ordered field.
-/
namespace Verif.Audio.Filter

variable {K : Type} [Field K]

/-- Coefficients of one section, `BQ`, sound/filter.h:144-152; a0 is 1. -/
structure BQ (K : Type) where
  b0 : K
  b1 : K
  b2 : K
  a1 : K
  a2 : K

/-- `BIQUAD`, sound/filter.h:154-155. -/
def biquad (q : BQ K) (xn xn1 xn2 yn1 yn2 : K) : K := q.b0 * xn + q.b1 * xn1 + q.b2 * xn2 - q.a1 * yn1 - q.a2 * yn2

/-- Two samples of the block before and four of this one: `D0x0` to `D0x5`. -/
structure Six (K : Type) where
  d0 : K
  d1 : K
  d2 : K
  d3 : K
  d4 : K
  d5 : K

/-- `BIQUAD_BLOCK`, sound/filter.h:208-216: `d` is `data_[Y]`. -/
def block (q : BQ K) (x : Six K) (d : K × K) : Six K :=
  { d0 := d.1, d1 := d.2,
    d2 := biquad q x.d2 x.d1 x.d0 d.2 d.1,
    d3 := biquad q x.d3 x.d2 x.d1 (biquad q x.d2 x.d1 x.d0 d.2 d.1) d.2,
    d4 := biquad q x.d4 x.d3 x.d2 (biquad q x.d3 x.d2 x.d1 (biquad q x.d2 x.d1 x.d0 d.2 d.1) d.2) (biquad q x.d2 x.d1 x.d0 d.2 d.1),
    d5 := biquad q x.d5 x.d4 x.d3
      (biquad q x.d4 x.d3 x.d2 (biquad q x.d3 x.d2 x.d1 (biquad q x.d2 x.d1 x.d0 d.2 d.1) d.2) (biquad q x.d2 x.d1 x.d0 d.2 d.1))
      (biquad q x.d3 x.d2 x.d1 (biquad q x.d2 x.d1 x.d0 d.2 d.1) d.2) }

/-- The sections one after the other, each with its `data_`, sound/filter.h:239-260. -/
def stages : List (BQ K × (K × K)) → Six K → List (BQ K × (K × K)) × Six K
  | [], s => ([], s)
  | (q, d) :: r, s =>
    ((q, ((block q s d).d4, (block q s d).d5)) :: (stages r (block q s d)).1, (stages r (block q s d)).2)

/-- The filter: `data_[0]` and the sections. -/
structure F (K : Type) where
  d : K × K
  st : List (BQ K × (K × K))

/-- `Run4`, sound/filter.h:229-310. -/
def run4 (gainInv : K) (f : F K) (x : Fin 4 → K) : F K × (Fin 4 → K) :=
  let r := stages f.st ⟨f.d.1, f.d.2, x 0, x 1, x 2, x 3⟩
  (⟨(x 2, x 3), r.1⟩, fun i => match i with
    | 0 => r.2.d2 * gainInv
    | 1 => r.2.d3 * gainInv
    | 2 => r.2.d4 * gainInv
    | 3 => r.2.d5 * gainInv)

/-- `clear`, sound/filter.h:223-228. -/
def clear (qs : List (BQ K)) : F K := ⟨(0, 0), qs.map fun q => (q, (0, 0))⟩

/-- The sound buffer: blocks one after the other, sound/dac.h:665-668. -/
def runBlocks (gainInv : K) : F K → List (Fin 4 → K) → List (Fin 4 → K)
  | _, [] => []
  | f, x :: r => (run4 gainInv f x).2 :: runBlocks gainInv (run4 gainInv f x).1 r

/-! ## The difference equation -/

/-- What one section should do, sample by sample: before the first sample everything is 0. -/
def resp (q : BQ K) (x : Nat → K) : Nat → K
  | 0 => q.b0 * x 0
  | 1 => q.b0 * x 1 + q.b1 * x 0 - q.a1 * resp q x 0
  | n + 2 => q.b0 * x (n + 2) + q.b1 * x (n + 1) + q.b2 * x n - q.a1 * resp q x (n + 1) - q.a2 * resp q x n

/-- All sections. -/
def cascade : List (BQ K) → (Nat → K) → (Nat → K)
  | [], x => x
  | q :: r, x => cascade r (resp q x)

/-- The sample `k` before sample `n`. -/
def back (y : Nat → K) (k n : Nat) : K := if n < k then 0 else y (n - k)

def six (x : Nat → K) (m : Nat) : Six K := ⟨back x 2 (4 * m), back x 1 (4 * m), x (4 * m), x (4 * m + 1), x (4 * m + 2), x (4 * m + 3)⟩

def stateOf : List (BQ K) → (Nat → K) → Nat → List (BQ K × (K × K))
  | [], _, _ => []
  | q :: r, x, m => (q, (back (resp q x) 2 (4 * m), back (resp q x) 1 (4 * m))) :: stateOf r (resp q x) m

theorem back_next (y : Nat → K) (m : Nat) : back y 2 (4 * (m + 1)) = y (4 * m + 2) ∧ back y 1 (4 * (m + 1)) = y (4 * m + 3) := by
  unfold back
  rw [if_neg (by omega), if_neg (by omega)]
  constructor <;> congr 1

theorem resp_biquad0 (q : BQ K) (x : Nat → K) (m : Nat) :
    biquad q (x (4 * m)) (back x 1 (4 * m)) (back x 2 (4 * m)) (back (resp q x) 1 (4 * m)) (back (resp q x) 2 (4 * m)) = resp q x (4 * m) := by
  cases m with
  | zero => simp [back, biquad, resp]
  | succ m =>
    obtain ⟨a, b⟩ := back_next x m
    obtain ⟨c, d⟩ := back_next (resp q x) m
    rw [a, b, c, d]
    rfl

theorem resp_biquad1 (q : BQ K) (x : Nat → K) (m : Nat) :
    biquad q (x (4 * m + 1)) (x (4 * m)) (back x 1 (4 * m)) (resp q x (4 * m)) (back (resp q x) 1 (4 * m)) = resp q x (4 * m + 1) := by
  cases m with
  | zero => simp [back, biquad, resp]
  | succ m =>
    rw [(back_next x m).2, (back_next (resp q x) m).2]
    rfl

theorem block_six (q : BQ K) (x : Nat → K) (m : Nat) :
    block q (six x m) (back (resp q x) 2 (4 * m), back (resp q x) 1 (4 * m)) = six (resp q x) m := by
  have e0 := resp_biquad0 q x m
  have e1 := resp_biquad1 q x m
  have e2 : biquad q (x (4 * m + 2)) (x (4 * m + 1)) (x (4 * m)) (resp q x (4 * m + 1)) (resp q x (4 * m)) = resp q x (4 * m + 2) := rfl
  have e3 : biquad q (x (4 * m + 3)) (x (4 * m + 2)) (x (4 * m + 1)) (resp q x (4 * m + 2)) (resp q x (4 * m + 1)) = resp q x (4 * m + 3) := rfl
  unfold block six
  simp only [e0, e1, e2, e3]

theorem stages_six (qs : List (BQ K)) (x : Nat → K) (m : Nat) :
    stages (stateOf qs x m) (six x m) = (stateOf qs x (m + 1), six (cascade qs x) m) := by
  induction qs generalizing x with
  | nil => rfl
  | cons q r ih =>
    show ((q, _) :: (stages (stateOf r (resp q x) m) (block q (six x m) _)).1, (stages (stateOf r (resp q x) m) (block q (six x m) _)).2) = _
    rw [block_six, ih (resp q x)]
    have := back_next (resp q x) m
    show ((q, (resp q x (4 * m + 2), resp q x (4 * m + 3))) :: _, _) = ((q, (back (resp q x) 2 (4 * (m + 1)), back (resp q x) 1 (4 * (m + 1)))) :: _, _)
    rw [this.1, this.2]
    rfl

/-- The filter run over a sound in blocks of four, from a cleared state, gives for each sample what the difference equations of its
sections give for the whole sound, times the gain: nothing is heard of the ends of the blocks, for any number of sections,
any coefficients and any sound. -/
theorem C125_stream (g : K) (qs : List (BQ K)) (x : Nat → K) (n : Nat) :
    runBlocks g (clear qs) ((List.range n).map fun m => fun (i : Fin 4) => x (4 * m + i)) =
      (List.range n).map fun m => fun (i : Fin 4) => cascade qs x (4 * m + i) * g := by
  have key : ∀ (n m : Nat), runBlocks g ⟨(back x 2 (4 * m), back x 1 (4 * m)), stateOf qs x m⟩ ((List.range' m n).map fun m => fun (i : Fin 4) => x (4 * m + i)) =
      (List.range' m n).map fun m => fun (i : Fin 4) => cascade qs x (4 * m + i) * g := by
    intro n
    induction n with
    | zero => intro m; rfl
    | succ n ih =>
      intro m
      rw [List.range'_succ, List.map_cons, List.map_cons]
      have hr : run4 g ⟨(back x 2 (4 * m), back x 1 (4 * m)), stateOf qs x m⟩ (fun i => x (4 * m + i)) =
          (F.mk (back x 2 (4 * (m + 1)), back x 1 (4 * (m + 1))) (stateOf qs x (m + 1)), fun (i : Fin 4) => cascade qs x (4 * m + i) * g) := by
        have hs : stages (stateOf qs x m) ⟨back x 2 (4 * m), back x 1 (4 * m), x (4 * m), x (4 * m + 1), x (4 * m + 2), x (4 * m + 3)⟩ = _ := stages_six qs x m
        unfold run4
        have h3 := back_next x m
        rw [h3.1, h3.2]
        refine Prod.ext ?_ ?_
        · show F.mk (x (4 * m + 2), x (4 * m + 3)) (stages (stateOf qs x m) (Six.mk (back x 2 (4 * m)) (back x 1 (4 * m)) (x (4 * m)) (x (4 * m + 1)) (x (4 * m + 2)) (x (4 * m + 3)))).1 = _
          rw [hs]
        · funext i
          have hs' : stages (stateOf qs x m) ⟨back x 2 (4 * m), back x 1 (4 * m), x (4 * m + (0 : Fin 4)), x (4 * m + (1 : Fin 4)), x (4 * m + (2 : Fin 4)), x (4 * m + (3 : Fin 4))⟩ = (stateOf qs x (m + 1), six (cascade qs x) m) := hs
          match i with
          | 0 => show (stages _ _).2.d2 * g = _; rw [hs']; rfl
          | 1 => show (stages _ _).2.d3 * g = _; rw [hs']; rfl
          | 2 => show (stages _ _).2.d4 * g = _; rw [hs']; rfl
          | 3 => show (stages _ _).2.d5 * g = _; rw [hs']; rfl
      show (run4 g _ _).2 :: runBlocks g (run4 g _ _).1 _ = _
      rw [hr]
      simp only
      rw [ih (m + 1)]
  have h0 : clear qs = ⟨(back x 2 (4 * 0), back x 1 (4 * 0)), stateOf qs x 0⟩ := by
    have : ∀ (qs : List (BQ K)) (x : Nat → K), qs.map (fun q => (q, ((0 : K), (0 : K)))) = stateOf qs x 0 := by
      intro qs
      induction qs with
      | nil => intro x; rfl
      | cons q r ih => intro x; rw [List.map_cons, ih (resp q x)]; simp [stateOf, back]
    unfold clear
    rw [this qs x]
    simp [back]
  rw [h0, List.range_eq_range']
  exact key n 0

/-! ## The coefficients -/

section
variable [LinearOrder K] [IsStrictOrderedRing K]

/-- `C`, sound/filter.h:44-63. -/
structure C (K : Type) where
  re : K
  im : K

def C.add (a b : C K) : C K := ⟨a.re + b.re, a.im + b.im⟩
def C.sub (a b : C K) : C K := ⟨a.re - b.re, a.im - b.im⟩
def C.mul (a b : C K) : C K := ⟨a.re * b.re - a.im * b.im, a.re * b.im + a.im * b.re⟩
def C.len2 (a : C K) : K := a.re * a.re + a.im * a.im
def C.div (a b : C K) : C K := ⟨(a.re * b.re + a.im * b.im) / b.len2, (a.im * b.re - a.re * b.im) / b.len2⟩
def C.conj (a : C K) : C K := ⟨a.re, -a.im⟩

/-- `ConvertToHighPass::pole`, sound/filter.h:95. -/
def highPole (f : K) (p : C K) : C K := C.div ⟨f, 0⟩ p

/-- `BLT::blt`, sound/filter.h:105. -/
def blt (s : C K) : C K := C.div (C.add ⟨2, 0⟩ s) (C.sub ⟨2, 0⟩ s)

/-- `ButterWorthProtoType::pole`, sound/filter.h:78-82: `real` and `imag` are minus sine and cosine of the angle. -/
def protoPole (re im : Nat → K) (k : Nat) : C K := if k % 2 = 1 then ⟨re (k / 2), im (k / 2)⟩ else ⟨re (k / 2), -im (k / 2)⟩

/-- `Bilinear`, sound/filter.h:132-137, of the high pass: zeroes of the prototype are 0. -/
def section' (re im : Nat → K) (f : K) (k : Nat) : BQ K :=
  { b0 := 1
    b1 := -(C.add (blt ⟨0, 0⟩) (blt ⟨0, 0⟩)).re
    b2 := (C.mul (blt ⟨0, 0⟩) (blt ⟨0, 0⟩)).re
    a1 := -(C.add (blt (highPole f (protoPole re im (k * 2)))) (blt (highPole f (protoPole re im (k * 2 + 1))))).re
    a2 := (C.mul (blt (highPole f (protoPole re im (k * 2)))) (blt (highPole f (protoPole re im (k * 2 + 1))))).re }

theorem highPole_neg (f : K) (p : C K) (hf : 0 < f) (hp : p.re < 0) : (highPole f p).re < 0 := by
  unfold highPole C.div C.len2
  simp only
  have hl : 0 < p.re * p.re + p.im * p.im := by nlinarith [mul_self_nonneg p.im, mul_pos_of_neg_of_neg hp hp]
  apply div_neg_of_neg_of_pos _ hl
  have := mul_neg_of_pos_of_neg hf hp
  linarith

omit [LinearOrder K] [IsStrictOrderedRing K] in
theorem len2_div (a b : C K) (h : b.len2 ≠ 0) : (C.div a b).len2 = a.len2 / b.len2 := by
  have e : (C.div a b).len2 = ((a.re * b.re + a.im * b.im) * (a.re * b.re + a.im * b.im) + (a.im * b.re - a.re * b.im) * (a.im * b.re - a.re * b.im)) / (b.len2 * b.len2) := by
    show (a.re * b.re + a.im * b.im) / b.len2 * ((a.re * b.re + a.im * b.im) / b.len2) + (a.im * b.re - a.re * b.im) / b.len2 * ((a.im * b.re - a.re * b.im) / b.len2) = _
    rw [div_mul_div_comm, div_mul_div_comm, ← add_div]
  rw [e]
  have e2 : (a.re * b.re + a.im * b.im) * (a.re * b.re + a.im * b.im) + (a.im * b.re - a.re * b.im) * (a.im * b.re - a.re * b.im) = a.len2 * b.len2 := by
    unfold C.len2; ring
  rw [e2, mul_div_mul_right _ _ h]

/-- A pole with negative real part goes inside of the unit circle. -/
theorem blt_inside (s : C K) (h : s.re < 0) : (blt s).len2 < 1 := by
  have hd : 0 < (C.sub ⟨2, 0⟩ s).len2 := by
    unfold C.sub C.len2; simp only
    have : 0 < (2 - s.re) * (2 - s.re) := mul_pos (by linarith) (by linarith)
    nlinarith [mul_self_nonneg (0 - s.im)]
  unfold blt
  rw [len2_div _ _ (ne_of_gt hd), div_lt_one hd]
  unfold C.add C.sub C.len2
  simp only
  nlinarith

omit [LinearOrder K] [IsStrictOrderedRing K] in
theorem conj_high (f : K) (p : C K) : highPole f p.conj = (highPole f p).conj := by
  unfold highPole C.div C.conj C.len2
  simp only
  congr 1
  · rw [mul_neg, neg_mul_neg]; ring_nf
  · rw [neg_mul_neg]
    rw [← neg_div]; congr 1; ring

omit [LinearOrder K] [IsStrictOrderedRing K] in
theorem conj_blt (s : C K) : blt s.conj = (blt s).conj := by
  unfold blt C.div C.conj C.add C.sub C.len2
  simp only
  have e : (2 - s.re) * (2 - s.re) + (0 - -s.im) * (0 - -s.im) = (2 - s.re) * (2 - s.re) + (0 - s.im) * (0 - s.im) := by ring
  congr 1
  · rw [e]; congr 1; ring
  · rw [e, ← neg_div]; congr 1; ring

/-- The pole of section `k`. -/
def pole (re im : Nat → K) (f : K) (k : Nat) : C K := blt (highPole f ⟨re k, im k⟩)

theorem section_eq (re im : Nat → K) (f : K) (k : Nat) :
    section' re im f k = ⟨1, -2, 1, -2 * (pole re im f k).re, (pole re im f k).len2⟩ := by
  have h0 : protoPole re im (k * 2) = C.conj ⟨re k, im k⟩ := by
    unfold protoPole C.conj
    rw [if_neg (by omega), show k * 2 / 2 = k by omega]
  have h1 : protoPole re im (k * 2 + 1) = ⟨re k, im k⟩ := by
    unfold protoPole
    rw [if_pos (by omega), show (k * 2 + 1) / 2 = k by omega]
  have z : blt (⟨0, 0⟩ : C K) = ⟨1, 0⟩ := by
    unfold blt C.div C.add C.sub C.len2
    simp only
    congr 1 <;> norm_num
  unfold section'
  rw [h0, h1, conj_high, conj_blt, z]
  show (⟨1, -(C.add ⟨1, 0⟩ ⟨1, 0⟩).re, _, -(C.add (pole re im f k).conj (pole re im f k)).re, (C.mul (pole re im f k).conj (pole re im f k)).re⟩ : BQ K) = _
  unfold C.add C.mul C.conj C.len2
  simp only
  congr 1 <;> ring

/-- Each section is stable: its coefficients are in the triangle of stability, for any poles of the prototype with negative real part
and any cutoff below half the sampling rate. -/
theorem C125_stable (re im : Nat → K) (f : K) (hf : 0 < f) (k : Nat) (hr : re k < 0) :
    (section' re im f k).a2 < 1 ∧ (section' re im f k).a1 < 1 + (section' re im f k).a2 ∧ -(section' re im f k).a1 < 1 + (section' re im f k).a2 := by
  rw [section_eq]
  have h : (pole re im f k).len2 < 1 := blt_inside _ (highPole_neg f ⟨re k, im k⟩ hf hr)
  generalize pole re im f k = p at h
  refine ⟨h, ?_, ?_⟩
  · simp only
    unfold C.len2 at h ⊢
    have : p.re > -1 := by nlinarith [mul_self_nonneg p.im]
    have h2 : 0 < (1 + p.re) * (1 + p.re) := mul_pos (by linarith) (by linarith)
    nlinarith [mul_self_nonneg p.im]
  · simp only
    unfold C.len2 at h ⊢
    have : p.re < 1 := by nlinarith [mul_self_nonneg p.im]
    have h2 : 0 < (1 - p.re) * (1 - p.re) := mul_pos (by linarith) (by linarith)
    nlinarith [mul_self_nonneg p.im]

/-- `gain`, sound/filter.h:109-123, of one section: the lengths for its two poles, which are conjugate, over those for its zeroes. -/
def gainOf (re im : Nat → K) (f : K) (k : Nat) : K := (C.sub ⟨2, 0⟩ (highPole f ⟨re k, im k⟩)).len2 / (C.sub ⟨2, 0⟩ (⟨0, 0⟩ : C K)).len2

/-- At the highest frequency, where samples change sign each time, a section gives back its input times its gain, by which the
result is divided at the end: the filter leaves high sound as it is. -/
theorem C125_unity (re im : Nat → K) (f : K) (hf : 0 < f) (k : Nat) (hr : re k < 0) (x y : Nat → K) (hx : ∀ n, x n = (-1) ^ n)
    (hy : ∀ n, y n = gainOf re im f k * (-1) ^ n) (n : Nat) :
    y (n + 2) = (section' re im f k).b0 * x (n + 2) + (section' re im f k).b1 * x (n + 1) + (section' re im f k).b2 * x n
      - (section' re im f k).a1 * y (n + 1) - (section' re im f k).a2 * y n := by
  rw [section_eq]
  simp only [hx, hy, pow_succ]
  have hs := highPole_neg f ⟨re k, im k⟩ hf hr
  unfold gainOf pole
  generalize highPole f ⟨re k, im k⟩ = s at hs
  have hd : 0 < (C.sub ⟨2, 0⟩ s).len2 := by
    unfold C.sub C.len2; simp only
    have : 0 < (2 - s.re) * (2 - s.re) := mul_pos (by linarith) (by linarith)
    nlinarith [mul_self_nonneg (0 - s.im)]
  have key : (1 + 2 * (blt s).re + (blt s).len2) * (C.sub ⟨2, 0⟩ s).len2 = 16 := by
    have e1 : (blt s).len2 * (C.sub ⟨2, 0⟩ s).len2 = (C.add ⟨2, 0⟩ s).len2 := by
      unfold blt; rw [len2_div _ _ (ne_of_gt hd)]; exact div_mul_cancel₀ _ (ne_of_gt hd)
    have e2 : (blt s).re * (C.sub ⟨2, 0⟩ s).len2 = (2 + s.re) * (2 - s.re) + (0 + s.im) * (0 - s.im) := by
      show ((2 + s.re) * (2 - s.re) + (0 + s.im) * (0 - s.im)) / (C.sub ⟨2, 0⟩ s).len2 * (C.sub ⟨2, 0⟩ s).len2 = _
      exact div_mul_cancel₀ _ (ne_of_gt hd)
    have e3 : (C.sub ⟨2, 0⟩ s).len2 = (2 - s.re) * (2 - s.re) + (0 - s.im) * (0 - s.im) := rfl
    have e4 : (C.add ⟨2, 0⟩ s).len2 = (2 + s.re) * (2 + s.re) + (0 + s.im) * (0 + s.im) := rfl
    rw [add_mul, add_mul, mul_assoc 2, e1, e2, e4, e3]
    ring
  have e5 : (C.sub ⟨2, 0⟩ (⟨0, 0⟩ : C K)).len2 = 4 := by unfold C.sub C.len2; norm_num
  rw [e5]
  linear_combination (-1 / 4 * (-1) ^ n) * (-key)

/-- How much a section with pole `p` rings. -/
def energy (p : C K) (y : Nat → K) (n : Nat) : K := (y (n + 1) - p.re * y n) * (y (n + 1) - p.re * y n) + (p.im * y n) * (p.im * y n)

omit [LinearOrder K] [IsStrictOrderedRing K] in
theorem energy_step (p : C K) (y : Nat → K) (n : Nat) (h : y (n + 2) = 2 * p.re * y (n + 1) - p.len2 * y n) :
    energy p y (n + 1) = p.len2 * energy p y n := by
  unfold energy C.len2 at *
  rw [h]; ring

/-- A constant level is blocked: from the third sample on, a first section fed with a constant only rings, and this decays by the
square of the length of its pole, which is less than 1, with each sample. -/
theorem C125_constant (re im : Nat → K) (f : K) (hf : 0 < f) (k : Nat) (hr : re k < 0) (c : K) (n : Nat) :
    energy (pole re im f k) (resp (section' re im f k) fun _ => c) n =
      (pole re im f k).len2 ^ n * energy (pole re im f k) (resp (section' re im f k) fun _ => c) 0 ∧ (pole re im f k).len2 < 1 := by
  refine ⟨?_, blt_inside _ (highPole_neg f ⟨re k, im k⟩ hf hr)⟩
  rw [section_eq]
  generalize pole re im f k = p
  induction n with
  | zero => simp
  | succ n ih =>
    rw [energy_step, ih, pow_succ]
    · ring
    · show 1 * c + -2 * c + 1 * c - -2 * p.re * _ - p.len2 * _ = _
      ring

/-- And any sound which stops is followed only by ringing which decays. -/
theorem C125_ring (re im : Nat → K) (f : K) (k : Nat) (x : Nat → K) (n0 : Nat) (hx : ∀ n, n0 ≤ n → x n = 0) (n : Nat) :
    energy (pole re im f k) (resp (section' re im f k) x) (n0 + n) =
      (pole re im f k).len2 ^ n * energy (pole re im f k) (resp (section' re im f k) x) n0 := by
  rw [section_eq]
  generalize pole re im f k = p
  induction n with
  | zero => simp
  | succ n ih =>
    rw [← Nat.add_assoc, energy_step, ih, pow_succ]
    · ring
    · show 1 * x (n0 + n + 2) + -2 * x (n0 + n + 1) + 1 * x (n0 + n) - -2 * p.re * _ - p.len2 * _ = _
      rw [hx _ (by omega), hx _ (by omega), hx _ (by omega)]
      ring

/-! ## Helper functions -/

/-- `PO_pow`, sound/filter.h:16-18. -/
def poPow (x y : K) (p : Nat) : K :=
  if p = 0 then x else if p % 2 = 1 then poPow (x * y) y (p - 1) else poPow x (y * y) (p / 2)
termination_by p
decreasing_by all_goals omega

omit [LinearOrder K] [IsStrictOrderedRing K] in
/-- The power function is x times y to the p. -/
theorem C125_pow (x y : K) (p : Nat) : poPow x y p = x * y ^ p := by
  induction p using Nat.strongRecOn generalizing x y with
  | _ p ih =>
    rw [poPow]
    by_cases h0 : p = 0
    · rw [if_pos h0, h0]; simp
    · rw [if_neg h0]
      by_cases h1 : p % 2 = 1
      · rw [if_pos h1, ih (p - 1) (by omega)]
        obtain ⟨q, rfl⟩ : ∃ q, p = q + 1 := ⟨p - 1, by omega⟩
        rw [Nat.add_sub_cancel, pow_succ]; ring
      · rw [if_neg h1, ih (p / 2) (by omega)]
        obtain ⟨q, rfl⟩ : ∃ q, p = 2 * q := ⟨p / 2, by omega⟩
        rw [Nat.mul_div_cancel_left _ (by omega), pow_mul, pow_two]

/-- `PO_sqrt_helper`, sound/filter.h:36-39; the middle is always that of `lo` and `hi`. -/
def sqrtHelper (x lo hi mid : K) : Nat → K
  | 0 => mid
  | n + 1 => if mid * mid > x then sqrtHelper x lo mid ((lo + mid) / 2) n else sqrtHelper x mid hi ((mid + hi) / 2) n

/-- `PO_sqrt`, sound/filter.h:40-42. -/
def poSqrt (x : K) : K := sqrtHelper x 0 x (x / 2) 64

theorem sqrt_helper (x : K) (n : Nat) (lo hi : K) (h1 : 0 ≤ lo) (h2 : lo ≤ hi) (h3 : lo * lo ≤ x) (h4 : x ≤ hi * hi) :
    ∃ l h, l ≤ sqrtHelper x lo hi ((lo + hi) / 2) n ∧ sqrtHelper x lo hi ((lo + hi) / 2) n ≤ h ∧ 0 ≤ l ∧ l * l ≤ x ∧ x ≤ h * h ∧ h - l = (hi - lo) / 2 ^ n := by
  induction n generalizing lo hi with
  | zero => exact ⟨lo, hi, by show lo ≤ (lo + hi) / 2; linarith, by show (lo + hi) / 2 ≤ hi; linarith, h1, h3, h4, by simp⟩
  | succ n ih =>
    show ∃ l h, l ≤ (if (lo + hi) / 2 * ((lo + hi) / 2) > x then _ else _) ∧ (if (lo + hi) / 2 * ((lo + hi) / 2) > x then _ else _) ≤ h ∧ _
    by_cases hc : (lo + hi) / 2 * ((lo + hi) / 2) > x
    · rw [if_pos hc]
      obtain ⟨l, h, a, b, c, d, e, g⟩ := ih lo ((lo + hi) / 2) h1 (by linarith) h3 hc.le
      exact ⟨l, h, a, b, c, d, e, by rw [g, pow_succ]; field_simp; ring⟩
    · rw [if_neg hc]
      obtain ⟨l, h, a, b, c, d, e, g⟩ := ih ((lo + hi) / 2) hi (by linarith) (by linarith) (not_lt.1 hc) h4
      exact ⟨l, h, a, b, c, d, e, by rw [g, pow_succ]; field_simp; ring⟩

/-- The square root, from 1 on, is right up to the number divided by 2^64: the result and the true root are between two numbers
that close. -/
theorem C125_sqrt (x : K) (hx : 1 ≤ x) :
    ∃ l h, l ≤ poSqrt x ∧ poSqrt x ≤ h ∧ 0 ≤ l ∧ l * l ≤ x ∧ x ≤ h * h ∧ h - l = x / 2 ^ 64 := by
  have := sqrt_helper x 64 0 x (le_refl _) (by linarith) (by linarith) (by nlinarith)
  rw [zero_add, sub_zero] at this
  exact this

theorem sqrt_le (x : K) (n : Nat) (lo hi : K) (h : lo ≤ hi) : sqrtHelper x lo hi ((lo + hi) / 2) n ≤ hi := by
  induction n generalizing lo hi with
  | zero => show (lo + hi) / 2 ≤ hi; linarith
  | succ n ih =>
    show (if (lo + hi) / 2 * ((lo + hi) / 2) > x then _ else _) ≤ hi
    split
    · have := ih lo ((lo + hi) / 2) (by linarith); linarith
    · exact ih ((lo + hi) / 2) hi (by linarith)

/-- Below 1 it is wrong: the root is never larger than the number. -/
theorem C125_sqrt_counterexample (x : K) (h0 : 0 < x) (h1 : x < 1) : poSqrt x * poSqrt x < x := by
  have hle := sqrt_le x 64 0 x h0.le
  rw [zero_add] at hle
  have hle : poSqrt x ≤ x := hle
  have hge : 0 ≤ poSqrt x := by
    have ge : ∀ (n : Nat) (lo hi : K), 0 ≤ lo → lo ≤ hi → 0 ≤ sqrtHelper x lo hi ((lo + hi) / 2) n := by
      intro n
      induction n with
      | zero => intro lo hi a b; show 0 ≤ (lo + hi) / 2; linarith
      | succ n ih =>
        intro lo hi a b
        show 0 ≤ (if (lo + hi) / 2 * ((lo + hi) / 2) > x then _ else _)
        split
        · exact ih lo _ a (by linarith)
        · exact ih _ hi (by linarith) (by linarith)
    have := ge 64 0 x (le_refl _) h0.le
    rw [zero_add] at this
    exact this
  nlinarith

/-- The gain is computed from numbers of which the root is right: a pole with negative real part is farther than 2 from 2. -/
theorem C125_gain (s : C K) (h : s.re < 0) : 1 ≤ (C.sub ⟨2, 0⟩ s).len2 := by
  unfold C.sub C.len2
  simp only
  nlinarith [mul_self_nonneg (0 - s.im)]

end

example : runBlocks 1 (clear [(⟨1, -2, 1, 0, 1 / 4⟩ : BQ Rat)]) ((List.range 3).map fun m => fun (i : Fin 4) => ((4 * m + i : Nat) : Rat)) =
    (List.range 3).map fun m => fun (i : Fin 4) => cascade [(⟨1, -2, 1, 0, 1 / 4⟩ : BQ Rat)] (fun n => (n : Rat)) (4 * m + i) * 1 :=
  C125_stream (1 : Rat) [⟨1, -2, 1, 0, 1 / 4⟩] (fun n => (n : Rat)) 3
example : (section' (fun _ => (-1 : Rat)) (fun _ => 1) 2 0).a2 < 1 := (C125_stable _ _ 2 (by norm_num) 0 (by norm_num)).1

end Verif.Audio.Filter
