import Verif.Color.Mix
set_option linter.unusedSimpArgs false
/-!
# C61-C63: hue rotation, dithering, colour selection and SPI output levels
-/
namespace Verif.Color

/-! ### hue rotation -/

theorem clampI_mid {x a b : Int} (h1 : a ≤ x) (h2 : x ≤ b) : clampI x a b = x := by
  unfold clampI; rw [if_neg (by omega), if_neg (by omega)]

/-- the weight of a hue position -/
def hueT (n : Int) : Int :=
  let k := n % 98304
  clampI (min k (65536 - k)) 0 16384

theorem hueT_range (n : Int) : 0 ≤ hueT n ∧ hueT n ≤ 16384 := by
  unfold hueT clampI; dsimp only; split
  · omega
  · split <;> omega

theorem hueT_zero {n : Int} (h : n % 98304 = 0 ∨ 65536 ≤ n % 98304) : hueT n = 0 := by
  unfold hueT clampI; dsimp only; split
  · rfl
  · split <;> omega

theorem hueT_full {n : Int} (h : 16384 ≤ n % 98304 ∧ n % 98304 ≤ 49152) : hueT n = 16384 := by
  unfold hueT clampI; dsimp only; split
  · omega
  · split <;> omega

theorem hueT_up {n : Int} (h : n % 98304 ≤ 16384) : hueT n = n % 98304 := by
  unfold hueT clampI; dsimp only; split
  · omega
  · split <;> omega

theorem hueT_down {n : Int} (h : 49152 ≤ n % 98304) (h2 : n % 98304 ≤ 65536) : hueT n = 65536 - n % 98304 := by
  unfold hueT clampI; dsimp only; split
  · omega
  · split <;> omega

theorem hueF_eq {n C MAX : Int} (hn : 0 ≤ n) (hC : 0 ≤ C) (hC2 : C ≤ 65535) : hueF n C MAX = some (MAX - C * hueT n / 16384) := by
  obtain ⟨h1, h2⟩ := hueT_range n
  have h3 : 0 ≤ C * hueT n := Int.mul_nonneg hC h1
  have h4 : C * hueT n ≤ 65535 * 16384 := Int.mul_le_mul hC2 h2 h1 (by omega)
  unfold hueF
  rw [Int.tmod_eq_emod_of_nonneg hn]
  have e : clampI (min (n % 98304) (65536 - n % 98304)) 0 16384 = hueT n := rfl
  dsimp only
  rw [e, bind_i32 (by omega) (by omega), Int.tdiv_eq_ediv_of_nonneg h3]

/-- The hue of a colour as `rotate` computes it, common/color.h:305-315. -/
def hue (c : Color) : Int :=
  let MAX : Int := max (c .r) (max (c .g) (c .b))
  let MIN : Int := min (c .r) (min (c .g) (c .b))
  let C := MAX - MIN
  if (c .r : Int) = MAX then Int.tdiv (16384 * ((c .g : Int) - c .b)) C
  else if (c .g : Int) = MAX then Int.tdiv (16384 * ((c .b : Int) - c .r)) C + 16384 * 2
  else Int.tdiv (16384 * ((c .r : Int) - c .g)) C + 16384 * 4

theorem tdiv_bound {d C : Int} (hC : 0 < C) (h1 : -C ≤ d) (h2 : d ≤ C) : -16384 ≤ Int.tdiv (16384 * d) C ∧ Int.tdiv (16384 * d) C ≤ 16384 := by
  by_cases h : 0 ≤ d
  · rw [Int.tdiv_eq_ediv_of_nonneg (by omega)]
    constructor
    · have := Int.ediv_nonneg (a := 16384 * d) (b := C) (by omega) (by omega); omega
    · apply Int.ediv_le_of_le_mul hC; omega
  · have e : 16384 * d = -(16384 * (-d)) := by omega
    rw [e, Int.neg_tdiv, Int.tdiv_eq_ediv_of_nonneg (by omega)]
    have h3 := Int.ediv_nonneg (a := 16384 * (-d)) (b := C) (by omega) (by omega)
    have h4 : 16384 * (-d) / C ≤ 16384 := by apply Int.ediv_le_of_le_mul hC; omega
    omega

theorem hue_range {c : Color} (h : ¬ (c .r = c .g ∧ c .g = c .b)) : -16384 ≤ hue c ∧ hue c ≤ 16384 * 5 := by
  unfold hue
  dsimp only
  have hC : (0 : Int) < max (c .r : Int) (max (c .g) (c .b)) - min (c .r : Int) (min (c .g) (c .b)) := by omega
  have b1 := tdiv_bound (d := (c .g : Int) - c .b) hC (by omega) (by omega)
  have b2 := tdiv_bound (d := (c .b : Int) - c .r) hC (by omega) (by omega)
  have b3 := tdiv_bound (d := (c .r : Int) - c .g) hC (by omega) (by omega)
  split
  · omega
  · split <;> omega

theorem bind_i32s {β : Type} {x : Int} (h1 : -2147483648 ≤ x) (h2 : x < 2147483648) (f : Int → Option β) : (i32 x >>= f) = f x := by
  unfold i32; rw [if_pos ⟨h1, h2⟩]; rfl

/-- a colour from its channels -/
def rgb (r g b : Nat) : Color := fun | .r => r | .g => g | .b => b

theorem rotate_eq {c : Color} (hc : c.ok 16) {angle : Int} (ha : 0 < angle) (ha2 : angle < 2147000000) (h : ¬ (c .r = c .g ∧ c .g = c .b)) :
    ∃ MAX C : Int, MAX = max (c .r : Int) (max (c .g) (c .b)) ∧ C = MAX - min (c .r : Int) (min (c .g) (c .b)) ∧
      rotate c angle = some (rgb (MAX - C * hueT (5 * 16384 + (hue c + angle)) / 16384).toNat
        (MAX - C * hueT (3 * 16384 + (hue c + angle)) / 16384).toNat (MAX - C * hueT (1 * 16384 + (hue c + angle)) / 16384).toNat) := by
  refine ⟨_, _, rfl, rfl, ?_⟩
  obtain ⟨h1, h2⟩ := hue_range h
  have hr := hc .r
  have hg := hc .g
  have hb := hc .b
  unfold rotate
  dsimp only
  rw [if_neg (by omega), if_neg (by omega)]
  have eh : (if (c .r : Int) = max (c .r : Int) (max (c .g) (c .b)) then
        Int.tdiv (16384 * ((c .g : Int) - c .b)) (max (c .r : Int) (max (c .g) (c .b)) - min (c .r : Int) (min (c .g) (c .b)))
      else if (c .g : Int) = max (c .r : Int) (max (c .g) (c .b)) then
        Int.tdiv (16384 * ((c .b : Int) - c .r)) (max (c .r : Int) (max (c .g) (c .b)) - min (c .r : Int) (min (c .g) (c .b))) + 16384 * 2
      else Int.tdiv (16384 * ((c .r : Int) - c .g)) (max (c .r : Int) (max (c .g) (c .b)) - min (c .r : Int) (min (c .g) (c .b))) + 16384 * 4) = hue c := rfl
  rw [eh, bind_i32s (by omega) (by omega), bind_i32 (by omega) (by omega), hueF_eq (by omega) (by omega) (by omega), bind_some,
    hueF_eq (by omega) (by omega) (by omega), bind_some, hueF_eq (by omega) (by omega) (by omega), bind_some, Option.some.injEq]
  have key : ∀ n : Int, toU 16 (max (c .r : Int) (max (c .g) (c .b)) - (max (c .r : Int) (max (c .g) (c .b)) - min (c .r : Int) (min (c .g) (c .b))) * hueT n / 16384)
      = (max (c .r : Int) (max (c .g) (c .b)) - (max (c .r : Int) (max (c .g) (c .b)) - min (c .r : Int) (min (c .g) (c .b))) * hueT n / 16384).toNat := by
    intro n
    obtain ⟨t1, t2⟩ := hueT_range n
    have hC : (0 : Int) ≤ max (c .r : Int) (max (c .g) (c .b)) - min (c .r : Int) (min (c .g) (c .b)) := by omega
    generalize hCe : max (c .r : Int) (max (c .g) (c .b)) - min (c .r : Int) (min (c .g) (c .b)) = C at *
    have p1 : 0 ≤ C * hueT n := Int.mul_nonneg hC t1
    have p2 : C * hueT n ≤ C * 16384 := Int.mul_le_mul_of_nonneg_left t2 hC
    generalize C * hueT n = p at *
    unfold toU
    congr 1
    omega
  funext ch
  cases ch
  · exact key _
  · exact key _
  · exact key _

/-- **C61** (brightness and saturation).  Rotating the hue of any colour by any amount never overflows
and keeps the brightest channel value and the darkest channel value exactly; every channel stays between
them.  A rotation by 0 changes nothing, and a grey stays as it is. -/
theorem C61_rotate (c : Color) (hc : c.ok 16) (angle : Int) (ha : 0 ≤ angle) (ha2 : angle < 2147000000) :
    ∃ d, rotate c angle = some d ∧
      max (d .r) (max (d .g) (d .b)) = max (c .r) (max (c .g) (c .b)) ∧
      min (d .r) (min (d .g) (d .b)) = min (c .r) (min (c .g) (c .b)) ∧
      (angle = 0 → d = c) ∧ (c .r = c .g ∧ c .g = c .b → d = c) := by
  by_cases h0 : angle = 0
  · refine ⟨c, ?_, rfl, rfl, fun _ => rfl, fun _ => rfl⟩
    unfold rotate; rw [if_pos h0]
  by_cases hg : c .r = c .g ∧ c .g = c .b
  · refine ⟨c, ?_, rfl, rfl, fun _ => rfl, fun _ => rfl⟩
    unfold rotate; rw [if_neg h0]; dsimp only; rw [if_pos (by omega)]
  obtain ⟨MAX, C, hM, hCe, e⟩ := rotate_eq hc (by omega) ha2 hg
  obtain ⟨h1, h2⟩ := hue_range hg
  refine ⟨_, e, ?_, ?_, fun h => absurd h h0, fun h => absurd h hg⟩
  all_goals dsimp only [rgb]
  all_goals
    generalize hH : hue c + angle = H at *
    have hC : 0 ≤ C := by omega
    have rng : ∀ n, 0 ≤ C * hueT n / 16384 ∧ C * hueT n / 16384 ≤ C := by
      intro n
      obtain ⟨t1, t2⟩ := hueT_range n
      have p1 : 0 ≤ C * hueT n := Int.mul_nonneg hC t1
      have p2 : C * hueT n ≤ C * 16384 := Int.mul_le_mul_of_nonneg_left t2 hC
      generalize C * hueT n = p at *
      omega
    have z : ∀ n : Int, n % 98304 = 0 ∨ 65536 ≤ n % 98304 → C * hueT n / 16384 = 0 := by
      intro n h; rw [hueT_zero h]; omega
    have f : ∀ n : Int, 16384 ≤ n % 98304 ∧ n % 98304 ≤ 49152 → C * hueT n / 16384 = C := by
      intro n h; rw [hueT_full h]; omega
    have r5 := rng (5 * 16384 + H)
    have r3 := rng (3 * 16384 + H)
    have r1 := rng (1 * 16384 + H)
    have z5 := z (5 * 16384 + H)
    have z3 := z (3 * 16384 + H)
    have z1 := z (1 * 16384 + H)
    have f5 := f (5 * 16384 + H)
    have f3 := f (3 * 16384 + H)
    have f1 := f (1 * 16384 + H)
    generalize C * hueT (5 * 16384 + H) / 16384 = v5 at *
    generalize C * hueT (3 * 16384 + H) / 16384 = v3 at *
    generalize C * hueT (1 * 16384 + H) / 16384 = v1 at *
  · have : v5 = 0 ∨ v3 = 0 ∨ v1 = 0 := by omega
    clear z5 z3 z1 f5 f3 f1 z f rng
    omega
  · have : v5 = C ∨ v3 = C ∨ v1 = C := by omega
    clear z5 z3 z1 f5 f3 f1 z f rng
    omega

theorem hueT_period (n : Int) : hueT (n + 98304) = hueT n := by
  unfold hueT; dsimp only; rw [show (n + 98304) % 98304 = n % 98304 by omega]

/-- the channel value at a hue position -/
def hueVal (MAX C n : Int) : Int := MAX - C * hueT n / 16384

theorem frac_near {C d : Int} (hC : 0 < C) (hC2 : C ≤ 65535) (h1 : 0 ≤ d) (h2 : d ≤ C) :
    0 ≤ 16384 * d / C ∧ 16384 * d / C ≤ 16384 ∧ C - d ≤ C * (16384 - 16384 * d / C) / 16384 ∧ C * (16384 - 16384 * d / C) / 16384 ≤ C - d + 4 := by
  have a := Int.mul_ediv_self_le (x := 16384 * d) (k := C) (by omega)
  have b := Int.lt_mul_ediv_self_add (x := 16384 * d) (k := C) hC
  have c1 := Int.ediv_nonneg (a := 16384 * d) (b := C) (by omega) (by omega)
  have c2 : 16384 * d / C ≤ 16384 := by apply Int.ediv_le_of_le_mul hC; omega
  generalize 16384 * d / C = H at *
  rw [Int.mul_sub]
  generalize C * H = P at *
  omega

theorem sector {MAX C x y : Int} (hC : 0 < C) (hC2 : C ≤ 65535) (hx : x ≤ MAX) (hy : y ≤ MAX)
    (hm : (x = MAX - C ∧ x ≤ y) ∨ (y = MAX - C ∧ y ≤ x)) :
    ∀ h, h = Int.tdiv (16384 * (x - y)) C → hueVal MAX C (5 * 16384 + h) = MAX ∧
      (x - 5 ≤ hueVal MAX C (3 * 16384 + h) ∧ hueVal MAX C (3 * 16384 + h) ≤ x + 5) ∧
      (y - 5 ≤ hueVal MAX C (1 * 16384 + h) ∧ hueVal MAX C (1 * 16384 + h) ≤ y + 5) := by
  intro h hh
  unfold hueVal
  by_cases hd : 0 ≤ x - y
  · rw [Int.tdiv_eq_ediv_of_nonneg (by omega)] at hh
    have hym : y = MAX - C := by omega
    obtain ⟨n1, n2, n3, n4⟩ := frac_near (d := x - y) hC hC2 hd (by omega)
    rw [← hh] at n1 n2 n3 n4
    rw [hueT_zero (n := 5 * 16384 + h) (by omega), hueT_down (n := 3 * 16384 + h) (by omega) (by omega), hueT_full (n := 1 * 16384 + h) (by omega),
      show 65536 - (3 * 16384 + h) % 98304 = 16384 - h by omega]
    omega
  · have e : 16384 * (x - y) = -(16384 * (y - x)) := by omega
    rw [e, Int.neg_tdiv, Int.tdiv_eq_ediv_of_nonneg (by omega)] at hh
    have hxm : x = MAX - C := by omega
    obtain ⟨n1, n2, n3, n4⟩ := frac_near (d := y - x) hC hC2 (by omega) (by omega)
    generalize 16384 * (y - x) / C = h' at *
    subst hh
    rw [hueT_zero (n := 5 * 16384 + -h') (by omega), hueT_full (n := 3 * 16384 + -h') (by omega), hueT_up (n := 1 * 16384 + -h') (by omega),
      show (1 * 16384 + -h') % 98304 = 16384 - h' by omega]
    omega

/-- the hue positions of a colour give back its channels, up to 5 steps -/
theorem hue_self {c : Color} (hc : c.ok 16) (h : ¬ (c .r = c .g ∧ c .g = c .b)) (MAX C : Int) (hM : MAX = max (c .r : Int) (max (c .g) (c .b)))
    (hCe : C = MAX - min (c .r : Int) (min (c .g) (c .b))) :
    ((c .r : Int) - 5 ≤ hueVal MAX C (5 * 16384 + hue c) ∧ hueVal MAX C (5 * 16384 + hue c) ≤ c .r + 5) ∧
    ((c .g : Int) - 5 ≤ hueVal MAX C (3 * 16384 + hue c) ∧ hueVal MAX C (3 * 16384 + hue c) ≤ c .g + 5) ∧
    ((c .b : Int) - 5 ≤ hueVal MAX C (1 * 16384 + hue c) ∧ hueVal MAX C (1 * 16384 + hue c) ≤ c .b + 5) := by
  have hr := hc .r
  have hg := hc .g
  have hb := hc .b
  have per : ∀ n, hueVal MAX C (n + 98304) = hueVal MAX C n := by intro n; unfold hueVal; rw [hueT_period]
  unfold hue
  dsimp only
  rw [← hM, ← hCe]
  split
  · obtain ⟨s1, s2, s3⟩ := sector (MAX := MAX) (C := C) (x := c .g) (y := c .b) (by omega) (by omega) (by omega) (by omega) (by omega) _ rfl
    omega
  · split
    · obtain ⟨s1, s2, s3⟩ := sector (MAX := MAX) (C := C) (x := c .b) (y := c .r) (by omega) (by omega) (by omega) (by omega) (by omega) _ rfl
      generalize Int.tdiv (16384 * ((c .b : Int) - c .r)) C = t at *
      rw [show 5 * 16384 + (t + 16384 * 2) = 1 * 16384 + t + 98304 by omega, per, show 3 * 16384 + (t + 16384 * 2) = 5 * 16384 + t by omega,
        show 1 * 16384 + (t + 16384 * 2) = 3 * 16384 + t by omega]
      omega
    · obtain ⟨s1, s2, s3⟩ := sector (MAX := MAX) (C := C) (x := c .r) (y := c .g) (by omega) (by omega) (by omega) (by omega) (by omega) _ rfl
      generalize Int.tdiv (16384 * ((c .r : Int) - c .g)) C = t at *
      rw [show 5 * 16384 + (t + 16384 * 4) = 3 * 16384 + t + 98304 by omega, per, show 3 * 16384 + (t + 16384 * 4) = 1 * 16384 + t + 98304 by omega,
        per, show 1 * 16384 + (t + 16384 * 4) = 5 * 16384 + t by omega]
      omega

/-- two channel values that differ by at most 5 of 65535 -/
def near (a b : Nat) : Prop := a ≤ b + 5 ∧ b ≤ a + 5

/-- **C61** (direction).  Rotating by a third of the circle moves red to green, green to blue and blue to
red, and by two thirds the other way round, up to 5 steps of 65535 from rounding; a whole circle more
makes no difference. -/
theorem C61_direction (c : Color) (hc : c.ok 16) :
    (∃ d, rotate c 32768 = some d ∧ near (d .g) (c .r) ∧ near (d .b) (c .g) ∧ near (d .r) (c .b)) ∧
    (∃ d, rotate c 65536 = some d ∧ near (d .b) (c .r) ∧ near (d .r) (c .g) ∧ near (d .g) (c .b)) ∧
    (∀ angle, 0 < angle → angle < 2146900000 → rotate c (angle + 98304) = rotate c angle) := by
  by_cases hg : c .r = c .g ∧ c .g = c .b
  · have e : ∀ angle, rotate c angle = some c := by
      intro angle
      unfold rotate; split
      · rfl
      · dsimp only; rw [if_pos (by omega)]
    unfold near
    refine ⟨⟨c, e _, by omega, by omega, by omega⟩, ⟨c, e _, by omega, by omega, by omega⟩, fun _ _ _ => by rw [e, e]⟩
  · have per : ∀ MAX C n, hueVal MAX C (n + 98304) = hueVal MAX C n := by intro MAX C n; unfold hueVal; rw [hueT_period]
    have hr := hc .r
    have hgg := hc .g
    have hbb := hc .b
    refine ⟨?_, ?_, ?_⟩
    · obtain ⟨MAX, C, hM, hCe, e⟩ := rotate_eq (angle := 32768) hc (by omega) (by omega) hg
      obtain ⟨s5, s3, s1⟩ := hue_self hc hg MAX C hM hCe
      refine ⟨_, e, ?_⟩
      dsimp only [rgb, near]
      have p5 : MAX - C * hueT (5 * 16384 + (hue c + 32768)) / 16384 = hueVal MAX C (1 * 16384 + hue c) := by
        rw [← per, show 1 * 16384 + hue c + 98304 = 5 * 16384 + (hue c + 32768) by omega]; rfl
      have p3 : MAX - C * hueT (3 * 16384 + (hue c + 32768)) / 16384 = hueVal MAX C (5 * 16384 + hue c) := by
        rw [show 3 * 16384 + (hue c + 32768) = 5 * 16384 + hue c by omega]; rfl
      have p1 : MAX - C * hueT (1 * 16384 + (hue c + 32768)) / 16384 = hueVal MAX C (3 * 16384 + hue c) := by
        rw [show 1 * 16384 + (hue c + 32768) = 3 * 16384 + hue c by omega]; rfl
      rw [p5, p3, p1]
      omega
    · obtain ⟨MAX, C, hM, hCe, e⟩ := rotate_eq (angle := 65536) hc (by omega) (by omega) hg
      obtain ⟨s5, s3, s1⟩ := hue_self hc hg MAX C hM hCe
      refine ⟨_, e, ?_⟩
      dsimp only [rgb, near]
      have p5 : MAX - C * hueT (5 * 16384 + (hue c + 65536)) / 16384 = hueVal MAX C (3 * 16384 + hue c) := by
        rw [← per, show 3 * 16384 + hue c + 98304 = 5 * 16384 + (hue c + 65536) by omega]; rfl
      have p3 : MAX - C * hueT (3 * 16384 + (hue c + 65536)) / 16384 = hueVal MAX C (1 * 16384 + hue c) := by
        rw [← per, show 1 * 16384 + hue c + 98304 = 3 * 16384 + (hue c + 65536) by omega]; rfl
      have p1 : MAX - C * hueT (1 * 16384 + (hue c + 65536)) / 16384 = hueVal MAX C (5 * 16384 + hue c) := by
        rw [show 1 * 16384 + (hue c + 65536) = 5 * 16384 + hue c by omega]; rfl
      rw [p5, p3, p1]
      omega
    · intro angle h1 h2
      obtain ⟨MAX, C, hM, hCe, e⟩ := rotate_eq (angle := angle) hc (by omega) (by omega) hg
      obtain ⟨MAX', C', hM', hCe', e'⟩ := rotate_eq (angle := angle + 98304) hc (by omega) (by omega) hg
      rw [e, e', hCe, hCe', hM, hM']
      have p : ∀ k, hueT (k + (hue c + (angle + 98304))) = hueT (k + (hue c + angle)) := by
        intro k; rw [show k + (hue c + (angle + 98304)) = k + (hue c + angle) + 98304 by omega, hueT_period]
      rw [p, p, p]

/-- concrete: red turned by 60 degrees is yellow -/
example : (rotate (fun | .r => 65535 | _ => 0) 16384).map (fun d => (d .r, d .g, d .b)) = some (65535, 65535, 0) := by decide +kernel

/-! ### dithering -/

/-- **C62** (dithering).  For every channel value and position: the portable and the instruction-based
version agree; the 8-bit value is within one and a half level of the exact value; black stays black and
full stays full. -/
theorem C62_dither (c x y : Nat) (hc : c < 65536) :
    dither c x y ≤ 255 ∧ dither c x y * 256 ≤ c + 127 ∧ c < dither c x y * 256 + 256 + 127 ∧
    dither 0 x y = 0 ∧ dither 65535 x y = 255 ∧
    dither c x y = ditherChArm c ((ditherMatrix.getD (x &&& 3) []).getD (y &&& 3) 0) := by
  have hn : -127 ≤ (ditherMatrix.getD (x &&& 3) []).getD (y &&& 3) 0 ∧ (ditherMatrix.getD (x &&& 3) []).getD (y &&& 3) 0 ≤ 127 := by
    have hx : x &&& 3 < 4 := by have := @Nat.and_le_right x 3; omega
    have hy : y &&& 3 < 4 := by have := @Nat.and_le_right y 3; omega
    generalize x &&& 3 = i at *
    generalize y &&& 3 = j at *
    have : ∀ i, i < 4 → ∀ j, j < 4 → -127 ≤ (ditherMatrix.getD i []).getD j 0 ∧ (ditherMatrix.getD i []).getD j 0 ≤ 127 := by decide
    exact this i hx j hy
  unfold dither
  generalize (ditherMatrix.getD (x &&& 3) []).getD (y &&& 3) 0 = n at *
  have key : ∀ c : Nat, c < 65536 → ditherCh c n = min 255 (((c : Int) + n) / 256).toNat := by
    intro c hc
    unfold ditherCh toU clampI
    split
    · omega
    · split <;> omega
  refine ⟨?_, ?_, ?_, ?_, ?_, ?_⟩
  · rw [key c hc]; omega
  · rw [key c hc]; omega
  · rw [key c hc]; omega
  · rw [key 0 (by omega)]; omega
  · rw [key 65535 (by omega)]; omega
  · rw [key c hc]
    unfold ditherChArm
    split <;> omega

/-- sum of the dithered values over a 4 by 4 block -/
def blockSum (c : Nat) : Nat := ((List.range 4).map fun x => ((List.range 4).map fun y => dither c x y).sum).sum

theorem tile : ∀ m : Nat, m < 256 → (0:Int) ≤ 16 * m - 256 * ((ditherMatrix.flatten.map fun n : Int => ((m : Int) + n) / 256).sum) - 1808 ∧
    16 * m - 256 * ((ditherMatrix.flatten.map fun n : Int => ((m : Int) + n) / 256).sum) ≤ 2272 := by decide +kernel

/-- **C62** (average).  Over a 4 by 4 block the dithered values of a colour add up to 16 times the exact
value minus the constant half level of rounding, to within one sixteenth of a level on average; colours
between the first and the last level. -/
theorem C62_average (c : Nat) (h1 : 256 ≤ c) (h2 : c < 65280) :
    256 * blockSum c + 1808 ≤ 16 * c ∧ 16 * c ≤ 256 * blockSum c + 2272 := by
  have key : ∀ n : Int, -127 ≤ n → n ≤ 127 → (ditherCh c n : Int) = c / 256 + ((c % 256 : Nat) + n) / 256 := by
    intro n a b
    unfold ditherCh toU clampI
    split
    · omega
    · split <;> omega
  have hs : (blockSum c : Int) = 16 * (c / 256) + (ditherMatrix.flatten.map fun n : Int => ((c % 256 : Nat) + n) / 256).sum := by
    have hb : blockSum c = ((ditherCh c (-127) + (ditherCh c (111) + (ditherCh c (-76) + (ditherCh c (94) + 0)))) + ((ditherCh c (9) + (ditherCh c (-59) + (ditherCh c (60) + (ditherCh c (-8) + 0)))) + ((ditherCh c (-93) + (ditherCh c (77) + (ditherCh c (-110) + (ditherCh c (127) + 0)))) + ((ditherCh c (43) + (ditherCh c (-25) + (ditherCh c (26) + (ditherCh c (-42) + 0)))) + 0)))) := rfl
    rw [hb]
    simp only [Int.natCast_add, key (-127) (by decide) (by decide), key 111 (by decide) (by decide), key (-76) (by decide) (by decide), key 94 (by decide) (by decide),
      key 9 (by decide) (by decide), key (-59) (by decide) (by decide), key 60 (by decide) (by decide), key (-8) (by decide) (by decide),
      key (-93) (by decide) (by decide), key 77 (by decide) (by decide), key (-110) (by decide) (by decide), key 127 (by decide) (by decide),
      key 43 (by decide) (by decide), key (-25) (by decide) (by decide), key 26 (by decide) (by decide), key (-42) (by decide) (by decide)]
    simp only [ditherMatrix, List.flatten_cons, List.flatten_nil, List.cons_append, List.nil_append, List.map_cons, List.map_nil, List.sum_cons, List.sum_nil]
    omega
  have t := tile (c % 256) (by omega)
  generalize (ditherMatrix.flatten.map fun n : Int => ((c % 256 : Nat) + n) / 256).sum = S at *
  omega

example : blockSum 1000 = 55 := by decide +kernel

/-! ### selecting a drive level -/

theorem selectStep_le {top ret c o v : Nat} : v ≤ selectStep top ret c o ↔ v ≤ ret ∧ o * v ≤ c * top := by
  unfold selectStep
  split
  · rename_i h
    rw [Nat.le_min, Nat.le_div_iff_mul_le (by omega), Nat.mul_comm v o]
  · rename_i h
    have : o = 0 := by omega
    subst this
    simp

/-- **C63** (colour matching).  For every wanted colour and every LED colour, the drive level returned is
the largest one (up to full) at which no channel of the LED colour exceeds the wanted colour. -/
theorem C63_select (top : Nat) (c other : Color) (v : Nat) :
    v ≤ select top c other ↔ v ≤ top ∧ ∀ ch, other ch * v ≤ c ch * top := by
  unfold select
  rw [selectStep_le, selectStep_le, selectStep_le]
  constructor
  · rintro ⟨⟨⟨h, h1⟩, h2⟩, h3⟩
    exact ⟨h, fun ch => by cases ch <;> assumption⟩
  · rintro ⟨h, h1⟩
    exact ⟨⟨⟨h, h1 .r⟩, h1 .g⟩, h1 .b⟩

/-- no intermediate value overflows 32 bits -/
theorem C63_select_fits (c other : Color) (hc : c.ok 16) : (∀ ch, c ch * 65535 < 4294967296) ∧ select 65535 c other ≤ 65535 := by
  constructor
  · intro ch; have := hc ch; omega
  · exact ((C63_select 65535 c other _).mp (Nat.le_refl _)).1

example : select 65535 (fun | .r => 30000 | _ => 20000) (fun | .r => 65535 | .g => 32768 | .b => 0) = 30000 := by decide +kernel

/-! ### SPI pixels -/

/-- the brightness level chosen for the brightest channel -/
def spiLevel (MAX : Nat) : Nat := (MAX + 2113) / 2117

/-- the channel values for which the largest channel byte would be 256 -/
def spiBad (MAX : Nat) : Prop :=
  (2116 ≤ MAX ∧ MAX ≤ 2120) ∨ (4232 ≤ MAX ∧ MAX ≤ 4237) ∨ (6348 ≤ MAX ∧ MAX ≤ 6354) ∨ (8465 ≤ MAX ∧ MAX ≤ 8471) ∨
  (10579 ≤ MAX ∧ MAX ≤ 10588) ∨ (12701 ≤ MAX ∧ MAX ≤ 12705) ∨ (14821 ≤ MAX ∧ MAX ≤ 14822) ∨ (16930 ≤ MAX ∧ MAX ≤ 16939) ∨
  (19044 ≤ MAX ∧ MAX ≤ 19056) ∨ (21157 ≤ MAX ∧ MAX ≤ 21173) ∨ (27504 ≤ MAX ∧ MAX ≤ 27524) ∨ (52925 ≤ MAX ∧ MAX ≤ 52928) ∨
  (55008 ≤ MAX ∧ MAX ≤ 55045)

theorem spi_fits {MAX : Nat} (h : MAX < 65536) (hb : ¬ spiBad MAX) : spiLevel MAX ≤ 31 ∧ (spiLevel MAX ≠ 0 → MAX * (7930 / spiLevel MAX) < 16777216) := by
  unfold spiBad at hb
  have hl : spiLevel MAX ≤ 31 := by unfold spiLevel; omega
  refine ⟨hl, fun h0 => ?_⟩
  have hr : 2117 * spiLevel MAX ≤ MAX + 2113 ∧ MAX + 2113 < 2117 * spiLevel MAX + 2117 := by unfold spiLevel; omega
  generalize spiLevel MAX = L at *
  have : L = 1 ∨ L = 2 ∨ L = 3 ∨ L = 4 ∨ L = 5 ∨ L = 6 ∨ L = 7 ∨ L = 8 ∨ L = 9 ∨ L = 10 ∨ L = 11 ∨ L = 12 ∨ L = 13 ∨ L = 14 ∨ L = 15 ∨
    L = 16 ∨ L = 17 ∨ L = 18 ∨ L = 19 ∨ L = 20 ∨ L = 21 ∨ L = 22 ∨ L = 23 ∨ L = 24 ∨ L = 25 ∨ L = 26 ∨ L = 27 ∨ L = 28 ∨ L = 29 ∨ L = 30 ∨ L = 31 := by omega
  rcases this with h | h | h | h | h | h | h | h | h | h | h | h | h | h | h | h | h | h | h | h | h | h | h | h | h | h | h | h | h | h | h <;>
    subst h <;> omega

theorem getByte_le (c : Color) (o i : Nat) : getByte c o i ≤ max (c .r) (max (c .g) (c .b)) := by
  unfold getByte minCh
  split <;> omega

/-- **C63** (SPI pixels, partial).  For every colour whose brightest channel is not one of the listed
values, the bytes sent are the level header with a level between 0 and 31 and, in the configured order,
the channels scaled by one common factor, none of which wraps around.
Missing: the listed values (118 of 65536), for which the claim is false, see the counterexample. -/
theorem C63_spi_partial (c : Color) (hc : c.ok 16) (o : Nat) (hb : ¬ spiBad (max (c .r) (max (c .g) (c .b)))) :
    ∃ level mult, level ≤ 31 ∧ outColor c o = (224 + level) :: (List.range (numBytes o)).reverse.map (fun i => getByte c o i * mult / 65536) ∧
      ∀ i, getByte c o i * mult / 65536 ≤ 255 := by
  have h1 : max (c .r) (max (c .g) (c .b)) < 65536 := by
    have := hc .r; have := hc .g; have := hc .b; omega
  obtain ⟨hl, hm⟩ := spi_fits h1 hb
  have fits : ∀ i, getByte c o i * (if spiLevel (max (c .r) (max (c .g) (c .b))) = 0 then 0 else 7930 / spiLevel (max (c .r) (max (c .g) (c .b)))) / 65536 ≤ 255 := by
    intro i
    split
    · simp
    · rename_i h0
      have := hm h0
      have : getByte c o i * (7930 / spiLevel (max (c .r) (max (c .g) (c .b)))) ≤ max (c .r) (max (c .g) (c .b)) * (7930 / spiLevel (max (c .r) (max (c .g) (c .b)))) :=
        Nat.mul_le_mul_right _ (getByte_le c o i)
      omega
  refine ⟨_, _, hl, ?_, fits⟩
  have hor : ∀ L, L ≤ 31 → (0xE0 ||| L) % 256 = 224 + L := by decide
  unfold outColor
  dsimp only
  rw [show (max (c .r) (max (c .g) (c .b)) + 2113) / 2117 = spiLevel (max (c .r) (max (c .g) (c .b))) from rfl, hor _ hl]
  congr 1
  apply List.map_congr_left
  intro i _
  rw [Nat.mod_eq_of_lt (by have := fits i; omega)]

/-- A white of 2116/65535 is sent as black: the channel bytes wrap around to 0, although slightly darker
whites are sent with full channel bytes. -/
theorem C63_spi_counterexample :
    outColor (fun _ => 2115) 0x123 = [225, 255, 255, 255] ∧ outColor (fun _ => 2116) 0x123 = [225, 0, 0, 0] := by decide +kernel

example : ¬ spiBad (max 65535 (max 100 0)) ∧ outColor (fun | .r => 65535 | .g => 100 | .b => 0) 0x321 = [255, 0, 0, 254] := by
  constructor
  · unfold spiBad; omega
  · decide +kernel

end Verif.Color
