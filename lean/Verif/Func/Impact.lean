import Verif.Num.Model
import Mathlib.Data.Rat.Floor
import Mathlib.Algebra.Order.Floor.Ring
import Mathlib.Tactic.Linarith
import Mathlib.Tactic.Positivity

/-!
# Blast waves, bumps and humps (C101)

Model of `functions/blast.h` (`BlastF`, `BlastFadeoutF`), `transitions/wave.h` (the mixing value of
`TrWaveX` and `TrSparkX`) and `functions/bump.h` (`Bump`, `HumpFlickerFX`).

The floating point computations of `BlastF` are modelled by exact rational arithmetic.  Reading
outside a table is undefined behaviour and makes the result `none`; so do signed overflow and a
division by zero where they are possible.  `OriginalBlastF`, which needs `sinf`, is not modelled.
-/
namespace Verif.Func.Impact

open Verif.Num (u32 sub32 W32 clampi32)

/-! ## Model -/

/-- `blast_hump`, functions/blast.h:21-26. -/
def blastHump : List Nat := [
  255,255,252,247,240,232,222,211,
  199,186,173,159,145,132,119,106,
  94,82,72,62,53,45,38,32,
  26,22,18,14,11,9,7,5]

/-- `bump_shape`, functions/bump.h:13-18. -/
def bumpShape : List Nat := [
  255,255,252,247,240,232,222,211,
  199,186,173,159,145,132,119,106,
  94,82,72,62,53,45,38,32,
  26,22,18,14,11,9,7,5,0]

/-- The parts of `BladeEffect` which matter here, common/saber_base.h: type, whether the effect is
on the blade, start time and location (as 1/32768 of the blade). -/
structure Eff where
  type : Nat
  onBlade : Bool
  start : Nat
  loc : Nat
deriving DecidableEq, Repr

/-- Conversion of a `uint32_t` to `int`. -/
def s32 (x : Nat) : Int := if x < 2147483648 then (x : Int) else (x : Int) - 4294967296

/-- `int M = 1000 - T/FADEOUT_MS`, functions/blast.h:50 and :95 (unsigned, then converted). -/
def fadeM (fadeout T : Nat) : Int := s32 (sub32 1000 (T / fadeout))

/-- `int N` of `BlastF::getInteger`, functions/blast.h:53-54, with exact arithmetic. -/
def blastN (size waveMs n T loc led : Nat) : Int :=
  ⌊|(|(loc : ℚ) / 32768 - (led : ℚ) / n| - (T : ℚ) / (waveMs * 1000))| * size⌋

/-- One pass of the loop of `BlastF::getInteger`, functions/blast.h:45-59. -/
def blastStep (effect fadeout size waveMs n now led : Nat) (mix : Int) (b : Eff) : Option Int :=
  if b.type ≠ effect then some mix
  else if b.onBlade = false then some mix
  else
    if fadeM fadeout (sub32 now b.start) > 0 then
      if blastN size waveMs n (sub32 now b.start) b.loc led ≤ 32 then
        match blastHump[(blastN size waveMs n (sub32 now b.start) b.loc led).toNat]? with
        | none => none
        | some h => some (mix + (h * fadeM fadeout (sub32 now b.start)).tdiv 1000)
      else some mix
    else some mix

/-- `BlastF::getInteger`, functions/blast.h:43-61. -/
def blastF (effect fadeout size waveMs n now led : Nat) (effs : List Eff) : Option Int :=
  (effs.foldlM (blastStep effect fadeout size waveMs n now led) 0).map fun mix => min (mix * 128) 32768

/-- One pass of the loop of `BlastFadeoutF::getInteger`, functions/blast.h:90-99. -/
def fadeStep (effect fadeout now : Nat) (mix : Int) (b : Eff) : Int :=
  if b.type ≠ effect then mix
  else if b.onBlade = false then mix
  else if fadeM fadeout (sub32 now b.start) > 0
    then mix + (32768 * fadeM fadeout (sub32 now b.start)).tdiv 1000
    else mix

/-- `BlastFadeoutF::getInteger`, functions/blast.h:87-101. -/
def blastFadeout (effect fadeout now : Nat) (effs : List Eff) : Int :=
  min (effs.foldl (fadeStep effect fadeout now) 0) 32768

/-- A signed result which does not fit is undefined behaviour. -/
def i32 (x : Int) : Option Int := if -2147483648 ≤ x ∧ x < 2147483648 then some x else none

/-- `offset_` of `TrWaveX::run`, transitions/wave.h:44: unsigned arithmetic, converted to `int`. -/
def waveOffset (elapsed waveMs : Nat) : Int := s32 (u32 (elapsed * 32768) / waveMs)

/-- `N` of `TrWaveX::getColor` and `TrSparkX::getColor`, transitions/wave.h:62-63 and :105-106. -/
def waveN (center offset size : Int) (led n : Nat) : Option Int := if n = 0 then none else do
  let x ← i32 (|(|center - ((led * 32768 / n : Nat) : Int)| - offset)| * size)
  pure (x / 32768)

/-- The mixing value of `TrWaveX::getColor`, transitions/wave.h:61-70, `fade` being `mix_`. -/
def waveMix (center offset size fade : Int) (led n : Nat) : Option Int := do
  let N ← waveN center offset size led n
  if N < 32 then
    if N < 0 then none
    else match blastHump[N.toNat]? with
      | none => none
      | some h => some ((h * fade) / 256)
  else some 0

/-- The mixing value of `TrSparkX::getColor`, transitions/wave.h:104-112. -/
def sparkMix (center offset size : Int) (led n : Nat) : Option Int := do
  let N ← waveN center offset size led n
  if N < 32 then
    if N < 0 then none
    else match blastHump[N.toNat]? with
      | none => none
      | some h => some (h * 128)
  else some 0

/-- `BumpBase::getInteger`, functions/bump.h:22-28. -/
def bump (mult location : Int) (led : Nat) : Option Int :=
  let dist := ((led * mult - location).natAbs)
  let p := dist / 128
  if p ≥ 33 - 1 then some 0
  else
    let m := dist % 64
    match bumpShape[p]?, bumpShape[p+1]? with
    | some a, some b => some (a * (128 - m) + b * m)
    | _, _ => none

/-- `HumpFlickerFX::getInteger`, functions/bump.h:75-77. -/
def humpFlicker (pos led : Nat) (width : Int) : Option Int :=
  if width = 0 then none
  else some (clampi32 ((((led : Int) - pos).natAbs * 32768 : Int).tdiv width) 0 32768)

/-! ## Lemmas -/

theorem hump_len : blastHump.length = 32 := rfl

theorem hump_some (i : Nat) (h : i < 32) : ∃ v, blastHump[i]? = some v ∧ 5 ≤ v ∧ v ≤ 255 := by
  have : ∀ i : Nat, i < 32 → ((blastHump[i]?).any fun v => decide (5 ≤ v ∧ v ≤ 255)) = true := by decide
  have h := this i h
  rcases hv : blastHump[i]? with _ | v
  · rw [hv] at h; simp at h
  · rw [hv] at h; exact ⟨v, rfl, by simpa using h⟩

theorem hump_anti (i j : Nat) (hij : i ≤ j) (hj : j < 32) (a b : Nat) (ha : blastHump[i]? = some a)
    (hb : blastHump[j]? = some b) : b ≤ a := by
  have : ∀ j : Nat, j < 32 → ∀ i : Nat, i ≤ j →
      (blastHump.getD j 0) ≤ (blastHump.getD i 0) := by decide
  have h := this j hj i hij
  simp only [List.getD, ha, hb, Option.getD_some] at h
  exact h

theorem fadeM_eq (F T : Nat) (hT : T < 2147483648) : fadeM F T = 1000 - ((T / F : Nat) : Int) := by
  have hq : T / F ≤ T := Nat.div_le_self _ _
  unfold fadeM s32
  generalize T / F = q at *
  have e : sub32 1000 q = (1000 + 4294967296 - q) % 4294967296 := by
    unfold sub32
    have : q % W32 = q := Nat.mod_eq_of_lt (by unfold W32; omega)
    rw [this]; unfold W32; congr 1; omega
  rw [e]
  by_cases h : q ≤ 1000
  · have : (1000 + 4294967296 - q) % 4294967296 = 1000 - q := by omega
    rw [this, if_pos (by omega)]; omega
  · have : (1000 + 4294967296 - q) % 4294967296 = 4294968296 - q := by omega
    rw [this, if_neg (by omega)]; omega

theorem blastN_nonneg (size waveMs n T loc led : Nat) : 0 ≤ blastN size waveMs n T loc led := by
  unfold blastN
  apply Int.floor_nonneg.mpr
  positivity

/-- What an effect contributes, if it can be computed. -/
theorem step_some (effect F size waveMs n now led : Nat) (mix mix' : Int) (b : Eff)
    (h : blastStep effect F size waveMs n now led mix b = some mix') : mix ≤ mix' := by
  unfold blastStep at h
  split at h
  · cases h; omega
  · split at h
    · cases h; omega
    · split at h
      · rename_i hM
        split at h
        · split at h
          · cases h
          · rename_i v _
            cases h
            have : 0 ≤ (v : Int) * fadeM F (sub32 now b.start) := Int.mul_nonneg (by omega) (by omega)
            have := Int.tdiv_nonneg this (show (0:Int) ≤ 1000 by omega)
            omega
        · cases h; omega
      · cases h; omega

theorem fold_some (effect F size waveMs n now led : Nat) (effs : List Eff) : ∀ (mix mix' : Int),
    effs.foldlM (blastStep effect F size waveMs n now led) mix = some mix' → mix ≤ mix' := by
  induction effs with
  | nil => intro mix mix' h; simp only [List.foldlM] at h; cases h; omega
  | cons b bs ih =>
    intro mix mix' h
    simp only [List.foldlM, bind, Option.bind] at h
    rcases h1 : blastStep effect F size waveMs n now led mix b with _ | m1
    · rw [h1] at h; cases h
    · rw [h1] at h
      have := step_some _ _ _ _ _ _ _ _ _ _ h1
      have := ih _ _ h
      omega

/-! ## Specification -/

/-- The effect concerns this function: its type, on this blade, and it is younger than `F` seconds
(`FADEOUT_MS` thousandths of `F`). -/
def Active (effect F now : Nat) (b : Eff) : Prop :=
  b.type = effect ∧ b.onBlade = true ∧ sub32 now b.start < 1000 * F

theorem fadeM_pos_iff (F T : Nat) (hF : 0 < F) (hT : T < 2147483648) : fadeM F T > 0 ↔ T < 1000 * F := by
  rw [fadeM_eq F T hT]
  have : T / F < 1000 ↔ T < 1000 * F := by rw [Nat.div_lt_iff_lt_mul hF]
  omega

/-! ## Theorems: BlastF -/

/-- The value is always between 0 and 32768. -/
theorem C101_range (effect F size waveMs n now led : Nat) (effs : List Eff) (v : Int)
    (h : blastF effect F size waveMs n now led effs = some v) : 0 ≤ v ∧ v ≤ 32768 := by
  unfold blastF at h
  rcases h1 : effs.foldlM (blastStep effect F size waveMs n now led) 0 with _ | m
  · rw [h1] at h; cases h
  · rw [h1] at h
    have := fold_some _ _ _ _ _ _ _ _ _ _ h1
    simp only [Option.map, Option.some.injEq] at h
    constructor <;> omega

/-- Without an effect of the right type, on this blade, which has not faded out yet, it is zero. -/
theorem C101_quiet (effect F size waveMs n now led : Nat) (hF : 0 < F) (effs : List Eff)
    (hold : ∀ b ∈ effs, sub32 now b.start < 2147483648)
    (h : ∀ b ∈ effs, ¬ Active effect F now b) :
    blastF effect F size waveMs n now led effs = some 0 := by
  have key : ∀ mix, effs.foldlM (blastStep effect F size waveMs n now led) mix = some mix := by
    induction effs with
    | nil => intro mix; rfl
    | cons b bs ih =>
      intro mix
      have hb := h b (by simp)
      have e : blastStep effect F size waveMs n now led mix b = some mix := by
        unfold blastStep
        split
        · rfl
        · rename_i h1
          split
          · rfl
          · rename_i h2
            rw [if_neg]
            rw [fadeM_pos_iff F _ hF (hold b (by simp))]
            intro hc
            exact hb ⟨by simpa using h1, by simpa using h2, hc⟩
      simp only [List.foldlM, bind, Option.bind, e]
      exact ih (fun b hb => hold b (by simp [hb])) (fun b hb => h b (by simp [hb])) mix
  unfold blastF
  rw [key]
  rfl

example : ¬ Active 3 200 1000000 ⟨3, true, 800000, 100⟩ ∧ Active 3 201 1000000 ⟨3, true, 800000, 100⟩ ∧
    sub32 1000000 800000 < 2147483648 := by
  refine ⟨?_, ?_, by decide⟩ <;> (unfold Active; decide)

theorem single_blast (effect F size waveMs n now led : Nat) (hF : 0 < F) (b : Eff)
    (ha : Active effect F now b) (hold : sub32 now b.start < 2147483648) (N : Int)
    (hN : N = blastN size waveMs n (sub32 now b.start) b.loc led) (h32 : N ≠ 32) :
    blastF effect F size waveMs n now led [b] =
      some (min 32768 (if N < 32 then 128 * (((blastHump.getD N.toNat 0 : Nat) : Int) *
        (1000 - ((sub32 now b.start / F : Nat) : Int)) / 1000) else 0)) := by
  have h0 := blastN_nonneg size waveMs n (sub32 now b.start) b.loc led
  have hM := (fadeM_pos_iff F _ hF hold).mpr ha.2.2
  have hMe := fadeM_eq F _ hold
  have e : blastStep effect F size waveMs n now led 0 b =
      some (if N < 32 then (((blastHump.getD N.toNat 0 : Nat) : Int) *
        (1000 - ((sub32 now b.start / F : Nat) : Int)) / 1000) else 0) := by
    unfold blastStep
    rw [if_neg (by simp [ha.1]), if_neg (by simp [ha.2.1]), if_pos hM, ← hN]
    by_cases hlt : N < 32
    · rw [if_pos (by omega), if_pos hlt]
      obtain ⟨v, hv, hv1, _⟩ := hump_some N.toNat (by omega)
      have hd : blastHump.getD N.toNat 0 = v := by simp [List.getD, hv]
      rw [hv, hd]
      simp only [Option.some.injEq]
      rw [hMe] at hM ⊢
      rw [Int.tdiv_eq_ediv_of_nonneg (Int.mul_nonneg (by omega) (by omega))]
      omega
    · rw [if_neg (by omega), if_neg hlt]
  unfold blastF
  simp only [List.foldlM, bind, Option.bind, e, pure, Option.map]
  congr 1
  split <;> omega

/-- One blast: two waves start at the place which was hit and travel at the same speed to both
sides.  An LED's brightness is the hump's height at its distance from the nearer wave, times what
is left after fading; more than 32 units away it is dark.  (Exactly 32 units away see
`C101_table_counterexample`.) -/
theorem C101_wave_partial (effect F size waveMs n now led : Nat) (hF : 0 < F) (b : Eff)
    (ha : Active effect F now b) (hold : sub32 now b.start < 2147483648) (N : Int)
    (hN : N = blastN size waveMs n (sub32 now b.start) b.loc led) (h32 : N ≠ 32) :
    ∃ v, blastF effect F size waveMs n now led [b] = some v ∧ v ≤ 32640 ∧
      (32 < N → v = 0) ∧
      (N < 32 → v = 128 * (((blastHump.getD N.toNat 0 : Nat) : Int) *
        (1000 - ((sub32 now b.start / F : Nat) : Int)) / 1000)) := by
  have h0 := blastN_nonneg size waveMs n (sub32 now b.start) b.loc led
  rw [single_blast effect F size waveMs n now led hF b ha hold N hN h32]
  refine ⟨_, rfl, ?_⟩
  by_cases hlt : N < 32
  · rw [if_pos hlt]
    obtain ⟨v, hv, hv1, hv2⟩ := hump_some N.toNat (by omega)
    have hd : blastHump.getD N.toNat 0 = v := by simp [List.getD, hv]
    rw [hd]
    have hq0 : 0 ≤ ((sub32 now b.start / F : Nat) : Int) := Int.natCast_nonneg _
    have hle : (v : Int) * (1000 - ((sub32 now b.start / F : Nat) : Int)) ≤ 255 * 1000 := by
      have h1 : (v : Int) * (1000 - ((sub32 now b.start / F : Nat) : Int)) ≤ v * 1000 :=
        Int.mul_le_mul_of_nonneg_left (Int.sub_le_self _ hq0) (by omega)
      omega
    generalize (v : Int) * (1000 - ((sub32 now b.start / F : Nat) : Int)) = z at *
    refine ⟨by omega, fun h => by omega, fun _ => by omega⟩
  · rw [if_neg hlt]
    exact ⟨by omega, fun _ => by omega, fun h => by omega⟩

/-- The crest of the wave moves outwards at the given speed: an LED whose distance from the place of
the blast equals the way travelled shows the full height, faded by the time since the blast. -/
theorem C101_crest (effect F size waveMs n now led : Nat) (hF : 0 < F) (b : Eff)
    (ha : Active effect F now b) (hold : sub32 now b.start < 2147483648)
    (hc : |(b.loc : ℚ) / 32768 - (led : ℚ) / n| = ((sub32 now b.start : Nat) : ℚ) / (waveMs * 1000)) :
    blastF effect F size waveMs n now led [b] =
      some (128 * (255 * (1000 - ((sub32 now b.start / F : Nat) : Int)) / 1000)) := by
  have hN : (0 : Int) = blastN size waveMs n (sub32 now b.start) b.loc led := by
    unfold blastN
    rw [hc, sub_self, abs_zero, zero_mul]; rfl
  obtain ⟨v, h1, _, _, h4⟩ := C101_wave_partial effect F size waveMs n now led hF b ha hold 0 hN (by decide)
  rw [h1, h4 (by decide)]
  rfl

/-- LEDs which the wave has not reached, or which it has left behind, by 33 steps of its width or
more are dark. -/
theorem C101_beyond (effect F size waveMs n now led : Nat) (hF : 0 < F) (hs : 0 < size) (b : Eff)
    (ha : Active effect F now b) (hold : sub32 now b.start < 2147483648)
    (hc : ((sub32 now b.start : Nat) : ℚ) / (waveMs * 1000) + 33 / size ≤
        |(b.loc : ℚ) / 32768 - (led : ℚ) / n| ∨
      |(b.loc : ℚ) / 32768 - (led : ℚ) / n| + 33 / size ≤ ((sub32 now b.start : Nat) : ℚ) / (waveMs * 1000)) :
    blastF effect F size waveMs n now led [b] = some 0 := by
  have hs' : (0 : ℚ) < size := by exact_mod_cast hs
  have hN : 33 ≤ blastN size waveMs n (sub32 now b.start) b.loc led := by
    unfold blastN
    rw [Int.le_floor]
    have h1 : (33 : ℚ) / size ≤ |(|(b.loc : ℚ) / 32768 - (led : ℚ) / n| -
        ((sub32 now b.start : Nat) : ℚ) / (waveMs * 1000))| := by
      rw [le_abs]
      rcases hc with h | h
      · left; linarith
      · right; linarith
    rw [div_le_iff₀ hs'] at h1
    exact_mod_cast h1
  obtain ⟨v, h1, _, h3, _⟩ := C101_wave_partial effect F size waveMs n now led hF b ha hold _ rfl (by omega)
  rw [h1, h3 (by omega)]

/-- An LED nearer to the wave is at least as bright as one further away. -/
theorem C101_nearer_brighter (effect F size waveMs n now led led' : Nat) (hF : 0 < F) (b : Eff)
    (ha : Active effect F now b) (hold : sub32 now b.start < 2147483648) (N N' v v' : Int)
    (hN : N = blastN size waveMs n (sub32 now b.start) b.loc led)
    (hN' : N' = blastN size waveMs n (sub32 now b.start) b.loc led')
    (hle : N ≤ N') (h32 : N ≠ 32) (h32' : N' ≠ 32)
    (hv : blastF effect F size waveMs n now led [b] = some v)
    (hv' : blastF effect F size waveMs n now led' [b] = some v') : v' ≤ v := by
  have h0 := blastN_nonneg size waveMs n (sub32 now b.start) b.loc led
  have hr := C101_range _ _ _ _ _ _ _ _ _ hv
  rw [single_blast effect F size waveMs n now led hF b ha hold N hN h32] at hv
  rw [single_blast effect F size waveMs n now led' hF b ha hold N' hN' h32'] at hv'
  have ev := Option.some.inj hv
  have ev' := Option.some.inj hv'
  by_cases hlt : N' < 32
  · rw [if_pos hlt] at ev'
    rw [if_pos (by omega)] at ev
    obtain ⟨x, hx, _, _⟩ := hump_some N.toNat (by omega)
    obtain ⟨y, hy, _, _⟩ := hump_some N'.toNat (by omega)
    have hxy := hump_anti N.toNat N'.toNat (by omega) (by omega) x y hx hy
    have hd : blastHump.getD N.toNat 0 = x := by simp [List.getD, hx]
    have hd' : blastHump.getD N'.toNat 0 = y := by simp [List.getD, hy]
    rw [hd] at ev
    rw [hd'] at ev'
    have hq : ((sub32 now b.start / F : Nat) : Int) < 1000 := by
      have := (Nat.div_lt_iff_lt_mul hF).mpr ha.2.2
      omega
    have : (y : Int) * (1000 - ((sub32 now b.start / F : Nat) : Int)) ≤
        x * (1000 - ((sub32 now b.start / F : Nat) : Int)) :=
      Int.mul_le_mul_of_nonneg_right (by omega) (by omega)
    generalize (y : Int) * (1000 - ((sub32 now b.start / F : Nat) : Int)) = Y at *
    generalize (x : Int) * (1000 - ((sub32 now b.start / F : Nat) : Int)) = X at *
    omega
  · rw [if_neg hlt] at ev'
    omega

/-- The wave is symmetric: LEDs at the same distance from the hit are equally bright. -/
theorem C101_symmetric (effect F size waveMs n now led led' : Nat) (b : Eff)
    (hsym : (led : ℚ) / n + (led' : ℚ) / n = 2 * ((b.loc : ℚ) / 32768)) :
    blastF effect F size waveMs n now led [b] = blastF effect F size waveMs n now led' [b] := by
  have e : ∀ T, blastN size waveMs n T b.loc led = blastN size waveMs n T b.loc led' := by
    intro T
    unfold blastN
    have : (b.loc : ℚ) / 32768 - (led : ℚ) / n = -((b.loc : ℚ) / 32768 - (led' : ℚ) / n) := by linarith
    rw [this, abs_neg]
  unfold blastF
  simp only [List.foldlM]
  have hs : blastStep effect F size waveMs n now led 0 b = blastStep effect F size waveMs n now led' 0 b := by
    unfold blastStep; rw [e]
  rw [hs]

example : ((10 : ℕ) : ℚ) / (100 : ℕ) + ((90 : ℕ) : ℚ) / (100 : ℕ) = 2 * (((16384 : ℕ) : ℚ) / 32768) := by
  norm_num

/-- The table has 32 entries, but entry 32 is read: a hit 0.32 blade lengths away, at the moment of
the hit, with the default settings. -/
theorem C101_table_counterexample (now F waveMs : Nat) (hF : 0 < F) (hnow : now < W32) :
    blastF 3 F 100 waveMs 100 now 32 [⟨3, true, now, 0⟩] = none := by
  have hT : sub32 now now = 0 := by
    unfold sub32
    rw [Nat.mod_eq_of_lt hnow]
    have : now + (W32 - now) = W32 := by omega
    rw [this, Nat.mod_self]
  have hN : blastN 100 waveMs 100 0 0 32 = 32 := by
    unfold blastN
    have : |(|((0:ℕ) : ℚ) / 32768 - ((32:ℕ) : ℚ) / (100:ℕ)| - ((0:ℕ) : ℚ) / ((waveMs : ℚ) * 1000))| * ((100 : ℕ) : ℚ) = 32 := by
      norm_num [abs_of_nonneg, abs_of_nonpos]
    rw [this]; norm_num
  have hM : fadeM F 0 > 0 := (fadeM_pos_iff F 0 hF (by omega)).mpr (by omega)
  have e : blastStep 3 F 100 waveMs 100 now 32 0 ⟨3, true, now, 0⟩ = none := by
    unfold blastStep
    rw [if_neg (by simp), if_neg (by simp)]
    simp only [hT]
    rw [if_pos hM, if_pos (by rw [hN])]
    rw [hN]
    rfl
  unfold blastF
  simp only [List.foldlM, bind, Option.bind, e, Option.map]

/-- Contrary to its description a single blast never reaches 32768: it stays below 32641. -/
theorem C101_peak_counterexample (effect F size waveMs n now led : Nat) (hF : 0 < F) (b : Eff)
    (ha : Active effect F now b) (hold : sub32 now b.start < 2147483648)
    (h32 : blastN size waveMs n (sub32 now b.start) b.loc led ≠ 32) (v : Int)
    (hv : blastF effect F size waveMs n now led [b] = some v) : v < 32768 := by
  obtain ⟨v', h1, h2, _⟩ := C101_wave_partial effect F size waveMs n now led hF b ha hold _ rfl h32
  rw [hv] at h1
  have := Option.some.inj h1
  omega

/-! ## Theorems: BlastFadeoutF -/

/-- What one effect should contribute. -/
def share (effect F now : Nat) (b : Eff) : Int :=
  if b.type = effect ∧ b.onBlade = true then
    max 0 (32768 * (1000 - ((sub32 now b.start / F : Nat) : Int)) / 1000)
  else 0

theorem fadeStep_eq (effect F now : Nat) (mix : Int) (b : Eff) (hold : sub32 now b.start < 2147483648) :
    fadeStep effect F now mix b = mix + share effect F now b := by
  unfold fadeStep share
  by_cases h1 : b.type = effect
  · by_cases h2 : b.onBlade = true
    · rw [if_neg (not_not_intro h1), if_neg (by simp [h2]), if_pos (And.intro h1 h2), fadeM_eq F _ hold]
      generalize ((sub32 now b.start / F : Nat) : Int) = q
      split
      · rename_i h
        rw [Int.tdiv_eq_ediv_of_nonneg (by omega)]
        omega
      · omega
    · rw [if_neg (not_not_intro h1), if_pos (by simpa using h2), if_neg (by simp [h2])]; omega
  · rw [if_pos h1, if_neg (by simp [h1])]; omega

/-- `BlastFadeoutF` is the sum of the shares of all the blasts, cut off at 32768: each begins with
the full 32768 and declines in proportion to time, reaching zero after `FADEOUT_MS`. -/
theorem C101_fadeout (effect F now : Nat) (effs : List Eff)
    (hold : ∀ b ∈ effs, sub32 now b.start < 2147483648) :
    blastFadeout effect F now effs = min ((effs.map (share effect F now)).sum) 32768 := by
  unfold blastFadeout
  congr 1
  have key : ∀ mix, effs.foldl (fadeStep effect F now) mix = mix + (effs.map (share effect F now)).sum := by
    induction effs with
    | nil => intro mix; simp
    | cons b bs ih =>
      intro mix
      simp only [List.foldl, List.map_cons, List.sum_cons]
      rw [fadeStep_eq _ _ _ _ _ (hold b (by simp)), ih (fun b hb => hold b (by simp [hb]))]
      omega
  rw [key]; omega

theorem C101_fadeout_range (effect F now : Nat) (effs : List Eff)
    (hold : ∀ b ∈ effs, sub32 now b.start < 2147483648) :
    0 ≤ blastFadeout effect F now effs ∧ blastFadeout effect F now effs ≤ 32768 := by
  rw [C101_fadeout _ _ _ _ hold]
  have : 0 ≤ (effs.map (share effect F now)).sum := by
    apply List.sum_nonneg
    intro x hx
    obtain ⟨b, _, rfl⟩ := List.mem_map.mp hx
    unfold share
    split
    · exact le_max_left _ _
    · exact le_refl _
  omega

/-- The share of a blast: full at the beginning, never growing, gone after the fadeout time. -/
theorem C101_share (effect F now now' : Nat) (hF : 0 < F) (b : Eff)
    (ht : b.type = effect) (hb : b.onBlade = true) (hlater : sub32 now b.start ≤ sub32 now' b.start) :
    share effect F now' b ≤ share effect F now b ∧
    (sub32 now b.start < F → share effect F now b = 32768) ∧
    (1000 * F ≤ sub32 now b.start → share effect F now b = 0) := by
  unfold share
  rw [if_pos ⟨ht, hb⟩, if_pos ⟨ht, hb⟩]
  refine ⟨?_, ?_, ?_⟩
  · have := Nat.div_le_div_right (c := F) hlater
    omega
  · intro h
    rw [Nat.div_eq_of_lt h]; rfl
  · intro h
    have := (Nat.le_div_iff_mul_le hF).mpr h
    omega

example : blastFadeout 3 250 1125000 [⟨3, true, 1000000, 0⟩, ⟨4, true, 1000000, 0⟩] = 16384 := by decide

/-! ## Theorems: TrWave and TrSpark -/

/-- If the product of size and distance fits, the wave transition computes the hump at the LED's
distance from the wave. -/
theorem C101_trwave (center offset size fade : Int) (led n : Nat) (hn : 0 < n) (hs : 0 ≤ size)
    (hf : 0 ≤ fade ∧ fade ≤ 32768) (d : Int)
    (hd : d = |(|center - ((led * 32768 / n : Nat) : Int)| - offset)|)
    (hfit : d * size < 2147483648) :
    ∃ v, waveMix center offset size fade led n = some v ∧ 0 ≤ v ∧ v ≤ fade ∧
      (32 * 32768 ≤ d * size → v = 0) ∧
      (d * size < 32 * 32768 →
        v = ((blastHump.getD (d * size / 32768).toNat 0 : Nat) : Int) * fade / 256) := by
  have hd0 : 0 ≤ d := by rw [hd]; exact abs_nonneg _
  have hp : 0 ≤ d * size := Int.mul_nonneg hd0 hs
  have e : waveN center offset size led n = some (d * size / 32768) := by
    unfold waveN i32
    rw [if_neg (by omega), ← hd, if_pos (by omega)]
    rfl
  unfold waveMix
  simp only [bind, Option.bind, e]
  generalize d * size = P at *
  by_cases hlt : P < 32 * 32768
  · rw [if_pos (by omega), if_neg (by omega)]
    obtain ⟨v, hv, hv1, hv2⟩ := hump_some (P / 32768).toNat (by omega)
    rw [hv]
    have hg : blastHump.getD (P / 32768).toNat 0 = v := by simp [List.getD, hv]
    rw [hg]
    have h1 : 0 ≤ (v : Int) * fade := Int.mul_nonneg (by omega) hf.1
    have h2 : (v : Int) * fade ≤ 256 * fade := Int.mul_le_mul_of_nonneg_right (by omega) hf.1
    refine ⟨_, rfl, ?_, ?_, fun h => by omega, fun _ => rfl⟩
    · generalize (v : Int) * fade = Z at *; omega
    · generalize (v : Int) * fade = Z at *; omega
  · rw [if_neg (by omega)]
    exact ⟨0, rfl, by omega, hf.1, fun _ => rfl, fun h => by omega⟩

/-- The spark transition, likewise without the fading. -/
theorem C101_trspark (center offset size : Int) (led n : Nat) (hn : 0 < n) (hs : 0 ≤ size) (d : Int)
    (hd : d = |(|center - ((led * 32768 / n : Nat) : Int)| - offset)|)
    (hfit : d * size < 2147483648) :
    ∃ v, sparkMix center offset size led n = some v ∧ 0 ≤ v ∧ v ≤ 32640 ∧
      (32 * 32768 ≤ d * size → v = 0) ∧
      (d * size < 32 * 32768 → v = ((blastHump.getD (d * size / 32768).toNat 0 : Nat) : Int) * 128) := by
  have hd0 : 0 ≤ d := by rw [hd]; exact abs_nonneg _
  have hp : 0 ≤ d * size := Int.mul_nonneg hd0 hs
  have e : waveN center offset size led n = some (d * size / 32768) := by
    unfold waveN i32
    rw [if_neg (by omega), ← hd, if_pos (by omega)]
    rfl
  unfold sparkMix
  simp only [bind, Option.bind, e]
  generalize d * size = P at *
  by_cases hlt : P < 32 * 32768
  · rw [if_pos (by omega), if_neg (by omega)]
    obtain ⟨v, hv, hv1, hv2⟩ := hump_some (P / 32768).toNat (by omega)
    rw [hv]
    have hg : blastHump.getD (P / 32768).toNat 0 = v := by simp [List.getD, hv]
    rw [hg]
    exact ⟨_, rfl, by omega, by omega, fun h => by omega, fun _ => rfl⟩
  · rw [if_neg (by omega)]
    exact ⟨0, rfl, by omega, by omega, fun _ => rfl, fun h => by omega⟩

example : (waveMix 16384 (waveOffset 100 400) 100 20000 25 100).isSome ∧ waveOffset 100 400 = 8192 ∧
    waveMix 16384 (waveOffset 100 400) 100 20000 25 100 = some 19921 := by decide +kernel

/-- The wave starts at the centre and moves one blade length in `WAVE_MS`. -/
theorem C101_offset (t waveMs : Nat) (hw : 0 < waveMs) (ht : t < 65536) :
    waveOffset t waveMs * waveMs ≤ t * 32768 ∧ (t : Int) * 32768 < (waveOffset t waveMs + 1) * waveMs := by
  have e : u32 (t * 32768) = t * 32768 := by unfold u32 W32; exact Nat.mod_eq_of_lt (by omega)
  have hq : t * 32768 / waveMs ≤ t * 32768 := Nat.div_le_self _ _
  have e2 : waveOffset t waveMs = ((t * 32768 / waveMs : Nat) : Int) := by
    unfold waveOffset s32; rw [e, if_pos (by omega)]
  rw [e2]
  have h1 := Nat.div_mul_le_self (t * 32768) waveMs
  have h2 : t * 32768 < (t * 32768 / waveMs + 1) * waveMs := by
    have := Nat.lt_mul_div_succ (t * 32768) hw
    rw [Nat.mul_comm _ waveMs]; exact this
  constructor
  · exact_mod_cast h1
  · exact_mod_cast h2

/-- A fast wave and a long fadeout: the product no longer fits, and the table is read at a negative
index (here signed overflow): a hit one second ago, a wave of 1 ms, the default size. -/
theorem C101_overflow_counterexample :
    waveMix 16384 (waveOffset 1000 1) 100 20000 0 100 = none := by decide +kernel

/-! ## Theorems: Bump -/

theorem bump_shape_get (i : Nat) (h : i < 33) :
    bumpShape[i]? = some (bumpShape.getD i 0) ∧ bumpShape.getD i 0 ≤ 255 ∧
    bumpShape.getD (i + 1) 0 ≤ bumpShape.getD i 0 := by
  have : ∀ i : Nat, i < 33 → bumpShape[i]? = some (bumpShape.getD i 0) ∧ bumpShape.getD i 0 ≤ 255 ∧
    bumpShape.getD (i + 1) 0 ≤ bumpShape.getD i 0 := by decide
  exact this i h

/-- The bump is defined everywhere, lies between the heights of its shape left and right of the
distance, and is zero from a distance of 32 steps on. -/
theorem C101_bump_partial (mult location : Int) (led p : Nat)
    (hp : p = (led * mult - location).natAbs / 128) :
    ∃ v, bump mult location led = some v ∧ 0 ≤ v ∧ v ≤ 32640 ∧
      (32 ≤ p → v = 0) ∧
      (p < 32 → 128 * ((bumpShape.getD (p + 1) 0 : Nat) : Int) ≤ v ∧ v ≤ 128 * ((bumpShape.getD p 0 : Nat) : Int)) := by
  unfold bump
  simp only
  rw [← hp]
  by_cases h : p ≥ 33 - 1
  · rw [if_pos h]
    exact ⟨0, rfl, by omega, by omega, fun _ => rfl, fun h => by omega⟩
  · rw [if_neg h]
    obtain ⟨h1, h2, h3⟩ := bump_shape_get p (by omega)
    obtain ⟨h4, _, _⟩ := bump_shape_get (p + 1) (by omega)
    rw [h1, h4]
    simp only
    generalize bumpShape.getD (p + 1) 0 = b at *
    generalize bumpShape.getD p 0 = a at *
    obtain ⟨m, hm⟩ : ∃ m, (led * mult - location).natAbs % 64 = m := ⟨_, rfl⟩
    have hm64 : m < 64 := by rw [← hm]; exact Nat.mod_lt _ (by omega)
    rw [hm]
    have hlo : (b : Int) * (128 - m) ≤ a * (128 - m) := Int.mul_le_mul_of_nonneg_right (by omega) (by omega)
    have hhi : (b : Int) * m ≤ a * m := Int.mul_le_mul_of_nonneg_right (by omega) (by omega)
    have ea : (a : Int) * (128 - m) + a * m = 128 * a := by ring
    have eb : (b : Int) * (128 - m) + b * m = 128 * b := by ring
    refine ⟨_, rfl, by omega, by omega, fun h => by omega, fun _ => ⟨by omega, by omega⟩⟩

/-- In the first half of each step the value follows the straight line between the heights of the
shape; at the step itself it is the height. -/
theorem C101_bump_line (mult location : Int) (led p m a b : Nat)
    (hd : (led * mult - location).natAbs = 128 * p + m) (hm : m < 64)
    (ha : bumpShape[p]? = some a) (hb : bumpShape[p+1]? = some b) :
    bump mult location led = some (128 * (a : Int) - m * ((a : Int) - b)) := by
  have hp : p < 32 := by
    have := (List.getElem?_eq_some_iff.mp hb).1
    simp [bumpShape] at this
    omega
  unfold bump
  simp only [hd]
  rw [show (128 * p + m) / 128 = p by omega, show (128 * p + m) % 64 = m by omega, if_neg (by omega), ha, hb]
  ring_nf

example : bump 1 0 1343 = some 21262 ∧ bump 1 0 1300 = some (128 * 173 - 20 * (173 - 159)) := by decide

/-- LEDs further away by at least a step of the shape are not brighter. -/
theorem C101_bump_steps (mult location : Int) (led led' : Nat) (v v' : Int)
    (hv : bump mult location led = some v) (hv' : bump mult location led' = some v')
    (hd : (led * mult - location).natAbs / 128 + 1 ≤ (led' * mult - location).natAbs / 128) : v' ≤ v := by
  obtain ⟨x, h1, h2, _, _, h5⟩ := C101_bump_partial mult location led _ rfl
  obtain ⟨y, g1, g2, _, g4, g5⟩ := C101_bump_partial mult location led' _ rfl
  rw [hv] at h1; rw [hv'] at g1
  have e1 := Option.some.inj h1
  have e2 := Option.some.inj g1
  subst e1; subst e2
  by_cases h : 32 ≤ (led' * mult - location).natAbs / 128
  · have := g4 h; omega
  · have a := (h5 (by omega)).1
    have b := (g5 (by omega)).2
    have mono : ∀ j : Nat, j < 33 → ∀ i : Nat, i ≤ j → bumpShape.getD j 0 ≤ bumpShape.getD i 0 := by decide
    have := mono _ (show (led' * mult - location).natAbs / 128 < 33 by omega) _ hd
    omega

/-- Between two steps the interpolation uses only half of the distance (`& 0x3f` instead of
`& 0x7f`): moving away from the bump the value drops, and then jumps up again. -/
theorem C101_bump_counterexample :
    bump 1 0 1343 = some 21262 ∧ bump 1 0 1344 = some 22144 ∧
    bump 1 0 1407 = some 21262 ∧ bump 1 0 1408 = some 20352 := by decide

/-- `HumpFlicker`: zero at the centre, growing with the distance, full from the width on. -/
theorem C101_hump (pos led led' : Nat) (width : Int) (hw : 0 < width) :
    ∃ v v', humpFlicker pos led width = some v ∧ humpFlicker pos led' width = some v' ∧
      0 ≤ v ∧ v ≤ 32768 ∧ (led = pos → v = 0) ∧
      (width ≤ ((led : Int) - pos).natAbs → v = 32768) ∧
      (((led : Int) - pos).natAbs ≤ ((led' : Int) - pos).natAbs → v ≤ v') := by
  unfold humpFlicker
  rw [if_neg (by omega), if_neg (by omega)]
  rw [Int.tdiv_eq_ediv_of_nonneg (by positivity), Int.tdiv_eq_ediv_of_nonneg (by positivity)]
  refine ⟨_, _, rfl, rfl, ?_, ?_, ?_, ?_, ?_⟩
  · unfold clampi32; split
    · omega
    · split <;> omega
  · unfold clampi32; split
    · omega
    · split <;> omega
  · intro h; subst h
    simp [clampi32]
  · intro h
    have : (32768 : Int) ≤ (((led : Int) - pos).natAbs : Int) * 32768 / width := by
      rw [Int.le_ediv_iff_mul_le hw]
      nlinarith
    unfold clampi32
    split
    · omega
    · split <;> omega
  · intro h
    have : (((led : Int) - pos).natAbs : Int) * 32768 / width ≤ (((led' : Int) - pos).natAbs : Int) * 32768 / width := by
      apply Int.ediv_le_ediv hw
      omega
    unfold clampi32
    split
    · split
      · omega
      · split <;> omega
    · split
      · omega
      · split
        · omega
        · split <;> omega

example : humpFlicker 10 15 10 = some 16384 := by decide

end Verif.Func.Impact
