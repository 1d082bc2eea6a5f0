import Mathlib.Algebra.Order.Field.Basic
import Mathlib.Algebra.Order.Floor.Ring
import Mathlib.Data.Rat.Floor
import Mathlib.Tactic.Linarith
import Mathlib.Tactic.Ring
/-!
# The colour cycle transition and the shortened blade (C129)

Model of transitions/colorcycle.h with `Range` of common/range.h:4-18, and of styles/blade_shortener.h. `float` is idealised as the
rational numbers.
-/
namespace Verif.Transition.Cycle

/-- `(Range(a, b) & Range(c, d)).size()`, common/range.h:10-17. -/
def overlap (a b c d : Nat) : Nat := if max a c ≥ min b d then 0 else min b d - max a c

/-- `getColor`, transitions/colorcycle.h:45-52: how much of the second colour pixel `led` gets, of 16384. -/
def mix (start stop total led : Nat) : Nat :=
  if start ≤ stop then overlap start stop (led * 16384) (led * 16384 + 16384)
  else overlap 0 stop (led * 16384) (led * 16384 + 16384) + overlap start total (led * 16384) (led * 16384 + 16384)

/-- `fract`, common/math.h:5-7. -/
def fract (x : Rat) : Rat := x - ⌊x⌋

/-- `start_` and `end_`, transitions/colorcycle.h:31-41: `pos` is `pos_`, `fade` is `fade_`. -/
def ends (pos fade : Rat) (leds : Nat) : Nat × Nat :=
  if fade = 1 then (0, leds * 16384)
  else if fade = 0 then (0, 0)
  else (⌊pos * (leds * 16384 : Nat)⌋.toNat, ⌊fract (pos + fade) * (leds * 16384 : Nat)⌋.toNat)

/-- `pos_`, transitions/colorcycle.h:22-30, for the time passed and the speed. -/
def advance (pos delta rpm : Rat) : Rat := fract (pos + (if delta > 1000000 then 1 else delta) / 60000000 * rpm)

/-- All the light of the second colour. -/
def lit (pos fade : Rat) (leds : Nat) : Nat :=
  ((List.range leds).map fun i => mix (ends pos fade leds).1 (ends pos fade leds).2 (leds * 16384) i).sum

theorem sum_overlap (a b n : Nat) : ((List.range n).map fun i => overlap a b (i * 16384) (i * 16384 + 16384)).sum = overlap a b 0 (n * 16384) := by
  induction n with
  | zero => unfold overlap; simp
  | succ n ih =>
    rw [List.range_succ, List.map_append, List.sum_append, ih]
    simp only [List.map_cons, List.map_nil, List.sum_cons, List.sum_nil]
    unfold overlap
    split <;> split <;> split <;> omega

theorem sum_add (l : List Nat) (f g : Nat → Nat) : (l.map fun i => f i + g i).sum = (l.map f).sum + (l.map g).sum := by
  induction l with
  | nil => rfl
  | cons x r ih => simp only [List.map_cons, List.sum_cons, ih]; omega

/-- The light of all pixels together is the length of the arc from start to end, over the end of the blade when needed; and no pixel gets
more than all of the colour. -/
theorem C129_arc (start stop leds : Nat) (h1 : start ≤ leds * 16384) (h2 : stop ≤ leds * 16384) :
    ((List.range leds).map fun i => mix start stop (leds * 16384) i).sum = (if start ≤ stop then stop - start else stop + leds * 16384 - start) ∧
    ∀ i, mix start stop (leds * 16384) i ≤ 16384 := by
  constructor
  · by_cases h : start ≤ stop
    · rw [if_pos h]
      have : (fun i => mix start stop (leds * 16384) i) = fun i => overlap start stop (i * 16384) (i * 16384 + 16384) := by
        funext i; unfold mix; rw [if_pos h]
      rw [this, sum_overlap]
      unfold overlap; split <;> omega
    · rw [if_neg h]
      have : (fun i => mix start stop (leds * 16384) i) = fun i => overlap 0 stop (i * 16384) (i * 16384 + 16384) + overlap start (leds * 16384) (i * 16384) (i * 16384 + 16384) := by
        funext i; unfold mix; rw [if_neg h]
      rw [this, sum_add, sum_overlap, sum_overlap]
      unfold overlap; split <;> split <;> omega
  · intro i
    unfold mix overlap
    split
    · split <;> omega
    · split <;> split <;> omega

/-- Before the transition nothing is lit in the second colour and after it everything is, each pixel in full. -/
theorem C129_bounds (pos : Rat) (leds i : Nat) (hi : i < leds) :
    mix (ends pos 0 leds).1 (ends pos 0 leds).2 (leds * 16384) i = 0 ∧ mix (ends pos 1 leds).1 (ends pos 1 leds).2 (leds * 16384) i = 16384 := by
  have e0 : ends pos 0 leds = (0, 0) := by unfold ends; rw [if_neg (by norm_num), if_pos rfl]
  have e1 : ends pos 1 leds = (0, leds * 16384) := by unfold ends; rw [if_pos rfl]
  rw [e0, e1]
  have hm : i * 16384 + 16384 ≤ leds * 16384 := by omega
  constructor
  · unfold mix overlap; rw [if_pos (Nat.le_refl _), if_pos (by omega)]
  · unfold mix overlap; rw [if_pos (by omega), if_neg (by omega)]; omega

theorem fract_range (x : Rat) : 0 ≤ fract x ∧ fract x < 1 := by
  unfold fract
  have h1 := Int.floor_le x
  have h2 := Int.lt_floor_add_one x
  constructor <;> linarith

/-- The place always stays on the blade. -/
theorem C129_place (pos delta rpm : Rat) : 0 ≤ advance pos delta rpm ∧ advance pos delta rpm < 1 := fract_range _

theorem scaled (x : Rat) (n : Nat) (h0 : 0 ≤ x) (h1 : x < 1) :
    ((⌊x * (n : Rat)⌋.toNat : Nat) : Rat) ≤ x * n ∧ x * n < ((⌊x * (n : Rat)⌋.toNat : Nat) : Rat) + 1 ∧ ⌊x * (n : Rat)⌋.toNat ≤ n := by
  have hn : (0 : Rat) ≤ n := Nat.cast_nonneg _
  have hx : 0 ≤ x * n := mul_nonneg h0 hn
  have hf : 0 ≤ ⌊x * (n : Rat)⌋ := Int.floor_nonneg.2 hx
  have hc : ((⌊x * (n : Rat)⌋.toNat : Nat) : Rat) = (⌊x * (n : Rat)⌋ : Rat) := by
    have : ((⌊x * (n : Rat)⌋.toNat : Nat) : Int) = ⌊x * (n : Rat)⌋ := Int.toNat_of_nonneg hf
    exact_mod_cast congrArg (fun z : Int => (z : Rat)) this
  have a := Int.floor_le (x * (n : Rat))
  have b := Int.lt_floor_add_one (x * (n : Rat))
  refine ⟨by rw [hc]; exact a, by rw [hc]; exact b, ?_⟩
  have : ((⌊x * (n : Rat)⌋.toNat : Nat) : Rat) ≤ (n : Rat) := by rw [hc]; nlinarith
  exact_mod_cast this

/-- Within the transition the part of the blade that is lit is the fraction of the time passed, up to one 16384th of a pixel, wherever
the arc begins; unless start and end of an arc which goes over the end of the blade fall together. -/
theorem C129_fraction_partial (pos fade : Rat) (leds : Nat) (hp : 0 ≤ pos) (hp1 : pos < 1) (hf : 0 < fade) (hf1 : fade < 1)
    (hne : pos + fade < 1 ∨ (ends pos fade leds).1 ≠ (ends pos fade leds).2) :
    (lit pos fade leds : Rat) < fade * (leds * 16384 : Nat) + 1 ∧ fade * (leds * 16384 : Nat) < (lit pos fade leds : Rat) + 1 := by
  obtain ⟨q0, q1⟩ := fract_range (pos + fade)
  obtain ⟨s1, s2, s3⟩ := scaled pos (leds * 16384) hp hp1
  obtain ⟨t1, t2, t3⟩ := scaled (fract (pos + fade)) (leds * 16384) q0 q1
  have he : ends pos fade leds = (⌊pos * (leds * 16384 : Nat)⌋.toNat, ⌊fract (pos + fade) * (leds * 16384 : Nat)⌋.toNat) := by
    unfold ends; rw [if_neg (ne_of_lt hf1), if_neg (ne_of_gt hf)]
  unfold lit
  rw [he] at hne ⊢
  rw [(C129_arc _ _ leds s3 t3).1]
  simp only at hne
  generalize leds * 16384 = n at *
  have hn : (0 : Rat) ≤ n := Nat.cast_nonneg _
  generalize hS : ⌊pos * (n : Rat)⌋.toNat = S at *
  generalize hT : ⌊fract (pos + fade) * (n : Rat)⌋.toNat = T at *
  by_cases hw : pos + fade < 1
  · have hfl : ⌊pos + fade⌋ = 0 := Int.floor_eq_zero_iff.2 ⟨by linarith, hw⟩
    have hfr : fract (pos + fade) = pos + fade := by unfold fract; rw [hfl]; simp
    rw [hfr] at t1 t2 hT
    have hST : S ≤ T := by
      rw [← hS, ← hT]
      exact Int.toNat_le_toNat (Int.floor_le_floor (by nlinarith))
    rw [if_pos hST]
    rw [Nat.cast_sub hST]
    constructor <;> nlinarith
  · have hne' := hne.resolve_left hw
    have hfl : ⌊pos + fade⌋ = 1 := by
      rw [Int.floor_eq_iff]; push_cast; constructor <;> linarith [not_lt.1 hw]
    have hfr : fract (pos + fade) = pos + fade - 1 := by unfold fract; rw [hfl]; simp
    rw [hfr] at t1 t2 hT
    have hTS : T ≤ S := by
      rw [← hS, ← hT]
      exact Int.toNat_le_toNat (Int.floor_le_floor (by nlinarith))
    rw [if_neg (by omega), Nat.cast_sub (by omega), Nat.cast_add]
    constructor <;> nlinarith

/-- In that case, close to the end of the transition, nothing at all is lit. -/
theorem C129_dark_counterexample (pos fade : Rat) (leds : Nat) (hp : 0 ≤ pos) (hp1 : pos < 1) (hf : 0 < fade) (hf1 : fade < 1)
    (he : (ends pos fade leds).1 = (ends pos fade leds).2) : lit pos fade leds = 0 := by
  obtain ⟨s1, s2, s3⟩ := scaled pos (leds * 16384) hp hp1
  have he' : ends pos fade leds = (⌊pos * (leds * 16384 : Nat)⌋.toNat, ⌊fract (pos + fade) * (leds * 16384 : Nat)⌋.toNat) := by
    unfold ends; rw [if_neg (ne_of_lt hf1), if_neg (ne_of_gt hf)]
  unfold lit
  rw [← he, he']
  simp only
  rw [(C129_arc _ _ leds s3 s3).1, if_pos (Nat.le_refl _)]
  omega

example : (ends (16385 / 32768) (65535 / 65536) 1).1 = (ends (16385 / 32768) (65535 / 65536) 1).2 := by
  have e : ends (16385 / 32768) (65535 / 65536) 1 = (⌊(16385 / 32768 : Rat) * (1 * 16384 : Nat)⌋.toNat, ⌊fract ((16385 / 32768 : Rat) + 65535 / 65536) * (1 * 16384 : Nat)⌋.toNat) := by
    unfold ends; rw [if_neg (by norm_num), if_neg (by norm_num)]
  rw [e]
  have h1 : ⌊(16385 / 32768 : Rat) * (1 * 16384 : Nat)⌋ = 8192 := by rw [Int.floor_eq_iff]; norm_num
  have h2 : ⌊(16385 / 32768 : Rat) + 65535 / 65536⌋ = 1 := by rw [Int.floor_eq_iff]; norm_num
  have h3 : ⌊fract ((16385 / 32768 : Rat) + 65535 / 65536) * (1 * 16384 : Nat)⌋ = 8192 := by
    unfold fract; rw [h2, Int.floor_eq_iff]; norm_num
  rw [h1, h3]

/-! ## Shortened blade -/

/-- `BladeShortenerWrapper::run`, styles/blade_shortener.h:12-21: the new `num_leds_`, and the pixels of a blade of `blade` pixels;
`style n i` is what the style sets pixel `i` to on a blade of `n` pixels. -/
def shorten {C : Type} (black : C) (style : Nat → Nat → C) (len blade : Nat) : Nat × List C :=
  (min blade len, (List.range (min blade len)).map (style (min blade len)) ++ List.replicate (blade - min blade len) black)

/-- The style sees a blade of the length wanted, and everything after it is dark; no pixel is left out. -/
theorem C129_short {C : Type} (black : C) (style : Nat → Nat → C) (len blade i : Nat) (hi : i < blade) :
    (shorten black style len blade).2.length = blade ∧
    (shorten black style len blade).2[i]? = some (if i < len then style (min blade len) i else black) := by
  unfold shorten
  constructor
  · simp
  · by_cases h : i < len
    · rw [if_pos h, List.getElem?_append_left (by simp; omega)]
      rw [List.getElem?_map, List.getElem?_range (by omega)]; rfl
    · rw [if_neg h, List.getElem?_append_right (by simp; omega), List.getElem?_replicate, if_pos (by simp; omega)]

/-- After blades of any lengths the wanted length is the least of them all: it never grows again. -/
theorem C129_shrinks_counterexample (len : Nat) (blades : List Nat) (n : Nat) (hn : n ∈ blades) :
    blades.foldl (fun l b => (shorten 0 (fun _ i => i) l b).1) len ≤ n := by
  have mono : ∀ (bs : List Nat) (l : Nat), bs.foldl (fun l b => (shorten 0 (fun _ i => i) l b).1) l ≤ l := by
    intro bs
    induction bs with
    | nil => intro l; exact Nat.le_refl _
    | cons b r ih => intro l; exact Nat.le_trans (ih _) (Nat.min_le_right _ _)
  induction blades generalizing len with
  | nil => simp at hn
  | cons b r ih =>
    rcases List.mem_cons.1 hn with h | h
    · subst h; exact Nat.le_trans (mono r _) (Nat.min_le_left _ _)
    · exact ih _ h

example : (shorten 99 (fun _ i => i) 2 4).2 = [0, 1, 99, 99] := by decide

end Verif.Transition.Cycle
