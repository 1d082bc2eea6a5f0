import Verif.Display.Bits
import Verif.Display.Move
/-! # Images: what is shown is what is in the file (C88) -/
namespace Verif.Display

/-! ## Where the words go -/

theorem dest_split {n b : Nat} (hn : 0 < n) (hb : 0 < b) (inv : Bool) {y : Nat} (hy : y < b * n) :
    ∃ r, r < n ∧ destOf n (b * n) inv y = (y % b) * n + r ∧ y / b < n ∧ r = (if inv then y / b else n - 1 - y / b) := by
  have hq : y / b < n := (Nat.div_lt_iff_lt_mul hb).mpr (by rw [Nat.mul_comm]; exact hy)
  refine ⟨_, ?_, by rw [destOf, Nat.mul_div_cancel _ hn], hq, rfl⟩
  generalize y / b = q at *
  split <;> omega

theorem block_eq {n q1 q2 r1 r2 : Nat} (h1 : r1 < n) (h2 : r2 < n) (e : q1 * n + r1 = q2 * n + r2) : q1 = q2 ∧ r1 = r2 := by
  have hn : 0 < n := by omega
  have a := congrArg (· / n) e
  have c := congrArg (· % n) e
  simp only [Nat.mul_comm _ n, Nat.mul_add_div hn, Nat.div_eq_of_lt h1, Nat.div_eq_of_lt h2, Nat.mul_add_mod, Nat.mod_eq_of_lt h1,
    Nat.mod_eq_of_lt h2] at a c
  omega

theorem dest_perm {n b : Nat} (hn : 0 < n) (hb : 0 < b) (inv : Bool) : PermOn (b * n) (destOf n (b * n) inv) := by
  refine ⟨fun y hy => ?_, fun y z hy hz e => ?_⟩
  · obtain ⟨r, h1, h2, _⟩ := dest_split hn hb inv hy
    rw [h2]
    have := Nat.mul_le_mul_right n (show y % b + 1 ≤ b from Nat.mod_lt _ hb)
    rw [Nat.add_mul] at this
    omega
  · obtain ⟨r, h1, h2, h3, h4⟩ := dest_split hn hb inv hy
    obtain ⟨s, g1, g2, g3, g4⟩ := dest_split hn hb inv hz
    rw [h2, g2] at e
    obtain ⟨e1, e2⟩ := block_eq h1 g1 e
    have e3 : y / b = z / b := by
      rw [h4, g4] at e2
      cases inv with
      | true => simpa using e2
      | false => simp only [Bool.false_eq_true, if_false] at e2; omega
    rw [← Nat.div_add_mod y b, ← Nat.div_add_mod z b, e1, e3]

/-! ## The words of a file -/

theorem reverseBytes_load {n : Nat} (h8 : 8 ∣ n) (s : Nat → Bool) (w c : Nat) (hc : c < n) :
    (reverseBytes (load n s w)).getLsbD c = s (w * n + (n - 1 - c)) := by
  obtain ⟨k, rfl⟩ := h8
  rw [reverseBytes, ofBits_getLsbD _ _ _ hc, load]
  have e : 8 * k / 8 = k := by omega
  rw [e, ofBits_getLsbD _ _ _ (by omega)]
  congr 1
  rw [Nat.mul_add, ← Nat.mul_assoc, Nat.mul_comm 8 w, Nat.mul_assoc]
  omega

/-! ## The blocks -/

theorem blocks_spec {K : Nat} (A : Frame (2 ^ (K + 1))) : ∀ count,
    ∃ C, transposeBlocks count A = some C ∧ (∀ i, count * 2 ^ (K + 1) ≤ i → C i = A i) ∧
      ∀ q r c, q < count → r < 2 ^ (K + 1) → c < 2 ^ (K + 1) →
        (C (q * 2 ^ (K + 1) + r)).getLsbD c = (A (q * 2 ^ (K + 1) + (2 ^ (K + 1) - 1 - c))).getLsbD (2 ^ (K + 1) - 1 - r)
  | 0 => ⟨A, rfl, fun _ _ => rfl, fun _ _ _ h => absurd h (Nat.not_lt_zero _)⟩
  | count + 1 => by
    obtain ⟨C, h1, h2, h3⟩ := blocks_spec A count
    obtain ⟨D, g1, g2, g3⟩ := transpose_spec (count * 2 ^ (K + 1)) C
    refine ⟨D, by simp only [transposeBlocks, h1]; exact g1, fun i hi => ?_, fun q r c hq hr hc => ?_⟩
    · rw [Nat.add_mul, Nat.one_mul] at hi
      rw [g2 i (.inr hi), h2 i (Nat.le_trans (Nat.le_add_right _ _) hi)]
    · by_cases e : q = count
      · subst e
        rw [g3 r c hr hc, h2 _ (Nat.le_add_right _ _)]
      · have hlt : q + 1 ≤ count := by omega
        have := Nat.mul_le_mul_right (2 ^ (K + 1)) hlt
        rw [Nat.add_mul, Nat.one_mul] at this
        rw [g2 _ (.inl (by omega)), h3 q r c (by omega) hr hc]

/-- `ConvertLandscape`: column `x`, row `y` is pixel `x` of line `y` of the file, or of line `n - 1 - y` -/
theorem landscape_spec {K b : Nat} (hK : 2 ≤ K) (hb : 0 < b) (inv : Bool) (s : Nat → Bool) :
    ∃ H, convertLandscape (b * 2 ^ (K + 1)) inv (load (2 ^ (K + 1)) s) = some H ∧
      ∀ x y, x < b * 2 ^ (K + 1) → y < 2 ^ (K + 1) →
        (H x).getLsbD y = s ((if inv then 2 ^ (K + 1) - 1 - y else y) * (b * 2 ^ (K + 1)) + x) := by
  have h8 : 8 ∣ 2 ^ (K + 1) := ⟨2 ^ (K - 2), by rw [show (8 : Nat) = 2 ^ 3 from rfl, ← Nat.pow_add]; congr 1; omega⟩
  have hn := Nat.two_pow_pos (K + 1)
  obtain ⟨G, moved, h1, h2, _⟩ := move_all (g := reverseBytes) (dest_perm hn hb inv) (load (2 ^ (K + 1)) s)
  obtain ⟨C, g1, _, g3⟩ := blocks_spec (K := K) G b
  refine ⟨C, ?_, fun x y hx hy => ?_⟩
  · rw [convertLandscape, h1]
    simp only [Nat.mul_div_cancel _ hn]
    exact g1
  · generalize hnn : 2 ^ (K + 1) = n at *
    have hq : x / n < b := (Nat.div_lt_iff_lt_mul hn).mpr hx
    have ex : x / n * n + x % n = x := by rw [Nat.mul_comm]; exact Nat.div_add_mod x n
    have hr := Nat.mod_lt x hn
    have h3 := g3 (x / n) (x % n) y hq hr hy
    rw [ex] at h3
    rw [h3]
    -- the word that went there
    obtain ⟨l, hl⟩ : ∃ l, l = (if inv then n - 1 - y else y) := ⟨_, rfl⟩
    have hln : l < n := by rw [hl]; split <;> omega
    have hw : l * b + x / n < b * n := by
      have := Nat.mul_le_mul_right b (show l + 1 ≤ n from hln)
      rw [Nat.add_mul, Nat.mul_comm n b] at this
      omega
    have hd : destOf n (b * n) inv (l * b + x / n) = x / n * n + (n - 1 - y) := by
      rw [destOf, Nat.mul_div_cancel _ hn]
      have em : (l * b + x / n) % b = x / n := by rw [Nat.mul_comm, Nat.mul_add_mod, Nat.mod_eq_of_lt hq]
      have ed : (l * b + x / n) / b = l := by rw [Nat.mul_comm, Nat.mul_add_div hb, Nat.div_eq_of_lt hq, Nat.add_zero]
      simp only [em, ed]
      rw [hl]
      cases inv with
      | true => simp
      | false => simp
    rw [← hd, h2 _ hw, reverseBytes_load h8 s _ _ (by omega), ← hl]
    congr 1
    rw [Nat.add_mul, Nat.mul_assoc]
    omega

/-! ## Specification: images

`img y x`: the pixel in line `y` (from the top) and column `x` (from the left) of an image `W` wide, true for black.
A PBM file holds the lines from the top, a BMP file from the bottom; either has one bit for each pixel. -/

def filePixels (n W : Nat) (bottomUp : Bool) (img : Nat → Nat → Bool) (p : Nat) : Bool :=
  img (if bottomUp then n - 1 - p / W else p / W) (p % W)

/-- **C88**: an image file as wide as the display is shown upright, not mirrored and with black pixels dark, from PBM and from
BMP files, on displays of every width and of 8, 16, 32, 64, … lines -/
theorem C88_landscape {K b : Nat} (hK : 2 ≤ K) (hb : 0 < b) (bmp : Bool) (img : Nat → Nat → Bool) :
    ∃ H, convertToNative (b * 2 ^ (K + 1)) .landscape bmp true
        (load (2 ^ (K + 1)) (filePixels (2 ^ (K + 1)) (b * 2 ^ (K + 1)) bmp img)) = some H ∧
      ∀ x y, x < b * 2 ^ (K + 1) → y < 2 ^ (K + 1) → (H x).getLsbD y = !img y x := by
  obtain ⟨G, h1, h2⟩ := landscape_spec hK hb bmp (filePixels (2 ^ (K + 1)) (b * 2 ^ (K + 1)) bmp img)
  refine ⟨invert G, by simp [convertToNative, h1], fun x y hx hy => ?_⟩
  rw [invert, BitVec.getLsbD_xor, h2 x y hx hy, filePixels]
  have hW : 0 < b * 2 ^ (K + 1) := Nat.mul_pos hb (Nat.two_pow_pos _)
  generalize hnn : 2 ^ (K + 1) = n at *
  generalize b * n = W at *
  have e1 : ∀ l, (l * W + x) / W = l := fun l => by rw [Nat.mul_comm, Nat.mul_add_div hW, Nat.div_eq_of_lt hx, Nat.add_zero]
  have e2 : ∀ l, (l * W + x) % W = x := fun l => by rw [Nat.mul_comm, Nat.mul_add_mod, Nat.mod_eq_of_lt hx]
  rw [e1, e2, BitVec.getLsbD_allOnes, decide_eq_true hy, Bool.xor_true]
  cases bmp with
  | false => simp
  | true => simp only [if_true]; rw [show n - 1 - (n - 1 - y) = y by omega]

/-- the layout chosen for such an image does not depend on what was shown before -/
theorem C88_layout (W H : Nat) (prev : Layout) : layoutFor W H W prev = some .landscape := by
  simp [layoutFor]

/-- an image as wide as the display is high (128 lines of 32 pixels, say) is accepted, but the layout for it is never set: it
is the one of the image before, or after `Clear` the one of the frame buffer.  With the latter every pixel comes from a
mirrored place: for a white image with one black pixel in line 0, column 0 the dark pixel is shown in line 7 -/
theorem C88_portrait_counterexample :
    (∀ prev, layoutFor 128 32 32 prev = some prev) ∧
    ∃ H, convertToNative 128 .native false true (load 32 (filePixels 128 32 false fun y x => decide (y = 0 ∧ x = 0))) = some H ∧
      (H 0).getLsbD 0 = true ∧ (H 0).getLsbD 7 = false := by
  refine ⟨fun prev => by simp [layoutFor], _, rfl, ?_, ?_⟩
  · rw [if_pos rfl, invert, BitVec.getLsbD_xor, load, ofBits_getLsbD _ _ _ (by omega)]; decide
  · rw [if_pos rfl, invert, BitVec.getLsbD_xor, load, ofBits_getLsbD _ _ _ (by omega)]; decide

/-- flipping a portrait BMP on a display with words of 64 bits shifts an `int` by 32 -/
theorem C88_flip_counterexample (W : Nat) (hW : 0 < W) (F : Frame 64) : convertToNative W .native true true F = none := by
  have : ∀ count, 0 < count → flipY count F = none := by
    intro count h
    induction count with
    | zero => omega
    | succ k ih =>
      cases k with
      | zero => simp [flipY, reverseBits]
      | succ k => rw [flipY, ih (by omega)]
  simp [convertToNative, this W hW]

/-- a display of 128 × 32: columns 127 and 0 of an image -/
example : ∃ H, convertToNative 128 .landscape true true (load 32 (filePixels 32 128 true fun y x => decide (y = 3 ∧ x = 127))) = some H ∧
    (H 127).getLsbD 3 = false ∧ (H 127).getLsbD 4 = true ∧ (H 0).getLsbD 3 = true := by
  obtain ⟨H, h1, h2⟩ := C88_landscape (K := 4) (b := 4) (by omega) (by omega) true (fun y x => decide (y = 3 ∧ x = 127))
  exact ⟨H, h1, by rw [h2 _ _ (by decide) (by decide)]; decide, by rw [h2 _ _ (by decide) (by decide)]; decide,
    by rw [h2 _ _ (by decide) (by decide)]; decide⟩

end Verif.Display
