import Verif.Num.Model

set_option linter.unusedSimpArgs false
namespace Verif.Num

theorem and_nmask_ne {w} (x : BitVec (w+1)) : ((x &&& NMASK w) != 0) = decide (2^w ≤ x.toNat) := by
  have hm : (x &&& NMASK w) = if x.msb then NMASK w else 0 := by
    apply BitVec.eq_of_getElem_eq
    intro i hi
    have h1 : (NMASK w)[i] = decide (i = w) := by
      simp [NMASK, BitVec.getElem_shiftLeft]
      by_cases h : i = w
      · subst h; simp
      · have : i < w := by omega
        simp [this, h]
    rw [BitVec.getElem_and, h1]
    by_cases h : i = w
    · subst h
      have : x.msb = x[i] := by
        rw [BitVec.msb_eq_getLsbD_last]; simp [BitVec.getLsbD_eq_getElem]
      by_cases hx : x[i] = true
      · rw [if_pos (by rw [this]; exact hx), h1]; simp [hx]
      · rw [if_neg (by rw [this]; exact hx)]; simp [hx]
    · by_cases hx : x.msb = true
      · rw [if_pos hx, h1]; simp [h]
      · rw [if_neg hx]; simp [h]
  rw [hm, BitVec.msb_eq_decide]
  have hn : NMASK w ≠ 0#(w+1) := by
    intro h
    have h2 : (NMASK w)[w]'(by omega) = (0#(w+1))[w]'(by omega) := by rw [h]
    simp [NMASK, BitVec.getElem_shiftLeft] at h2
  by_cases h : 2^w ≤ x.toNat
  · simp [h, hn]
  · simp [h]

theorem toNat_sub_ofNat {w} (a b : Nat) (h : b ≤ a) (h2 : a - b < 2^(w+1)) :
    (BitVec.ofNat (w+1) a - BitVec.ofNat (w+1) b).toNat = a - b := by
  have : BitVec.ofNat (w+1) a - BitVec.ofNat (w+1) b = BitVec.ofNat (w+1) (a - b) := by
    have : a = (a - b) + b := by omega
    rw [this, BitVec.ofNat_add]
    simp [BitVec.add_sub_cancel]
  rw [this, BitVec.toNat_ofNat, Nat.mod_eq_of_lt h2]

theorem toNat_sub_ofNat' {w} (a b : Nat) (h : b < a) (h2 : a - b < 2^(w+1)) :
    (BitVec.ofNat (w+1) b - BitVec.ofNat (w+1) a).toNat = 2^(w+1) - (a - b) := by
  have e : BitVec.ofNat (w+1) b - BitVec.ofNat (w+1) a = - (BitVec.ofNat (w+1) a - BitVec.ofNat (w+1) b) := by
    rw [BitVec.neg_sub, BitVec.sub_eq_add_neg, BitVec.add_comm]
  rw [e, BitVec.toNat_neg, toNat_sub_ofNat a b (by omega) h2]
  apply Nat.mod_eq_of_lt; omega

end Verif.Num
