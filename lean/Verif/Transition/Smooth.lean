import Verif.Transition.Colors
import Mathlib.Tactic.Linarith
import Mathlib.Tactic.Ring
/-!
# The smooth step of `TrSmoothFade`
-/
namespace Verif.Transition

theorem cubic_mono {x y : Nat} (h : x ≤ y) (hy : y ≤ 32768) : x * x * (49152 - x) ≤ y * y * (49152 - y) := by
  obtain ⟨d, rfl⟩ : ∃ d, y = x + d := ⟨y - x, by omega⟩
  obtain ⟨r, hr⟩ : ∃ r, x + d + r = 32768 := ⟨32768 - (x + d), by omega⟩
  have e1 : 49152 - x = 16384 + r + d := by omega
  have e2 : 49152 - (x + d) = 16384 + r := by omega
  rw [e1, e2]
  have hk : (16384 : Nat) * 2 = x + d + r := by omega
  generalize (16384 : Nat) = k at *
  nlinarith [Nat.zero_le (d * x * r), Nat.zero_le (d * r * d), Nat.zero_le (d * x * k), Nat.zero_le (d * d * k), Nat.zero_le (d*x*x), Nat.zero_le (d*d*x)]

theorem smooth_eq {x : Nat} (h : x ≤ 32768) : smoothStep x = x * x / 16384 * (49152 - x) / 65536 := by
  unfold smoothStep
  have h1 : x * x ≤ 32768 * 32768 := Nat.mul_le_mul h h
  have h2 : x * x % 4294967296 = x * x := Nat.mod_eq_of_lt (by omega)
  have h3 : (49152 + 4294967296 - x) % 4294967296 = 49152 - x := by omega
  rw [h2, h3]
  have h4 : x * x / 16384 * (49152 - x) ≤ 65536 * 49152 := Nat.mul_le_mul (by omega) (by omega)
  rw [Nat.mod_eq_of_lt (by omega)]

/-- the smooth step goes back by at most one of its 16384 steps -/
theorem smooth_mono {x y : Nat} (h : x ≤ y) (hy : y ≤ 32768) : smoothStep x ≤ smoothStep y + 1 := by
  rw [smooth_eq (by omega), smooth_eq hy]
  have h1 := cubic_mono h hy
  have h2 : x * x / 16384 * 16384 ≤ x * x := Nat.div_mul_le_self _ _
  have h3 : y * y < y * y / 16384 * 16384 + 16384 := by omega
  have h4 : 49152 - x ≤ 49152 := by omega
  have h5 : 49152 - y ≤ 49152 := by omega
  have h6 : 0 < 49152 - y := by omega
  generalize 49152 - x = u at *
  generalize 49152 - y = v at *
  generalize x * x = X at *
  generalize y * y = Y at *
  generalize X / 16384 = p at *
  generalize Y / 16384 = q at *
  have h7 : p * u * 16384 ≤ X * u := by
    calc p * u * 16384 = p * 16384 * u := by ring
      _ ≤ X * u := Nat.mul_le_mul_right _ h2
  have h8 : Y * v ≤ (q * 16384 + 16384) * v := Nat.mul_le_mul_right _ (by omega)
  have h9 : (q * 16384 + 16384) * v = (q * v) * 16384 + 16384 * v := by ring
  generalize p * u = P at *
  generalize q * v = Q at *
  omega

end Verif.Transition
