import Verif.Display.Mono
/-! # Reversing and transposing bits (`ReverseBits`, `ReverseBytes`, `TransposeSquareInPlace`) -/
namespace Verif.Display

theorem ofBits_getLsbD : ∀ (n : Nat) (f : Nat → Bool) (c : Nat), c < n → (ofBits n f).getLsbD c = f c
  | 0, _, _, h => by omega
  | n + 1, f, c, h => by
    simp only [ofBits, BitVec.getLsbD_cons]
    by_cases e : c = n
    · rw [if_pos e, e]
    · rw [if_neg e, ofBits_getLsbD n f c (by omega)]

/-! ## Single bits of numbers -/

theorem split_bits (c l : Nat) : c = 2 ^ l * (c / 2 ^ l) + c % 2 ^ l ∧ c % 2 ^ l < 2 ^ l :=
  ⟨(Nat.div_add_mod c (2 ^ l)).symm, Nat.mod_lt _ (Nat.two_pow_pos l)⟩

theorem testBit_quot (c l : Nat) : c.testBit l = decide (c / 2 ^ l % 2 = 1) := Nat.testBit_eq_decide_div_mod_eq

theorem xor_clear {c l : Nat} (h : c.testBit l = false) : c ^^^ 2 ^ l = c + 2 ^ l := by
  obtain ⟨e, hr⟩ := split_bits c l
  rw [testBit_quot] at h
  have hq : c / 2 ^ l % 2 = 0 := by
    have := of_decide_eq_false h
    omega
  generalize c / 2 ^ l = q at *
  generalize c % 2 ^ l = r at *
  subst e
  refine Nat.eq_of_testBit_eq fun i => ?_
  have e2 : 2 ^ l * q + r + 2 ^ l = 2 ^ l * (q + 1) + r := by rw [Nat.mul_add, Nat.mul_one]; omega
  rw [e2, Nat.testBit_xor, Nat.testBit_two_pow_mul_add _ hr, Nat.testBit_two_pow_mul_add _ hr, Nat.testBit_two_pow]
  by_cases hi : i < l
  · rw [if_pos hi, if_pos hi, decide_eq_false (by omega)]
    simp
  · rw [if_neg hi, if_neg hi]
    obtain ⟨k, rfl⟩ : ∃ k, i = l + k := ⟨i - l, by omega⟩
    rw [Nat.add_sub_cancel_left]
    cases k with
    | zero =>
      simp only [Nat.testBit_zero, Nat.add_zero, decide_true]
      rw [decide_eq_false (by omega), decide_eq_true (by omega)]
      rfl
    | succ k =>
      rw [Nat.testBit_succ, Nat.testBit_succ, decide_eq_false (by omega), Bool.xor_false, show (q + 1) / 2 = q / 2 by omega]

theorem xor_xor (c d : Nat) : c ^^^ d ^^^ d = c := by
  rw [Nat.xor_assoc, Nat.xor_self, Nat.xor_zero]

theorem testBit_flip (c l i : Nat) : (c ^^^ 2 ^ l).testBit i = if i = l then !c.testBit i else c.testBit i := by
  rw [Nat.testBit_xor, Nat.testBit_two_pow]
  by_cases h : i = l
  · rw [if_pos h, decide_eq_true h.symm]; simp
  · rw [if_neg h, decide_eq_false (fun e => h e.symm)]; simp

theorem xor_set {c l : Nat} (h : c.testBit l = true) : (c ^^^ 2 ^ l) + 2 ^ l = c := by
  have h2 : (c ^^^ 2 ^ l).testBit l = false := by rw [testBit_flip, if_pos rfl, h]; rfl
  rw [← xor_clear h2, xor_xor]

theorem sub_bit {c l : Nat} (h : 2 ^ l ≤ c) : (c - 2 ^ l).testBit l = !c.testBit l := by
  have := Nat.testBit_two_pow_add_eq (c - 2 ^ l) l
  rw [show 2 ^ l + (c - 2 ^ l) = c by omega] at this
  rw [this]; simp

theorem flip_lt {c l K : Nat} (hc : c < 2 ^ K) (hl : l < K) : c ^^^ 2 ^ l < 2 ^ K :=
  Nat.xor_lt_two_pow hc (Nat.pow_lt_pow_right (by omega) hl)

/-- the complement of the lower `K` bits -/
theorem testBit_compl {c K : Nat} (hc : c < 2 ^ K) (i : Nat) : (2 ^ K - 1 - c).testBit i = (decide (i < K) && !c.testBit i) := by
  rw [show 2 ^ K - 1 - c = 2 ^ K - (c + 1) by omega]
  exact Nat.testBit_two_pow_sub_succ hc i

theorem testBit_big {c K i : Nat} (hc : c < 2 ^ K) (hi : K ≤ i) : c.testBit i = false :=
  Nat.testBit_lt_two_pow (Nat.lt_of_lt_of_le hc (Nat.pow_le_pow_right (by omega) hi))

/-! ## The masks -/

/-- `m` has the bits whose number has bit `l` clear -/
def IsMask {n : Nat} (l : Nat) (m : BitVec n) : Prop := ∀ c, c < n → m.getLsbD c = !c.testBit l

theorem firstMask (K : Nat) : IsMask K ((1#(2 ^ (K + 1)) <<< (2 ^ K)) - 1#(2 ^ (K + 1))) := by
  intro c hc
  have hlt : 2 ^ K < 2 ^ (K + 1) := Nat.pow_lt_pow_right (by omega) (by omega)
  have h1 : 1 < 2 ^ 2 ^ (K + 1) := Nat.one_lt_two_pow (by have := Nat.two_pow_pos (K + 1); omega)
  have hp := Nat.pow_lt_pow_right (a := 2) (by omega) hlt
  have ht : ((1#(2 ^ (K + 1)) <<< (2 ^ K)) - 1#(2 ^ (K + 1))).toNat = 2 ^ 2 ^ K - 1 := by
    rw [BitVec.toNat_sub, BitVec.toNat_shiftLeft, BitVec.toNat_ofNat, Nat.mod_eq_of_lt h1, Nat.shiftLeft_eq, Nat.one_mul, Nat.mod_eq_of_lt hp]
    have hpos := Nat.two_pow_pos (2 ^ K)
    generalize 2 ^ 2 ^ K = a at *
    generalize 2 ^ 2 ^ (K + 1) = b at *
    rw [show b - 1 + a = a - 1 + b by omega, Nat.add_mod_right, Nat.mod_eq_of_lt (by omega)]
  rw [BitVec.getLsbD, ht, Nat.testBit_two_pow_sub_one, testBit_quot, Bool.eq_iff_iff]
  simp only [decide_eq_true_eq, Bool.not_eq_true', decide_eq_false_iff_not]
  rw [Nat.pow_succ] at hc
  have hpos := Nat.two_pow_pos K
  generalize 2 ^ K = a at *
  constructor
  · intro h
    rw [Nat.div_eq_of_lt h]
    omega
  · intro h
    apply Decidable.byContradiction
    intro h2
    have : c / a = 1 := by
      refine Nat.div_eq_of_lt_le ?_ ?_
      · omega
      · omega
    omega

theorem next_mask {n l : Nat} {m : BitVec n} (h : IsMask (l + 1) m) : IsMask l (nextMask m (2 ^ l)) := by
  intro c hc
  rw [nextMask, BitVec.getLsbD_xor, BitVec.getLsbD_shiftLeft, h c hc, decide_eq_true hc, Bool.true_and]
  by_cases hlt : c < 2 ^ l
  · rw [decide_eq_true hlt]
    rw [Nat.testBit_lt_two_pow hlt, Nat.testBit_lt_two_pow (Nat.lt_trans hlt (Nat.pow_lt_pow_right (by omega) (by omega)))]
    rfl
  · rw [decide_eq_false hlt, h _ (Nat.lt_of_le_of_lt (Nat.sub_le _ _) hc)]
    obtain ⟨e, hr⟩ := split_bits c l
    have hq : 1 ≤ c / 2 ^ l := by
      rw [Nat.le_div_iff_mul_le (Nat.two_pow_pos l)]; omega
    generalize c / 2 ^ l = q at *
    generalize c % 2 ^ l = r at *
    have e2 : c - 2 ^ l = 2 ^ l * (q - 1) + r := by
      obtain ⟨q', rfl⟩ : ∃ q', q = q' + 1 := ⟨q - 1, by omega⟩
      rw [e, Nat.mul_add, Nat.mul_one, Nat.add_sub_cancel]; omega
    rw [e2, e]
    clear e e2 hlt hc h
    rw [Nat.testBit_two_pow_mul_add _ hr, Nat.testBit_two_pow_mul_add _ hr, Nat.testBit_two_pow_mul_add _ hr]
    rw [if_neg (by omega), if_neg (by omega), if_neg (by omega), Nat.add_sub_cancel_left, Nat.sub_self]
    simp only [Nat.testBit_succ, Nat.testBit_zero]
    rcases (show q % 4 = 0 ∨ q % 4 = 1 ∨ q % 4 = 2 ∨ q % 4 = 3 by omega) with h | h | h | h
    · rw [decide_eq_false (show ¬ q / 2 % 2 = 1 by omega), decide_eq_true (show (q - 1) / 2 % 2 = 1 by omega), decide_eq_false (show ¬ q % 2 = 1 by omega)]; rfl
    · rw [decide_eq_false (show ¬ q / 2 % 2 = 1 by omega), decide_eq_false (show ¬ (q - 1) / 2 % 2 = 1 by omega), decide_eq_true (show q % 2 = 1 by omega)]; rfl
    · rw [decide_eq_true (show q / 2 % 2 = 1 by omega), decide_eq_false (show ¬ (q - 1) / 2 % 2 = 1 by omega), decide_eq_false (show ¬ q % 2 = 1 by omega)]; rfl
    · rw [decide_eq_true (show q / 2 % 2 = 1 by omega), decide_eq_true (show (q - 1) / 2 % 2 = 1 by omega), decide_eq_true (show q % 2 = 1 by omega)]; rfl

theorem half_pow (l : Nat) : 2 ^ (l + 1) / 2 = 2 ^ l := by rw [Nat.pow_succ]; omega

/-! ## Reversing bits -/

theorem reverse_level {K l : Nat} (hl : l < K) {m word : BitVec (2 ^ K)} (hm : IsMask l m) (c : Nat) (hc : c < 2 ^ K) :
    (((word >>> (2 ^ l)) &&& m) ||| ((word &&& m) <<< (2 ^ l))).getLsbD c = word.getLsbD (c ^^^ 2 ^ l) := by
  rw [BitVec.getLsbD_or, BitVec.getLsbD_and, BitVec.getLsbD_ushiftRight, BitVec.getLsbD_shiftLeft, BitVec.getLsbD_and, hm c hc, decide_eq_true hc, Bool.true_and]
  cases hb : c.testBit l with
  | false =>
    rw [xor_clear hb, Nat.add_comm]
    have : (!decide (c < 2 ^ l) && (word.getLsbD (c - 2 ^ l) && m.getLsbD (c - 2 ^ l))) = false := by
      by_cases h : c < 2 ^ l
      · rw [decide_eq_true h]; rfl
      · rw [hm _ (Nat.lt_of_le_of_lt (Nat.sub_le _ _) hc), sub_bit (by omega), hb]; simp
    rw [this]; simp
  | true =>
    have h1 := xor_set hb
    have h2 : c - 2 ^ l = c ^^^ 2 ^ l := by omega
    rw [h2, hm _ (flip_lt hc hl), testBit_flip, if_pos rfl, hb, decide_eq_false (by omega)]
    simp

theorem reverseLoop_spec {K : Nat} : ∀ (l fuel : Nat) (m word : BitVec (2 ^ K)), l < K → IsMask l m → l + 2 ≤ fuel →
    ∀ c, c < 2 ^ K → (reverseLoop fuel (2 ^ l) m word).getLsbD c = word.getLsbD (c ^^^ (2 ^ (l + 1) - 1))
  | 0, fuel + 1, m, word, hl, hm, hf, c, hc => by
    have h0 : (2 ^ 0) / 2 = 0 := rfl
    obtain ⟨fuel, rfl⟩ : ∃ f, fuel = f + 1 := ⟨fuel - 1, by omega⟩
    simp only [reverseLoop, if_neg (Nat.ne_of_gt (Nat.two_pow_pos 0)), h0, if_true]
    exact reverse_level hl hm c hc
  | l + 1, fuel + 1, m, word, hl, hm, hf, c, hc => by
    rw [reverseLoop, if_neg (Nat.ne_of_gt (Nat.two_pow_pos _)), half_pow]
    rw [reverseLoop_spec l fuel _ _ (by omega) (next_mask hm) (by omega) c hc]
    have hlt : c ^^^ (2 ^ (l + 1) - 1) < 2 ^ K := by
      refine Nat.xor_lt_two_pow hc ?_
      have := Nat.pow_lt_pow_right (a := 2) (by omega) hl
      omega
    rw [reverse_level hl hm _ hlt, Nat.xor_assoc]
    congr 2
    refine Nat.eq_of_testBit_eq fun i => ?_
    rw [testBit_flip, Nat.testBit_two_pow_sub_one, Nat.testBit_two_pow_sub_one]
    by_cases h : i = l + 1
    · subst h
      rw [if_pos rfl, decide_eq_false (by omega), decide_eq_true (by omega)]; rfl
    · rw [if_neg h, decide_eq_decide]; omega

theorem xor_ones {c K : Nat} (hc : c < 2 ^ K) : c ^^^ (2 ^ K - 1) = 2 ^ K - 1 - c := by
  refine Nat.eq_of_testBit_eq fun i => ?_
  rw [Nat.testBit_xor, Nat.testBit_two_pow_sub_one, testBit_compl hc]
  by_cases h : i < K
  · rw [decide_eq_true h]; simp
  · rw [decide_eq_false h, testBit_big hc (by omega)]; rfl

theorem lt_two_pow_self' (K : Nat) : K < 2 ^ K := Nat.lt_two_pow_self

/-- `ReverseBits` reverses the bits of words of up to 32 bits -/
theorem reverseBits_spec {K : Nat} (hK : K + 1 ≤ 5) (word : BitVec (2 ^ (K + 1))) :
    ∃ w, reverseBits word = some w ∧ ∀ c, c < 2 ^ (K + 1) → w.getLsbD c = word.getLsbD (2 ^ (K + 1) - 1 - c) := by
  have hlt : 2 ^ K < 32 := Nat.pow_lt_pow_right (a := 2) (n := 5) (m := K) (by omega) (by omega)
  refine ⟨_, by rw [reverseBits, half_pow, if_pos hlt], fun c hc => ?_⟩
  rw [reverseLoop_spec K _ _ word (by omega) (firstMask K) (by have := lt_two_pow_self' (K + 1); omega) c hc, xor_ones hc]

/-! ## Transposing -/

theorem set_at {n : Nat} (F : Frame n) (x : Nat) (v : BitVec n) (i : Nat) : (F.set x v) i = if i = x then v else F i := rfl

theorem andNot_pow (x l : Nat) : andNot x (2 ^ l) = if x.testBit l then x ^^^ 2 ^ l else x := by
  refine Nat.eq_of_testBit_eq fun i => ?_
  rw [andNot, Nat.testBit_xor, Nat.testBit_and, Nat.testBit_two_pow]
  cases h : x.testBit l with
  | false =>
    rw [if_neg (by simp)]
    by_cases e : l = i
    · subst e; simp [h]
    · simp [e]
  | true =>
    rw [if_pos rfl, testBit_flip]
    by_cases e : i = l
    · subst e; simp [h]
    · have : ¬ l = i := fun h => e h.symm
      simp [e, this]

theorem andNot_bit (x l : Nat) : (andNot x (2 ^ l)).testBit l = false := by
  rw [andNot_pow]
  cases h : x.testBit l with
  | false => simp [h]
  | true => rw [if_pos rfl, testBit_flip, if_pos rfl, h]; rfl

/-- a number with bit `l` clear, as multiple of `2 * 2 ^ l` and rest -/
theorem clear_form {x l : Nat} (h : x.testBit l = false) : ∃ a r, x = 2 * 2 ^ l * a + r ∧ r < 2 ^ l := by
  obtain ⟨e, hr⟩ := split_bits x l
  rw [testBit_quot] at h
  have := of_decide_eq_false h
  refine ⟨x / 2 ^ l / 2, x % 2 ^ l, ?_, hr⟩
  have : x / 2 ^ l = 2 * (x / 2 ^ l / 2) := by omega
  calc x = 2 ^ l * (x / 2 ^ l) + x % 2 ^ l := e
    _ = 2 ^ l * (2 * (x / 2 ^ l / 2)) + x % 2 ^ l := by rw [← this]
    _ = _ := by rw [← Nat.mul_assoc, Nat.mul_comm (2 ^ l) 2]

theorem form_clear {a r l : Nat} (hr : r < 2 ^ l) : (2 * 2 ^ l * a + r).testBit l = false := by
  rw [show 2 * 2 ^ l * a = 2 ^ l * (2 * a) by rw [Nat.mul_comm 2, Nat.mul_assoc], Nat.testBit_two_pow_mul_add _ hr]
  rw [if_neg (by omega), Nat.sub_self, Nat.testBit_zero]
  exact decide_eq_false (by omega)

/-- the numbers with bit `l` clear are visited in order -/
theorem next_clear {k l : Nat} (hk : k.testBit l = false) (x : Nat) (hx : x.testBit l = false) :
    x < andNot (k + 2 ^ l + 1) (2 ^ l) ↔ x ≤ k := by
  obtain ⟨a, r, rfl, hr⟩ := clear_form hk
  obtain ⟨b, s, rfl, hs⟩ := clear_form hx
  by_cases h : r + 1 < 2 ^ l
  · have e : 2 * 2 ^ l * a + r + 2 ^ l + 1 = (2 * 2 ^ l * a + (r + 1)) + 2 ^ l := by omega
    have h0 : (2 * 2 ^ l * a + (r + 1)).testBit l = false := form_clear h
    have e2 := xor_clear h0
    have h1 : ((2 * 2 ^ l * a + (r + 1)) + 2 ^ l).testBit l = true := by
      rw [← e2, testBit_flip, if_pos rfl, h0]; rfl
    rw [e, andNot_pow, if_pos h1, ← e2, xor_xor]
    omega
  · have e : 2 * 2 ^ l * a + r + 2 ^ l + 1 = 2 * 2 ^ l * (a + 1) + 0 := by rw [Nat.mul_add]; omega
    have h1 : (2 * 2 ^ l * (a + 1) + 0).testBit l = false := form_clear (Nat.two_pow_pos l)
    rw [e, andNot_pow, h1, if_neg (by simp), Nat.add_zero]
    have hpos := Nat.two_pow_pos l
    generalize 2 ^ l = j at *
    constructor
    · intro hlt
      have hba : b < a + 1 := by
        refine Nat.lt_of_not_le fun hle => ?_
        have := Nat.mul_le_mul_left (2 * j) hle
        omega
      have := Nat.mul_le_mul_left (2 * j) (Nat.le_of_lt_succ hba)
      omega
    · intro hle
      have hba : b ≤ a := by
        refine Nat.le_of_not_lt fun hlt => ?_
        have := Nat.mul_le_mul_left (2 * j) (show a + 1 ≤ b from hlt)
        rw [Nat.mul_add] at this
        omega
      have := Nat.mul_le_mul_left (2 * j) hba
      rw [Nat.mul_add]
      omega

/-- where the bit at row `r` and place `c` comes from on one level -/
def levelBit {n : Nat} (off l : Nat) (A : Frame n) (r c : Nat) : Bool :=
  if r.testBit l = c.testBit l then (A (off + (r ^^^ 2 ^ l))).getLsbD (c ^^^ 2 ^ l) else (A (off + r)).getLsbD c

/-- the state of the inner loop: rows whose number without bit `l` is below `k` are done -/
def Half {n : Nat} (off l k : Nat) (A B : Frame n) : Prop :=
  (∀ r c, r < n → c < n → (B (off + r)).getLsbD c = if andNot r (2 ^ l) < k then levelBit off l A r c else (A (off + r)).getLsbD c) ∧
  ∀ i, (i < off ∨ off + n ≤ i) → B i = A i

theorem half_rows {r l k : Nat} (hk : k.testBit l = false) : andNot r (2 ^ l) = k ↔ r = k ∨ r = k + 2 ^ l := by
  rw [andNot_pow, ← xor_clear hk]
  cases h : r.testBit l with
  | false =>
    rw [if_neg (by simp)]
    constructor
    · exact .inl
    · rintro (e | e)
      · exact e
      · rw [e, testBit_flip, if_pos rfl, hk] at h; simp at h
  | true =>
    rw [if_pos rfl]
    constructor
    · intro e; right; rw [← e, xor_xor]
    · rintro (e | e)
      · rw [e, hk] at h; simp at h
      · rw [e, xor_xor]

theorem inner_step {K off l k : Nat} (hl : l < K) (hk : k.testBit l = false) (hkn : k < 2 ^ K) {m : BitVec (2 ^ K)} (hm : IsMask l m)
    {A B : Frame (2 ^ K)} (hB : Half off l k A B) :
    Half off l (andNot (k + 2 ^ l + 1) (2 ^ l)) A
      ((B.set (off + k) (B (off + k) ^^^ ((B (off + k) ^^^ (B (off + (k + 2 ^ l)) >>> (2 ^ l))) &&& m))).set (off + (k + 2 ^ l))
        (B (off + (k + 2 ^ l)) ^^^ (((B (off + k) ^^^ (B (off + (k + 2 ^ l)) >>> (2 ^ l))) &&& m) <<< (2 ^ l)))) := by
  obtain ⟨h1, h2⟩ := hB
  have hpos := Nat.two_pow_pos l
  have hkj : k + 2 ^ l < 2 ^ K := by rw [← xor_clear hk]; exact flip_lt hkn hl
  have hbk : ∀ c, c < 2 ^ K → (B (off + k)).getLsbD c = (A (off + k)).getLsbD c := by
    intro c hc
    rw [h1 k c hkn hc, (half_rows hk).mpr (.inl rfl), if_neg (by omega)]
  have hbj : ∀ c, c < 2 ^ K → (B (off + (k + 2 ^ l))).getLsbD c = (A (off + (k + 2 ^ l))).getLsbD c := by
    intro c hc
    rw [h1 _ c hkj hc, (half_rows hk).mpr (.inr rfl), if_neg (by omega)]
  refine ⟨fun r c hr hc => ?_, fun i hi => ?_⟩
  · have hcond : andNot r (2 ^ l) < andNot (k + 2 ^ l + 1) (2 ^ l) ↔ andNot r (2 ^ l) ≤ k := next_clear hk _ (andNot_bit r l)
    rw [set_at, set_at]
    by_cases hr1 : r = k + 2 ^ l
    · subst hr1
      rw [if_pos rfl, if_pos (hcond.mpr (Nat.le_of_eq ((half_rows hk).mpr (.inr rfl)))), BitVec.getLsbD_xor, BitVec.getLsbD_shiftLeft, decide_eq_true hc, Bool.true_and]
      have hkb : (k + 2 ^ l).testBit l = true := by rw [← xor_clear hk, testBit_flip, if_pos rfl, hk]; rfl
      rw [levelBit, hkb, hbj c hc]
      cases hb : c.testBit l with
      | false =>
        rw [if_neg (by simp)]
        by_cases hlt : c < 2 ^ l
        · rw [decide_eq_true hlt]; simp
        · rw [decide_eq_false hlt, BitVec.getLsbD_and, hm _ (Nat.lt_of_le_of_lt (Nat.sub_le _ _) hc), sub_bit (by omega), hb]; simp
      | true =>
        have hx := xor_set hb
        have e : c - 2 ^ l = c ^^^ 2 ^ l := by omega
        rw [if_pos rfl, decide_eq_false (by omega), e, BitVec.getLsbD_and, hm _ (flip_lt hc hl), testBit_flip, if_pos rfl, hb, BitVec.getLsbD_xor,
          BitVec.getLsbD_ushiftRight, hbk _ (flip_lt hc hl), show 2 ^ l + (c ^^^ 2 ^ l) = c by omega, hbj c hc]
        have e2 : (k + 2 ^ l) ^^^ 2 ^ l = k := by rw [← xor_clear hk, xor_xor]
        rw [e2]
        cases (A (off + (k + 2 ^ l))).getLsbD c <;> cases (A (off + k)).getLsbD (c ^^^ 2 ^ l) <;> rfl
    · rw [if_neg (by omega)]
      by_cases hr0 : r = k
      · subst hr0
        rw [if_pos rfl, if_pos (hcond.mpr (Nat.le_of_eq ((half_rows hk).mpr (.inl rfl)))), BitVec.getLsbD_xor, BitVec.getLsbD_and, hm c hc, levelBit, hk]
        cases hb : c.testBit l with
        | true => rw [if_neg (by simp), hbk c hc]; simp
        | false =>
          rw [if_pos rfl, BitVec.getLsbD_xor, BitVec.getLsbD_ushiftRight, xor_clear hk, xor_clear hb, hbk c hc, Nat.add_comm (2 ^ l) c]
          have hlt : c + 2 ^ l < 2 ^ K := by rw [← xor_clear hb]; exact flip_lt hc hl
          rw [hbj _ hlt]
          cases (A (off + r)).getLsbD c <;> cases (A (off + (r + 2 ^ l))).getLsbD (c + 2 ^ l) <;> rfl
      · rw [if_neg (by omega), h1 r c hr hc]
        have hne : andNot r (2 ^ l) ≠ k := fun e => by
          rcases (half_rows hk).mp e with e | e
          · exact hr0 e
          · exact hr1 e
        by_cases hlt : andNot r (2 ^ l) < k
        · rw [if_pos hlt, if_pos (hcond.mpr (by omega))]
        · rw [if_neg hlt, if_neg (fun h => by have := hcond.mp h; omega)]
  · rw [set_at, set_at, if_neg (by omega), if_neg (by omega)]
    exact h2 i hi

theorem inner_spec {K off l : Nat} (hl : l < K) {m : BitVec (2 ^ K)} (hm : IsMask l m) (A : Frame (2 ^ K)) :
    ∀ (fuel k : Nat) (B : Frame (2 ^ K)), k.testBit l = false → 1 ≤ fuel → 2 ^ K < fuel + k → Half off l k A B →
      ∃ C, transposeInner off (2 ^ l) m fuel k B = some C ∧
        (∀ r c, r < 2 ^ K → c < 2 ^ K → (C (off + r)).getLsbD c = levelBit off l A r c) ∧ ∀ i, (i < off ∨ off + 2 ^ K ≤ i) → C i = A i
  | 0, k, B, _, h0, _, _ => by omega
  | fuel + 1, k, B, hk, _, hf, hB => by
    by_cases hkn : k < 2 ^ K
    · have hkj : k + 2 ^ l < 2 ^ K := by rw [← xor_clear hk]; exact flip_lt hkn hl
      simp only [transposeInner, if_pos hkn, if_pos hkj]
      refine inner_spec hl hm A fuel _ _ (andNot_bit _ _) (by omega) ?_ (inner_step hl hk hkn hm hB)
      have := (next_clear hk k hk).mpr (Nat.le_refl _)
      omega
    · refine ⟨B, by simp only [transposeInner, if_neg hkn], fun r c hr hc => ?_, hB.2⟩
      rw [hB.1 r c hr hc, if_pos]
      have : andNot r (2 ^ l) ≤ r := by
        rw [andNot_pow]
        cases h : r.testBit l with
        | false => simp
        | true => rw [if_pos rfl]; exact Nat.le.intro (xor_set h)
      omega

/-- one level of the transposition -/
theorem level_spec {K off l : Nat} (hl : l < K) {m : BitVec (2 ^ K)} (hm : IsMask l m) (A : Frame (2 ^ K)) :
    ∃ C, transposeInner off (2 ^ l) m (2 ^ K + 1) 0 A = some C ∧
      (∀ r c, r < 2 ^ K → c < 2 ^ K → (C (off + r)).getLsbD c = levelBit off l A r c) ∧ ∀ i, (i < off ∨ off + 2 ^ K ≤ i) → C i = A i :=
  inner_spec hl hm A (2 ^ K + 1) 0 A (Nat.zero_testBit _) (Nat.le_add_left _ _) (by omega)
    ⟨fun r c _ _ => by rw [if_neg (by omega)], fun _ _ => rfl⟩

/-- the levels from `l` down -/
theorem transposeLoop_spec {K off : Nat} : ∀ (l fuel : Nat) (m : BitVec (2 ^ K)) (A : Frame (2 ^ K)), l < K → IsMask l m → l + 2 ≤ fuel →
    ∃ C, transposeLoop off fuel (2 ^ l) m A = some C ∧ (∀ i, (i < off ∨ off + 2 ^ K ≤ i) → C i = A i) ∧
      ∀ r c r' c', r < 2 ^ K → c < 2 ^ K → r' < 2 ^ K → c' < 2 ^ K →
        (∀ i, r'.testBit i = if i ≤ l then !c.testBit i else r.testBit i) →
        (∀ i, c'.testBit i = if i ≤ l then !r.testBit i else c.testBit i) →
        (C (off + r)).getLsbD c = (A (off + r')).getLsbD c' := by
  -- one level, as substitution
  have one : ∀ (l : Nat) (m : BitVec (2 ^ K)) (A : Frame (2 ^ K)), l < K → IsMask l m →
      ∃ C, transposeInner off (2 ^ l) m (2 ^ K + 1) 0 A = some C ∧ (∀ i, (i < off ∨ off + 2 ^ K ≤ i) → C i = A i) ∧
        ∀ r c r' c', r < 2 ^ K → c < 2 ^ K →
          (∀ i, r'.testBit i = if i = l then !c.testBit i else r.testBit i) →
          (∀ i, c'.testBit i = if i = l then !r.testBit i else c.testBit i) →
          (C (off + r)).getLsbD c = (A (off + r')).getLsbD c' := by
    intro l m A hl hm
    obtain ⟨C, h1, h2, h3⟩ := level_spec (off := off) hl hm A
    refine ⟨C, h1, h3, fun r c r' c' hr hc hr' hc' => ?_⟩
    rw [h2 r c hr hc, levelBit]
    by_cases e : r.testBit l = c.testBit l
    · rw [if_pos e]
      have e1 : r ^^^ 2 ^ l = r' := Nat.eq_of_testBit_eq fun i => by
        rw [testBit_flip, hr']
        by_cases hi : i = l
        · rw [if_pos hi, if_pos hi, hi, e]
        · rw [if_neg hi, if_neg hi]
      have e2 : c ^^^ 2 ^ l = c' := Nat.eq_of_testBit_eq fun i => by
        rw [testBit_flip, hc']
        by_cases hi : i = l
        · rw [if_pos hi, if_pos hi, hi, e]
        · rw [if_neg hi, if_neg hi]
      rw [e1, e2]
    · rw [if_neg e]
      have en : r.testBit l = !c.testBit l := by
        cases h1 : r.testBit l <;> cases h2 : c.testBit l <;> simp_all
      have e1 : r = r' := Nat.eq_of_testBit_eq fun i => by
        rw [hr']
        by_cases hi : i = l
        · rw [if_pos hi, hi, en]
        · rw [if_neg hi]
      have e2 : c = c' := Nat.eq_of_testBit_eq fun i => by
        rw [hc']
        by_cases hi : i = l
        · rw [if_pos hi, hi, en]; simp
        · rw [if_neg hi]
      rw [← e1, ← e2]
  intro l
  induction l with
  | zero =>
    intro fuel m A hl hm hf
    obtain ⟨C, h1, h2, h3⟩ := one 0 m A hl hm
    obtain ⟨fuel, rfl⟩ : ∃ f, fuel = f + 2 := ⟨fuel - 2, by omega⟩
    refine ⟨C, ?_, h2, fun r c r' c' hr hc _ _ e1 e2 => h3 r c r' c' hr hc (fun i => ?_) (fun i => ?_)⟩
    · have h0 : (2 ^ 0) / 2 = 0 := rfl
      rw [transposeLoop, if_neg (Nat.ne_of_gt (Nat.two_pow_pos _)), h1]
      simp only [h0, transposeLoop, if_true]
    · rw [e1]; simp only [Nat.le_zero]
    · rw [e2]; simp only [Nat.le_zero]
  | succ l ih =>
    intro fuel m A hl hm hf
    obtain ⟨C, h1, h2, h3⟩ := one (l + 1) m A hl hm
    obtain ⟨fuel, rfl⟩ : ∃ f, fuel = f + 1 := ⟨fuel - 1, by omega⟩
    obtain ⟨D, i1, i2, i3⟩ := ih fuel (nextMask m (2 ^ l)) C (by omega) (next_mask hm) (by omega)
    refine ⟨D, ?_, fun i hi => (i2 i hi).trans (h2 i hi), fun r c r' c' hr hc hr' hc' e1 e2 => ?_⟩
    · rw [transposeLoop, if_neg (Nat.ne_of_gt (Nat.two_pow_pos _)), h1]
      simp only [half_pow]
      exact i1
    · -- the place after the later levels
      obtain ⟨r1, hr1, b1⟩ : ∃ r1, r1 < 2 ^ K ∧ ∀ i, r1.testBit i = if i ≤ l then !c.testBit i else r.testBit i := by
        by_cases e : r.testBit (l + 1) = c.testBit (l + 1)
        · refine ⟨r' ^^^ 2 ^ (l + 1), flip_lt hr' hl, fun i => ?_⟩
          rw [testBit_flip, e1]
          by_cases hi : i = l + 1
          · subst hi; rw [if_pos rfl, if_pos (by omega), if_neg (by omega), e]; simp
          · rw [if_neg hi]
            by_cases hi2 : i ≤ l
            · rw [if_pos hi2, if_pos (by omega)]
            · rw [if_neg hi2, if_neg (by omega)]
        · refine ⟨r', hr', fun i => ?_⟩
          rw [e1]
          by_cases hi : i = l + 1
          · subst hi; rw [if_pos (by omega), if_neg (by omega)]
            cases h1 : r.testBit (l + 1) <;> cases h2 : c.testBit (l + 1) <;> simp_all
          · by_cases hi2 : i ≤ l
            · rw [if_pos hi2, if_pos (by omega)]
            · rw [if_neg hi2, if_neg (by omega)]
      obtain ⟨c1, hc1, b2⟩ : ∃ c1, c1 < 2 ^ K ∧ ∀ i, c1.testBit i = if i ≤ l then !r.testBit i else c.testBit i := by
        by_cases e : r.testBit (l + 1) = c.testBit (l + 1)
        · refine ⟨c' ^^^ 2 ^ (l + 1), flip_lt hc' hl, fun i => ?_⟩
          rw [testBit_flip, e2]
          by_cases hi : i = l + 1
          · subst hi; rw [if_pos rfl, if_pos (by omega), if_neg (by omega), e]; simp
          · rw [if_neg hi]
            by_cases hi2 : i ≤ l
            · rw [if_pos hi2, if_pos (by omega)]
            · rw [if_neg hi2, if_neg (by omega)]
        · refine ⟨c', hc', fun i => ?_⟩
          rw [e2]
          by_cases hi : i = l + 1
          · subst hi; rw [if_pos (by omega), if_neg (by omega)]
            cases h1 : r.testBit (l + 1) <;> cases h2 : c.testBit (l + 1) <;> simp_all
          · by_cases hi2 : i ≤ l
            · rw [if_pos hi2, if_pos (by omega)]
            · rw [if_neg hi2, if_neg (by omega)]
      rw [i3 r c r1 c1 hr hc hr1 hc1 b1 b2]
      refine h3 r1 c1 r' c' hr1 hc1 (fun i => ?_) (fun i => ?_)
      · rw [e1, b1, b2]
        by_cases hi : i = l + 1
        · subst hi; rw [if_pos (by omega), if_pos rfl, if_neg (by omega)]
        · rw [if_neg hi]
          by_cases hi2 : i ≤ l
          · rw [if_pos hi2, if_pos (by omega)]
          · rw [if_neg hi2, if_neg (by omega)]
      · rw [e2, b1, b2]
        by_cases hi : i = l + 1
        · subst hi; rw [if_pos (by omega), if_pos rfl, if_neg (by omega)]
        · rw [if_neg hi]
          by_cases hi2 : i ≤ l
          · rw [if_pos hi2, if_pos (by omega)]
          · rw [if_neg hi2, if_neg (by omega)]

/-- `TransposeSquareInPlace` mirrors a square on its second diagonal -/
theorem transpose_spec {K : Nat} (off : Nat) (A : Frame (2 ^ (K + 1))) :
    ∃ C, transpose off A = some C ∧ (∀ i, (i < off ∨ off + 2 ^ (K + 1) ≤ i) → C i = A i) ∧
      ∀ r c, r < 2 ^ (K + 1) → c < 2 ^ (K + 1) →
        (C (off + r)).getLsbD c = (A (off + (2 ^ (K + 1) - 1 - c))).getLsbD (2 ^ (K + 1) - 1 - r) := by
  obtain ⟨C, h1, h2, h3⟩ := transposeLoop_spec (K := K + 1) (off := off) K (2 ^ (K + 1) + 1) _ A (by omega) (firstMask K)
    (by have := lt_two_pow_self' (K + 1); omega)
  refine ⟨C, by rw [transpose, half_pow]; exact h1, h2, fun r c hr hc => ?_⟩
  refine h3 r c _ _ hr hc (by omega) (by omega) (fun i => ?_) (fun i => ?_)
  · rw [testBit_compl hc]
    by_cases hi : i ≤ K
    · rw [if_pos hi, decide_eq_true (by omega), Bool.true_and]
    · rw [if_neg hi, decide_eq_false (by omega), testBit_big hr (by omega)]; rfl
  · rw [testBit_compl hr]
    by_cases hi : i ≤ K
    · rw [if_pos hi, decide_eq_true (by omega), Bool.true_and]
    · rw [if_neg hi, decide_eq_false (by omega), testBit_big hc (by omega)]; rfl

end Verif.Display
