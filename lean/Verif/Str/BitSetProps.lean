import Verif.Str.BitSet
set_option linter.unusedSimpArgs false
/-!
# C14: the bit set behaves like a set of numbers
-/
namespace Verif.Str.BitSet

/-- The abstract value: a set of numbers below `size`, as a predicate. -/
abbrev NumSet := Nat → Prop

/-- the words represent the set `S` of numbers below `size` -/
structure Repr (size : Nat) (ws : Words) (S : NumSet) : Prop where
  len : ws.length = nelem size
  word : ∀ w ∈ ws, w < 2 ^ 32
  mem : ∀ i w, ws[i / 32]? = some w → (w.testBit (i % 32) = true ↔ S i)
  bound : ∀ i, S i → i < size

theorem shr5 (n : Nat) : n >>> 5 = n / 32 := Nat.shiftRight_eq_div_pow n 5
theorem and31 (n : Nat) : n &&& 31 = n % 32 := Nat.and_two_pow_sub_one_eq_mod n 5

theorem Repr.word_at {size ws S} (h : Repr size ws S) {i : Nat} (hi : i < 32 * nelem size) : ∃ w, ws[i / 32]? = some w := by
  have : i / 32 < ws.length := by rw [h.len]; omega
  exact ⟨_, List.getElem?_eq_getElem this⟩

theorem size_le (size : Nat) : size ≤ 32 * nelem size := by unfold nelem; omega

theorem and_bit (w k : Nat) : (w &&& (1 <<< k) != 0) = w.testBit k := by
  rw [Nat.one_shiftLeft]
  cases hk : w.testBit k
  · have : w &&& 2 ^ k = 0 := by
      apply Nat.eq_of_testBit_eq
      intro i
      rw [Nat.testBit_and, Nat.testBit_two_pow, Nat.zero_testBit]
      by_cases hi : k = i
      · rw [← hi, hk]; rfl
      · simp [hi]
    simp [this]
  · have : w &&& 2 ^ k ≠ 0 := by
      intro h
      have h' : (w &&& 2 ^ k).testBit k = false := by rw [h]; exact Nat.zero_testBit k
      rw [Nat.testBit_and, Nat.testBit_two_pow, hk] at h'
      simp at h'
    simp [this]

theorem get_repr {size ws S} (h : Repr size ws S) {i : Nat} (hi : i < 32 * nelem size) :
    ∃ b : Bool, get ws i = some b ∧ (b = true ↔ S i) := by
  obtain ⟨w, hw⟩ := h.word_at hi
  refine ⟨w.testBit (i % 32), ?_, h.mem i w hw⟩
  unfold get
  rw [shr5, hw, and31]
  simp only [and_bit]

theorem get_out {size ws S} (h : Repr size ws S) {i : Nat} (hi : 32 * nelem size ≤ i) : get ws i = none := by
  unfold get
  rw [shr5, List.getElem?_eq_none (by rw [h.len]; omega)]

theorem update_repr {size ws S} (h : Repr size ws S) {i : Nat} (hi : i < size) {w : Nat} (hw : ws[i / 32]? = some w)
    {w' : Nat} {S' : NumSet} (hlt : w' < 2 ^ 32)
    (hb : ∀ k, k < 32 → (w'.testBit k = true ↔ if k = i % 32 then S' i else w.testBit k = true))
    (hS : ∀ j, j ≠ i → (S' j ↔ S j)) : Repr size (List.set ws (i / 32) w') S' := by
  have hle := size_le size
  have hlen : i / 32 < ws.length := by rw [h.len]; omega
  refine ⟨by rw [List.length_set, h.len], ?_, ?_, ?_⟩
  · intro x hx
    rcases List.mem_or_eq_of_mem_set hx with hx | rfl
    · exact h.word x hx
    · exact hlt
  · intro j x hx
    rw [List.getElem?_set] at hx
    split at hx
    · rename_i hij
      cases hx
      rw [hb _ (Nat.mod_lt _ (by omega))]
      split
      · have : j = i := by omega
        rw [this]
      · rw [hS j (by rintro rfl; contradiction)]
        exact h.mem j w (by rw [← hij]; exact hw)
    · rename_i hij
      rw [hS j (by rintro rfl; exact hij rfl)]
      exact h.mem j x hx
  · intro j hj
    by_cases hji : j = i
    · omega
    · exact h.bound j ((hS j hji).1 hj)

/-- **C14** (constructor). -/
theorem C14_empty (size : Nat) : Repr size (empty size) (fun _ => False) := by
  refine ⟨by simp [empty], ?_, ?_, fun i hi => hi.elim⟩
  · intro w hw
    rw [List.eq_of_mem_replicate hw]; exact Nat.two_pow_pos 32
  · intro i w hw
    have := List.mem_of_getElem? hw
    rw [List.eq_of_mem_replicate this]
    simp

/-- **C14** (test). -/
theorem C14_get {size ws S} (h : Repr size ws S) {i : Nat} (hi : i < size) :
    (get ws i = some true ↔ S i) ∧ (get ws i = some false ↔ ¬ S i) := by
  obtain ⟨b, hb, hS⟩ := get_repr h (Nat.lt_of_lt_of_le hi (size_le size))
  rw [hb, ← hS]
  cases b <;> simp

/-- **C14** (set). -/
theorem C14_set {size ws S} (h : Repr size ws S) {i : Nat} (hi : i < size) :
    ∃ ws', set ws i = some ws' ∧ Repr size ws' (fun j => j = i ∨ S j) := by
  obtain ⟨w, hw⟩ := h.word_at (Nat.lt_of_lt_of_le hi (size_le size))
  refine ⟨List.set ws (i / 32) (w ||| 1 <<< (i % 32)), by unfold set; rw [shr5, hw, and31], ?_⟩
  have hwlt := h.word w (List.mem_of_getElem? hw)
  apply update_repr h hi hw
  · apply Nat.or_lt_two_pow hwlt
    rw [Nat.one_shiftLeft]
    exact Nat.pow_lt_pow_right (by omega) (Nat.mod_lt _ (by omega))
  · intro k _
    rw [Nat.testBit_or, Nat.one_shiftLeft, Nat.testBit_two_pow]
    split
    · rename_i hk; simp [hk]
    · rename_i hk
      have : ¬ i % 32 = k := fun h => hk h.symm
      simp [this]
  · intro j hj; simp [hj]

/-- **C14** (clear one). -/
theorem C14_clear {size ws S} (h : Repr size ws S) {i : Nat} (hi : i < size) :
    ∃ ws', clear ws i = some ws' ∧ Repr size ws' (fun j => j ≠ i ∧ S j) := by
  obtain ⟨w, hw⟩ := h.word_at (Nat.lt_of_lt_of_le hi (size_le size))
  refine ⟨List.set ws (i / 32) (w &&& ((2 ^ 32 - 1) ^^^ 1 <<< (i % 32))), by unfold clear; rw [shr5, hw, and31], ?_⟩
  have hwlt := h.word w (List.mem_of_getElem? hw)
  apply update_repr h hi hw
  · exact Nat.lt_of_le_of_lt Nat.and_le_left hwlt
  · intro k hk32
    rw [Nat.testBit_and, Nat.testBit_xor, Nat.one_shiftLeft, Nat.testBit_two_pow, Nat.testBit_two_pow_sub_one]
    split
    · rename_i hk; simp [hk]; intro _; omega
    · rename_i hk
      have : ¬ i % 32 = k := fun h => hk h.symm
      simp [this, hk32]
  · intro j hj; simp [hj]

/-! ### counting -/

theorem countP_range_add (p : Nat → Bool) (a b : Nat) :
    (List.range (a + b)).countP p = (List.range a).countP p + (List.range b).countP (fun i => p (a + i)) := by
  rw [List.range_add, List.countP_append, List.countP_map]
  rfl

theorem popcount_foldl (ws : Words) (p : Nat → Bool) :
    ∀ k c, (∀ i w, ws[i / 32]? = some w → p (32 * k + i) = w.testBit (i % 32)) →
      ws.foldl (fun ret w => ret + popcount32 w) c = c + (List.range (32 * ws.length)).countP (fun i => p (32 * k + i)) := by
  induction ws with
  | nil => intro k c _; simp
  | cons w t ih =>
    intro k c h
    rw [List.foldl_cons, ih (k + 1)]
    · rw [List.length_cons, show 32 * (t.length + 1) = 32 + 32 * t.length by omega, countP_range_add]
      have e1 : popcount32 w = (List.range 32).countP (fun i => p (32 * k + i)) := by
        unfold popcount32
        apply List.countP_congr
        intro i hi
        have hi : i < 32 := by simpa using hi
        have := h i w (by rw [Nat.div_eq_of_lt hi]; rfl)
        rw [this, Nat.mod_eq_of_lt hi]
      have e2 : (List.range (32 * t.length)).countP (fun i => p (32 * (k + 1) + i)) =
          (List.range (32 * t.length)).countP (fun i => p (32 * k + (32 + i))) := by
        apply List.countP_congr
        intro i _
        rw [show 32 * (k + 1) + i = 32 * k + (32 + i) by omega]
      rw [e1, e2]
      omega
    · intro i x hx
      have := h (32 + i) x (by rw [show (32 + i) / 32 = i / 32 + 1 by omega]; exact hx)
      rw [show 32 * (k + 1) + i = 32 * k + (32 + i) by omega, this]
      congr 1
      omega

/-- **C14** (count): the number of elements. -/
theorem C14_popcount {size ws S} [DecidablePred S] (h : Repr size ws S) :
    popcount ws = (List.range size).countP (fun i => decide (S i)) := by
  have hle := size_le size
  unfold popcount
  rw [popcount_foldl ws (fun i => decide (S i)) 0 0]
  · simp only [Nat.mul_zero, Nat.zero_add]
    rw [h.len, show 32 * nelem size = size + (32 * nelem size - size) by omega, countP_range_add]
    have : (List.range (32 * nelem size - size)).countP (fun i => decide (S (size + i))) = 0 := by
      rw [List.countP_eq_zero]
      intro i _
      simp only [decide_eq_true_eq]
      intro hs
      have := h.bound _ hs
      omega
    omega
  · intro i w hw
    have := h.mem i w hw
    rw [Nat.mul_zero, Nat.zero_add]
    by_cases hs : S i
    · rw [this.2 hs]; simpa using hs
    · have : ¬ w.testBit (i % 32) = true := fun hb => hs (this.1 hb)
      simp [hs, this]

/-! ### next and previous -/

theorem nextLoop_spec {size ws S} (h : Repr size ws S) (h0 : 0 < size) (bit : Nat) :
    ∀ f i, (∃ k, i ≤ k ∧ k < i + f ∧ S ((bit + k) % size) ∧ nextLoop size ws bit i f = some ((bit + k) % size) ∧
        ∀ m, i ≤ m → m < k → ¬ S ((bit + m) % size)) ∨
      (nextLoop size ws bit i f = some bit ∧ ∀ m, i ≤ m → m < i + f → ¬ S ((bit + m) % size)) := by
  intro f
  induction f with
  | zero => intro i; right; exact ⟨rfl, fun m h1 h2 => by omega⟩
  | succ f ih =>
    intro i
    have hlt : (bit + i) % size < size := Nat.mod_lt _ h0
    have hg := C14_get h hlt
    unfold nextLoop
    by_cases hs : S ((bit + i) % size)
    · rw [hg.1.2 hs]
      left
      exact ⟨i, Nat.le_refl _, by omega, hs, rfl, fun m h1 h2 => by omega⟩
    · rw [hg.2.2 hs]
      simp only
      rcases ih (i + 1) with ⟨k, h1, h2, h3, h4, h5⟩ | ⟨h1, h2⟩
      · left
        refine ⟨k, by omega, by omega, h3, h4, ?_⟩
        intro m hm1 hm2
        by_cases hmi : m = i
        · rw [hmi]; exact hs
        · exact h5 m (by omega) hm2
      · right
        refine ⟨h1, ?_⟩
        intro m hm1 hm2
        by_cases hmi : m = i
        · rw [hmi]; exact hs
        · exact h2 m (by omega) (by omega)

theorem mod_reach {size bit x : Nat} (hb : bit < size) (hx : x < size) : ∃ k, 1 ≤ k ∧ k < 1 + size ∧ (bit + k) % size = x := by
  by_cases h : bit < x
  · exact ⟨x - bit, by omega, by omega, by rw [show bit + (x - bit) = x by omega]; exact Nat.mod_eq_of_lt hx⟩
  · refine ⟨size + x - bit, by omega, by omega, ?_⟩
    rw [show bit + (size + x - bit) = x + size by omega, Nat.add_mod_right, Nat.mod_eq_of_lt hx]

/-- **C14** (next): the element met first when counting upwards from `bit`, wrapping around (so `bit`
itself comes last); `bit` if the set is empty. -/
theorem C14_next {size ws S} (h : Repr size ws S) {bit : Nat} (hb : bit < size) :
    (∃ k, 1 ≤ k ∧ k ≤ size ∧ next size ws bit = some ((bit + k) % size) ∧ S ((bit + k) % size) ∧
        ∀ m, 1 ≤ m → m < k → ¬ S ((bit + m) % size)) ∨
      (next size ws bit = some bit ∧ ∀ i, ¬ S i) := by
  rcases nextLoop_spec h (by omega) bit size 1 with ⟨k, h1, h2, h3, h4, h5⟩ | ⟨h1, h2⟩
  · left; exact ⟨k, h1, by omega, h4, h3, h5⟩
  · right
    refine ⟨h1, ?_⟩
    intro i hi
    obtain ⟨k, hk1, hk2, hk3⟩ := mod_reach hb (h.bound i hi)
    exact h2 k hk1 hk2 (by rw [hk3]; exact hi)

theorem prevLoop_spec {size ws S} (h : Repr size ws S) (h0 : 0 < size) (bit : Nat) :
    ∀ f i, (∃ k, i ≤ k ∧ k < i + f ∧ S ((bit + size - k) % size) ∧ prevLoop size ws bit i f = some ((bit + size - k) % size) ∧
        ∀ m, i ≤ m → m < k → ¬ S ((bit + size - m) % size)) ∨
      (prevLoop size ws bit i f = some bit ∧ ∀ m, i ≤ m → m < i + f → ¬ S ((bit + size - m) % size)) := by
  intro f
  induction f with
  | zero => intro i; right; exact ⟨rfl, fun m h1 h2 => by omega⟩
  | succ f ih =>
    intro i
    have hlt : (bit + size - i) % size < size := Nat.mod_lt _ h0
    have hg := C14_get h hlt
    unfold prevLoop
    by_cases hs : S ((bit + size - i) % size)
    · rw [hg.1.2 hs]
      left
      exact ⟨i, Nat.le_refl _, by omega, hs, rfl, fun m h1 h2 => by omega⟩
    · rw [hg.2.2 hs]
      simp only
      rcases ih (i + 1) with ⟨k, h1, h2, h3, h4, h5⟩ | ⟨h1, h2⟩
      · left
        refine ⟨k, by omega, by omega, h3, h4, ?_⟩
        intro m hm1 hm2
        by_cases hmi : m = i
        · rw [hmi]; exact hs
        · exact h5 m (by omega) hm2
      · right
        refine ⟨h1, ?_⟩
        intro m hm1 hm2
        by_cases hmi : m = i
        · rw [hmi]; exact hs
        · exact h2 m (by omega) (by omega)

theorem mod_reach_down {size bit x : Nat} (hb : bit < size) (hx : x < size) :
    ∃ k, 1 ≤ k ∧ k < 1 + size ∧ (bit + size - k) % size = x := by
  by_cases h : x < bit
  · refine ⟨bit - x, by omega, by omega, ?_⟩
    rw [show bit + size - (bit - x) = x + size by omega, Nat.add_mod_right, Nat.mod_eq_of_lt hx]
  · exact ⟨bit + size - x, by omega, by omega, by rw [show bit + size - (bit + size - x) = x by omega]; exact Nat.mod_eq_of_lt hx⟩

/-- **C14** (previous): the element met first when counting downwards from `bit`, wrapping around. -/
theorem C14_prev {size ws S} (h : Repr size ws S) {bit : Nat} (hb : bit < size) :
    (∃ k, 1 ≤ k ∧ k ≤ size ∧ prev size ws bit = some ((bit + size - k) % size) ∧ S ((bit + size - k) % size) ∧
        ∀ m, 1 ≤ m → m < k → ¬ S ((bit + size - m) % size)) ∨
      (prev size ws bit = some bit ∧ ∀ i, ¬ S i) := by
  rcases prevLoop_spec h (by omega) bit size 1 with ⟨k, h1, h2, h3, h4, h5⟩ | ⟨h1, h2⟩
  · left; exact ⟨k, h1, by omega, h4, h3, h5⟩
  · right
    refine ⟨h1, ?_⟩
    intro i hi
    obtain ⟨k, hk1, hk2, hk3⟩ := mod_reach_down hb (h.bound i hi)
    exact h2 k hk1 hk2 (by rw [hk3]; exact hi)

/-! ### the n-th element -/

theorem nthLoop_spec {size ws S} [DecidablePred S] (h : Repr size ws S) :
    ∀ f (n : Nat) i, i + f ≤ size + 1 → (∃ j, i ≤ j ∧ j < i + f ∧ j < size ∧ S j ∧
        (List.range' i (j - i)).countP (fun x => decide (S x)) = n) →
      ∃ j, i ≤ j ∧ j < size ∧ S j ∧ (List.range' i (j - i)).countP (fun x => decide (S x)) = n ∧ nthLoop ws n i f = some j := by
  intro f
  induction f with
  | zero => rintro n i _ ⟨j, h1, h2, _⟩; omega
  | succ f ih =>
    rintro n i hf ⟨j, h1, h2, h3, h4, h5⟩
    have hi : i < size := by omega
    have hg := C14_get h hi
    unfold nthLoop
    by_cases hs : S i
    · rw [hg.1.2 hs]
      simp only
      by_cases hn : n = 0
      · subst hn
        rw [if_pos (by omega)]
        refine ⟨i, Nat.le_refl _, hi, hs, by simp, rfl⟩
      · rw [if_neg (by omega)]
        have hij : i ≠ j := by
          rintro rfl
          simp at h5
          omega
        have e : ∀ j', i < j' → (List.range' i (j' - i)).countP (fun x => decide (S x)) =
            (List.range' (i + 1) (j' - (i + 1))).countP (fun x => decide (S x)) + 1 := by
          intro j' hj'
          rw [show j' - i = (j' - (i + 1)) + 1 by omega, List.range'_succ, List.countP_cons]
          simp [hs]
        have hcast : ((n : Int) - 1) = ((n - 1 : Nat) : Int) := by omega
        rw [hcast]
        have he := e j (by omega)
        obtain ⟨j', k1, k2, k3, k4, k5⟩ := ih (n - 1) (i + 1) (by omega) ⟨j, by omega, by omega, h3, h4, by omega⟩
        exact ⟨j', by omega, k2, k3, by rw [e j' (by omega)]; omega, k5⟩
    · rw [hg.2.2 hs]
      simp only
      have hij : i ≠ j := by rintro rfl; exact hs h4
      have e : ∀ j', i < j' → (List.range' i (j' - i)).countP (fun x => decide (S x)) =
          (List.range' (i + 1) (j' - (i + 1))).countP (fun x => decide (S x)) := by
        intro j' hj'
        rw [show j' - i = (j' - (i + 1)) + 1 by omega, List.range'_succ, List.countP_cons]
        simp [hs]
      have he := e j (by omega)
      obtain ⟨j', k1, k2, k3, k4, k5⟩ := ih n (i + 1) (by omega) ⟨j, by omega, by omega, h3, h4, by omega⟩
      exact ⟨j', by omega, k2, k3, by rw [e j' (by omega)]; omega, k5⟩

theorem exists_rank {p : Nat → Bool} :
    ∀ size n, n < (List.range size).countP p → ∃ j, j < size ∧ p j = true ∧ (List.range j).countP p = n := by
  intro size
  induction size with
  | zero => intro n h; simp at h
  | succ m ih =>
    intro n h
    rw [List.range_succ, List.countP_append] at h
    by_cases hn : n < (List.range m).countP p
    · obtain ⟨j, h1, h2, h3⟩ := ih n hn
      exact ⟨j, by omega, h2, h3⟩
    · by_cases hp : p m = true
      · simp [hp] at h
        exact ⟨m, by omega, hp, by omega⟩
      · simp [hp] at h
        omega

/-- **C14** (n-th element): for `n` below the number of elements, the element with exactly `n` smaller
ones. -/
theorem C14_nth {size ws S} [DecidablePred S] (h : Repr size ws S) {n : Nat} (hn : n < popcount ws) :
    ∃ j, nth size ws n = some j ∧ j < size ∧ S j ∧ (List.range j).countP (fun i => decide (S i)) = n := by
  rw [C14_popcount h] at hn
  obtain ⟨j, h1, h2, h3⟩ := exists_rank size n hn
  have h2 : S j := by simpa using h2
  obtain ⟨j', k1, k2, k3, k4, k5⟩ := nthLoop_spec h (size + 1) n 0 (by omega)
    ⟨j, by omega, by omega, h1, h2, by rw [← List.range_eq_range']; simpa using h3⟩
  exact ⟨j', k5, k2, k3, by rw [← List.range_eq_range'] at k4; simpa using k4⟩

theorem nthLoop_out {size ws S} [DecidablePred S] (h : Repr size ws S) (h32 : size % 32 = 0) :
    ∀ f (n : Nat) i, i + f = size + 1 → (List.range' i (size - i)).countP (fun x => decide (S x)) ≤ n → nthLoop ws n i f = none ∨ f = 0 := by
  intro f
  induction f with
  | zero => intro _ _ _ _; right; rfl
  | succ f ih =>
    intro n i hf hc
    left
    unfold nthLoop
    by_cases hi : i < size
    · have hg := C14_get h hi
      have e : (List.range' i (size - i)).countP (fun x => decide (S x)) =
            (List.range' (i + 1) (size - (i + 1))).countP (fun x => decide (S x)) + if S i then 1 else 0 := by
        rw [show size - i = (size - (i + 1)) + 1 by omega, List.range'_succ, List.countP_cons]
        simp
      by_cases hs : S i
      · rw [hg.1.2 hs]
        simp only [hs, if_true] at e ⊢
        rw [if_neg (by omega), show ((n : Int) - 1) = ((n - 1 : Nat) : Int) by omega]
        rcases ih (n - 1) (i + 1) (by omega) (by omega) with h | h
        · exact h
        · omega
      · rw [hg.2.2 hs]
        simp only [hs, if_false] at e ⊢
        rcases ih n (i + 1) (by omega) (by omega) with h | h
        · exact h
        · omega
    · rw [get_out h (by unfold nelem; omega)]

/-- The other side of `nth`: the loop runs one too far, so when the size is a multiple of 32 (as in
ArgInfo's 128) and there is no such element, it reads outside the array. -/
theorem C14_nth_out_of_bounds {size ws S} [DecidablePred S] (h : Repr size ws S) (h32 : size % 32 = 0) {n : Nat}
    (hn : popcount ws ≤ n) : nth size ws n = none := by
  rw [C14_popcount h] at hn
  rcases nthLoop_out h h32 (size + 1) n 0 (by omega) (by rw [← List.range_eq_range']; simpa using hn) with h | h
  · exact h
  · omega

/-! ### shifting -/

theorem shiftLoop_spec {size bits : Nat} {S : NumSet} (hS : ∀ i, S i → i < size) (hb : 0 < bits) :
    ∀ f ws i, i + f = size → Repr size ws (fun j => if j < i then S (j + bits) else S j) →
      ∃ ws', shiftLoop size bits ws i f = some ws' ∧ Repr size ws' (fun j => S (j + bits)) := by
  intro f
  induction f with
  | zero =>
    intro ws i hi h
    refine ⟨ws, rfl, ?_⟩
    refine ⟨h.len, h.word, ?_, fun j hj => by have := hS _ hj; omega⟩
    intro j w hw
    rw [h.mem j w hw]
    split
    · rfl
    · constructor
      · intro hj; have := hS _ hj; omega
      · intro hj; have := hS _ hj; omega
  | succ f ih =>
    intro ws i hi h
    have hi' : i < size := by omega
    -- the two possible writes
    have step : ∀ ws', (Repr size ws' (fun j => j = i ∨ if j < i then S (j + bits) else S j) ∧ S (i + bits)) ∨
        (Repr size ws' (fun j => j ≠ i ∧ if j < i then S (j + bits) else S j) ∧ ¬ S (i + bits)) →
        Repr size ws' (fun j => if j < i + 1 then S (j + bits) else S j) := by
      rintro ws' (⟨h', hs⟩ | ⟨h', hs⟩)
      · refine ⟨h'.len, h'.word, ?_, ?_⟩
        · intro j w hw
          rw [h'.mem j w hw]
          by_cases hji : j = i
          · subst hji; simp [hs]
          · by_cases hlt : j < i
            · simp [hji, hlt, show j < i + 1 by omega]
            · simp [hji, hlt, show ¬ j < i + 1 by omega]
        · intro j hj
          split at hj
          · omega
          · exact hS j hj
      · refine ⟨h'.len, h'.word, ?_, ?_⟩
        · intro j w hw
          rw [h'.mem j w hw]
          by_cases hji : j = i
          · subst hji; simp [hs]
          · by_cases hlt : j < i
            · simp [hji, hlt, show j < i + 1 by omega]
            · simp [hji, hlt, show ¬ j < i + 1 by omega]
        · intro j hj
          split at hj
          · omega
          · exact hS j hj
    unfold shiftLoop
    obtain ⟨wc, hc1, hc2⟩ := C14_clear h hi'
    obtain ⟨wo, ho1, ho2⟩ := C14_set h hi'
    split
    · rename_i hlt
      have hg := C14_get h hlt
      rw [if_neg (by omega)] at hg
      by_cases hs : S (i + bits)
      · rw [hg.1.2 hs]
        simp only
        rw [ho1, Option.bind_some]
        exact ih wo (i + 1) (by omega) (step wo (Or.inl ⟨ho2, hs⟩))
      · rw [hg.2.2 hs]
        simp only
        rw [hc1, Option.bind_some]
        exact ih wc (i + 1) (by omega) (step wc (Or.inr ⟨hc2, hs⟩))
    · rename_i hge
      rw [hc1, Option.bind_some]
      exact ih wc (i + 1) (by omega) (step wc (Or.inr ⟨hc2, fun hs => by have := hS _ hs; omega⟩))

/-- **C14** (shift): every element moves down by `bits`, the elements below `bits` disappear. -/
theorem C14_shift {size ws S} (h : Repr size ws S) (bits : Nat) :
    ∃ ws', shiftRight size ws bits = some ws' ∧ Repr size ws' (fun j => S (j + bits)) := by
  unfold shiftRight
  split
  · rename_i h0
    subst h0
    exact ⟨ws, rfl, h⟩
  · apply shiftLoop_spec h.bound (by omega) size ws 0 (by omega)
    simpa using h

/-! ### whole histories -/

/-- operations that change the set -/
inductive Op where
  | set (i : Nat) | clear (i : Nat) | clearAll | shift (k : Nat)

/-- the code -/
def Op.run (size : Nat) : Op → Words → Option Words
  | .set i, ws => BitSet.set ws i
  | .clear i, ws => BitSet.clear ws i
  | .clearAll, _ => some (empty size)
  | .shift k, ws => shiftRight size ws k

/-- the specification -/
def Op.spec : Op → NumSet → NumSet
  | .set i, S => fun j => j = i ∨ S j
  | .clear i, S => fun j => j ≠ i ∧ S j
  | .clearAll, _ => fun _ => False
  | .shift k, S => fun j => S (j + k)

/-- arguments in range -/
def Op.ok (size : Nat) : Op → Prop
  | .set i | .clear i => i < size
  | _ => True

/-- **C14** (histories).  Every sequence of operations with indexes in range runs without leaving the
array and ends in words that represent the set computed by the specification. -/
theorem C14_history (size : Nat) (ops : List Op) (hok : ∀ o ∈ ops, o.ok size) :
    ∃ ws, ops.foldlM (fun ws o => o.run size ws) (empty size) = some ws ∧
      Repr size ws (ops.foldl (fun S o => o.spec S) (fun _ => False)) := by
  have key : ∀ (ops : List Op) ws S, (∀ o ∈ ops, o.ok size) → Repr size ws S →
      ∃ ws', ops.foldlM (fun ws o => o.run size ws) ws = some ws' ∧ Repr size ws' (ops.foldl (fun S o => o.spec S) S) := by
    intro ops
    induction ops with
    | nil => intro ws S _ h; exact ⟨ws, rfl, h⟩
    | cons o os ih =>
      intro ws S hok h
      have ho := hok o (by simp)
      have hos : ∀ o ∈ os, o.ok size := fun o' h' => hok o' (by simp [h'])
      rw [List.foldlM_cons, List.foldl_cons]
      cases o with
      | set i =>
        obtain ⟨ws', h1, h2⟩ := C14_set h ho
        show ∃ ws'', (BitSet.set ws i).bind _ = some ws'' ∧ _
        rw [h1]
        exact ih ws' _ hos h2
      | clear i =>
        obtain ⟨ws', h1, h2⟩ := C14_clear h ho
        show ∃ ws'', (BitSet.clear ws i).bind _ = some ws'' ∧ _
        rw [h1]
        exact ih ws' _ hos h2
      | clearAll => exact ih (empty size) _ hos (C14_empty size)
      | shift k =>
        obtain ⟨ws', h1, h2⟩ := C14_shift h k
        show ∃ ws'', (shiftRight size ws k).bind _ = some ws'' ∧ _
        rw [h1]
        exact ih ws' _ hos h2
  exact key ops _ _ hok (C14_empty size)

/-- a concrete history on 40 bits: {3, 35, 39} shifted by 3 is {0, 32, 36} -/
example : ∃ ws, ([.set 3, .set 35, .set 39, .set 7, .clear 7, .shift 3] : List Op).foldlM (fun ws o => o.run 40 ws) (empty 40) = some ws ∧
    ws = [1, 17] ∧ popcount ws = 3 ∧ next 40 ws 32 = some 36 ∧ prev 40 ws 0 = some 36 ∧ nth 40 ws 1 = some 32 := by
  refine ⟨[1, 17], by decide +kernel, rfl, by decide +kernel, by decide +kernel, by decide +kernel, by decide +kernel⟩

end Verif.Str.BitSet
