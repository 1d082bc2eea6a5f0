import Verif.Str.Lemmas
/-!
# Properties C10, C11, C12, C13, C16 of the text helpers
-/
set_option linter.unusedSimpArgs false
namespace Verif.Str

/-! ## C10 word helpers -/

/-- The words of a text exist and are unique (so the statements below speak about *the* words). -/
theorem C10_words_exist_unique (s : Text) : ∃ ws, Words s ws ∧ ∀ ws', Words s ws' → ws' = ws := by
  obtain ⟨ws, h⟩ := words_exists s
  exact ⟨ws, h, fun _ h' => h'.unique h⟩

/-- Skipping k words leaves exactly the remaining words, and what stands at that position (after
blanks) is the k-th word, followed by a boundary. -/
theorem C10_skip_words {s : Text} {ws : List Text} (h : Words s ws) (k : Nat) :
    Words (shift k s) (ws.drop k) ∧
    (∀ hk : k < ws.length, ∃ r, skipSpace (shift k s) = ws[k] ++ r ∧ AtBoundary r ∧
        wordAt (skipSpace (shift k s)) = ws[k] ∧ skipWord (shift k s) = r) ∧
    (ws.length ≤ k → skipSpace (shift k s) = []) := by
  have hk := shift_words h k
  refine ⟨hk, ?_, ?_⟩
  · intro hlt
    rw [List.drop_eq_getElem_cons hlt] at hk
    obtain ⟨hw, r, h1, h2, h3⟩ := hk.at_space
    refine ⟨r, h1, h2, ?_, ?_⟩
    · rw [h1, wordAt_word hw.2 h2]
    · rw [skipWord, h1, skipNonBlank_word hw.2 h2]
  · intro hle
    rw [List.drop_eq_nil_of_le hle] at hk
    exact hk.space_nil

example : ∃ ws, Words [32, 97, 98, 9, 32, 99] ws ∧ ws.length = 2 :=
  ⟨_, .cons (b := [32]) (w := [97, 98]) (s := [9, 32, 99]) (by simp [Blanks]) (by simp [IsWord])
    (Or.inr ⟨9, _, rfl, by simp⟩)
    (.cons (b := [9, 32]) (w := [99]) (s := []) (by simp [Blanks]) (by simp [IsWord]) (Or.inl rfl)
      (.none (by simp [Blanks]))), rfl⟩

/-- Counting words, on texts that do not end in a blank or tab: the number of words. -/
theorem C10_count_partial {s : Text} {ws : List Text} (h : Words s ws)
    (hend : ∀ c, s.getLast? = some c → c ≠ 32 ∧ c ≠ 9) : countWords s = ws.length := by
  rw [countWords_words h]
  cases hl : s.getLast? with
  | none => rfl
  | some c =>
    have : isBlank c = false := isBlank_false.2 (hend c hl)
    simp [this]

/-- What is missing from `C10_count_partial`: on a text that ends in a blank or tab the code counts
one word too many. -/
theorem C10_count_trailing_blank {s : Text} {ws : List Text} (h : Words s ws) {c : Nat}
    (hl : s.getLast? = some c) (hc : c = 32 ∨ c = 9) : countWords s = ws.length + 1 := by
  rw [countWords_words h, hl]
  simp [isBlank_iff.2 hc]

example : countWords [97, 32, 98] = 2 ∧ countWords [97, 32] = 2 := by decide

/-- `startswith` finds exactly the case-insensitive prefixes and returns what follows. -/
theorem C10_startswith (p x r : Text) :
    startswith p x = some r ↔ ∃ q, x = q ++ r ∧ SameCI q p := by
  fun_induction startswith p x
  · simp [SameCI, eq_comm]
  · rename_i c p
    constructor
    · simp
    · rintro ⟨q, h1, h2⟩
      have h0 := List.append_eq_nil_iff.1 h1.symm
      rw [h0.1] at h2
      simp [SameCI] at h2
  · rename_i p ps c cs h
    constructor
    · simp
    · rintro ⟨q, h1, h2⟩
      cases q with
      | nil => simp [SameCI] at h2
      | cons y q =>
        simp only [List.cons_append, List.cons.injEq] at h1
        simp only [SameCI, List.map_cons, List.cons.injEq] at h2
        exact absurd (h1.1 ▸ h2.1) h
  · rename_i p ps c cs h ih
    have h : toLower c = toLower p := by simpa using h
    rw [ih]
    constructor
    · rintro ⟨q, h1, h2⟩
      exact ⟨c :: q, by simp [h1], by simp only [SameCI] at h2; simp [SameCI, h, h2]⟩
    · rintro ⟨q, h1, h2⟩
      cases q with
      | nil => simp [SameCI] at h2
      | cons y q =>
        simp only [List.cons_append, List.cons.injEq] at h1
        simp only [SameCI, List.map_cons, List.cons.injEq] at h2
        exact ⟨q, h1.2, h2.2⟩

example : startswith [70, 111] [102, 79, 49] = some [49] := by decide

theorem endsLoop_iff (p x : Text) (hl : p.length = x.length) : endsLoop p x = true ↔ SameCI x p := by
  induction p generalizing x with
  | nil =>
    have : x = [] := List.eq_nil_of_length_eq_zero (by simpa using hl.symm)
    simp [endsLoop, SameCI, this]
  | cons c p ih =>
    cases x with
    | nil => simp at hl
    | cons y x =>
      simp only [endsLoop]
      by_cases h : toLower y = toLower c
      · have := ih x (by simpa using hl)
        simp only [SameCI] at this
        simp [SameCI, h, this]
      · simp [SameCI, h]

/-- `endswith` finds exactly the case-insensitive suffixes. -/
theorem C10_endswith (p x : Text) : endswith p x = true ↔ ∃ a q, x = a ++ q ∧ SameCI q p := by
  unfold endswith
  by_cases h : x.length < p.length
  · rw [if_pos h]
    constructor
    · simp
    · rintro ⟨a, q, h1, h2⟩
      have h3 : q.length = p.length := by
        have := congrArg List.length h2
        simpa using this
      have h4 : x.length = a.length + q.length := by rw [h1, List.length_append]
      omega
  · rw [if_neg h, endsLoop_iff _ _ (by rw [List.length_drop]; omega)]
    constructor
    · intro hs
      exact ⟨x.take (x.length - p.length), _, (List.take_append_drop _ _).symm, hs⟩
    · rintro ⟨a, q, h1, h2⟩
      have h3 : q.length = p.length := by
        have := congrArg List.length h2
        simpa using this
      have h4 : x.length = a.length + q.length := by rw [h1, List.length_append]
      have h5 : x.length - p.length = a.length := by omega
      rw [h5, h1, List.drop_left]
      exact h2

example : endswith [46, 87, 65, 86] [97, 46, 119, 97, 118] = true := by decide

theorem firstLoop_iff (s w : Text) : firstLoop s w = true ↔ ∃ r, s = w ++ r ∧ AtBoundary r := by
  fun_induction firstLoop s w
  · simp [AtBoundary]
  · rename_i c t
    rw [isBlank_iff]
    simp [AtBoundary]
  · simp
  · rename_i c cs ws ih
    rw [ih]
    simp
  · rename_i c cs w ws h
    simp
    intro x e
    exact absurd e h

/-- `FirstWord(str, word)` says whether the first word of `str` is `word` (case-sensitive). -/
theorem C10_first_word {s : Text} {ws : List Text} (h : Words s ws) {w : Text} (hw : IsWord w) :
    firstWord s w = true ↔ ws.head? = some w := by
  rw [firstWord, firstLoop_iff]
  cases ws with
  | nil =>
    rw [h.space_nil]
    constructor
    · rintro ⟨r, h1, _⟩
      exact absurd (List.append_eq_nil_iff.1 h1.symm).1 hw.1
    · simp
  | cons w0 ws =>
    obtain ⟨hw0, r0, h1, h2, _⟩ := h.at_space
    rw [h1]
    simp only [List.head?_cons, Option.some.injEq]
    constructor
    · rintro ⟨r, h3, h4⟩
      rw [← wordAt_word hw0.2 h2, h3, wordAt_word hw.2 h4]
    · rintro rfl
      exact ⟨r0, rfl, h2⟩

example : firstWord [32, 97, 98, 32, 99] [97, 98] = true ∧ firstWord [97, 98, 99] [97, 98] = false := by decide

theorem toLower_slash {c : Nat} (h : toLower c = 47) : c = 47 := by
  unfold toLower at h
  split at h <;> omega

theorem toLower_zero {c : Nat} (h : toLower c = 0) : c = 0 := by
  unfold toLower at h
  split at h <;> omega

/-- `cmpdir` reports "same" exactly if the two paths are equal up to case, or one is the other
followed by `/` and anything. -/
theorem C10_cmpdir (a b : Text) (ha : 0 ∉ a) (hb : 0 ∉ b) :
    cmpdir a b = 0 ↔ SameCI a b ∨ (∃ q r, a = q ++ 47 :: r ∧ SameCI q b) ∨ (∃ q r, b = q ++ 47 :: r ∧ SameCI a q) := by
  fun_induction cmpdir a b
  · simp [SameCI]
  · rename_i t
    simp only [SameCI, true_iff]
    exact Or.inr (Or.inl ⟨[], t, rfl, rfl⟩)
  · rename_i c t h
    have hc : c ≠ 0 := by intro e; simp [e] at ha
    have hc' : toLower c ≠ 0 := fun e => hc (toLower_zero e)
    constructor
    · intro h0
      omega
    · rintro (h1 | ⟨q, r, h1, h2⟩ | ⟨q, r, h1, h2⟩)
      · simp [SameCI] at h1
      · simp [SameCI] at h2
        subst h2
        simp at h1
        exact absurd h1.1 h
      · simp at h1
  · rename_i t
    simp only [true_iff]
    exact Or.inr (Or.inr ⟨[], t, rfl, rfl⟩)
  · rename_i c t h
    have hc : c ≠ 0 := by intro e; simp [e] at hb
    have hc' : toLower c ≠ 0 := fun e => hc (toLower_zero e)
    constructor
    · intro h0
      omega
    · rintro (h1 | ⟨q, r, h1, h2⟩ | ⟨q, r, h1, h2⟩)
      · simp [SameCI] at h1
      · simp at h1
      · simp [SameCI] at h2
        subst h2
        simp at h1
        exact absurd h1.1 h
  · rename_i x xs y ys h ih
    rw [ih (fun e => ha (List.mem_cons_of_mem _ e)) (fun e => hb (List.mem_cons_of_mem _ e))]
    simp only [SameCI, List.map_cons, h, List.cons.injEq, true_and]
    apply or_congr Iff.rfl
    apply or_congr
    · constructor
      · rintro ⟨q, r, h1, h2⟩
        exact ⟨x :: q, r, by simp [h1], by simp [h, h2]⟩
      · rintro ⟨q, r, h1, h2⟩
        cases q with
        | nil => simp at h2
        | cons z q =>
          simp only [List.cons_append, List.cons.injEq] at h1
          simp only [List.map_cons, List.cons.injEq] at h2
          exact ⟨q, r, h1.2, h2.2⟩
    · constructor
      · rintro ⟨q, r, h1, h2⟩
        exact ⟨y :: q, r, by simp [h1], by simp [h, h2]⟩
      · rintro ⟨q, r, h1, h2⟩
        cases q with
        | nil => simp at h2
        | cons z q =>
          simp only [List.cons_append, List.cons.injEq] at h1
          simp only [List.map_cons, List.cons.injEq] at h2
          exact ⟨q, r, h1.2, h2.2⟩
  · rename_i x xs y ys h
    constructor
    · intro h0; omega
    · rintro (h1 | ⟨q, r, h1, h2⟩ | ⟨q, r, h1, h2⟩)
      · simp [SameCI] at h1
        exact absurd h1.1 h
      · cases q with
        | nil => simp [SameCI] at h2
        | cons z q =>
          simp only [List.cons_append, List.cons.injEq] at h1
          simp only [SameCI, List.map_cons, List.cons.injEq] at h2
          rw [h1.1] at h
          exact absurd h2.1 h
      · cases q with
        | nil => simp [SameCI] at h2
        | cons z q =>
          simp only [List.cons_append, List.cons.injEq] at h1
          simp only [SameCI, List.map_cons, List.cons.injEq] at h2
          rw [h1.1] at h
          exact absurd h2.1 h

example : cmpdir [102, 111] [70, 79, 47, 97] = 0 ∧ cmpdir [102] [102, 111] ≠ 0 := by decide

/-! ## C11 comparison -/

/-- case-folded text -/
def fold (a : Text) : Text := a.map toLower

/-- The case folding used by every text helper is the standard one: for each of the 256 byte values it
is the lower-case mapping of ASCII characters. -/
theorem C11_fold : ∀ c : Fin 256, toLower c = (Char.ofNat c).toLower.toNat := by decide +kernel

/-- `cmp` decides the lexicographic order of the case-folded texts. -/
theorem C11_cmp (a b : Text) :
    (cmp a b < 0 ↔ fold a < fold b) ∧ (cmp a b = 0 ↔ fold a = fold b) ∧ (cmp a b > 0 ↔ fold b < fold a) := by
  refine ⟨cmp_neg_iff a b, cmp_zero_iff a b, ?_⟩
  have h1 := cmp_neg_iff b a
  rw [cmp_swap a b] at h1
  unfold fold
  rw [← h1]
  constructor <;> intro h <;> omega

/-- The comparison is a total preorder: reflexive, antisymmetric up to case, transitive, total. -/
theorem C11_preorder :
    (∀ a, cmp a a ≤ 0) ∧
    (∀ a b, cmp a b ≤ 0 → cmp b a ≤ 0 → fold a = fold b) ∧
    (∀ a b c, cmp a b ≤ 0 → cmp b c ≤ 0 → cmp a c ≤ 0) ∧
    (∀ a b, cmp a b ≤ 0 ∨ cmp b a ≤ 0) := by
  have hle : ∀ a b, cmp a b ≤ 0 ↔ fold a ≤ fold b := by
    intro a b
    have := (C11_cmp a b).2.2
    rw [← List.not_lt, ← this]
    omega
  refine ⟨?_, ?_, ?_, ?_⟩
  · intro a; rw [hle]; exact List.le_refl _
  · intro a b h1 h2
    rw [hle] at h1 h2
    exact List.le_antisymm h1 h2
  · intro a b c h1 h2
    rw [hle] at h1 h2 ⊢
    exact List.le_trans h1 h2
  · intro a b
    rw [hle, hle]
    exact List.le_total _ _

/-- Five of the six `StringPiece` operators, and all of those of `Line`, agree with the order.
Missing: `operator>=` of `StringPiece`, see `C11_ge_counterexample`. -/
theorem C11_operators_partial (a b : Text) :
    (opLt a b = true ↔ fold a < fold b) ∧ (opGt a b = true ↔ fold b < fold a) ∧
    (opLe a b = true ↔ fold a ≤ fold b) ∧ (opEq a b = true ↔ fold a = fold b) ∧
    (opNe a b = true ↔ fold a ≠ fold b) ∧ (lineGe a b = true ↔ fold b ≤ fold a) := by
  obtain ⟨h1, h2, h3⟩ := C11_cmp a b
  refine ⟨?_, ?_, ?_, ?_, ?_, ?_⟩
  · simpa [opLt] using h1
  · simpa [opGt] using h3
  · rw [← List.not_lt, ← h3]; simp [opLe]
  · simpa [opEq] using h2
  · rw [Ne, ← h2]; simp [opNe]
  · rw [← List.not_lt, ← h1]; simp [lineGe]

/-- `StringPiece::operator>=` is wrong: it claims "a" >= "b" and denies "b" >= "a"; it is `<=`. -/
theorem C11_ge_counterexample :
    ¬ (∀ a b, opGe a b = true ↔ fold b ≤ fold a) ∧ opGe [97] [98] = true ∧ opGe [98] [97] = false ∧ ∀ a b, opGe a b = opLe a b := by
  refine ⟨fun h => ?_, by decide, by decide, fun _ _ => rfl⟩
  exact absurd ((h [97] [98]).1 (by decide)) (by decide)

example : opLt [65, 98] [97, 67] = true := by decide

/-! ## C12 patterns -/

/-- Building a text from a pattern and recognising it with the same pattern gives back the value. -/
theorem C12_roundtrip (p v : Text) (hs : stars p ≠ 0) (hv : v ≠ []) :
    matchPattern p (formatPattern p v) = some (some v) := by
  have hl := formatPattern_length p v
  have hle := stars_le p
  have hd : ((formatPattern p v).length : Int) - ((p.length : Int) - stars p) = ((stars p * v.length : Nat) : Int) := by
    omega
  have hp : 0 < stars p := Nat.pos_of_ne_zero hs
  unfold matchPattern
  simp only [hd]
  rw [if_neg (by omega), if_neg hs, Int.toNat_natCast, Nat.mul_mod_right, if_neg (by simp),
    Nat.mul_div_cancel_left _ hp, matchLoop_format hv p [] (Or.inl rfl), if_neg hs]

example : matchPattern [42, 59, 42, 47, 120] (formatPattern [42, 59, 42, 47, 120] [97, 98]) = some (some [97, 98]) := by
  decide

/-- Whatever the matcher recognises is what the pattern generates from the value found, up to case;
with a single `*` it is exactly that. -/
theorem C12_sound (p x v : Text) (h : matchPattern p x = some (some v)) (hv : v ≠ []) :
    SameCI (formatPattern p v) x ∧ (stars p = 1 → formatPattern p v = x) := by
  unfold matchPattern at h
  simp only at h
  split at h
  · simp at h
  · rename_i hneg
    split at h
    · simp at h
    · rename_i hs
      split at h
      · simp at h
      · rename_i hm
        simp only [Option.some.injEq] at h
        have hle := stars_le p
        generalize hL : ((x.length : Int) - ((p.length : Int) - stars p)).toNat = L at h hm
        have hm : L % stars p = 0 := by simpa using hm
        have hdm := Nat.div_add_mod L (stars p)
        rw [hm, Nat.add_zero] at hdm
        have hxl : x.length + stars p = p.length + stars p * (L / stars p) := by omega
        by_cases hk : 0 < L / stars p
        · obtain ⟨_, _, h3, h4⟩ := matchLoop_sound hk p x [] v hxl (Or.inl rfl) h
          exact ⟨h3, fun h1 => h4 (Or.inr ⟨h1, rfl⟩)⟩
        · exfalso
          have hk0 : L / stars p = 0 := Nat.eq_zero_of_not_pos hk
          rw [hk0] at h
          have : ∀ q y ret z, ret = [] → matchLoop 0 q y ret = some z → z = [] := by
            intro q
            induction q with
            | nil => intro y ret z hr h; simp only [matchLoop, Option.some.injEq] at h; rw [← h]; exact hr
            | cons c q ih =>
              intro y ret z hr h
              simp only [matchLoop] at h
              by_cases hc : c = 42
              · rw [if_pos hc, if_pos hr] at h
                exact ih _ _ _ (by simp) h
              · rw [if_neg hc] at h
                cases y with
                | nil => simp at h
                | cons y0 y =>
                  simp only at h
                  split at h
                  · cases h
                  · exact ih _ _ _ hr h
          exact hv (this _ _ _ _ rfl h)

/-- The buffer `format_pattern` allocates is exactly large enough for the text and its terminator. -/
theorem C12_buffer_exact (p v : Text) (h : (formatPattern p v).length + 1 < 2^32) :
    formatBuffer p v = (formatPattern p v).length + 1 := by
  have hl := formatPattern_length p v
  have hle := stars_le p
  unfold formatBuffer
  have e : p.length + stars p * (v.length + 2^32 - 1) + 1 = ((formatPattern p v).length + 1) + 2^32 * stars p := by
    rw [show v.length + 2^32 - 1 = v.length + (2^32 - 1) by omega, Nat.mul_add]
    rw [Nat.mul_comm (stars p) (2^32 - 1), Nat.sub_mul]
    have : stars p ≤ 2^32 * stars p := Nat.le_mul_of_pos_left _ (by decide)
    omega
  rw [e, Nat.add_mul_mod_self_left, Nat.mod_eq_of_lt h]

example : formatBuffer [42, 120, 42] [] = 2 := by decide

/-- A pattern without `*` makes the matcher divide by zero (when the text is long enough). -/
theorem C12_no_star (p x : Text) (hs : stars p = 0) (hl : p.length ≤ x.length) : matchPattern p x = none := by
  unfold matchPattern
  simp only
  rw [if_neg (by omega), if_pos hs]

/-! ## C13 argument parser -/

/-- Argument n ≥ 1: the pointer returned points at the n-th word if there is one that does not start
with `~`; otherwise the default is returned. -/
theorem C13_get {s : Text} {ws : List Text} (h : Words s ws) (n : Nat) (d : Text) :
    (∀ w, ws[n]? = some w → w.head? ≠ some 126 →
      ∃ r, getArgPtr s (n + 1) d = w ++ r ∧ AtBoundary r ∧ wordAt (getArgPtr s (n + 1) d) = w) ∧
    (∀ w, ws[n]? = some w → w.head? = some 126 → getArgPtr s (n + 1) d = d) ∧
    (ws[n]? = none → getArgPtr s (n + 1) d = d) := by
  have hlen := h.length_le
  have key := getArgLoop_words h ((n : Int) + 1) (s.length + 1) 0 (by omega) (by omega)
  have e : ((n : Int) + 1 - 0 - 1).toNat = n := by omega
  rw [e] at key
  unfold getArgPtr
  rcases key with ⟨w, r, h1, h2, h3, h4⟩ | ⟨h1, h3⟩
  · rw [h3]
    refine ⟨?_, ?_, ?_⟩
    · intro w' hw' _
      rw [h1] at hw'
      cases hw'
      refine ⟨r, rfl, h4, ?_⟩
      have := h.all_words w (List.mem_of_getElem? h1)
      exact wordAt_word this.2 h4
    · intro w' hw' ht
      rw [h1] at hw'
      cases hw'
      exact absurd ht h2
    · intro hn; rw [h1] at hn; cases hn
  · rw [h3]
    refine ⟨?_, fun _ _ _ => rfl, fun _ => rfl⟩
    intro w hw ht
    rcases h1 with h1 | ⟨w', h1, h1'⟩
    · rw [h1] at hw; cases hw
    · rw [h1] at hw; cases hw; exact absurd h1' ht

/-- Argument numbers below 1 always give the default. -/
theorem C13_get_nonpos (s d : Text) (n : Int) (hn : n ≤ 0) : getArgPtr s n d = d := by
  unfold getArgPtr
  rw [getArgLoop_nonpos _ _ _ hn]
  rfl

/-- Shifting by k renumbers the arguments: argument n afterwards is argument n + k before. -/
theorem C13_shift (s : Text) (k n : Nat) (d : Text) :
    wordAt (getArgPtr (shift k s) (n + 1) d) = wordAt (getArgPtr s ((n + k : Nat) + 1) d) := by
  obtain ⟨ws, h⟩ := words_exists s
  have hk := shift_words h k
  obtain ⟨a1, a2, a3⟩ := C13_get hk n d
  obtain ⟨b1, b2, b3⟩ := C13_get h (n + k) d
  rw [List.getElem?_drop, Nat.add_comm k n] at a1 a2 a3
  cases hc : ws[n + k]? with
  | none => rw [a3 hc, b3 hc]
  | some w =>
    by_cases ht : w.head? = some 126
    · rw [a2 w hc ht, b2 w hc ht]
    · obtain ⟨_, _, _, e1⟩ := a1 w hc ht
      obtain ⟨_, _, _, e2⟩ := b1 w hc ht
      rw [e1, e2]

/-- A parser with default arguments: the word of the given arguments if present, else the word of
the defaults if present, else the default of the style. -/
theorem C13_wrapper {s defs : Text} {ws ds : List Text} (h : Words s ws) (h' : Words defs ds) (n : Nat) (d : Text)
    (hd : wordAt d = d) :
    wordAt (wrappedArgPtr s defs (n + 1) d) =
      (((ws[n]?).filter (fun w => w.head? ≠ some 126)).or ((ds[n]?).filter (fun w => w.head? ≠ some 126))).getD d := by
  have key : ∀ {s : Text} {ws : List Text}, Words s ws → ∀ d : Text,
      wordAt (getArgPtr s (n + 1) d) = ((ws[n]?).filter (fun w => w.head? ≠ some 126)).getD (wordAt d) := by
    intro s ws h d
    obtain ⟨a1, a2, a3⟩ := C13_get h n d
    cases hc : ws[n]? with
    | none => rw [a3 hc]; simp
    | some w =>
      by_cases ht : w.head? = some 126
      · rw [a2 w hc ht]; simp [Option.filter, ht]
      · obtain ⟨_, _, _, e1⟩ := a1 w hc ht
        rw [e1]; simp [Option.filter, ht]
  unfold wrappedArgPtr
  rw [key h, key h', hd]
  cases (ws[n]?).filter (fun w => w.head? ≠ some 126) <;> rfl

example : wordAt (getArgPtr [97, 32, 98, 99, 32, 126] 2 [120]) = [98, 99] ∧
    getArgPtr [97, 32, 98, 99, 32, 126] 3 [120] = [120] ∧
    getArgPtr [97, 32, 98, 99, 32, 126] 4 [120] = [120] := by decide

/-! ## C16 paths -/

/-- Appending a name puts exactly one separator between directory and name: the result is the
directory without one trailing separator if it had one, one separator, the name; an empty directory
gives just the name. -/
theorem C16_append {cap : Nat} {dir name p : Text} (h : pathAppend cap dir name = some p) :
    p.length < cap ∧ (dir = [] → p = name) ∧
    (dir ≠ [] → ∃ base, p = base ++ 47 :: name ∧ (dir = base ++ [47] ∨ (dir = base ∧ base.getLast? ≠ some 47))) := by
  unfold pathAppend at h
  generalize hj : (if dir ≠ [] ∧ dir.getLast? ≠ some 47 then dir ++ [47] else dir) ++ name = j at h
  unfold fits at h
  split at h
  · rename_i hl
    simp only [Option.some.injEq] at h
    rw [h] at hl
    rw [h] at hj
    replace h := hj
    refine ⟨hl, ?_, ?_⟩
    · intro hd
      subst hd
      simpa using h.symm
    · intro hd
      by_cases hs : dir.getLast? = some 47
      · refine ⟨dir.dropLast, ?_, Or.inl ?_⟩
        · rw [← h]
          simp only [hs, ne_eq, not_true_eq_false, and_false, if_false]
          conv => lhs; rw [← List.dropLast_concat_getLast hd]
          have : dir.getLast hd = 47 := by
            rw [List.getLast?_eq_some_getLast hd] at hs
            simpa using hs
          rw [this, List.append_assoc]
          rfl
        · have : dir.getLast hd = 47 := by
            rw [List.getLast?_eq_some_getLast hd] at hs
            simpa using hs
          rw [← this, List.dropLast_concat_getLast hd]
      · refine ⟨dir, ?_, Or.inr ⟨rfl, hs⟩⟩
        rw [← h]
        simp [hd, hs]
  · cases h

/-- `Append(name, ext)` is `Append(name.ext)`. -/
theorem C16_append_ext (cap : Nat) (dir name ext : Text) :
    pathAppendExt cap dir name ext = pathAppend cap dir (name ++ 46 :: ext) := by
  unfold pathAppendExt pathAppend
  congr 1
  simp [List.append_assoc]

/-- Appending fails (overflows the buffer) only when the joined path does not fit. -/
theorem C16_append_total {cap : Nat} {dir name : Text} (h : dir.length + 1 + name.length < cap) :
    ∃ p, pathAppend cap dir name = some p := by
  unfold pathAppend fits
  rw [if_pos]
  · exact ⟨_, rfl⟩
  · split <;> simp only [List.length_append, List.length_cons, List.length_nil] <;> omega

/-- Taking the directory part undoes appending a component: the path is the directory again (less a
trailing separator), and undoing it restores the joined path. -/
theorem C16_dirname_append {cap : Nat} {dir name p : Text} (h : pathAppend cap dir name = some p)
    (hd : dir ≠ []) (hn : 47 ∉ name) :
    ∃ base, (dir = base ∨ dir = base ++ [47]) ∧
      pathDirname p = (decide (base ≠ [] ∧ base ≠ [47]), base, some name) ∧ pathUndoDirname base name = p := by
  obtain ⟨base, h1, h2⟩ := (C16_append h).2.2 hd
  refine ⟨base, ?_, ?_, ?_⟩
  · rcases h2 with h2 | h2
    · exact Or.inr h2
    · exact Or.inl h2.1
  · unfold pathDirname
    rw [h1, lastSlash_append hn]
    simp only [List.take_left, pathIsRoot]
    rw [show base ++ 47 :: name = (base ++ [47]) ++ name by simp,
      show base.length + 1 = (base ++ [47]).length by simp, List.drop_left]
    congr 1
    rw [Bool.eq_iff_iff]
    simp
  · rw [h1]; rfl

/-- Taking the directory part of any path cuts it at its last separator and can be undone; it fails
exactly if there is none or the result is the root. -/
theorem C16_dirname (path : Text) :
    (47 ∉ path → pathDirname path = (false, path, none)) ∧
    (47 ∈ path → ∃ d n, path = d ++ 47 :: n ∧ 47 ∉ n ∧
      pathDirname path = (decide (d ≠ [] ∧ d ≠ [47]), d, some n) ∧ pathUndoDirname d n = path) := by
  constructor
  · intro h
    unfold pathDirname
    rw [lastSlash_none.2 h]
  · intro h
    cases hl : lastSlash path with
    | none => exact absurd h (lastSlash_none.1 hl)
    | some i =>
      obtain ⟨h1, h2⟩ := lastSlash_some hl
      refine ⟨_, _, h1, h2, ?_, h1.symm⟩
      unfold pathDirname
      rw [hl]
      simp only [pathIsRoot]
      congr 1
      rw [Bool.eq_iff_iff]
      simp

example : pathAppend 128 [97, 47] [98] = some [97, 47, 98] ∧ pathAppend 128 [97] [98] = some [97, 47, 98] ∧
    pathDirname [97, 47, 98] = (true, [97], some [98]) := by decide

end Verif.Str
