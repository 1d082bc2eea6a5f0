import Verif.Store.Text

set_option linter.unusedSimpArgs false
namespace Verif.Store

theorem escape_cons (c : Nat) (v : Text) : escape (c :: v) = escapeChar c ++ escape v := by
  simp [escape]

theorem readString_escape (v rest : Text) :
    readString (escape v ++ 10 :: rest) = (v, 10 :: rest) := by
  induction v with
  | nil => unfold readString; simp [escape]
  | cons c v ih =>
    rw [escape_cons]
    unfold escapeChar
    split
    · simp [readString, unescape, ih, *]
    split
    · simp [readString, unescape, ih, *]
    split
    · simp [readString, unescape, ih, *]
    · simp only [List.cons_append, List.nil_append]
      unfold readString; simp [ih, *]

theorem escape_no_newline (v : Text) : 10 ∉ escape v := by
  induction v with
  | nil => simp [escape]
  | cons c v ih =>
    rw [escape_cons, List.mem_append, not_or]
    refine ⟨?_, ih⟩
    unfold escapeChar
    repeat' split
    all_goals simp
    omega

theorem skipspace_dropWhile (t : Text) : skipspace t = t.dropWhile isBlank := by
  induction t with
  | nil => rfl
  | cons c t ih => simp only [skipspace, List.dropWhile_cons, ih]

theorem skipwhite_dropWhile (t : Text) : skipwhite t = t.dropWhile isWhite := by
  induction t with
  | nil => rfl
  | cons c t ih => simp only [skipwhite, List.dropWhile_cons, ih]

theorem skipspace_escape (v rest : Text) :
    skipspace (escape v ++ 10 :: rest) = escape (v.dropWhile (· == 32)) ++ 10 :: rest := by
  induction v with
  | nil => simp [escape, skipspace, isBlank]
  | cons c v ih =>
    by_cases hc : c = 32
    · subst hc
      rw [escape_cons]
      simp [escapeChar, skipspace, isBlank, ih]
    · rw [List.dropWhile_cons, if_neg (by simpa using hc), escape_cons]
      unfold escapeChar
      repeat' split
      all_goals simp [skipspace, isBlank, hc, *]

theorem skipline_append (a b : Text) (h : 10 ∉ a) : skipline (a ++ 10 :: b) = b := by
  induction a with
  | nil => simp [skipline]
  | cons c a ih =>
    simp at h
    simp [skipline, Ne.symm h.1, ih h.2]

theorem skipline_end (a : Text) (h : 10 ∉ a) : skipline a = [] := by
  induction a with
  | nil => rfl
  | cons c a ih =>
    simp at h
    simp [skipline, Ne.symm h.1, ih h.2]

theorem skipline_le (t : Text) : (skipline t).length ≤ t.length := by
  induction t with
  | nil => simp [skipline]
  | cons c t ih => unfold skipline; split <;> simp <;> omega

theorem skipline_lt (t : Text) (h : t ≠ []) : (skipline t).length < t.length := by
  cases t with
  | nil => exact absurd rfl h
  | cons c t => unfold skipline; have := skipline_le t; split <;> simp; omega

theorem skipwhite_le (t : Text) : (skipwhite t).length ≤ t.length := by
  induction t with
  | nil => simp [skipwhite]
  | cons c t ih => unfold skipwhite; split <;> simp; omega

theorem skipspace_le (t : Text) : (skipspace t).length ≤ t.length := by
  induction t with
  | nil => simp [skipspace]
  | cons c t ih => unfold skipspace; split <;> simp; omega

theorem readName_le (n : Nat) (t : Text) : (readName n t).2.length ≤ t.length := by
  fun_induction readName n t with
  | case1 => simp
  | case2 => simp
  | case3 n c t h r ih => simp [r]; omega
  | case4 => simp

theorem readVariable_le (t : Text) : (readVariable t).2.length ≤ t.length := by
  unfold readVariable
  have h1 := skipspace_le t
  have h2 := readName_le 32 (skipspace t)
  have h3 := skipspace_le (readName 32 (skipspace t)).2
  simp only; omega

theorem expect_le (s : List Nat) (t : Text) : (expect s t).2.length ≤ t.length := by
  fun_induction expect s t with
  | case1 => simp
  | case2 ss c t ih => simp; omega
  | case3 => simp
  | case4 => simp

theorem readFloatLoop_le (m s f t) : (readFloatLoop m s f t).2.2.length ≤ t.length := by
  fun_induction readFloatLoop m s f t <;> simp_all <;> omega

theorem readFloatValue_le (t : Text) : (readFloatValue t).2.length ≤ t.length := by
  unfold readFloatValue
  split
  · have := readFloatLoop_le 0 0 false (by assumption); simp; omega
  · exact readFloatLoop_le 0 0 false t

theorem readString_le (t : Text) : (readString t).2.length ≤ t.length := by
  fun_induction readString t with
  | case1 => simp
  | case2 => simp
  | case3 => simp
  | case4 d t' r h ih => simp [r]; omega
  | case5 c t h1 h2 r ih => simp [r]; omega

/-! ### Names -/

theorem readName_append (n : Nat) (name rest : Text) (hn : name.length ≤ n)
    (hc : ∀ c ∈ name, isNameChar (toLower c) = true)
    (hr : name.length = n ∨ ∀ c t, rest = c :: t → isNameChar (toLower c) = false) :
    readName n (name ++ rest) = (name.map toLower, rest) := by
  induction name generalizing n with
  | nil =>
    cases n with
    | zero => cases rest <;> simp [readName]
    | succ n =>
      cases rest with
      | nil => simp [readName]
      | cons c t =>
        rcases hr with hr | hr
        · simp at hr
        · simp [readName, hr c t rfl]
  | cons c name ih =>
    cases n with
    | zero => simp at hn
    | succ n =>
      simp only [List.cons_append, readName, hc c (by simp), if_true, List.map_cons]
      rw [ih n (by simpa using hn) (fun d hd => hc d (by simp [hd])) (by simpa using hr)]

theorem isNameChar_not_blank (c : Nat) (h : isNameChar (toLower c) = true) :
    isBlank c = false ∧ isWhite c = false ∧ c ≠ 35 ∧ c ≠ 61 ∧ c ≠ 10 ∧ c ≠ 0 := by
  unfold isNameChar toLower at h
  unfold isBlank isWhite
  split at h <;> simp at h ⊢ <;> omega

theorem skipspace_cons (c : Nat) (t : Text) (h : isBlank c = false) : skipspace (c :: t) = c :: t := by
  simp [skipspace, h]

theorem skipwhite_cons (c : Nat) (t : Text) (h : isWhite c = false) : skipwhite (c :: t) = c :: t := by
  simp [skipwhite, h]

theorem skipspace_append (b t : Text) (h : ∀ c ∈ b, isBlank c = true) : skipspace (b ++ t) = skipspace t := by
  induction b with
  | nil => rfl
  | cons c b ih =>
    simp only [List.cons_append, skipspace, h c (by simp), if_true]
    exact ih (fun d hd => h d (by simp [hd]))

theorem skipwhite_append (b t : Text) (h : ∀ c ∈ b, isWhite c = true) : skipwhite (b ++ t) = skipwhite t := by
  induction b with
  | nil => rfl
  | cons c b ih =>
    simp only [List.cons_append, skipwhite, h c (by simp), if_true]
    exact ih (fun d hd => h d (by simp [hd]))

/-- A name followed by blanks and a character that cannot continue it. -/
theorem readVariable_name (pre name post : Text) (d : Nat) (rest : Text)
    (hpre : ∀ c ∈ pre, isBlank c = true) (hlen : name.length ≤ 32)
    (hc : ∀ c ∈ name, isNameChar (toLower c) = true) (hpost : ∀ c ∈ post, isBlank c = true)
    (hd : isBlank d = false) (hd' : isNameChar (toLower d) = false ∨ (name.length = 32 ∧ post = []))
    (hne : name ≠ [] ∨ post = []) :
    readVariable (pre ++ (name ++ (post ++ d :: rest))) = (name.map toLower, d :: rest) := by
  have hnn : ∀ c, isBlank c = true → isNameChar (toLower c) = false := by
    intro c h
    unfold isBlank at h
    simp at h
    rcases h with rfl | rfl <;> decide
  unfold readVariable
  have h1 : skipspace (pre ++ (name ++ (post ++ d :: rest))) = name ++ (post ++ d :: rest) := by
    rw [skipspace_append _ _ hpre]
    cases name with
    | nil =>
      rcases hne with h | rfl
      · exact absurd rfl h
      · simp [skipspace_cons _ _ hd]
    | cons c n => exact skipspace_cons _ _ (isNameChar_not_blank c (hc c (by simp))).1
  rw [h1]
  have h2 : readName 32 (name ++ (post ++ d :: rest)) = (name.map toLower, post ++ d :: rest) := by
    apply readName_append _ _ _ hlen hc
    rcases hd' with hd' | hd'
    rotate_left
    · exact Or.inl hd'.1
    right
    intro c t e
    cases post with
    | nil => simp at e; rw [← e.1]; exact hd'
    | cons p ps => simp at e; rw [← e.1]; exact hnn p (hpost p (by simp))
  rw [h2]
  simp only
  rw [skipspace_append _ _ hpost, skipspace_cons _ _ hd]

/-! ### Numbers -/

theorem decimal_digits (n : Nat) : ∀ c ∈ decimal n, 48 ≤ c ∧ c ≤ 57 := by
  fun_induction decimal n with
  | case1 n h => simp; omega
  | case2 n h ih =>
    intro c hc
    simp at hc
    rcases hc with hc | hc
    · exact ih c hc
    · omega

theorem decimal_ne_nil (n : Nat) : decimal n ≠ [] := by
  unfold decimal; split <;> simp

theorem decimal_head (n : Nat) : ∃ c t, decimal n = c :: t ∧ 48 ≤ c ∧ c ≤ 57 := by
  cases h : decimal n with
  | nil => exact absurd h (decimal_ne_nil n)
  | cons c t => exact ⟨c, t, rfl, decimal_digits n c (by rw [h]; simp)⟩

theorem readDigits_decimal (n ret : Nat) (rest : Text) (k : Nat) (hk : k = (decimal n).length)
    (hb : ret * 10 ^ k + n < 2 ^ 63) :
    readDigits ret (decimal n ++ rest) = readDigits (ret * 10 ^ k + n) rest := by
  fun_induction decimal n generalizing ret rest k with
  | case1 n h =>
    simp at hk
    subst hk
    simp only [List.cons_append, List.nil_append, readDigits]
    rw [if_pos (by omega), if_pos (by omega)]
    congr 1; omega
  | case2 n h ih =>
    simp at hk
    have e : 10 ^ k = 10 ^ (decimal (n / 10)).length * 10 := by rw [hk, Nat.pow_succ]
    rw [List.append_assoc, ih ret _ _ rfl (by rw [e, ← Nat.mul_assoc] at hb; omega)]
    simp only [List.cons_append, List.nil_append, readDigits]
    rw [e, ← Nat.mul_assoc] at hb
    rw [if_pos (by omega), if_pos (by omega)]
    rw [e, ← Nat.mul_assoc]
    congr 1; omega

theorem readFloatLoop_decimal (n m s : Nat) (f : Bool) (rest : Text) (k : Nat) (hk : k = (decimal n).length) :
    readFloatLoop m s f (decimal n ++ rest) =
      readFloatLoop (m * 10 ^ k + n) (if f then s + k else s) f rest := by
  fun_induction decimal n generalizing m s rest k with
  | case1 n h =>
    simp at hk
    subst hk
    simp only [List.cons_append, List.nil_append, readFloatLoop]
    rw [if_pos (by omega)]
    have : 10 * m + (48 + n - 48) = m * 10 ^ 1 + n := by omega
    cases f
    · simp only [Bool.false_eq_true, if_false]; rw [this]
    · simp only [if_true]; rw [this]
  | case2 n h ih =>
    simp at hk
    have e : 10 ^ k = 10 ^ (decimal (n / 10)).length * 10 := by rw [hk, Nat.pow_succ]
    rw [List.append_assoc, ih m s _ _ rfl]
    simp only [List.cons_append, List.nil_append, readFloatLoop]
    rw [if_pos (by omega)]
    rw [e, ← Nat.mul_assoc]
    have : 10 * (m * 10 ^ (decimal (n / 10)).length + n / 10) + (48 + n % 10 - 48) =
      m * 10 ^ (decimal (n / 10)).length * 10 + n := by omega
    cases f
    · simp only [Bool.false_eq_true, if_false]; rw [this]
    · simp only [if_true]; rw [this]; congr 1; omega

end Verif.Store
