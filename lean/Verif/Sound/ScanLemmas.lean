import Verif.Sound.Scan
/-!
# Lemmas about scanning one file name
-/
set_option linter.unusedSimpArgs false
namespace Verif.Sound
open Verif.Str (Text toLower startswith endswith endsLoop SameCI)
open Verif.Store (decimal digitsVal decimal_digits decimal_ne_nil digitsVal_decimal)

/-! ## The family of files an effect may consist of (specification) -/

/-- a consistently named set of files -/
structure Family where
  name : Text
  ext : Ext
  layout : Pattern
  /-- numbers are written with at least this many digits -/
  width : Nat
  /-- the numbers are `lo, ..., lo + count - 1` -/
  lo : Nat
  count : Nat
  /-- there is a file without number -/
  unnumbered : Bool
  /-- number of sub files of each file, 0 if the files are not directories -/
  subs : Nat
  /-- number of alternatives, 0 if there are no such directories -/
  alts : Nat

/-- one of the files -/
structure File where
  alt : Nat
  item : Option Nat
  sub : Nat
deriving DecidableEq

/-- `n` in decimal, with zeros in front if it has less than `w` digits -/
def padded (w n : Nat) : Text := List.replicate (w - (decimal n).length) 48 ++ decimal n

def Family.items (F : Family) : List (Option Nat) := (List.range F.count).map (fun i => some (F.lo + i)) ++ (if F.unnumbered then [none] else [])

/-- all files of the family -/
def Family.files (F : Family) : List File :=
  (List.range (max 1 F.alts)).flatMap fun a => F.items.flatMap fun i => (List.range (max 1 F.subs)).map fun s => ⟨a, i, s⟩

/-- the name of a file, relative to the font directory: `hum01.wav`, `hum/hum1.wav`, `hum/1.wav`,
`hum/001/000.wav`, each possibly behind `alt000/` -/
def Family.fileName (F : Family) (f : File) : Text :=
  (if F.alts = 0 then [] else [97, 108, 116] ++ padded 3 f.alt ++ [47]) ++ F.name ++
  (match F.layout with
    | .subdirs => 47 :: F.name
    | .nonredundant => [47]
    | _ => []) ++
  (match f.item with
    | some n => padded F.width n
    | none => []) ++
  (if F.subs = 0 then [] else 47 :: padded 3 f.sub) ++ F.ext.text

/-- the first letters cannot be taken for an alternative directory -/
def NotAlt (name : Text) : Prop :=
  (∃ c, name[0]? = some c ∧ toLower c ≠ 97) ∨ (∃ c, name[1]? = some c ∧ toLower c ≠ 108) ∨ (∃ c, name[2]? = some c ∧ toLower c ≠ 116) ∨ (∃ c, name[3]? = some c ∧ 57 < c)

/-- what can be represented -/
structure Family.Ok (F : Family) : Prop where
  name : ∃ c t, F.name = c :: t ∧ 57 < c
  notAlt : F.alts = 0 → NotAlt F.name
  ext : F.ext ≠ .unknown
  layout : F.layout ≠ .unknown
  width : F.width ≤ 127
  lo : 0 < F.count → F.lo ≤ 127
  hi : F.lo + F.count ≤ 32768
  subs : F.subs ≤ 255
  subDirs : F.subs ≠ 0 → F.layout = .nonredundant
  unnumbered : F.layout = .nonredundant → F.unnumbered = false
  alts : F.alts ≤ 256
  total : F.files.length ≤ 32767

/-! ## Texts -/

theorem startswith_self (n r : Text) : startswith n (n ++ r) = some r := by
  induction n with
  | nil => cases r <;> rfl
  | cons c n ih => simp [startswith, ih]

theorem endswith_append (p x q : Text) (h : p.length = q.length) : endswith p (x ++ q) = endsLoop p q := by
  unfold endswith
  rw [if_neg (by simp; omega)]
  congr 1
  rw [List.length_append, h, Nat.add_sub_cancel, List.drop_left]

theorem identify_ext (x : Text) (E : Ext) (h : E ≠ .unknown) : identify (x ++ E.text) = E := by
  unfold identify
  cases E <;> first | exact absurd rfl h | skip
  all_goals
    rw [endswith_append _ _ _ (by rfl), endswith_append _ _ _ (by rfl), endswith_append _ _ _ (by rfl), endswith_append _ _ _ (by rfl), endswith_append _ _ _ (by rfl),
      endswith_append _ _ _ (by rfl), endswith_append _ _ _ (by rfl)]
    decide

theorem ext_head (E : Ext) : ∃ t, E.text = 46 :: t := by cases E <;> exact ⟨_, rfl⟩
theorem ext_length (E : Ext) (h : E ≠ .unknown) : E.text.length = 4 := by cases E <;> first | exact absurd rfl h | rfl

theorem dropWhile_head {p : Nat → Bool} {c : Nat} {t : Text} (h : p c = false) : (c :: t).dropWhile p = c :: t := by simp [List.dropWhile_cons, h]

theorem takeWhile_all {p : Nat → Bool} : ∀ {a b : Text}, (∀ c ∈ a, p c = true) → (∀ c t, b = c :: t → p c = false) → (a ++ b).takeWhile p = a ∧ (a ++ b).dropWhile p = b
  | [], b, _, hb => by
    cases b with
    | nil => exact ⟨rfl, rfl⟩
    | cons c t => simp [List.takeWhile_cons, List.dropWhile_cons, hb c t rfl]
  | x :: a, b, ha, hb => by
    have h1 := ha x List.mem_cons_self
    obtain ⟨h2, h3⟩ := takeWhile_all (a := a) (b := b) (fun c hc => ha c (List.mem_cons_of_mem _ hc)) hb
    simp [List.takeWhile_cons, List.dropWhile_cons, h1, h2, h3]

/-- `strtol` on digits followed by something else -/
theorem strtolEnd_digits {ds r : Text} (hne : ds ≠ []) (hd : ∀ c ∈ ds, 48 ≤ c ∧ c ≤ 57) (hr : ∀ c t, r = c :: t → c < 48) (hv : digitsVal 0 ds ≤ 2147483647) :
    strtolEnd (ds ++ r) = (((digitsVal 0 ds : Nat) : Int), r) := by
  cases ds with
  | nil => exact absurd rfl hne
  | cons c t =>
    have hc := hd c List.mem_cons_self
    have h1 : (c :: t ++ r).dropWhile isSpaceC = c :: t ++ r := dropWhile_head (by simp [isSpaceC]; omega)
    obtain ⟨h2, h3⟩ := takeWhile_all (p := isDec) (a := c :: t) (b := r) (fun x hx => by have := hd x hx; simp [isDec]; omega) (fun x u e => by have := hr x u e; simp [isDec]; omega)
    unfold strtolEnd
    rw [h1]
    have hm : skipSign (c :: t ++ r) = c :: t ++ r := by
      unfold skipSign
      simp only [List.cons_append]
      split
      · rename_i h; injection h with h; omega
      · rename_i h; injection h with h; omega
      · rfl
    simp only [hm]
    rw [h2, h3, if_neg (by simp)]
    have hh : (c :: t ++ r).head? ≠ some 45 := by simp; omega
    rw [if_neg hh]
    congr 1
    omega

theorem digitsVal_zeros (k acc : Nat) (t : Text) : digitsVal acc (List.replicate k 48 ++ t) = digitsVal (acc * 10 ^ k) t := by
  induction k generalizing acc with
  | zero => simp
  | succ k ih =>
    rw [List.replicate_succ, List.cons_append, digitsVal, if_pos (by decide), ih]
    congr 1
    rw [Nat.pow_succ]
    simp only [Nat.sub_self, Nat.add_zero]
    rw [Nat.mul_comm 10 acc, Nat.mul_assoc, Nat.mul_comm 10]

theorem padded_val (w n : Nat) : digitsVal 0 (padded w n) = n := by
  unfold padded
  rw [digitsVal_zeros, Nat.zero_mul, digitsVal_decimal]
  simp

theorem padded_digits (w n : Nat) : ∀ c ∈ padded w n, 48 ≤ c ∧ c ≤ 57 := by
  intro c hc
  unfold padded at hc
  rcases List.mem_append.mp hc with h | h
  · have := List.eq_of_mem_replicate h; omega
  · exact decimal_digits n c h

theorem padded_ne_nil (w n : Nat) : padded w n ≠ [] := by
  unfold padded
  intro h
  exact decimal_ne_nil n (List.append_eq_nil_iff.mp h).2

theorem padded_length (w n : Nat) : (padded w n).length = max w (decimal n).length := by
  unfold padded; simp; omega

theorem decimal_length_pos (n : Nat) : 0 < (decimal n).length := List.length_pos_iff.mpr (decimal_ne_nil n)

theorem decimal_short {n : Nat} (h : n < 1000) : (decimal n).length ≤ 3 := by
  unfold decimal
  split
  · simp
  · unfold decimal
    split
    · simp
    · unfold decimal
      split
      · simp
      · omega

theorem decimal_length_lt {n : Nat} : ∀ k, n < 10 ^ k → 0 < k → (decimal n).length ≤ k := by
  intro k
  induction k generalizing n with
  | zero => intro _ h; omega
  | succ k ih =>
    intro h _
    unfold decimal
    split
    · simp
    · rw [List.length_append, List.length_singleton]
      cases k with
      | zero => simp at h; omega
      | succ k =>
        have := ih (n := n / 10) (by rw [Nat.div_lt_iff_lt_mul (by decide), ← Nat.pow_succ]; exact h) (by omega)
        omega

theorem padded3_length {n : Nat} (h : n < 1000) : (padded 3 n).length = 3 := by
  rw [padded_length]; have := decimal_short h; omega

/-- a decimal number starts with zero only if it is zero -/
theorem decimal_head_zero (n : Nat) (h : (decimal n).head? = some 48) : n = 0 := by
  fun_induction decimal n with
  | case1 n h1 => simp at h; omega
  | case2 n h1 ih =>
    have hne : decimal (n / 10) ≠ [] := decimal_ne_nil _
    have h' : (decimal (n / 10)).head? = some 48 := by
      cases hd : decimal (n / 10) with
      | nil => exact absurd hd hne
      | cons c t => rw [hd] at h; simpa using h
    have := ih h'
    omega

theorem decimal_zero : decimal 0 = [48] := by unfold decimal; simp

/-- a padded number that starts with a zero has exactly `max w 1` digits -/
theorem padded_zero_length {w n : Nat} (h : (padded w n).head? = some 48) : (padded w n).length = max w 1 := by
  rw [padded_length]
  by_cases hk : w - (decimal n).length = 0
  · have e : padded w n = decimal n := by unfold padded; rw [hk]; rfl
    rw [e] at h
    have := decimal_head_zero n h
    subst this
    rw [decimal_zero] at *
    simp at *
  · have := decimal_length_pos n
    omega

/-- if it does not start with a zero, there is no padding -/
theorem padded_no_zero {w n : Nat} (h : (padded w n).head? ≠ some 48) : padded w n = decimal n := by
  unfold padded at *
  cases hk : w - (decimal n).length with
  | zero => rfl
  | succ k => rw [hk, List.replicate_succ] at h; simp at h

/-- three digits, spelled out -/
theorem three (l : Text) (h : l.length = 3) : ∃ a b c, l = [a, b, c] := by
  match l, h with
  | [a, b, c], _ => exact ⟨a, b, c, rfl⟩

/-! ## Alternatives -/

theorem altnum_alt {a : Nat} (ha : a < 1000) (r : Text) : altnum ([97, 108, 116] ++ padded 3 a ++ 47 :: r) = some (a : Int) ∧ ([97, 108, 116] ++ padded 3 a ++ 47 :: r).drop 7 = r := by
  obtain ⟨x, y, z, e⟩ := three _ (padded3_length ha)
  have hd := padded_digits 3 a
  have hv := padded_val 3 a
  rw [e] at hd hv
  have hx := hd x (by simp); have hy := hd y (by simp); have hz := hd z (by simp)
  rw [e]
  refine ⟨?_, rfl⟩
  have hs : startswith [97, 108, 116] ([97, 108, 116] ++ [x, y, z] ++ 47 :: r) = some ([x, y, z] ++ 47 :: r) := startswith_self [97, 108, 116] _
  have hst : strtolEnd ([x, y, z] ++ 47 :: r) = ((a : Int), 47 :: r) := by
    rw [strtolEnd_digits (r := 47 :: r) (by simp) hd (by intro c t h; injection h with h; omega) (by omega), hv]
  unfold altnum
  rw [hs]
  have c3 : charAt ([97, 108, 116] ++ [x, y, z] ++ 47 :: r) 3 = some x := by simp [charAt]
  have c4 : charAt ([97, 108, 116] ++ [x, y, z] ++ 47 :: r) 4 = some y := by simp [charAt]
  have c5 : charAt ([97, 108, 116] ++ [x, y, z] ++ 47 :: r) 5 = some z := by simp [charAt]
  have c6 : charAt ([97, 108, 116] ++ [x, y, z] ++ 47 :: r) 6 = some 47 := by simp [charAt]
  have d3 : ([97, 108, 116] ++ [x, y, z] ++ 47 :: r).drop 3 = [x, y, z] ++ 47 :: r := rfl
  simp only [c3, c4, c5, c6, d3, hst, Option.bind_eq_bind, Option.bind_some, poIsDigit]
  simp [hx.2, hy.2, hz.2]

theorem altnum_not {name : Text} (h : NotAlt name) (r : Text) : altnum (name ++ r) = some (-1) := by
  unfold altnum
  cases hs : startswith [97, 108, 116] (name ++ r) with
  | none => rfl
  | some q =>
    simp only
    match name, h, hs with
    | [], h, _ => simp [NotAlt] at h
    | [a], h, hs =>
      exfalso
      simp [NotAlt] at h
      simp [startswith] at hs
      cases r <;> simp_all [startswith, toLower]
    | [a, b], h, hs =>
      exfalso
      simp [NotAlt] at h
      simp [startswith] at hs
      cases r <;> simp_all [startswith, toLower]
    | [a, b, c], h, hs =>
      exfalso
      simp [NotAlt] at h
      simp [startswith] at hs
      simp_all [startswith, toLower]
    | a :: b :: c :: d :: t, h, hs =>
      have hd : 57 < d := by
        simp [NotAlt] at h
        simp [startswith] at hs
        simp_all [startswith, toLower]
      have c3 : charAt (a :: b :: c :: d :: t ++ r) 3 = some d := by simp [charAt]
      rw [c3]
      have : poIsDigit d = false := by simp [poIsDigit]; omega
      simp [this]

end Verif.Sound
