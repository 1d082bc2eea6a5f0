/-!
# How many values an argument of a style has (C128)

Model of styles/get_arg_max.h (computed at compile time from the type of the style) and `Style::get_max_arg` of
styles/style_ptr.h:89-117, which the style menu asks for the number of settings to go through.
-/
namespace Verif.Style.ArgMax

/-- `gcd`, styles/get_arg_max.h:21-28. -/
def gcdC (a b : Nat) : Nat :=
  if a = 0 then 0 else if b = 0 then 0 else if b > a then gcdC b a else if a % b = 0 then b else gcdC b (a % b)
termination_by (b, if b > a then 1 else 0)
decreasing_by
  · exact Prod.Lex.left _ _ (by omega)
  · exact Prod.Lex.left _ _ (Nat.mod_lt _ (by omega))

/-- Conversion to `int`. -/
def toInt (n : Nat) : Int := if n % 4294967296 < 2147483648 then n % 4294967296 else (n % 4294967296 : Nat) - 4294967296

/-- `lcm`, styles/get_arg_max.h:30-33, for numbers that are not negative; `none` is a division by zero. -/
def lcmC (a b : Nat) : Option Int := if gcdC a b = 0 then none else some (toInt (a * b % 18446744073709551616 / gcdC a b))

/-- `combine_args`, styles/get_arg_max.h:35-42. -/
def combine (a b : Int) : Option Int :=
  if a = -1 then some b else if b = -1 then some a else if a = b then some a
  else if a < 0 ∨ b < 0 then some 4 else lcmC a.toNat b.toNat

/-- `GetArgMaxTL`, styles/get_arg_max.h:48-57, 111-114: of the list of the values of the parts, by halves (common/typelist.h:68-72).
`fuel` is only for the termination. -/
def tlF : Nat → List Int → Option Int
  | _, [] => some (-1)
  | _, [x] => some x
  | 0, _ => none
  | f + 1, l => match tlF f (l.take (l.length / 2)), tlF f (l.drop (l.length / 2)) with
    | some a, some b => combine a b
    | _, _ => none

def tl (l : List Int) : Option Int := tlF l.length l

/-- `get_max_arg`, styles/style_ptr.h:89-117: `m` is `GetArgMax` of the style for each argument. -/
def getMaxArg (m : Nat → Int) (argument : Nat) : Int :=
  if m 0 ≠ -1 ∧ argument = 0 then m 0 else if m 10 ≠ -1 ∧ argument = 10 then m 10 else if m 20 ≠ -1 ∧ argument = 20 then m 20
  else if m 30 ≠ -1 ∧ argument = 30 then m 30 else if m 40 ≠ -1 ∧ argument = 40 then m 40 else if m 50 ≠ -1 ∧ argument = 50 then m 50
  else if m 60 ≠ -1 ∧ argument = 60 then m 60 else if m 70 ≠ -1 ∧ argument = 70 then m 70 else if m 80 ≠ -1 ∧ argument = 80 then m 80
  else if m 90 ≠ -1 ∧ argument = 90 then m 90 else -1

/-- The greatest common divisor is that, for positive numbers, and the calculation ends. -/
theorem C128_gcd (a b : Nat) (ha : 0 < a) (hb : 0 < b) : gcdC a b = Nat.gcd a b := by
  have main : ∀ n a b, b = n → 0 < a → 0 < b → b ≤ a → gcdC a b = Nat.gcd a b := by
    intro n
    induction n using Nat.strongRecOn with
    | _ n ih =>
      intro a b hn ha hb hle
      rw [gcdC, if_neg (by omega), if_neg (by omega), if_neg (by omega)]
      by_cases h : a % b = 0
      · rw [if_pos h]
        exact (Nat.gcd_eq_right (Nat.dvd_of_mod_eq_zero h)).symm
      · rw [if_neg h, ih (a % b) (by rw [← hn]; exact Nat.mod_lt _ hb) b (a % b) rfl hb (by omega) (Nat.le_of_lt (Nat.mod_lt _ hb))]
        rw [Nat.gcd_comm, ← Nat.gcd_rec, Nat.gcd_comm]
  by_cases h : b ≤ a
  · exact main b a b rfl ha hb h
  · rw [gcdC, if_neg (by omega), if_neg (by omega), if_pos (by omega), main a b a rfl hb ha (by omega), Nat.gcd_comm]

theorem toInt_small (n : Nat) (h : n < 2147483648) : toInt n = n := by
  unfold toInt
  rw [Nat.mod_eq_of_lt (by omega), if_pos h]
  omega

theorem lcmC_eq (a b : Nat) (ha : 0 < a) (hb : 0 < b) (h : Nat.lcm a b < 2147483648) (hab : a * b < 18446744073709551616) :
    lcmC a b = some (Nat.lcm a b : Int) := by
  unfold lcmC
  rw [C128_gcd a b ha hb, if_neg (Nat.pos_iff_ne_zero.1 (Nat.gcd_pos_of_pos_left _ ha)), Nat.mod_eq_of_lt hab]
  show some (toInt (Nat.lcm a b)) = _
  rw [toInt_small _ h]

/-- What a value of one part asks of the number of settings `k`: nothing when unknown, to be a multiple otherwise. -/
def Fits (x : Int) (k : Nat) : Prop := x = -1 ∨ (0 < x ∧ x.toNat ∣ k)

/-- The values that are no special ones. -/
def Plain (x : Int) : Prop := x = -1 ∨ 0 < x

theorem combine_plain (a b : Int) (k : Nat) (hk : 0 < k) (hk2 : k < 2147483648) (ha : Fits a k) (hb : Fits b k) :
    ∃ c, combine a b = some c ∧ Fits c k ∧ (∀ j, Fits c j ↔ Fits a j ∧ Fits b j) ∧ (c = -1 ↔ a = -1 ∧ b = -1) := by
  unfold combine
  by_cases h1 : a = -1
  · rw [if_pos h1]
    exact ⟨b, rfl, hb, fun j => ⟨fun h => ⟨Or.inl h1, h⟩, fun h => h.2⟩, ⟨fun h => ⟨h1, h⟩, fun h => h.2⟩⟩
  · rw [if_neg h1]
    by_cases h2 : b = -1
    · rw [if_pos h2]
      exact ⟨a, rfl, ha, fun j => ⟨fun h => ⟨h, Or.inl h2⟩, fun h => h.1⟩, ⟨fun h => ⟨h, h2⟩, fun h => h.1⟩⟩
    · rw [if_neg h2]
      by_cases h3 : a = b
      · rw [if_pos h3]
        exact ⟨a, rfl, ha, fun j => ⟨fun h => ⟨h, h3 ▸ h⟩, fun h => h.1⟩, ⟨fun h => ⟨h, h3 ▸ h⟩, fun h => h.1⟩⟩
      · obtain ⟨a0, ad⟩ := ha.resolve_left h1
        obtain ⟨b0, bd⟩ := hb.resolve_left h2
        rw [if_neg h3, if_neg (by omega)]
        have hl : Nat.lcm a.toNat b.toNat ∣ k := Nat.lcm_dvd ad bd
        have hle := Nat.le_of_dvd hk hl
        have h5 := Nat.le_of_dvd hk ad
        have h6 := Nat.le_of_dvd hk bd
        have hm : a.toNat * b.toNat < 18446744073709551616 := by
          have : a.toNat * b.toNat ≤ 2147483647 * 2147483647 := Nat.mul_le_mul (by omega) (by omega)
          omega
        have hlp : 0 < Nat.lcm a.toNat b.toNat := Nat.lcm_pos (by omega) (by omega)
        refine ⟨_, lcmC_eq _ _ (by omega) (by omega) (by omega) hm, Or.inr ⟨by omega, ?_⟩, ?_, ?_⟩
        · rw [Int.toNat_natCast]; exact hl
        · intro j
          constructor
          · intro h
            rcases h with h | ⟨_, h⟩
            · omega
            · rw [Int.toNat_natCast] at h
              exact ⟨Or.inr ⟨a0, Nat.dvd_trans (Nat.dvd_lcm_left _ _) h⟩, Or.inr ⟨b0, Nat.dvd_trans (Nat.dvd_lcm_right _ _) h⟩⟩
          · rintro ⟨h, h'⟩
            refine Or.inr ⟨by omega, ?_⟩
            rw [Int.toNat_natCast]
            exact Nat.lcm_dvd (h.resolve_left h1).2 (h'.resolve_left h2).2
        · constructor
          · intro h; omega
          · intro h; exact absurd h.1 h1

theorem tlF_plain (f : Nat) (l : List Int) (hf : l.length ≤ f) (k : Nat) (hk : 0 < k) (hk2 : k < 2147483648) (hl : ∀ x ∈ l, Fits x k) :
    ∃ c, tlF f l = some c ∧ Fits c k ∧ (∀ j, Fits c j ↔ ∀ x ∈ l, Fits x j) ∧ (c = -1 ↔ ∀ x ∈ l, x = -1) := by
  induction f generalizing l with
  | zero =>
    have : l = [] := List.length_eq_zero_iff.1 (by omega)
    subst this
    exact ⟨-1, rfl, Or.inl rfl, fun j => ⟨fun _ x hx => by simp at hx, fun _ => Or.inl rfl⟩, ⟨fun _ x hx => (by simp at hx), fun _ => rfl⟩⟩
  | succ f ih =>
    match l with
    | [] =>
      exact ⟨-1, rfl, Or.inl rfl, fun j => ⟨fun _ x hx => by simp at hx, fun _ => Or.inl rfl⟩, ⟨fun _ x hx => (by simp at hx), fun _ => rfl⟩⟩
    | [x] =>
      refine ⟨x, rfl, hl x (by simp), fun j => ?_, ?_⟩ <;> simp
    | x :: y :: r =>
      generalize hL : x :: y :: r = L at *
      have hlen : 2 ≤ L.length := by rw [← hL]; simp
      obtain ⟨a, ha1, ha2, ha3, ha4⟩ := ih (L.take (L.length / 2)) (by rw [List.length_take]; omega) (fun z hz => hl z (List.mem_of_mem_take hz))
      obtain ⟨b, hb1, hb2, hb3, hb4⟩ := ih (L.drop (L.length / 2)) (by rw [List.length_drop]; omega) (fun z hz => hl z (List.mem_of_mem_drop hz))
      obtain ⟨c, hc1, hc2, hc3, hc4⟩ := combine_plain a b k hk hk2 ha2 hb2
      have happ : ∀ P : Int → Prop, (∀ z ∈ L, P z) ↔ (∀ z ∈ L.take (L.length / 2), P z) ∧ (∀ z ∈ L.drop (L.length / 2), P z) := by
        intro P
        constructor
        · intro h; exact ⟨fun z hz => h z (List.mem_of_mem_take hz), fun z hz => h z (List.mem_of_mem_drop hz)⟩
        · rintro ⟨h, h'⟩ z hz
          rw [← List.take_append_drop (L.length / 2) L] at hz
          rcases List.mem_append.1 hz with hz | hz
          · exact h z hz
          · exact h' z hz
      refine ⟨c, ?_, hc2, ?_, ?_⟩
      · subst hL
        show (match tlF f _, tlF f _ with
          | some a, some b => combine a b
          | _, _ => none) = _
        rw [ha1, hb1]
        exact hc1
      · intro j; rw [hc3, ha3, hb3, happ]
      · rw [hc4, ha4, hb4, happ]

/-- For any number of parts of a style, of which each is unknown or has a positive number of settings: the number found is unknown just
when all are, and otherwise is the least common multiple, so that all settings of each part come up equally often and the
numbers repeat no sooner than the style does. (As long as some common multiple fits in an `int`.) -/
theorem C128_multiple (l : List Int) (k : Nat) (hk : 0 < k) (hk2 : k < 2147483648) (hl : ∀ x ∈ l, x = -1 ∨ (0 < x ∧ x.toNat ∣ k)) :
    ∃ c, tl l = some c ∧ (c = -1 ↔ ∀ x ∈ l, x = -1) ∧ (c ≠ -1 → 0 < c ∧ (∀ x ∈ l, x ≠ -1 → x.toNat ∣ c.toNat) ∧
      ∀ j : Nat, (∀ x ∈ l, x ≠ -1 → x.toNat ∣ j) → c.toNat ∣ j) := by
  obtain ⟨c, h1, h2, h3, h4⟩ := tlF_plain l.length l (Nat.le_refl _) k hk hk2 hl
  refine ⟨c, h1, h4, fun hc => ?_⟩
  have hc' := h2.resolve_left hc
  refine ⟨hc'.1, fun x hx hx1 => ?_, fun j hj => ?_⟩
  · exact (((h3 c.toNat).1 (Or.inr ⟨hc'.1, Nat.dvd_refl _⟩) x hx).resolve_left hx1).2
  · refine (((h3 j).2 fun x hx => ?_).resolve_left hc).2
    by_cases hx1 : x = -1
    · exact Or.inl hx1
    · exact Or.inr ⟨((hl x hx).resolve_left hx1).1, hj x hx hx1⟩

/-- The mark for parts that do not go together is 4, not below 0 as the other marks: it looks like an argument with four settings, and
with a third part the result depends on the order. -/
theorem C128_mixed_counterexample :
    (∀ x : Int, x ≠ -1 → x ≠ -2 → combine (-2) x = some 4) ∧
    (combine (-2) 5).bind (fun c => combine c 6) = some 12 ∧ (combine 5 6).bind (fun c => combine (-2) c) = some 4 := by
  have e46 : combine 4 6 = some 12 := by
    show lcmC 4 6 = some 12
    rw [lcmC_eq 4 6 (by decide) (by decide) (by decide) (by decide)]; rfl
  have e56 : combine 5 6 = some 30 := by
    show lcmC 5 6 = some 30
    rw [lcmC_eq 5 6 (by decide) (by decide) (by decide) (by decide)]; rfl
  refine ⟨fun x h1 h2 => ?_, e46, by rw [e56]; rfl⟩
  unfold combine
  rw [if_neg (by decide), if_neg h1, if_neg (fun e => h2 e.symm), if_pos (Or.inl (by decide))]

/-- A selection of no values and one of some stop the compiler. -/
theorem C128_zero_counterexample (n : Nat) (hn : 0 < n) : combine 0 n = none := by
  unfold combine
  rw [if_neg (by decide), if_neg (by omega), if_neg (by omega), if_neg (by omega)]
  show lcmC 0 n = none
  unfold lcmC
  have : gcdC 0 n = 0 := by rw [gcdC]; rfl
  rw [this]; rfl

/-- The menu learns the number of settings of arguments 0, 10, 20, up to 90. -/
theorem C128_asked_partial (m : Nat → Int) (a : Nat) (h : a % 10 = 0) (h2 : a < 100) : getMaxArg m a = m a := by
  have : a = 0 ∨ a = 10 ∨ a = 20 ∨ a = 30 ∨ a = 40 ∨ a = 50 ∨ a = 60 ∨ a = 70 ∨ a = 80 ∨ a = 90 := by omega
  unfold getMaxArg
  rcases this with rfl | rfl | rfl | rfl | rfl | rfl | rfl | rfl | rfl | rfl <;> simp <;> intro h <;> exact h.symm

/-- Of no other: the macro for ten at a time is defined and not used, so all the other arguments are reported as unknown. -/
theorem C128_asked_counterexample (m : Nat → Int) (a : Nat) (h : a % 10 ≠ 0) : getMaxArg m a = -1 := by
  unfold getMaxArg
  rw [if_neg (by omega), if_neg (by omega), if_neg (by omega), if_neg (by omega), if_neg (by omega), if_neg (by omega), if_neg (by omega),
    if_neg (by omega), if_neg (by omega), if_neg (by omega)]

example : ∃ c, tl [4, -1, 6, -1, 10] = some c ∧ c ≠ -1 := by
  obtain ⟨c, h1, h2, -⟩ := C128_multiple [4, -1, 6, -1, 10] 60 (by decide) (by decide) (by decide)
  exact ⟨c, h1, fun h => by have := h2.1 h 4 (by decide); omega⟩
example : getMaxArg (fun a => if a = 3 then 5 else -1) 3 = -1 := C128_asked_counterexample _ 3 (by decide)

end Verif.Style.ArgMax
