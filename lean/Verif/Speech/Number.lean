/-
  Spoken numbers: sound_library.h:102-137 (`SayWhole`, recorded words) and
  talkie.h:701-767 (`SayDigit`, `SayNumber`, `Say2Digits`, speech synthesis).

  Not modelled: the fraction of `SayNumber(float)` (floating point); how a word
  is played.
-/
namespace Verif.Speech

/-! ## Model -/

/-- One spoken word.  `val v`: the recording for the number `v` (mzero, mnum1-mnum20,
    thirty, ..., ninety: sound_library.h:199-226; spZERO...spNINETY, talkie.h). -/
inductive Word
  | val (v : Int) | hundred | thousand | million
deriving DecidableEq, Repr

/-- Last part of `SayWhole` (sound_library.h:119-136): `number` has been reduced
    below 100. -/
def below100 (number : Int) : List Word :=
  let tens := number.tdiv 10
  let number := number.tmod 10
  if 2 ≤ tens ∧ tens ≤ 9 then
    .val (tens * 10) :: (if number ≠ 0 then [.val number] else [])
  else
    let number := number + tens * 10
    if number ≠ 0 then [.val number] else []

/-- `if (k) { Say(k); Say<word>(); }` (sound_library.h:108-110, 114-116;
    talkie.h:721-723, 726-728). -/
def sayPart (r : Option (List Word)) (k : Int) (w : Word) : Option (List Word) :=
  if k ≠ 0 then r.map (· ++ [w]) else some []

/-- `number %= m`, done only if that part was said (sound_library.h:111, 117). -/
def left (k n m : Int) : Int := if k ≠ 0 then n.tmod m else n

/-- `SayWhole` (sound_library.h:102-137).  The fuel is the recursion depth; `none`
    = more than that. -/
def sayWhole : Nat → Int → Option (List Word)
  | 0, _ => none
  | f + 1, number =>
    if number = 0 then some [.val 0]
    else
      let thousands := number.tdiv 1000
      let number' := left thousands number 1000
      let hundreds := number'.tdiv 100
      (sayPart (sayWhole f thousands) thousands .thousand).bind fun a =>
      (sayPart (sayWhole f hundreds) hundreds .hundred).bind fun b =>
        some (a ++ b ++ below100 (left hundreds number' 100))

/-- `SayDigit` (talkie.h:701-714): says nothing for other numbers. -/
def sayDigit (d : Int) : List Word := if 0 ≤ d ∧ d ≤ 9 then [.val d] else []

/-- Last part of `Talkie::SayNumber` (talkie.h:735-763). -/
def talkieBelow100 (n : Int) : List Word :=
  let t := n.tdiv 10
  if 2 ≤ t ∧ t ≤ 9 then
    .val (t * 10) :: (if n.tmod 10 ≠ 0 then sayDigit (n.tmod 10) else [])
  else if t = 1 ∧ 10 ≤ n ∧ n ≤ 19 then [.val n]
  else if n.tmod 10 ≠ 0 then sayDigit (n.tmod 10) else []

/-- The last three digits in `Talkie::SayNumber` (talkie.h:730-763). -/
def talkieBelow1000 (n : Int) : List Word :=
  (if n.tdiv 100 ≠ 0 then sayDigit (n.tdiv 100) ++ [Word.hundred] else []) ++
    talkieBelow100 (left (n.tdiv 100) n 100)

/-- `Talkie::SayNumber` (talkie.h:716-763). -/
def sayNumber : Nat → Int → Option (List Word)
  | 0, _ => none
  | f + 1, n =>
    if n = 0 then some [.val 0]
    else
      let m := n.tdiv 1000000
      let n' := left m n 1000000
      let k := n'.tdiv 1000
      (sayPart (sayNumber f m) m .million).bind fun a =>
      (sayPart (sayNumber f k) k .thousand).bind fun b =>
        some (a ++ b ++ talkieBelow1000 (left k n' 1000))

/-- `while (x < number) x *= 10;` (talkie.h:766-767); `none`: 32-bit overflow (or
    more rounds than the fuel). -/
def scale : Nat → Int → Int → Option Int
  | 0, _, _ => none
  | f + 1, x, number =>
    if x < number then
      if x * 10 < 2147483648 then scale f (x * 10) number else none
    else some x

/-- The number `Say2Digits` says (talkie.h:765-771). -/
def twoDigits (number : Int) : Option Int :=
  (scale 20 1 number).map fun x =>
    let x := x.tdiv 100
    if x > 1 then number - number.tmod x else number

/-! ## Specification: what a listener hears -/

/-- `big` = millions heard so far, `total` = thousands, `cur` = the group under
    construction. -/
def hear : Int → Int → Int → List Word → Int
  | big, total, cur, [] => big + total + cur
  | big, total, cur, .val v :: l => hear big total (cur + v) l
  | big, total, cur, .hundred :: l => hear big total (cur * 100) l
  | big, total, cur, .thousand :: l => hear big ((total + cur) * 1000) 0 l
  | big, total, cur, .million :: l => hear ((big + total + cur) * 1000000) 0 0 l

/-- Words for which there is a recording. -/
def Recorded : Word → Prop
  | .val v => (0 ≤ v ∧ v ≤ 19) ∨ (∃ k, 2 ≤ k ∧ k ≤ 9 ∧ v = 10 * k)
  | _ => True

/-! ## Lemmas -/

theorem hear_below100 (n u t c : Int) (h0 : 0 ≤ n) (rest : List Word) :
    hear u t c (below100 n ++ rest) = hear u t (c + n) rest := by
  unfold below100
  simp only [Int.tdiv_eq_ediv_of_nonneg h0, Int.tmod_eq_emod_of_nonneg h0]
  split
  · split
    · simp only [List.cons_append, List.nil_append, hear]
      congr 1; omega
    · simp only [List.cons_append, List.nil_append, hear]
      congr 1; omega
  · split
    · simp only [List.cons_append, List.nil_append, hear]
      congr 1; omega
    · simp only [List.nil_append]
      congr 1; omega

theorem below100_recorded (n : Int) (h0 : 0 ≤ n) (h1 : n < 100) :
    (∀ w ∈ below100 n, Recorded w) ∧ (below100 n).length ≤ 2 := by
  unfold below100
  simp only [Int.tdiv_eq_ediv_of_nonneg h0, Int.tmod_eq_emod_of_nonneg h0]
  split
  · split
    · refine ⟨fun w hw => ?_, by simp⟩
      simp only [List.mem_cons, List.not_mem_nil, or_false] at hw
      rcases hw with rfl | rfl
      · exact Or.inr ⟨n / 10, by omega, by omega, by omega⟩
      · exact Or.inl (by omega)
    · refine ⟨fun w hw => ?_, by simp⟩
      simp only [List.mem_cons, List.not_mem_nil, or_false] at hw
      subst hw
      exact Or.inr ⟨n / 10, by omega, by omega, by omega⟩
  · split
    · refine ⟨fun w hw => ?_, by simp⟩
      simp only [List.mem_cons, List.not_mem_nil, or_false] at hw
      subst hw
      exact Or.inl (by omega)
    · simp

theorem talkie_same (n : Int) (h0 : 0 ≤ n) (h1 : n < 100) : talkieBelow100 n = below100 n := by
  unfold talkieBelow100 below100 sayDigit
  simp only [Int.tdiv_eq_ediv_of_nonneg h0, Int.tmod_eq_emod_of_nonneg h0]
  have hd : (if 0 ≤ n % 10 ∧ n % 10 ≤ 9 then [Word.val (n % 10)] else []) = [.val (n % 10)] :=
    if_pos (by omega)
  rw [hd]
  split
  · rfl
  · split
    · have : n % 10 + n / 10 * 10 = n := by omega
      rw [this, if_pos (by omega)]
    · have : n % 10 + n / 10 * 10 = n % 10 := by omega
      rw [this]

/-- How many words a number may take. -/
def bound (n : Int) : Nat :=
  if n < 10 then 1
  else if n < 100 then 2
  else if n < 1000 then 4
  else if n < 10000 then 6
  else if n < 100000 then 7
  else if n < 1000000 then 9
  else if n < 10000000 then 11
  else if n < 100000000 then 12
  else if n < 1000000000 then 14
  else 16

/-- What is true of the words said for `n`. -/
def Ok (n : Int) (l : List Word) : Prop :=
  (∀ rest, hear 0 0 0 (l ++ rest) = hear 0 (n - n % 1000) (n % 1000) rest) ∧
  (∀ w ∈ l, Recorded w) ∧ l.length ≤ bound n

theorem sayPart_zero (r : Option (List Word)) (w : Word) : sayPart r 0 w = some [] := rfl
theorem sayPart_some (l : List Word) (k : Int) (w : Word) (h : k ≠ 0) :
    sayPart (some l) k w = some (l ++ [w]) := by unfold sayPart; rw [if_pos h]; rfl
theorem left_zero (n m : Int) : left 0 n m = n := rfl

theorem digit_ok (d : Int) (h1 : 1 ≤ d) (h2 : d ≤ 9) (f : Nat) :
    sayWhole (f + 1) d = some [.val d] := by
  have e1 : d.tdiv 1000 = 0 := by rw [Int.tdiv_eq_ediv_of_nonneg (by omega)]; omega
  have e2 : d.tdiv 100 = 0 := by rw [Int.tdiv_eq_ediv_of_nonneg (by omega)]; omega
  have e3 : below100 d = [.val d] := by
    unfold below100
    simp only [Int.tdiv_eq_ediv_of_nonneg (by omega : 0 ≤ d),
      Int.tmod_eq_emod_of_nonneg (by omega : 0 ≤ d)]
    rw [if_neg (by omega), if_pos (by omega)]
    have : d % 10 + d / 10 * 10 = d := by omega
    rw [this]
  simp only [sayWhole]
  rw [if_neg (by omega), e1, sayPart_zero, left_zero, e2, sayPart_zero, left_zero, e3]
  rfl

/-- The three digits at the end. -/
theorem group (u t g : Int) :
    ∀ rest, hear u t 0 ((if g / 100 ≠ 0 then [.val (g / 100), .hundred] else []) ++
        below100 (g % 100) ++ rest) = hear u t g rest := by
  intro rest
  rw [List.append_assoc]
  split
  · simp only [List.cons_append, List.nil_append, hear]
    rw [hear_below100 _ _ _ _ (by omega)]
    congr 1; omega
  · rw [List.nil_append, hear_below100 _ _ _ _ (by omega)]
    congr 1; omega

theorem group_words (g : Int) (h1 : g < 1000) (h0 : 0 ≤ g := by omega) :
    (∀ w ∈ (if g / 100 ≠ 0 then [.val (g / 100), .hundred] else []) ++ below100 (g % 100),
      Recorded w) ∧
    ((if g / 100 ≠ 0 then [Word.val (g / 100), .hundred] else []) ++ below100 (g % 100)).length ≤ 4 := by
  obtain ⟨r, l⟩ := below100_recorded (g % 100) (by omega) (by omega)
  constructor
  · intro w hw
    rw [List.mem_append] at hw
    rcases hw with hw | hw
    · split at hw
      · simp only [List.mem_cons, List.not_mem_nil, or_false] at hw
        rcases hw with rfl | rfl
        · exact Or.inl (by omega)
        · trivial
      · simp at hw
    · exact r w hw
  · rw [List.length_append]
    split
    · simp only [List.length_cons, List.length_nil]; omega
    · simp only [List.length_nil]; omega

theorem below100_len (g : Int) (h0 : 0 ≤ g) (h1 : g < 10) : (below100 g).length ≤ 1 := by
  unfold below100
  simp only [Int.tdiv_eq_ediv_of_nonneg h0, Int.tmod_eq_emod_of_nonneg h0]
  rw [if_neg (by omega)]
  split <;> simp

theorem bound_0 (n : Int) (h1 : n < 10) : bound n = 1 := by
  unfold bound; rw [if_pos h1]
theorem bound_1 (n : Int) (h0 : 10 ≤ n) (h1 : n < 100) : bound n = 2 := by
  unfold bound; rw [if_neg (by omega), if_pos h1]
theorem bound_2 (n : Int) (h0 : 100 ≤ n) (h1 : n < 1000) : bound n = 4 := by
  unfold bound; rw [if_neg (by omega), if_neg (by omega), if_pos h1]
theorem bound_3 (n : Int) (h0 : 1000 ≤ n) (h1 : n < 10000) : bound n = 6 := by
  unfold bound; rw [if_neg (by omega), if_neg (by omega), if_neg (by omega), if_pos h1]
theorem bound_4 (n : Int) (h0 : 10000 ≤ n) (h1 : n < 100000) : bound n = 7 := by
  unfold bound; rw [if_neg (by omega), if_neg (by omega), if_neg (by omega), if_neg (by omega), if_pos h1]
theorem bound_5 (n : Int) (h0 : 100000 ≤ n) (h1 : n < 1000000) : bound n = 9 := by
  unfold bound; rw [if_neg (by omega), if_neg (by omega), if_neg (by omega), if_neg (by omega), if_neg (by omega), if_pos h1]
theorem bound_6 (n : Int) (h0 : 1000000 ≤ n) (h1 : n < 10000000) : bound n = 11 := by
  unfold bound; rw [if_neg (by omega), if_neg (by omega), if_neg (by omega), if_neg (by omega), if_neg (by omega), if_neg (by omega), if_pos h1]
theorem bound_7 (n : Int) (h0 : 10000000 ≤ n) (h1 : n < 100000000) : bound n = 12 := by
  unfold bound; rw [if_neg (by omega), if_neg (by omega), if_neg (by omega), if_neg (by omega), if_neg (by omega), if_neg (by omega), if_neg (by omega), if_pos h1]
theorem bound_8 (n : Int) (h0 : 100000000 ≤ n) (h1 : n < 1000000000) : bound n = 14 := by
  unfold bound; rw [if_neg (by omega), if_neg (by omega), if_neg (by omega), if_neg (by omega), if_neg (by omega), if_neg (by omega), if_neg (by omega), if_neg (by omega), if_pos h1]
theorem bound_9 (n : Int) (h0 : 1000000000 ≤ n) : bound n = 16 := by
  unfold bound; rw [if_neg (by omega), if_neg (by omega), if_neg (by omega), if_neg (by omega), if_neg (by omega), if_neg (by omega), if_neg (by omega), if_neg (by omega), if_neg (by omega)]

theorem bound_grow (n : Int) (h1 : 1000 ≤ n) (h2 : n < 2147483648) :
    bound (n / 1000) + 1 + 4 ≤ bound n := by
  by_cases h6 : n < 10000
  · rw [bound_0 _ (by omega), bound_3 _ (by omega) (by omega)]; decide
  by_cases h7 : n < 100000
  · rw [bound_1 _ (by omega) (by omega), bound_4 _ (by omega) (by omega)]; decide
  by_cases h8 : n < 1000000
  · rw [bound_2 _ (by omega) (by omega), bound_5 _ (by omega) (by omega)]; decide
  by_cases h9 : n < 10000000
  · rw [bound_3 _ (by omega) (by omega), bound_6 _ (by omega) (by omega)]; decide
  by_cases h10 : n < 100000000
  · rw [bound_4 _ (by omega) (by omega), bound_7 _ (by omega) (by omega)]; decide
  by_cases h11 : n < 1000000000
  · rw [bound_5 _ (by omega) (by omega), bound_8 _ (by omega) (by omega)]; decide
  rw [bound_6 _ (by omega) (by omega), bound_9 _ (by omega)]; decide

/-- The last three digits, recorded. -/
def tail3 (g : Int) : List Word :=
  (if g / 100 ≠ 0 then [.val (g / 100), .hundred] else []) ++ below100 (g % 100)

theorem hundreds_eq (f : Nat) (g : Int) (g0 : 0 ≤ g) (g1 : g < 1000) (a : List Word) :
    ((sayPart (sayWhole (f + 1) (g.tdiv 100)) (g.tdiv 100) .hundred).bind fun b =>
        some (a ++ b ++ below100 (left (g.tdiv 100) g 100))) = some (a ++ tail3 g) := by
  unfold tail3 left
  rw [Int.tdiv_eq_ediv_of_nonneg g0, Int.tmod_eq_emod_of_nonneg g0]
  by_cases hg : g / 100 = 0
  · have : g % 100 = g := by omega
    rw [hg, sayPart_zero, this]; simp
  · rw [digit_ok _ (by omega) (by omega), sayPart_some _ _ _ hg, if_pos hg, if_pos hg]
    simp

/-- Numbers that need at most `f` groups of three digits. -/
def lim : Nat → Int
  | 0 => 1
  | f + 1 => lim f * 1000

theorem sayWhole_ok : ∀ (f : Nat) (n : Int), 0 ≤ n → n < 2147483648 → n < lim f →
    ∃ l, sayWhole (f + 1) n = some l ∧ Ok n l := by
  intro f
  induction f with
  | zero =>
    intro n h0 _ hf
    have hz : n = 0 := by simp only [lim] at hf; omega
    subst hz
    refine ⟨[.val 0], rfl, fun rest => by simp [hear], ?_, by simp [bound]⟩
    intro w hw
    simp only [List.mem_cons, List.not_mem_nil, or_false] at hw
    subst hw
    exact Or.inl (by omega)
  | succ f ih =>
    intro n h0 h1 hf
    by_cases hz : n = 0
    · subst hz
      refine ⟨[.val 0], rfl, fun rest => by simp [hear], ?_, by simp [bound]⟩
      intro w hw
      simp only [List.mem_cons, List.not_mem_nil, or_false] at hw
      subst hw
      exact Or.inl (by omega)
    · have e : n.tdiv 1000 = n / 1000 := Int.tdiv_eq_ediv_of_nonneg h0
      by_cases ht : n < 1000
      · -- no thousands
        have e9 : n / 1000 = 0 := by omega
        obtain ⟨gw, gl⟩ := group_words n ht
        refine ⟨tail3 n, ?_, ?_, gw, ?_⟩
        · simp only [sayWhole]
          rw [if_neg hz, e, e9, sayPart_zero, left_zero]
          exact hundreds_eq f n h0 ht []
        · intro rest
          unfold tail3
          rw [group 0 0 n rest]
          congr 1 <;> omega
        · by_cases h10 : n < 10
          · have : ¬ n / 100 ≠ 0 := by omega
            rw [bound_0 n h10, tail3, if_neg this]
            have := below100_len (n % 100) (by omega) (by omega)
            simpa using this
          · by_cases h100 : n < 100
            · have : ¬ n / 100 ≠ 0 := by omega
              rw [bound_1 n (by omega) h100, tail3, if_neg this]
              have := (below100_recorded (n % 100) (by omega) (by omega)).2
              simpa using this
            · rw [bound_2 n (by omega) ht]; exact gl
      · -- thousands
        obtain ⟨l, hl, h3, h4, h5⟩ := ih (n / 1000) (by omega) (by omega) (by
          simp only [lim] at hf; omega)
        obtain ⟨gw, gl⟩ := group_words (n % 1000) (by omega)
        have h9 : n / 1000 ≠ 0 := by omega
        have e2 : left (n / 1000) n 1000 = n % 1000 := by
          unfold left; rw [if_pos h9, Int.tmod_eq_emod_of_nonneg h0]
        refine ⟨(l ++ [.thousand]) ++ tail3 (n % 1000), ?_, ?_, ?_, ?_⟩
        · simp only [sayWhole]
          rw [if_neg hz, e, e2]
          simp only [sayWhole] at hl
          rw [hl, sayPart_some _ _ _ h9]
          exact hundreds_eq f (n % 1000) (by omega) (by omega) _
        · intro rest
          unfold tail3
          rw [List.append_assoc, List.append_assoc, h3]
          simp only [List.cons_append, List.nil_append, hear]
          rw [group 0 _ (n % 1000) rest]
          congr 1; omega
        · intro w hw
          rw [List.mem_append] at hw
          rcases hw with hw | hw
          · rw [List.mem_append] at hw
            rcases hw with hw | hw
            · exact h4 w hw
            · simp only [List.mem_cons, List.not_mem_nil, or_false] at hw
              subst hw; trivial
          · exact gw w hw
        · rw [List.length_append, List.length_append]
          have := bound_grow n (by omega) h1
          have : (tail3 (n % 1000)).length ≤ 4 := gl
          simp only [List.length_cons, List.length_nil] at *
          omega

/-! ## C75 -/

theorem whole_words (n : Int) (h0 : 0 ≤ n) (h1 : n < 2147483648) :
    ∃ l, sayWhole 5 n = some l ∧ hear 0 0 0 l = n ∧ (∀ w ∈ l, Recorded w) ∧ l.length ≤ 16 := by
  obtain ⟨l, hl, h2, h3, h4⟩ := sayWhole_ok 4 n h0 h1 (by simp only [lim]; omega)
  refine ⟨l, hl, ?_, h3, ?_⟩
  · have := h2 []
    rw [List.append_nil] at this
    rw [this]; simp only [hear]; omega
  · have : bound n ≤ 16 := by unfold bound; repeat' split
                              all_goals omega
    omega

/-- C75: for every non-negative number (of 32 bits) the words said are recorded
    words, a listener hears exactly that number, and they fit into the sound
    queue (16 words, sound_library.h:54), so that nothing is dropped when the
    queue is empty. -/
theorem C75_whole (n : Int) (h0 : 0 ≤ n) (h1 : n < 2147483648) :
    ∃ l, sayWhole 5 n = some l ∧ l ≠ [] ∧ hear 0 0 0 l = n ∧ (∀ w ∈ l, Recorded w) ∧
      l.length ≤ 16 := by
  obtain ⟨l, hl, h2, h3, h4⟩ := whole_words n h0 h1
  refine ⟨l, hl, ?_, h2, h3, h4⟩
  rintro rfl
  have hn : 0 = n := h2
  subst hn
  exact absurd hl (by decide)

example : sayWhole 5 1234567 = some [.val 1, .thousand, .val 2, .hundred, .val 30, .val 4,
    .thousand, .val 5, .hundred, .val 60, .val 7] := by decide
example : (sayWhole 5 2147483647).map List.length = some 16 := by decide
example : sayWhole 5 40012 = some [.val 40, .thousand, .val 12] := by decide

/-- The last three digits, synthesised. -/
theorem talkie_group (g : Int) (h0 : 0 ≤ g) (h1 : g < 1000) : talkieBelow1000 g = tail3 g := by
  unfold talkieBelow1000 tail3 left
  rw [Int.tdiv_eq_ediv_of_nonneg h0, Int.tmod_eq_emod_of_nonneg h0]
  by_cases h : g / 100 = 0
  · have : g % 100 = g := by omega
    simp only [h, ne_eq, not_true, if_false]
    rw [this, talkie_same g h0 (by omega)]
  · simp only [h, ne_eq, not_false_eq_true, if_true]
    rw [talkie_same (g % 100) (by omega) (by omega)]
    have : sayDigit (g / 100) = [.val (g / 100)] := if_pos (by omega)
    rw [this]; rfl

theorem hear_tail3 (u t g : Int) (rest : List Word) :
    hear u t 0 (tail3 g ++ rest) = hear u t g rest := group u t g rest

theorem hear_tail3' (u t g : Int) : hear u t 0 (tail3 g) = u + t + g := by
  have := hear_tail3 u t g []
  rw [List.append_nil] at this
  rw [this]; rfl

/-- What is true of the words synthesised for `n`. -/
def TOk (n : Int) (l : List Word) : Prop :=
  (∀ b rest, n < 1000 → hear b 0 0 (l ++ rest) = hear b 0 n rest) ∧
  (∀ rest, n < 1000000 → hear 0 0 0 (l ++ rest) = hear 0 (n - n % 1000) (n % 1000) rest) ∧
  hear 0 0 0 l = n ∧
  (∀ w ∈ l, Recorded w) ∧
  l.length ≤ (if n < 10 then 1 else if n < 1000 then 4 else if n < 10000 then 6
    else if n < 1000000 then 9 else 16)

theorem small_ok (f : Nat) (n : Int) (h0 : 0 ≤ n) (h1 : n < 1000) :
    ∃ l, sayNumber (f + 1) n = some l ∧ TOk n l := by
  by_cases hz : n = 0
  · subst hz
    refine ⟨[.val 0], by simp [sayNumber], fun b rest _ => by simp [hear],
      fun rest _ => by simp [hear], by simp [hear], ?_, by simp⟩
    intro w hw
    simp only [List.mem_cons, List.not_mem_nil, or_false] at hw
    subst hw
    exact Or.inl (by omega)
  · obtain ⟨gw, gl⟩ := group_words n h1 
    have e1 : n.tdiv 1000000 = 0 := by rw [Int.tdiv_eq_ediv_of_nonneg h0]; omega
    have e2 : n.tdiv 1000 = 0 := by rw [Int.tdiv_eq_ediv_of_nonneg h0]; omega
    have hg := talkie_group n h0 h1
    refine ⟨tail3 n, ?_, ?_, ?_, ?_, gw, ?_⟩
    · simp only [sayNumber]
      rw [if_neg hz, e1, sayPart_zero, left_zero, e2, sayPart_zero, left_zero, hg]
      rfl
    · intro b rest _
      rw [hear_tail3]
    · intro rest _
      rw [hear_tail3]
      congr 1 <;> omega
    · rw [hear_tail3']; omega
    · by_cases h10 : n < 10
      · have : ¬ n / 100 ≠ 0 := by omega
        rw [if_pos h10, tail3, if_neg this]
        have := below100_len (n % 100) (by omega) (by omega)
        simpa using this
      · rw [if_neg h10, if_pos h1]; exact gl

theorem medium_ok (f : Nat) (n : Int) (h0 : 0 ≤ n) (h1 : n < 1000000) :
    ∃ l, sayNumber (f + 2) n = some l ∧ TOk n l := by
  by_cases hs : n < 1000
  · exact small_ok (f + 1) n h0 hs
  · obtain ⟨gw, gl⟩ := group_words (n % 1000) (by omega)
    have e1 : n.tdiv 1000000 = 0 := by rw [Int.tdiv_eq_ediv_of_nonneg h0]; omega
    have e2 : n.tdiv 1000 = n / 1000 := Int.tdiv_eq_ediv_of_nonneg h0
    have h9 : n / 1000 ≠ 0 := by omega
    have e3 : left (n / 1000) n 1000 = n % 1000 := by
      unfold left; rw [if_pos h9, Int.tmod_eq_emod_of_nonneg h0]
    have hg := talkie_group (n % 1000) (by omega) (by omega)
    obtain ⟨l, hl, k1, k2, k3, k4, k5⟩ := small_ok f (n / 1000) (by omega) (by omega)
    have hlist : sayNumber (f + 2) n = some ((l ++ [.thousand]) ++ tail3 (n % 1000)) := by
      rw [show f + 2 = (f + 1) + 1 from rfl, sayNumber, if_neg (by omega)]
      simp only []
      rw [e1, sayPart_zero, left_zero, e2, e3, hl, sayPart_some _ _ _ h9, hg]
      rfl
    have hh : ∀ rest, hear 0 0 0 ((l ++ [.thousand]) ++ tail3 (n % 1000) ++ rest) =
        hear 0 (n - n % 1000) (n % 1000) rest := by
      intro rest
      rw [List.append_assoc, List.append_assoc, k1 0 _ (by omega)]
      simp only [List.cons_append, List.nil_append, hear]
      rw [hear_tail3]
      congr 1; omega
    refine ⟨_, hlist, fun _ _ h => by omega, fun rest _ => hh rest, ?_, ?_, ?_⟩
    · have := hh []
      rw [List.append_nil] at this
      rw [this]; simp only [hear]; omega
    · intro w hw
      rw [List.mem_append] at hw
      rcases hw with hw | hw
      · rw [List.mem_append] at hw
        rcases hw with hw | hw
        · exact k4 w hw
        · simp only [List.mem_cons, List.not_mem_nil, or_false] at hw
          subst hw; trivial
      · exact gw w hw
    · rw [List.length_append, List.length_append]
      simp only [List.length_cons, List.length_nil]
      have : (tail3 (n % 1000)).length ≤ 4 := gl
      repeat' split at k5
      all_goals (repeat' split)
      all_goals omega

theorem talkie_words (n : Int) (h0 : 0 ≤ n) (h1 : n < 2147483648) :
    ∃ l, sayNumber 4 n = some l ∧ hear 0 0 0 l = n ∧ (∀ w ∈ l, Recorded w) ∧ l.length ≤ 20 := by
  by_cases hs : n < 1000000
  · obtain ⟨l, hl, _, _, k3, k4, k5⟩ := medium_ok 2 n h0 hs
    refine ⟨l, hl, k3, k4, ?_⟩
    repeat' split at k5
    all_goals omega
  · obtain ⟨gw, gl⟩ := group_words (n % 1000) (by omega)
    have gl' : (tail3 (n % 1000)).length ≤ 4 := gl
    have h9 : n / 1000000 ≠ 0 := by omega
    have e1 : n.tdiv 1000000 = n / 1000000 := Int.tdiv_eq_ediv_of_nonneg h0
    have e0 : left (n / 1000000) n 1000000 = n % 1000000 := by
      unfold left; rw [if_pos h9, Int.tmod_eq_emod_of_nonneg h0]
    have e2 : (n % 1000000).tdiv 1000 = n % 1000000 / 1000 := Int.tdiv_eq_ediv_of_nonneg (by omega)
    have e3 : left (n % 1000000 / 1000) (n % 1000000) 1000 = n % 1000 := by
      unfold left
      rw [Int.tmod_eq_emod_of_nonneg (by omega)]
      split <;> omega
    have hg := talkie_group (n % 1000) (by omega) (by omega)
    obtain ⟨l, hl, k1, k2, k3, k4, k5⟩ := medium_ok 1 (n / 1000000) (by omega) (by omega)
    have kl : l.length ≤ 6 := by
      repeat' split at k5
      all_goals omega
    have hlist : ∀ b, sayPart (sayNumber 3 (n % 1000000 / 1000)) (n % 1000000 / 1000) .thousand = some b →
        sayNumber 4 n = some ((l ++ [.million]) ++ b ++ tail3 (n % 1000)) := by
      intro b hb
      rw [sayNumber, if_neg (by omega)]
      simp only []
      rw [e1, e0, e2, e3, hl, sayPart_some _ _ _ h9, hb, hg]
      rfl
    by_cases hk : n % 1000000 / 1000 = 0
    · refine ⟨_, hlist [] (by rw [hk]; rfl), ?_, ?_, ?_⟩
      · rw [List.append_nil, List.append_assoc, k2 _ (by omega)]
        simp only [List.cons_append, List.nil_append, hear]
        rw [hear_tail3']; omega
      · intro w hw
        simp only [List.mem_append, List.mem_cons, List.not_mem_nil, or_false] at hw
        rcases hw with (hw | hw) | hw
        · exact k4 w hw
        · subst hw; trivial
        · exact gw w hw
      · simp only [List.length_append, List.length_cons, List.length_nil]
        omega
    · obtain ⟨m, hm, j1, j2, j3, j4, j5⟩ := small_ok 2 (n % 1000000 / 1000) (by omega) (by omega)
      have jl : m.length ≤ 4 := by
        repeat' split at j5
        all_goals omega
      refine ⟨_, hlist (m ++ [.thousand]) (by rw [hm]; exact sayPart_some _ _ _ hk), ?_, ?_, ?_⟩
      · rw [List.append_assoc, List.append_assoc, k2 _ (by omega)]
        simp only [List.cons_append, List.nil_append, hear]
        rw [List.append_assoc, j1 _ _ (by omega)]
        simp only [List.cons_append, List.nil_append, hear]
        rw [hear_tail3']; omega
      · intro w hw
        simp only [List.mem_append, List.mem_cons, List.not_mem_nil, or_false] at hw
        rcases hw with ((hw | hw) | (hw | hw)) | hw
        · exact k4 w hw
        · subst hw; trivial
        · exact j4 w hw
        · subst hw; trivial
        · exact gw w hw
      · simp only [List.length_append, List.length_cons, List.length_nil]
        omega

/-- C75: the same for the speech synthesiser used for error messages, with
    "million"; the words fit into its queue (20, talkie.h:668). -/
theorem C75_talkie (n : Int) (h0 : 0 ≤ n) (h1 : n < 2147483648) :
    ∃ l, sayNumber 4 n = some l ∧ l ≠ [] ∧ hear 0 0 0 l = n ∧ (∀ w ∈ l, Recorded w) ∧
      l.length ≤ 20 := by
  obtain ⟨l, hl, h2, h3, h4⟩ := talkie_words n h0 h1
  refine ⟨l, hl, ?_, h2, h3, h4⟩
  rintro rfl
  have hn : 0 = n := h2
  subst hn
  exact absurd hl (by decide)

example : sayNumber 4 2003000012 = some [.val 2, .thousand, .val 3, .million, .val 12] := by decide

theorem scale_step (f : Nat) (x n : Int) (h : x < n) (ho : x * 10 < 2147483648) :
    scale (f + 1) x n = scale f (x * 10) n := by
  rw [scale, if_pos h, if_pos ho]

theorem scale_stop (f : Nat) (x n : Int) (h : n ≤ x) : scale (f + 1) x n = some x := by
  rw [scale, if_neg (by omega)]

theorem twoDigits_of (n x : Int) (h0 : 0 ≤ n) (hx : 0 ≤ x) (h : scale 20 1 n = some x) :
    twoDigits n = some (if x / 100 > 1 then n - n % (x / 100) else n) := by
  unfold twoDigits
  rw [h, Option.map_some]
  simp only [Int.tdiv_eq_ediv_of_nonneg hx, Int.tmod_eq_emod_of_nonneg h0]

/-- C75: shortening a number to two digits: the result is the number with
    everything but its two leading digits replaced by zeros. -/
theorem C75_two_digits (n : Int) (h0 : 10 ≤ n) (h1 : n ≤ 1000000000) :
    ∃ (r a : Int) (k : Nat), twoDigits n = some r ∧ r = a * 10 ^ k ∧ 10 ≤ a ∧ a ≤ 99 ∧
      r ≤ n ∧ n < r + 10 ^ k := by
  by_cases g1 : n ≤ 10
  · have hs : scale 20 1 n = some 10 := by
      rw [scale_step _ _ _ (by omega) (by omega), scale_stop _ _ _ (by omega)]
      rfl
    rw [twoDigits_of n _ (by omega) (by decide) hs]
    exact ⟨n, n, 0, rfl, by simp, by omega, by omega, by omega, by simp; omega⟩
  by_cases g2 : n ≤ 100
  · have hs : scale 20 1 n = some 100 := by
      rw [scale_step _ _ _ (by omega) (by omega), scale_step _ _ _ (by omega) (by omega), scale_stop _ _ _ (by omega)]
      rfl
    rw [twoDigits_of n _ (by omega) (by decide) hs]
    by_cases e : n = 100
    · exact ⟨n, 10, 1, rfl, by omega, by omega, by omega, by omega, by omega⟩
    · exact ⟨n, n, 0, rfl, by simp, by omega, by omega, by omega, by simp; omega⟩
  by_cases g3 : n ≤ 1000
  · have hs : scale 20 1 n = some 1000 := by
      rw [scale_step _ _ _ (by omega) (by omega), scale_step _ _ _ (by omega) (by omega), scale_step _ _ _ (by omega) (by omega), scale_stop _ _ _ (by omega)]
      rfl
    rw [twoDigits_of n _ (by omega) (by decide) hs]
    by_cases e : n = 1000
    · subst e; exact ⟨_, 10, 2, rfl, by decide, by decide, by decide, by decide, by decide⟩
    · have hp : (10 : Int) ^ 1 = 10 := by decide
      refine ⟨n - n % 10, n / 10, 1, ?_, ?_, by omega, by omega, by omega, ?_⟩
      · rfl
      · rw [hp]; omega
      · rw [hp]; omega
  by_cases g4 : n ≤ 10000
  · have hs : scale 20 1 n = some 10000 := by
      rw [scale_step _ _ _ (by omega) (by omega), scale_step _ _ _ (by omega) (by omega), scale_step _ _ _ (by omega) (by omega), scale_step _ _ _ (by omega) (by omega), scale_stop _ _ _ (by omega)]
      rfl
    rw [twoDigits_of n _ (by omega) (by decide) hs]
    by_cases e : n = 10000
    · subst e; exact ⟨_, 10, 3, rfl, by decide, by decide, by decide, by decide, by decide⟩
    · have hp : (10 : Int) ^ 2 = 100 := by decide
      refine ⟨n - n % 100, n / 100, 2, ?_, ?_, by omega, by omega, by omega, ?_⟩
      · rfl
      · rw [hp]; omega
      · rw [hp]; omega
  by_cases g5 : n ≤ 100000
  · have hs : scale 20 1 n = some 100000 := by
      rw [scale_step _ _ _ (by omega) (by omega), scale_step _ _ _ (by omega) (by omega), scale_step _ _ _ (by omega) (by omega), scale_step _ _ _ (by omega) (by omega), scale_step _ _ _ (by omega) (by omega), scale_stop _ _ _ (by omega)]
      rfl
    rw [twoDigits_of n _ (by omega) (by decide) hs]
    by_cases e : n = 100000
    · subst e; exact ⟨_, 10, 4, rfl, by decide, by decide, by decide, by decide, by decide⟩
    · have hp : (10 : Int) ^ 3 = 1000 := by decide
      refine ⟨n - n % 1000, n / 1000, 3, ?_, ?_, by omega, by omega, by omega, ?_⟩
      · rfl
      · rw [hp]; omega
      · rw [hp]; omega
  by_cases g6 : n ≤ 1000000
  · have hs : scale 20 1 n = some 1000000 := by
      rw [scale_step _ _ _ (by omega) (by omega), scale_step _ _ _ (by omega) (by omega), scale_step _ _ _ (by omega) (by omega), scale_step _ _ _ (by omega) (by omega), scale_step _ _ _ (by omega) (by omega), scale_step _ _ _ (by omega) (by omega), scale_stop _ _ _ (by omega)]
      rfl
    rw [twoDigits_of n _ (by omega) (by decide) hs]
    by_cases e : n = 1000000
    · subst e; exact ⟨_, 10, 5, rfl, by decide, by decide, by decide, by decide, by decide⟩
    · have hp : (10 : Int) ^ 4 = 10000 := by decide
      refine ⟨n - n % 10000, n / 10000, 4, ?_, ?_, by omega, by omega, by omega, ?_⟩
      · rfl
      · rw [hp]; omega
      · rw [hp]; omega
  by_cases g7 : n ≤ 10000000
  · have hs : scale 20 1 n = some 10000000 := by
      rw [scale_step _ _ _ (by omega) (by omega), scale_step _ _ _ (by omega) (by omega), scale_step _ _ _ (by omega) (by omega), scale_step _ _ _ (by omega) (by omega), scale_step _ _ _ (by omega) (by omega), scale_step _ _ _ (by omega) (by omega), scale_step _ _ _ (by omega) (by omega), scale_stop _ _ _ (by omega)]
      rfl
    rw [twoDigits_of n _ (by omega) (by decide) hs]
    by_cases e : n = 10000000
    · subst e; exact ⟨_, 10, 6, rfl, by decide, by decide, by decide, by decide, by decide⟩
    · have hp : (10 : Int) ^ 5 = 100000 := by decide
      refine ⟨n - n % 100000, n / 100000, 5, ?_, ?_, by omega, by omega, by omega, ?_⟩
      · rfl
      · rw [hp]; omega
      · rw [hp]; omega
  by_cases g8 : n ≤ 100000000
  · have hs : scale 20 1 n = some 100000000 := by
      rw [scale_step _ _ _ (by omega) (by omega), scale_step _ _ _ (by omega) (by omega), scale_step _ _ _ (by omega) (by omega), scale_step _ _ _ (by omega) (by omega), scale_step _ _ _ (by omega) (by omega), scale_step _ _ _ (by omega) (by omega), scale_step _ _ _ (by omega) (by omega), scale_step _ _ _ (by omega) (by omega), scale_stop _ _ _ (by omega)]
      rfl
    rw [twoDigits_of n _ (by omega) (by decide) hs]
    by_cases e : n = 100000000
    · subst e; exact ⟨_, 10, 7, rfl, by decide, by decide, by decide, by decide, by decide⟩
    · have hp : (10 : Int) ^ 6 = 1000000 := by decide
      refine ⟨n - n % 1000000, n / 1000000, 6, ?_, ?_, by omega, by omega, by omega, ?_⟩
      · rfl
      · rw [hp]; omega
      · rw [hp]; omega
  have hs : scale 20 1 n = some 1000000000 := by
    rw [scale_step _ _ _ (by omega) (by omega), scale_step _ _ _ (by omega) (by omega), scale_step _ _ _ (by omega) (by omega), scale_step _ _ _ (by omega) (by omega), scale_step _ _ _ (by omega) (by omega), scale_step _ _ _ (by omega) (by omega), scale_step _ _ _ (by omega) (by omega), scale_step _ _ _ (by omega) (by omega), scale_step _ _ _ (by omega) (by omega), scale_stop _ _ _ (by omega)]
    rfl
  rw [twoDigits_of n _ (by omega) (by decide) hs]
  by_cases e : n = 1000000000
  · subst e; exact ⟨_, 10, 8, rfl, by decide, by decide, by decide, by decide, by decide⟩
  · have hp : (10 : Int) ^ 7 = 10000000 := by decide
    refine ⟨n - n % 10000000, n / 10000000, 7, ?_, ?_, by omega, by omega, by omega, ?_⟩
    · rfl
    · rw [hp]; omega
    · rw [hp]; omega

example : twoDigits 123456 = some 120000 ∧ twoDigits 1000 = some 1000 := by decide

/-- Just above a milliard the scaling overflows. -/
theorem C75_two_digits_counterexample : twoDigits 1000000001 = none := by decide

/-- Negative numbers ask for a recording that does not exist. -/
theorem C75_negative_counterexample :
    sayWhole 5 (-7) = some [.val (-7)] ∧ ¬ Recorded (.val (-7)) := by
  refine ⟨by decide, ?_⟩
  rintro (h | ⟨k, h⟩) <;> omega

end Verif.Speech
