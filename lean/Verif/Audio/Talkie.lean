/-!
# Speech data, words and frames (C154)

Model of sound/talkie.h: the reading of bits, the words waiting to be spoken, and the length of a frame.  Simplified: what is made of the bits of a frame,
the filter and the resampling are left out.
-/
namespace Verif.Audio.Talkie

/-- `rev`, sound/talkie.h:773-782 -/
def rev (a : Nat) : Nat :=
  let a := (a >>> 4) ||| ((a <<< 4) % 256)
  let a := ((a &&& 0xcc) >>> 2) ||| ((a &&& 0x33) <<< 2)
  ((a &&& 0xaa) >>> 1) ||| ((a &&& 0x55) <<< 1)

/-- `ptrAddr` and `ptrBit` -/
structure P where
  addr : Nat
  bit : Nat

/-- `getBits`, sound/talkie.h:784-799: what is read, with the place after it. `data` has 16 bits. -/
def getBits (mem : Nat → Nat) (p : P) (bits : Nat) : Nat × P :=
  let data := rev (mem p.addr) <<< 8
  let data := if p.bit + bits > 8 then data ||| rev (mem (p.addr + 1)) else data
  let data := (data <<< p.bit) % 2 ^ 16
  (data >>> (16 - bits), if p.bit + bits ≥ 8 then ⟨p.addr + 1, p.bit + bits - 8⟩ else ⟨p.addr, p.bit + bits⟩)

/-- several numbers of bits after one another, as for a frame, sound/talkie.h:801-844 -/
def getAll (mem : Nat → Nat) : List Nat → P → List Nat × P
  | [], p => ([], p)
  | n :: l, p => let r := getBits mem p n; let s := getAll mem l r.2; (r.1 :: s.1, s.2)

/-- the word being spoken and those waiting, sound/talkie.h:668-669 -/
structure Q (W : Type) where
  cur : Option W
  words : List W

/-- what happens: something to say, or the end of a word in the data -/
inductive Ev (W : Type)
  | say (w : W)
  | stop

/-- `Say`, sound/talkie.h:677-700, and the stop frame, :813-826 -/
def step {W : Type} (q : Q W) : Ev W → Q W
  | .say w => match q.cur with
    | some _ => if q.words.length < 20 then { q with words := q.words ++ [w] } else q
    | none => { q with cur := some w }
  | .stop => match q.words with
    | [] => { q with cur := none }
    | w :: l => ⟨some w, l⟩

/-- `Get8kHz`, sound/talkie.h:846-850: whether a frame is read, and `count_`, which has 8 bits -/
def tick (rate c : Nat) : Bool × Nat := if c ≥ rate then (true, 0) else (false, (c + 1) % 256)

/-- whether a frame is read at each of `n` samples -/
def ticks (rate : Nat) : Nat → Nat → List Bool
  | 0, _ => []
  | n + 1, c => (tick rate c).1 :: ticks rate n (tick rate c).2

/-! ## Specification -/

/-- the bits of the data, lowest of each byte first -/
def stream (mem : Nat → Nat) (k : Nat) : Bool := (mem (k / 8)).testBit (k % 8)

/-- the place as a number of bits -/
def place (p : P) : Nat := 8 * p.addr + p.bit

/-- the number with the given bits, the first being the highest -/
def number : List Bool → Nat
  | [] => 0
  | b :: l => (if b then 2 ^ l.length else 0) + number l

/-! ## Lemmas -/

theorem rev_all : ∀ a < 256, rev a < 256 ∧ ∀ i < 8, (rev a).testBit i = a.testBit (7 - i) := by decide +kernel

theorem number_lt (l : List Bool) : number l < 2 ^ l.length := by
  induction l with
  | nil => decide
  | cons b l ih =>
    have : 2 ^ (l.length + 1) = 2 * 2 ^ l.length := by rw [Nat.pow_succ]; omega
    simp only [number, List.length_cons]
    split <;> omega

theorem number_testBit (l : List Bool) (j : Nat) (hj : j < l.length) : (number l).testBit j = l[l.length - 1 - j]'(by omega) := by
  induction l with
  | nil => simp at hj
  | cons b l ih =>
    have hlt := number_lt l
    simp only [number, List.length_cons] at hj ⊢
    by_cases h : j = l.length
    · subst h
      simp only [Nat.add_sub_cancel, Nat.sub_self, List.getElem_cons_zero]
      cases b with
      | true => simp only [if_true]; rw [Nat.testBit_two_pow_add_eq, Nat.testBit_lt_two_pow hlt]; rfl
      | false => simp only [Bool.false_eq_true, if_false, Nat.zero_add]; exact Nat.testBit_lt_two_pow hlt
    · have hj' : j < l.length := by omega
      have e : l.length + 1 - 1 - j = (l.length - 1 - j) + 1 := by omega
      have hg : (b :: l)[l.length + 1 - 1 - j]'(by simp; omega) = l[l.length - 1 - j]'(by omega) := by
        simp only [e, List.getElem_cons_succ]
      rw [hg, ← ih hj']
      cases b with
      | true => simp only [if_true]; exact Nat.testBit_two_pow_add_gt hj' _
      | false => simp

theorem getBits_value (mem : Nat → Nat) (hm : ∀ i, mem i < 256) (p : P) (n : Nat) (hb : p.bit < 8) (hn : n ≤ 8) :
    (getBits mem p n).1 = number ((List.range n).map fun i => stream mem (place p + i)) := by
  apply Nat.eq_of_testBit_eq
  intro j
  simp only [getBits, Nat.testBit_shiftRight, Nat.testBit_mod_two_pow, Nat.testBit_shiftLeft]
  by_cases hj : j < n
  · rw [number_testBit _ j (by simpa using hj)]
    simp only [List.length_map, List.length_range, List.getElem_map, List.getElem_range]
    have h1 : 16 - n + j < 16 := by omega
    have h2 : p.bit ≤ 16 - n + j := by omega
    simp only [h1, h2, decide_true, Bool.true_and]
    unfold stream place
    obtain ⟨r0, t0⟩ := rev_all (mem p.addr) (hm _)
    obtain ⟨r1, t1⟩ := rev_all (mem (p.addr + 1)) (hm _)
    by_cases hs : p.bit + (n - 1 - j) < 8
    · have e1 : (8 * p.addr + p.bit + (n - 1 - j)) / 8 = p.addr := by omega
      have e2 : (8 * p.addr + p.bit + (n - 1 - j)) % 8 = p.bit + (n - 1 - j) := by omega
      rw [e1, e2]
      have hx : (rev (mem (p.addr + 1))).testBit (16 - n + j - p.bit) = false := by
        apply Nat.testBit_lt_two_pow
        have : 2 ^ 8 ≤ 2 ^ (16 - n + j - p.bit) := Nat.pow_le_pow_right (by decide) (by omega)
        omega
      have hy : (rev (mem p.addr) <<< 8).testBit (16 - n + j - p.bit) = (mem p.addr).testBit (p.bit + (n - 1 - j)) := by
        rw [Nat.testBit_shiftLeft, t0 _ (by omega)]
        have : 8 ≤ 16 - n + j - p.bit := by omega
        simp only [ge_iff_le, this, decide_true, Bool.true_and]
        congr 1; omega
      split
      · rw [Nat.testBit_or, hx, hy]; simp
      · exact hy
    · have e1 : (8 * p.addr + p.bit + (n - 1 - j)) / 8 = p.addr + 1 := by omega
      have e2 : (8 * p.addr + p.bit + (n - 1 - j)) % 8 = p.bit + (n - 1 - j) - 8 := by omega
      rw [e1, e2, if_pos (by omega), Nat.testBit_or, Nat.testBit_shiftLeft, t1 _ (by omega)]
      have : ¬ 8 ≤ 16 - n + j - p.bit := by omega
      simp only [ge_iff_le, this, decide_false, Bool.false_and, Bool.false_or]
      congr 1; omega
  · have h1 : ¬ 16 - n + j < 16 := by omega
    simp only [h1, decide_false, Bool.false_and]
    symm
    apply Nat.testBit_lt_two_pow
    have := number_lt ((List.range n).map fun i => stream mem (place p + i))
    simp only [List.length_map, List.length_range] at this
    exact Nat.lt_of_lt_of_le this (Nat.pow_le_pow_right (by decide) (by omega))

theorem getBits_place (mem : Nat → Nat) (p : P) (n : Nat) (hb : p.bit < 8) (hn : n ≤ 8) :
    place (getBits mem p n).2 = place p + n ∧ (getBits mem p n).2.bit < 8 := by
  simp only [getBits, place]
  split
  · dsimp only; omega
  · dsimp only; omega

/-! ## Claims -/

/-- the numbers of the given widths in the bits from `k` on -/
def parse (mem : Nat → Nat) : List Nat → Nat → List Nat
  | [], _ => []
  | n :: l, k => number ((List.range n).map fun i => stream mem (k + i)) :: parse mem l (k + n)

/-- **C154.** The numbers of a word are read one after another from its bits, none skipped or read twice, whatever their widths up to eight and wherever
they cross from byte to byte. -/
theorem C154_bits (mem : Nat → Nat) (hm : ∀ i, mem i < 256) (l : List Nat) (hl : ∀ n ∈ l, n ≤ 8) (p : P) (hb : p.bit < 8) :
    (getAll mem l p).1 = parse mem l (place p) ∧ place (getAll mem l p).2 = place p + l.sum := by
  induction l generalizing p with
  | nil => exact ⟨rfl, by simp [getAll]⟩
  | cons n l ih =>
    obtain ⟨h1, h2⟩ := getBits_place mem p n hb (hl n (by simp))
    obtain ⟨i1, i2⟩ := ih (fun m hm => hl m (by simp [hm])) (getBits mem p n).2 h2
    refine ⟨?_, ?_⟩
    · simp only [getAll, parse]
      rw [getBits_value mem hm p n hb (hl n (by simp)), i1, h1]
    · simp only [getAll, List.sum_cons]
      rw [i2, h1]; omega

/-- **C154.** Reading does not depend on anything beyond the byte of the last bit read, so nothing is read beyond a word's end. -/
theorem C154_within (mem mem' : Nat → Nat) (p : P) (n : Nat) (h : ∀ i, 8 * i < place p + n → mem i = mem' i) (hb : p.bit < 8) (hn : 0 < n) :
    getBits mem p n = getBits mem' p n := by
  have h0 := h p.addr (by unfold place; omega)
  simp only [getBits, h0]
  by_cases hc : p.bit + n > 8
  · rw [h (p.addr + 1) (by unfold place; omega)]
  · simp [hc]

/-- what was said, is being said and will be said, when `done` was said before -/
def spoken {W : Type} : List (Ev W) → Q W → List W → List W
  | [], q, done => done ++ q.cur.toList ++ q.words
  | .stop :: l, q, done => spoken l (step q .stop) (done ++ q.cur.toList)
  | .say w :: l, q, done => spoken l (step q (.say w)) done

/-- what was given to say, less what came while twenty words waited -/
def given {W : Type} : List (Ev W) → Q W → List W
  | [], _ => []
  | .stop :: l, q => given l (step q .stop)
  | .say w :: l, q => (if q.words.length < 20 then [w] else []) ++ given l (step q (.say w))

/-- **C154.** Words are spoken in the order given, each once; one is left out only if it comes while twenty others wait. -/
theorem C154_order {W : Type} (l : List (Ev W)) : spoken l ⟨none, []⟩ [] = given l ⟨none, []⟩ := by
  have key : ∀ (l : List (Ev W)) (q : Q W) (done : List W), (q.cur = none → q.words = []) →
      spoken l q done = done ++ q.cur.toList ++ q.words ++ given l q := by
    intro l
    induction l with
    | nil => intro q done _; simp [spoken, given]
    | cons e l ih =>
      intro q done hq
      obtain ⟨cur, words⟩ := q
      dsimp only at hq
      cases e with
      | stop =>
        simp only [spoken, given]
        cases words with
        | nil => rw [ih _ _ (by intro _; rfl)]; simp [step]
        | cons w ws => rw [ih _ _ (by (intro h; simp [step] at h))]; simp [step]
      | say w =>
        simp only [spoken, given]
        cases cur with
        | none =>
          have := hq rfl
          subst this
          rw [ih _ _ (by (intro h; simp [step] at h))]; simp [step]
        | some c =>
          by_cases hf : words.length < 20
          · rw [ih _ _ (by (intro h; simp [step, hf] at h))]; simp [step, hf]
          · rw [ih _ _ (by (intro h; simp [step, hf] at h))]; simp [step, hf]
  simpa using key l ⟨none, []⟩ [] (fun _ => rfl)

/-- **C154.** Each frame lasts `rate + 1` samples: after one is read, the next is read at exactly that distance. -/
theorem C154_frame (rate : Nat) (h : rate ≤ 255) (n : Nat) : ticks rate (rate + 1 + n) 0 = List.replicate rate false ++ true :: ticks rate n 0 := by
  have key : ∀ k c, c + k = rate → ticks rate (k + 1 + n) c = List.replicate k false ++ true :: ticks rate n 0 := by
    intro k
    induction k with
    | zero =>
      intro c hc
      rw [show 0 + 1 + n = n + 1 by omega]
      simp [ticks, tick, show c ≥ rate by omega]
    | succ k ih =>
      intro c hc
      rw [show k + 1 + 1 + n = (k + 1 + n) + 1 by omega]
      have hlt : ¬ c ≥ rate := by omega
      simp only [ticks, tick, hlt, if_false, List.replicate_succ, List.cons_append]
      rw [Nat.mod_eq_of_lt (by omega), ih (c + 1) (by omega)]
  exact key rate 0 (by omega)

/-- **C154.** Counterexample: with a rate of 37 or more, times seven, the counter never gets there and the speech hangs for ever. -/
theorem C154_hang_counterexample (r : Nat) (h : 37 ≤ r) (n c : Nat) (hc : c < 256) : true ∉ ticks (r * 7) n c := by
  induction n generalizing c with
  | zero => simp [ticks]
  | succ n ih =>
    have hlt : ¬ c ≥ r * 7 := by omega
    simp only [ticks, tick, hlt, if_false]
    intro hm
    rcases List.mem_cons.mp hm with e | hm
    · cases e
    · exact ih ((c + 1) % 256) (Nat.mod_lt _ (by decide)) hm

/-- The claims apply: four, one and six bits across a byte. -/
example : (getAll (fun i => if i = 0 then 0x35 else 0x02) [4, 1, 6] ⟨0, 0⟩).1 = [10, 1, 34] ∧ place (getAll (fun _ => 0) [4, 1, 6] ⟨0, 0⟩).2 = 11 := by decide

end Verif.Audio.Talkie
