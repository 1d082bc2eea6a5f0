/-
  RFID tags: common/serial.h:42-110 (`RFIDParser`).

  The code is a coroutine; its points of suspension are the states.  An event is
  one byte from the reader, or 200 ms without one.  Not modelled: the printing of
  the tag on the console.
-/
namespace Verif.Serial.Rfid

/-! ## Model -/

/-- Where the coroutine waits (serial.h:74, 78, 88, 93). -/
inductive St
  | idle
  /-- in the `for` loop, `x` digits read -/
  | digits (x code : Nat)
  | check (code : Nat)
  | fin (code : Nat)
deriving DecidableEq, Repr

inductive Ev
  | byte (c : Nat)
  | timeout
deriving DecidableEq, Repr

/-- serial.h:80-86: `c - '0'`, `c - ('A' - 10)`, otherwise retry. -/
def hexval (c : Nat) : Option Nat :=
  if 48 ≤ c ∧ c ≤ 57 then some (c - 48)
  else if 65 ≤ c ∧ c ≤ 70 then some (c - 55)
  else none

/-- serial.h:89-91.  `x` is an `int`: the 64 bit value is cut to 32 bits.  The
    shifts are arithmetic in C, but only bits below 24 are used. -/
def checksum (code : Nat) : Nat :=
  let x := (code ^^^ (code >>> 24)) % 2 ^ 32
  (x ^^^ ((x >>> 8) ^^^ (x >>> 16))) % 2 ^ 8

/-- One resumption of `Loop` (serial.h:70-107); the second component is the tag
    looked up in the table. -/
def step : St → Ev → St × Option Nat
  | _, .timeout => (.idle, none)
  | .idle, .byte c => if c ≠ 2 then (.idle, none) else (.digits 0 0, none)
  | .digits x code, .byte c =>
    match hexval c with
    | none => (.idle, none)
    | some d =>
      let code := (code <<< 4) % 2 ^ 64 ||| d
      if x + 1 < 10 then (.digits (x + 1) code, none) else (.check code, none)
  | .check code, .byte c => if c ≠ checksum code then (.idle, none) else (.fin code, none)
  | .fin code, .byte c => if c = 3 then (.idle, some code) else (.idle, none)

/-- The commands run for a tag (serial.h:98-102). -/
def commands {α} (table : List (Nat × α)) (code : Nat) : List α :=
  match table with
  | [] => []
  | (id, cmd) :: l => if code = id then cmd :: commands l code else commands l code

def run : St → List Ev → St × List Nat
  | s, [] => (s, [])
  | s, e :: es =>
    let r := step s e
    let q := run r.1 es
    (q.1, r.2.toList ++ q.2)

/-! ## Specification -/

/-- The character for a digit. -/
def hexchar (d : Nat) : Nat := if d < 10 then 48 + d else 55 + d

/-- What a reader sends for a tag of five bytes. -/
def frame (b0 b1 b2 b3 b4 : Nat) : List Ev :=
  .byte 2 ::
    ([b0 / 16, b0 % 16, b1 / 16, b1 % 16, b2 / 16, b2 % 16, b3 / 16, b3 % 16, b4 / 16, b4 % 16].map
      fun d => .byte (hexchar d)) ++
    [.byte (b0 ^^^ b1 ^^^ b2 ^^^ b3 ^^^ b4), .byte 3]

/-- The number of the tag. -/
def tag (b0 b1 b2 b3 b4 : Nat) : Nat :=
  b0 * 4294967296 + b1 * 16777216 + b2 * 65536 + b3 * 256 + b4

/-! ## Lemmas -/

theorem hexval_hexchar (d : Nat) (h : d < 16) : hexval (hexchar d) = some d := by
  unfold hexval hexchar
  by_cases h9 : d < 10
  · rw [if_pos h9, if_pos (by omega)]; congr 1; omega
  · rw [if_neg h9, if_neg (by omega), if_pos (by omega)]; congr 1; omega

theorem hexval_some {c d : Nat} (h : hexval c = some d) : d < 16 ∧ c = hexchar d := by
  unfold hexval at h
  split at h
  · cases h; unfold hexchar
    refine ⟨by omega, ?_⟩
    rw [if_pos (by omega)]; omega
  · split at h
    · cases h; unfold hexchar
      refine ⟨by omega, ?_⟩
      rw [if_neg (by omega)]; omega
    · cases h

theorem push (code d : Nat) (h : code < 2 ^ 60) (hd : d < 16) :
    (code <<< 4) % 2 ^ 64 ||| d = code * 16 + d := by
  have h1 : code <<< 4 = code * 16 := by rw [Nat.shiftLeft_eq]
  have h2 : (code <<< 4) % 2 ^ 64 = code <<< 4 := by
    rw [h1]; exact Nat.mod_eq_of_lt (by omega)
  rw [h2, ← Nat.shiftLeft_add_eq_or_of_lt (by omega), h1]

theorem tag_byte (b0 b1 b2 b3 b4 : Nat) (h0 : b0 < 256) (h1 : b1 < 256) (h2 : b2 < 256)
    (h3 : b3 < 256) (h4 : b4 < 256) :
    tag b0 b1 b2 b3 b4 % 256 = b4 ∧ tag b0 b1 b2 b3 b4 / 256 % 256 = b3 ∧
    tag b0 b1 b2 b3 b4 / 65536 % 256 = b2 ∧ tag b0 b1 b2 b3 b4 / 16777216 % 256 = b1 ∧
    tag b0 b1 b2 b3 b4 / 4294967296 % 256 = b0 ∧ tag b0 b1 b2 b3 b4 < 2 ^ 40 := by
  unfold tag
  omega

theorem bit_of_byte {c b : Nat} (k i : Nat) (hi : i < 8) (h : c / 2 ^ k % 2 ^ 8 = b) :
    c.testBit (i + k) = b.testBit i := by
  rw [← h, Nat.testBit_mod_two_pow, Nat.testBit_div_two_pow, decide_eq_true hi, Bool.true_and,
    Nat.add_comm]

theorem checksum_eq (b0 b1 b2 b3 b4 : Nat) (h0 : b0 < 256) (h1 : b1 < 256) (h2 : b2 < 256)
    (h3 : b3 < 256) (h4 : b4 < 256) :
    checksum (tag b0 b1 b2 b3 b4) = b0 ^^^ b1 ^^^ b2 ^^^ b3 ^^^ b4 := by
  obtain ⟨e4, e3, e2, e1, e0, hlt⟩ := tag_byte b0 b1 b2 b3 b4 h0 h1 h2 h3 h4
  generalize tag b0 b1 b2 b3 b4 = c at e4 e3 e2 e1 e0 hlt
  have big : ∀ i, 40 ≤ i → c.testBit i = false := fun i hi =>
    Nat.testBit_lt_two_pow (Nat.lt_of_lt_of_le hlt (Nat.pow_le_pow_right (by decide) hi))
  apply Nat.eq_of_testBit_eq
  intro i
  unfold checksum
  by_cases hi : i < 8
  · have t4 := bit_of_byte (c := c) 0 i hi (by simpa using e4)
    have t3 := bit_of_byte (c := c) 8 i hi e3
    have t2 := bit_of_byte (c := c) 16 i hi e2
    have t1 := bit_of_byte (c := c) 24 i hi e1
    have t0 := bit_of_byte (c := c) 32 i hi e0
    simp only [Nat.testBit_mod_two_pow, Nat.testBit_xor, Nat.testBit_shiftRight]
    have a1 : decide (i < 32) = true := by simp; omega
    have a2 : decide (8 + i < 32) = true := by simp; omega
    have a3 : decide (16 + i < 32) = true := by simp; omega
    have a4 : decide (i < 8) = true := by simp; omega
    rw [a1, a2, a3, a4]
    have c1 : 24 + i = i + 24 := by omega
    have c2 : 8 + i = i + 8 := by omega
    have c3 : 24 + (8 + i) = i + 32 := by omega
    have c4 : 16 + i = i + 16 := by omega
    have c5 : 24 + (16 + i) = i + 40 := by omega
    rw [c3, c5, c1, c2, c4, big (i + 40) (by omega)]
    rw [Nat.add_zero] at t4
    rw [t4, t3, t2, t1, t0]
    cases b0.testBit i <;> cases b1.testBit i <;> cases b2.testBit i <;> cases b3.testBit i <;>
      cases b4.testBit i <;> rfl
  · have z : ∀ b, b < 256 → b.testBit i = false := fun b hb =>
      Nat.testBit_lt_two_pow (Nat.lt_of_lt_of_le (m := 2 ^ 8) hb
        (Nat.pow_le_pow_right (by decide) (by omega)))
    have d8 : decide (i < 8) = false := by simp; omega
    simp only [Nat.testBit_mod_two_pow, Nat.testBit_xor, z _ h0, z _ h1, z _ h2, z _ h3, z _ h4, d8]
    rfl

theorem run_append : ∀ (a b : List Ev) (s : St),
    run s (a ++ b) = ((run (run s a).1 b).1, (run s a).2 ++ (run (run s a).1 b).2)
  | [], b, s => by simp [run]
  | e :: a, b, s => by
      simp only [List.cons_append, run]
      rw [run_append a b]
      simp

theorem step_digit (x code d : Nat) (hd : d < 16) (hc : code < 2 ^ 60) :
    step (.digits x code) (.byte (hexchar d)) =
      (if x + 1 < 10 then .digits (x + 1) (code * 16 + d) else .check (code * 16 + d), none) := by
  simp only [step, hexval_hexchar d hd, push code d hc hd]
  split <;> rfl

/-! ## C78 -/

/-- C78: when the parser is waiting, the thirteen bytes of any tag make it look up
    exactly that tag, once, and it is waiting again. -/
theorem C78_frame (b0 b1 b2 b3 b4 : Nat) (h0 : b0 < 256) (h1 : b1 < 256) (h2 : b2 < 256)
    (h3 : b3 < 256) (h4 : b4 < 256) :
    run .idle (frame b0 b1 b2 b3 b4) = (.idle, [tag b0 b1 b2 b3 b4]) := by
  have hs := checksum_eq b0 b1 b2 b3 b4 h0 h1 h2 h3 h4
  simp only [frame, List.map_cons, List.map_nil, List.cons_append, List.nil_append]
  have start : step .idle (.byte 2) = (.digits 0 0, none) := rfl
  simp only [run, start]
  rw [step_digit _ _ _ (by omega) (by omega), if_pos (by omega)]
  simp only []
  rw [step_digit _ _ _ (by omega) (by omega), if_pos (by omega)]
  simp only []
  rw [step_digit _ _ _ (by omega) (by omega), if_pos (by omega)]
  simp only []
  rw [step_digit _ _ _ (by omega) (by omega), if_pos (by omega)]
  simp only []
  rw [step_digit _ _ _ (by omega) (by omega), if_pos (by omega)]
  simp only []
  rw [step_digit _ _ _ (by omega) (by omega), if_pos (by omega)]
  simp only []
  rw [step_digit _ _ _ (by omega) (by omega), if_pos (by omega)]
  simp only []
  rw [step_digit _ _ _ (by omega) (by omega), if_pos (by omega)]
  simp only []
  rw [step_digit _ _ _ (by omega) (by omega), if_pos (by omega)]
  simp only []
  rw [step_digit _ _ _ (by omega) (by omega), if_neg (by omega)]
  simp only []
  have he : (((((((((0 * 16 + b0 / 16) * 16 + b0 % 16) * 16 + b1 / 16) * 16 + b1 % 16) * 16 + b2 / 16) * 16 +
      b2 % 16) * 16 + b3 / 16) * 16 + b3 % 16) * 16 + b4 / 16) * 16 + b4 % 16 = tag b0 b1 b2 b3 b4 := by
    unfold tag; omega
  rw [he]
  have hc : step (.check (tag b0 b1 b2 b3 b4)) (.byte (b0 ^^^ b1 ^^^ b2 ^^^ b3 ^^^ b4)) =
      (.fin (tag b0 b1 b2 b3 b4), none) := by
    simp only [step]
    rw [if_neg (by rw [hs]; simp)]
  rw [hc]
  rfl

example : run .idle (frame 0x0F 0x00 0xA1 0x5B 0xC3) = (.idle, [0x0F00A15BC3]) := by decide

/-- What the parser has seen in each state. -/
def Seen : St → List Ev → Prop
  | .idle, _ => True
  | .digits x code, h => x < 10 ∧ code < 16 ^ x ∧ ∃ (pre : List Ev) (ds : List Nat), ds.length = x ∧ (∀ d ∈ ds, d < 16) ∧
      h = pre ++ .byte 2 :: ds.map (fun d => .byte (hexchar d)) ∧
      code = ds.foldl (fun a d => a * 16 + d) 0
  | .check code, h => ∃ (pre : List Ev) (ds : List Nat), ds.length = 10 ∧ (∀ d ∈ ds, d < 16) ∧
      h = pre ++ .byte 2 :: ds.map (fun d => .byte (hexchar d)) ∧
      code = ds.foldl (fun a d => a * 16 + d) 0
  | .fin code, h => ∃ (pre : List Ev) (ds : List Nat), ds.length = 10 ∧ (∀ d ∈ ds, d < 16) ∧
      h = pre ++ .byte 2 :: (ds.map (fun d => .byte (hexchar d)) ++ [.byte (checksum code)]) ∧
      code = ds.foldl (fun a d => a * 16 + d) 0

theorem seen_step {s : St} {h : List Ev} (hs : Seen s h) (e : Ev) : Seen (step s e).1 (h ++ [e]) := by
  cases e with
  | timeout => cases s <;> exact trivial
  | byte c =>
    cases s with
    | idle =>
      simp only [step]
      split
      · exact trivial
      · have : c = 2 := by omega
        subst this
        exact ⟨by omega, by decide, h, [], rfl, by simp, by simp, rfl⟩
    | digits x code =>
      obtain ⟨hx, hc, pre, ds, hl, hd, hh, hcode⟩ := hs
      have hc60 : code < 2 ^ 60 := by
        have : (16 : Nat) ^ x ≤ 16 ^ 9 := Nat.pow_le_pow_right (by decide) (by omega)
        omega
      cases hv : hexval c with
      | none => simp only [step, hv]; exact trivial
      | some d =>
        obtain ⟨hd16, rfl⟩ := hexval_some hv
        rw [step_digit x code d hd16 hc60]
        have hall : ∀ d' ∈ ds ++ [d], d' < 16 := by
          intro d' hd'
          rcases List.mem_append.mp hd' with h' | h'
          · exact hd _ h'
          · simp at h'; omega
        have hhist : h ++ [Ev.byte (hexchar d)] =
            pre ++ .byte 2 :: (ds ++ [d]).map (fun d => .byte (hexchar d)) := by
          rw [hh]; simp
        have hfold : code * 16 + d = (ds ++ [d]).foldl (fun a d => a * 16 + d) 0 := by
          rw [List.foldl_append, ← hcode]; rfl
        split
        · rename_i h10
          refine ⟨h10, ?_, pre, ds ++ [d], by simp [hl], hall, hhist, hfold⟩
          rw [Nat.pow_succ]; omega
        · exact ⟨pre, ds ++ [d], by simp [hl]; omega, hall, hhist, hfold⟩
    | check code =>
      obtain ⟨pre, ds, hl, hd, hh, hcode⟩ := hs
      simp only [step]
      split
      · exact trivial
      · rename_i hc
        have hc : c = checksum code := by omega
        exact ⟨pre, ds, hl, hd, by rw [hh, hc]; simp, hcode⟩
    | fin code => simp only [step]; split <;> exact trivial

theorem seen_run : ∀ (es h : List Ev) (s : St), Seen s h → Seen (run s es).1 (h ++ es)
  | [], h, s, hs => by simpa [run] using hs
  | e :: es, h, s, hs => by
      have := seen_run es (h ++ [e]) _ (seen_step hs e)
      simpa [run] using this

/-- Ten digits are five bytes. -/
theorem ten {ds : List Nat} (hl : ds.length = 10) (hd : ∀ d ∈ ds, d < 16) :
    ∃ b0 b1 b2 b3 b4, b0 < 256 ∧ b1 < 256 ∧ b2 < 256 ∧ b3 < 256 ∧ b4 < 256 ∧
      ds = [b0 / 16, b0 % 16, b1 / 16, b1 % 16, b2 / 16, b2 % 16, b3 / 16, b3 % 16, b4 / 16, b4 % 16] ∧
      ds.foldl (fun a d => a * 16 + d) 0 = tag b0 b1 b2 b3 b4 := by
  match ds, hl with
  | [d0, d1, d2, d3, d4, d5, d6, d7, d8, d9], _ =>
    simp only [List.mem_cons, List.not_mem_nil, or_false, forall_eq_or_imp, forall_eq] at hd
    obtain ⟨g0, g1, g2, g3, g4, g5, g6, g7, g8, g9⟩ := hd
    refine ⟨d0 * 16 + d1, d2 * 16 + d3, d4 * 16 + d5, d6 * 16 + d7, d8 * 16 + d9,
      by omega, by omega, by omega, by omega, by omega, ?_, ?_⟩
    · have q : ∀ a b : Nat, b < 16 → (a * 16 + b) / 16 = a ∧ (a * 16 + b) % 16 = b := by
        intro a b hb; omega
      rw [(q d0 d1 g1).1, (q d0 d1 g1).2, (q d2 d3 g3).1, (q d2 d3 g3).2, (q d4 d5 g5).1,
        (q d4 d5 g5).2, (q d6 d7 g7).1, (q d6 d7 g7).2, (q d8 d9 g9).1, (q d8 d9 g9).2]
    · simp only [List.foldl_cons, List.foldl_nil, tag]
      omega

/-- C78: whatever has happened before, a tag is looked up only at the end of the
    thirteen bytes of that very tag, received one after the other without noise or
    timeout. -/
theorem C78_only (h : List Ev) (e : Ev) (t : Nat) (ht : (step (run .idle h).1 e).2 = some t) :
    ∃ pre b0 b1 b2 b3 b4, b0 < 256 ∧ b1 < 256 ∧ b2 < 256 ∧ b3 < 256 ∧ b4 < 256 ∧
      h ++ [e] = pre ++ frame b0 b1 b2 b3 b4 ∧ t = tag b0 b1 b2 b3 b4 := by
  have hs : Seen (run .idle h).1 h := by simpa using seen_run h [] .idle trivial
  generalize (run .idle h).1 = s at ht hs
  cases e with
  | timeout => cases s <;> cases ht
  | byte c =>
    cases s with
    | idle => simp only [step] at ht; split at ht <;> cases ht
    | digits x code =>
      simp only [step] at ht
      split at ht
      · cases ht
      · split at ht <;> cases ht
    | check code => simp only [step] at ht; split at ht <;> cases ht
    | fin code =>
      simp only [step] at ht
      split at ht
      · rename_i hc
        cases ht
        subst hc
        obtain ⟨pre, ds, hl, hd, hh, hcode⟩ := hs
        obtain ⟨b0, b1, b2, b3, b4, g0, g1, g2, g3, g4, hds, hf⟩ := ten hl hd
        refine ⟨pre, b0, b1, b2, b3, b4, g0, g1, g2, g3, g4, ?_, by rw [hcode, hf]⟩
        rw [hh, hcode, hf, checksum_eq b0 b1 b2 b3 b4 g0 g1 g2 g3 g4, hds]
        simp [frame]
      · cases ht

/-- C78: after any history, one pause is enough for the next tag to be read. -/
theorem C78_recover (h : List Ev) (b0 b1 b2 b3 b4 : Nat) (h0 : b0 < 256) (h1 : b1 < 256)
    (h2 : b2 < 256) (h3 : b3 < 256) (h4 : b4 < 256) :
    run .idle (h ++ .timeout :: frame b0 b1 b2 b3 b4) =
      (.idle, (run .idle h).2 ++ [tag b0 b1 b2 b3 b4]) := by
  rw [run_append]
  have : step (run .idle h).1 .timeout = (.idle, none) := by
    cases (run .idle h).1 <;> rfl
  simp only [run, this]
  rw [C78_frame b0 b1 b2 b3 b4 h0 h1 h2 h3 h4]
  rfl

/-- C78: the commands run for a tag are those listed for it, in order. -/
theorem C78_commands {α} (table : List (Nat × α)) (code : Nat) :
    commands table code = (table.filter fun p => p.1 == code).map (·.2) := by
  induction table with
  | nil => rfl
  | cons p l ih =>
    obtain ⟨id, cmd⟩ := p
    simp only [commands, List.filter_cons]
    by_cases h : code = id
    · subst h; simp [ih]
    · rw [if_neg h, if_neg (by simpa using fun e => h e.symm), ih]

/-- Without the pause a stray start byte makes the parser miss the tag: the real
    start byte is taken for a bad digit. -/
theorem C78_stray_counterexample :
    (run .idle (.byte 2 :: frame 0x0F 0x00 0xA1 0x5B 0xC3)).2 = [] := by decide

end Verif.Serial.Rfid
