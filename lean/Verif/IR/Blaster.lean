import Verif.IR.Rc6
/-!
# Infrared: laser tag protocol

Model of ir/blaster.h.
-/
set_option linter.unusedSimpArgs false
namespace Verif.IR.Blaster
open Verif.IR (Pulse)
open Verif.IR.Rc6 (bitList pushBit fold_bits bitList_length)

inductive Len where
  | illegal | short | long | mark1
deriving DecidableEq

/-- `classify`, ir/blaster.h:79-87 -/
def classify (us : Nat) : Len :=
  if us < 400 - 200 then .illegal
  else if us < 400 + 200 then .short
  else if us < 800 - 200 then .illegal
  else if us < 800 + 200 then .long
  else if us < 1600 - 200 then .illegal
  else if us < 1600 + 200 then .mark1
  else .illegal

/-- the members of `BlasterDecoder`, ir/blaster.h:10-12; `bits` is `state_ == State::Bits` -/
structure Dec where
  bits : Bool
  data : Nat
  num : Nat
deriving DecidableEq

def Dec.init : Dec := ⟨false, 0, 0⟩

/-- the checksum, ir/blaster.h:57 and 105: `team` and `damage` are bytes, the sum is an `int` and is stored in a byte -/
def parity (team damage : Nat) : Nat := ((team + damage) + ((team + damage - 1) / 5 + 4)) % 256

/-- ir/blaster.h:53-72: the message if it causes a `DoBlast` -/
def report (data : Nat) : List (Nat × Nat) :=
  if data % 256 = parity (data / 65536 % 256) (data / 256 % 256) then [(data / 65536 % 256, data / 256 % 256)] else []

/-- ir/blaster.h:41-76 -/
def Dec.bit (data num : Nat) : Dec × List (Nat × Nat) :=
  if num + 1 = 16 then (⟨decide (data = 0xAA), data, 16⟩, [])
  else if num + 1 = 40 then (⟨false, data, 40⟩, report data)
  else (⟨true, data, (num + 1) % 256⟩, [])

/-- `signal`, ir/blaster.h:16-77, while the blade is on -/
def Dec.signal (d : Dec) (p : Pulse) : Dec × List (Nat × Nat) :=
  if d.bits = false then (⟨p.1 && decide (classify p.2 = .mark1), 0, 0⟩, [])
  else
    match classify p.2 with
    | .long => Dec.bit (d.data * 2 % 4294967296 + 1) d.num
    | .short => Dec.bit (d.data * 2 % 4294967296) d.num
    | _ => (⟨false, d.data * 2 % 4294967296, d.num⟩, [])

def Dec.run (d : Dec) : List Pulse → Dec × List (Nat × Nat)
  | [] => (d, [])
  | p :: ps => (((d.signal p).1.run ps).1, (d.signal p).2 ++ ((d.signal p).1.run ps).2)

/-- the loop of `EncodeByte`, ir/blaster.h:92-97; `i` is the loop counter -/
def encodeBits : Nat → Nat → Nat → List Pulse
  | 0, _, _ => []
  | n + 1, i, x => (decide (i % 2 = 1), if x / 128 % 2 = 1 then 800 else 400) :: encodeBits n (i + 1) (x * 2 % 256)

/-- `EncodeByte`, ir/blaster.h:92-97 -/
def encodeByte (x : Nat) : List Pulse := encodeBits 8 0 x

/-- `Encode`, ir/blaster.h:98-106 -/
def encode (team damage : Nat) : List Pulse :=
  (true, 1700) :: (encodeByte 0 ++ encodeByte 0xAA ++ encodeByte team ++ encodeByte damage ++ encodeByte (parity team damage))

/-! ## What goes over the air (specification) -/

/-- less than 100 microseconds longer or shorter -/
def Near (p q : Pulse) : Prop := q.1 = p.1 ∧ p.2 < q.2 + 100 ∧ q.2 < p.2 + 100

inductive Received : List Pulse → List Pulse → Prop
  | nil : Received [] []
  | cons {p q ps qs} (h : Near p q) (t : Received ps qs) : Received (p :: ps) (q :: qs)

/-- messages with any silence before each -/
inductive Heard : List (Nat × Nat) → List Pulse → Prop
  | nil : Heard [] []
  | silence {us ms qs} (h : Heard ms qs) : Heard ms ((false, us) :: qs)
  | message {team damage ms ps qs} (ht : team < 256) (hd : damage < 256) (h : Received (encode team damage) ps) (t : Heard ms qs) :
      Heard ((team, damage) :: ms) (ps ++ qs)

/-- the bits of a message -/
def msgBits (team damage : Nat) : List Bool :=
  bitList 8 0 ++ bitList 8 0xAA ++ bitList 8 team ++ bitList 8 damage ++ bitList 8 (parity team damage)

/-! ## Proofs -/

theorem run_append (d : Dec) (a b : List Pulse) : d.run (a ++ b) = (((d.run a).1.run b).1, (d.run a).2 ++ ((d.run a).1.run b).2) := by
  induction a generalizing d with
  | nil => simp [Dec.run]
  | cons p a ih => simp only [List.cons_append, Dec.run]; rw [ih]; simp

/-- the bit a pulse stands for -/
def bitOf (p : Pulse) : Option Bool :=
  match classify p.2 with
  | .long => some true
  | .short => some false
  | _ => none

theorem signal_bit {data num : Nat} {p : Pulse} {b : Bool} (h : bitOf p = some b) :
    Dec.signal ⟨true, data, num⟩ p = Dec.bit (pushBit data b % 4294967296) num := by
  unfold Dec.signal
  unfold bitOf at h
  cases hc : classify p.2 <;> simp only [hc] at h ⊢ <;> simp at h
  · subst h
    rw [if_neg (by decide)]
    simp [pushBit]
  · subst h
    rw [if_neg (by decide)]
    have : data * 2 % 4294967296 + 1 = pushBit data true % 4294967296 := by
      unfold pushBit
      simp only [if_true]
      omega
    simp only [this]

theorem signal_other {data num : Nat} {p : Pulse} (h : bitOf p = none) : (Dec.signal ⟨true, data, num⟩ p).1.bits = false ∧ (Dec.signal ⟨true, data, num⟩ p).2 = [] := by
  unfold Dec.signal
  unfold bitOf at h
  cases hc : classify p.2 <;> simp only [hc] at h ⊢ <;> simp at h ⊢

/-- the pulses stand for the bits -/
def Bits (ps : List Pulse) (bs : List Bool) : Prop := ps.map bitOf = bs.map some

theorem encodeBits_bits : ∀ n i x qs, Received (encodeBits n i x) qs → Bits qs (bitList n x)
  | 0, i, x, qs, h => by cases h; rfl
  | n + 1, i, x, qs, h => by
    cases h with
    | cons h t =>
      have ih := encodeBits_bits n _ _ _ t
      unfold Bits at ih ⊢
      rename_i q qs
      have : bitOf q = some (decide (x / 128 % 2 = 1)) := by
        obtain ⟨_, h1, h2⟩ := h
        simp only at h1 h2
        unfold bitOf classify
        by_cases hx : x / 128 % 2 = 1
        · rw [if_pos hx] at h1 h2
          rw [if_neg (by omega), if_neg (by omega), if_neg (by omega), if_pos (by omega), decide_eq_true hx]
        · rw [if_neg hx] at h1 h2
          rw [if_neg (by omega), if_pos (by omega), decide_eq_false hx]
      simp only [List.map_cons, bitList, this, ih]

theorem received_append : ∀ {a b qs}, Received (a ++ b) qs → ∃ q1 q2, qs = q1 ++ q2 ∧ Received a q1 ∧ Received b q2
  | [], b, qs, h => ⟨[], qs, rfl, .nil, h⟩
  | p :: a, b, _, .cons h t => by
    obtain ⟨q1, q2, e, h1, h2⟩ := received_append t
    exact ⟨_ :: q1, q2, by rw [e]; rfl, .cons h h1, h2⟩

theorem Bits.append {p q : List Pulse} {a b : List Bool} (h1 : Bits p a) (h2 : Bits q b) : Bits (p ++ q) (a ++ b) := by
  unfold Bits at *
  rw [List.map_append, List.map_append, h1, h2]

theorem Bits.split {p : List Pulse} {a b : List Bool} (h : Bits p (a ++ b)) : ∃ p1 p2, p = p1 ++ p2 ∧ Bits p1 a ∧ Bits p2 b := by
  unfold Bits at h
  rw [List.map_append] at h
  obtain ⟨p1, p2, e, h1, h2⟩ := List.map_eq_append_iff.1 h
  exact ⟨p1, p2, e, h1, h2⟩

theorem Bits.cons {p : List Pulse} {b : Bool} {bs : List Bool} (h : Bits p (b :: bs)) : ∃ q ps, p = q :: ps ∧ bitOf q = some b ∧ Bits ps bs := by
  unfold Bits at h
  cases p with
  | nil => simp at h
  | cons q ps => simp only [List.map_cons, List.cons.injEq] at h; exact ⟨q, ps, rfl, h.1, h.2⟩

theorem pushBit_mod (x : Nat) (b : Bool) : pushBit (x % 4294967296) b % 4294967296 = pushBit x b % 4294967296 := by
  unfold pushBit; split <;> omega

theorem foldl_mod (bs : List Bool) (x : Nat) : bs.foldl pushBit (x % 4294967296) % 4294967296 = bs.foldl pushBit x % 4294967296 := by
  induction bs generalizing x with
  | nil => simp
  | cons b bs ih =>
    rw [List.foldl_cons, List.foldl_cons, ← ih (pushBit (x % _) b), pushBit_mod, ih]

/-- bits that do not complete the header or the message -/
theorem run_bits : ∀ (bs : List Bool) {ps : List Pulse} {data num : Nat}, Bits ps bs → ((16 ≤ num ∧ num + bs.length < 40) ∨ num + bs.length < 16) →
    Dec.run ⟨true, data % 4294967296, num⟩ ps = (⟨true, bs.foldl pushBit data % 4294967296, num + bs.length⟩, [])
  | [], ps, data, num, h, _ => by
    have : ps = [] := List.map_eq_nil_iff.1 h
    subst this
    rfl
  | b :: bs, ps, data, num, h, hn => by
    obtain ⟨q, ps, rfl, hq, h⟩ := h.cons
    rw [List.length_cons] at hn
    have hs : Dec.signal ⟨true, data % 4294967296, num⟩ q = (⟨true, pushBit data b % 4294967296, num + 1⟩, []) := by
      rw [signal_bit hq, pushBit_mod]
      unfold Dec.bit
      rw [if_neg (by omega), if_neg (by omega), Nat.mod_eq_of_lt (show num + 1 < 256 by omega)]
    simp only [Dec.run, hs, List.nil_append, List.foldl_cons, List.length_cons]
    rw [run_bits bs h (by omega)]
    simp only [Nat.add_assoc, Nat.add_comm 1]

theorem encode_bits {team damage : Nat} {qs : List Pulse} (h : Received (encode team damage) qs) :
    ∃ m ps, qs = m :: ps ∧ m.1 = true ∧ classify m.2 = .mark1 ∧ Bits ps (msgBits team damage) := by
  cases h with
  | cons h t =>
    rename_i m ps
    refine ⟨m, ps, rfl, h.1, ?_, ?_⟩
    · obtain ⟨_, h1, h2⟩ := h
      simp only at h1 h2
      unfold classify
      rw [if_neg (by omega), if_neg (by omega), if_neg (by omega), if_neg (by omega), if_neg (by omega), if_pos (by omega)]
    · obtain ⟨_, q5, rfl, t, h5⟩ := received_append t
      obtain ⟨_, q4, rfl, t, h4⟩ := received_append t
      obtain ⟨_, q3, rfl, t, h3⟩ := received_append t
      obtain ⟨q1, q2, rfl, h1, h2⟩ := received_append t
      exact ((((encodeBits_bits _ _ _ _ h1).append (encodeBits_bits _ _ _ _ h2)).append (encodeBits_bits _ _ _ _ h3)).append (encodeBits_bits _ _ _ _ h4)).append (encodeBits_bits _ _ _ _ h5)

theorem parity_lt (t d : Nat) : parity t d < 256 := Nat.mod_lt _ (by decide)

theorem run_message {team damage : Nat} (ht : team < 256) (hd : damage < 256) {data num : Nat} {qs : List Pulse} (h : Received (encode team damage) qs) :
    ∃ data' num', Dec.run ⟨false, data, num⟩ qs = (⟨false, data', num'⟩, [(team, damage)]) := by
  obtain ⟨m, ps, rfl, hm1, hm2, hb⟩ := encode_bits h
  have hstart : Dec.signal ⟨false, data, num⟩ m = (⟨true, 0, 0⟩, []) := by
    unfold Dec.signal
    rw [if_pos rfl, hm1, hm2]; rfl
  have hp := parity_lt team damage
  obtain ⟨p, hpe⟩ : ∃ p, p = parity team damage := ⟨_, rfl⟩
  unfold msgBits at hb
  rw [← hpe] at hb hp
  -- the header
  have hsplit : bitList 8 0 ++ bitList 8 0xAA ++ bitList 8 team ++ bitList 8 damage ++ bitList 8 p =
      [false, false, false, false, false, false, false, false, true, false, true, false, true, false, true] ++
      (false :: (bitList 8 team ++ bitList 8 damage ++ bitList 8 p)) := by
    have : bitList 8 0 ++ bitList 8 0xAA = [false, false, false, false, false, false, false, false, true, false, true, false, true, false, true] ++ [false] := by decide
    rw [this]; simp
  rw [hsplit] at hb
  obtain ⟨p1, p2, rfl, b1, b2⟩ := hb.split
  obtain ⟨q16, p2, rfl, hq16, b2⟩ := b2.cons
  obtain ⟨bs, hbs⟩ : ∃ bs, bs = bitList 8 team ++ bitList 8 damage ++ bitList 8 p := ⟨_, rfl⟩
  rw [← hbs] at b2
  have hlen : bs.length = 24 := by rw [hbs]; simp [bitList_length]
  have hfold : bs.foldl pushBit 170 = 170 * 16777216 + team * 65536 + damage * 256 + p := by
    rw [hbs, List.foldl_append, List.foldl_append, fold_bits 8 1 team _ (by decide) (by decide) ht, fold_bits 8 1 damage _ (by decide) (by decide) hd,
      fold_bits 8 1 p _ (by decide) (by decide) hp]
    omega
  have hne : bs ≠ [] := by intro h; rw [h] at hlen; simp at hlen
  obtain ⟨init, last, hil⟩ : ∃ init last, bs = init ++ [last] := ⟨bs.dropLast, bs.getLast hne, (List.dropLast_concat_getLast hne).symm⟩
  rw [hil] at b2
  obtain ⟨p3, p4, rfl, b3, b4⟩ := b2.split
  obtain ⟨q40, p5, rfl, hq40, b5⟩ := b4.cons
  have : p5 = [] := List.map_eq_nil_iff.1 b5
  subst this
  have hlen' : init.length = 23 := by rw [hil] at hlen; simpa using hlen
  have hfold' : pushBit (init.foldl pushBit 170) last = 170 * 16777216 + team * 65536 + damage * 256 + p := by
    rw [← hfold, hil, List.foldl_append]; rfl
  have r1 := run_bits _ (data := 0) (num := 0) b1 (Or.inr (by decide))
  have hmid : Dec.signal ⟨true, 85, 15⟩ q16 = (⟨true, 170, 16⟩, []) := by
    rw [signal_bit hq16]; decide
  have r3 := run_bits _ (data := 170) (num := 16) b3 (Or.inl (by omega))
  have hlast : Dec.signal ⟨true, init.foldl pushBit 170 % 4294967296, 39⟩ q40 = (⟨false, (170 * 16777216 + team * 65536 + damage * 256 + p) % 4294967296, 40⟩, [(team, damage)]) := by
    rw [signal_bit hq40, pushBit_mod, hfold']
    unfold Dec.bit
    rw [if_neg (by decide), if_pos rfl]
    have e1 : (170 * 16777216 + team * 65536 + damage * 256 + p) % 4294967296 / 65536 % 256 = team := by omega
    have e2 : (170 * 16777216 + team * 65536 + damage * 256 + p) % 4294967296 / 256 % 256 = damage := by omega
    have e3 : (170 * 16777216 + team * 65536 + damage * 256 + p) % 4294967296 % 256 = p := by omega
    unfold report
    rw [e1, e2, e3, if_pos hpe]
  refine ⟨(170 * 16777216 + team * 65536 + damage * 256 + p) % 4294967296, 40, ?_⟩
  rw [show m :: (p1 ++ q16 :: (p3 ++ [q40])) = [m] ++ (p1 ++ ([q16] ++ (p3 ++ [q40]))) by simp]
  rw [run_append, run_append, run_append, run_append]
  have r0 : Dec.run ⟨false, data, num⟩ [m] = (⟨true, 0 % 4294967296, 0⟩, []) := by simp only [Dec.run, hstart]; rfl
  have r2 : Dec.run ⟨true, 85, 15⟩ [q16] = (⟨true, 170 % 4294967296, 16⟩, []) := by simp only [Dec.run, hmid]; rfl
  have r1' : Dec.run ⟨true, 0 % 4294967296, 0⟩ p1 = (⟨true, 85, 15⟩, []) := r1
  rw [hlen'] at r3
  rw [r0]; simp only [r1', r2, r3]
  simp only [Dec.run, hlast, List.nil_append, List.append_nil]

theorem C65_run {ms : List (Nat × Nat)} {qs : List Pulse} (h : Heard ms qs) (data num : Nat) : (Dec.run ⟨false, data, num⟩ qs).2 = ms ∧ (Dec.run ⟨false, data, num⟩ qs).1.bits = false := by
  induction h generalizing data num with
  | nil => exact ⟨rfl, rfl⟩
  | @silence us ms qs h ih =>
    have : Dec.signal ⟨false, data, num⟩ (false, us) = (⟨false, 0, 0⟩, []) := rfl
    simp only [Dec.run, this, List.nil_append]
    exact ih 0 0
  | @message team damage ms ps qs ht hd h t ih =>
    obtain ⟨data', num', e⟩ := run_message ht hd (data := data) (num := num) h
    rw [run_append, e]
    obtain ⟨i1, i2⟩ := ih data' num'
    exact ⟨by simp only [i1]; rfl, i2⟩

/-- C65: messages sent one after the other, with any silence between them, are all recognised, in order, with team
and damage as sent, for every distortion of less than 100 microseconds per pulse -/
theorem C65_roundtrip {ms : List (Nat × Nat)} {qs : List Pulse} (h : Heard ms qs) : (Dec.init.run qs).2 = ms := (C65_run h 0 0).1

theorem received_refl : ∀ ps, Received ps ps
  | [] => .nil
  | p :: ps => .cons ⟨rfl, by omega, by omega⟩ (received_refl ps)

example : (Dec.init.run (encode 1 3 ++ (false, 30000) :: (encode 255 255 ++ []))).2 = [(1, 3), (255, 255)] :=
  C65_roundtrip (.message (by decide) (by decide) (received_refl _) (.silence (.message (by decide) (by decide) (received_refl _) .nil)))

/-! ## No false hits -/

/-- what the decoder has seen -/
def Inv (ps : List Pulse) (d : Dec) : Prop :=
  d.bits = true → ∃ before m qs bs, ps = before ++ m :: qs ∧ m.1 = true ∧ classify m.2 = .mark1 ∧ Bits qs bs ∧ bs.length = d.num ∧ d.num < 40 ∧
    d.data = bs.foldl pushBit 0 % 4294967296 ∧ (16 ≤ d.num → (bs.take 16).foldl pushBit 0 = 0xAA)

/-- bits with the same number and value are the same -/
theorem fold_inj : ∀ (a b : List Bool) (x y : Nat), a.length = b.length → a.foldl pushBit x = b.foldl pushBit y → a = b ∧ x = y
  | [], [], _, _, _, h => ⟨rfl, h⟩
  | a :: as, b :: bs, x, y, hl, h => by
    obtain ⟨e1, e2⟩ := fold_inj as bs _ _ (by simpa using hl) h
    subst e1
    unfold pushBit at e2
    cases a <;> cases b <;> simp only [if_true, if_false, Bool.false_eq_true] at e2
    · exact ⟨rfl, by omega⟩
    · omega
    · omega
    · exact ⟨rfl, by omega⟩

theorem fold_lt : ∀ (a : List Bool) (x : Nat), x * 2 ^ a.length ≤ a.foldl pushBit x ∧ a.foldl pushBit x < (x + 1) * 2 ^ a.length
  | [], x => by simp
  | a :: as, x => by
    have ih := fold_lt as (pushBit x a)
    rw [List.foldl_cons, List.length_cons, Nat.pow_succ]
    have h1 : x * 2 ≤ pushBit x a ∧ pushBit x a + 1 ≤ (x + 1) * 2 := by unfold pushBit; split <;> omega
    have h2 := Nat.mul_le_mul_right (2 ^ as.length) h1.1
    have h3 := Nat.mul_le_mul_right (2 ^ as.length) h1.2
    rw [Nat.mul_assoc, Nat.mul_comm 2] at h2 h3
    exact ⟨Nat.le_trans h2 ih.1, Nat.lt_of_lt_of_le ih.2 h3⟩

/-- a bit list of the right length and value is the message -/
theorem bits_unique {bs : List Bool} (hl : bs.length = 40) (h16 : (bs.take 16).foldl pushBit 0 = 0xAA) {team damage : Nat}
    (hr : report (bs.foldl pushBit 0 % 4294967296) = [(team, damage)]) : bs = msgBits team damage := by
  have hsplit : bs = bs.take 16 ++ bs.drop 16 := (List.take_append_drop 16 bs).symm
  have hf : bs.foldl pushBit 0 = (bs.drop 16).foldl pushBit 170 := by
    conv => lhs; rw [hsplit, List.foldl_append, h16]
  have hlt := fold_lt (bs.drop 16) 170
  have hl2 : (bs.drop 16).length = 24 := by simp [hl]
  rw [hl2] at hlt
  rw [hf] at hr
  obtain ⟨v, hv⟩ : ∃ v, v = (bs.drop 16).foldl pushBit 170 := ⟨_, rfl⟩
  rw [← hv] at hr hlt
  unfold report at hr
  split at hr
  · rename_i hp
    simp only [List.cons.injEq, Prod.mk.injEq, and_true] at hr
    obtain ⟨e1, e2⟩ := hr
    rw [e1, e2] at hp
    have ht : team < 256 := by omega
    have hd : damage < 256 := by omega
    have hpl := parity_lt team damage
    have hval : v = 170 * 16777216 + team * 65536 + damage * 256 + parity team damage := by
      have := hlt.1; have := hlt.2
      generalize parity team damage = p at *
      omega
    have hm : msgBits team damage = (bitList 8 0 ++ bitList 8 0xAA) ++ (bitList 8 team ++ bitList 8 damage ++ bitList 8 (parity team damage)) := by
      simp [msgBits]
    have hfm : (msgBits team damage).foldl pushBit 0 = v := by
      rw [hm, List.foldl_append, List.foldl_append, List.foldl_append, List.foldl_append, fold_bits 8 1 0 _ (by decide) (by decide) (by decide),
        fold_bits 8 1 0xAA _ (by decide) (by decide) (by decide), fold_bits 8 1 team _ (by decide) (by decide) ht, fold_bits 8 1 damage _ (by decide) (by decide) hd,
        fold_bits 8 1 _ _ (by decide) (by decide) hpl, hval]
      omega
    exact (fold_inj bs (msgBits team damage) 0 0 (by rw [hl]; simp [msgBits, bitList_length]) (by rw [hf, ← hv, hfm])).1
  · simp at hr

theorem Inv.signal {ps : List Pulse} {d : Dec} (h : Inv ps d) (p : Pulse) : Inv (ps ++ [p]) (d.signal p).1 ∧
    ∀ team damage, (team, damage) ∈ (d.signal p).2 → ∃ before m qs, ps ++ [p] = before ++ m :: qs ∧ m.1 = true ∧ classify m.2 = .mark1 ∧ Bits qs (msgBits team damage) := by
  obtain ⟨b, data, num⟩ := d
  cases b
  · have e : Dec.signal ⟨false, data, num⟩ p = (⟨p.1 && decide (classify p.2 = .mark1), 0, 0⟩, []) := rfl
    rw [e]
    refine ⟨?_, by simp⟩
    intro hb
    simp only [Bool.and_eq_true, decide_eq_true_eq] at hb
    exact ⟨ps, p, [], [], rfl, hb.1, hb.2, rfl, rfl, by show 0 < 40; decide, rfl, by simp⟩
  · obtain ⟨before, m, qs, bs, rfl, hm1, hm2, hb, hl, hn, hdt, h16⟩ := h rfl
    simp only at hl hn hdt h16
    cases hbit : bitOf p with
    | none =>
      obtain ⟨e1, e2⟩ := signal_other (data := data) (num := num) hbit
      refine ⟨fun hc => ?_, ?_⟩
      · rw [e1] at hc; simp at hc
      · rw [e2]; simp
    | some c =>
      rw [signal_bit hbit]
      have hb' : Bits (qs ++ [p]) (bs ++ [c]) := hb.append (by unfold Bits; simp [hbit])
      have hdata : pushBit data c % 4294967296 = (bs ++ [c]).foldl pushBit 0 % 4294967296 := by
        rw [hdt, pushBit_mod, List.foldl_append]; rfl
      have hlen : (bs ++ [c]).length = num + 1 := by simp [hl]
      have hps : before ++ m :: qs ++ [p] = before ++ m :: (qs ++ [p]) := by simp
      rw [hps, hdata]
      unfold Dec.bit
      by_cases h1 : num + 1 = 16
      · rw [if_pos h1]
        refine ⟨?_, by simp⟩
        intro hc
        simp only [decide_eq_true_eq] at hc
        refine ⟨before, m, _, _, rfl, hm1, hm2, hb', by rw [hlen, h1], by simp, by simp only, ?_⟩
        intro _
        rw [List.take_of_length_le (by omega)]
        have := (fold_lt (bs ++ [c]) 0).2
        rw [hlen, h1] at this
        rw [← hc]
        rw [Nat.mod_eq_of_lt (by omega)]
      · rw [if_neg h1]
        have htake : 16 ≤ num + 1 → ((bs ++ [c]).take 16).foldl pushBit 0 = 0xAA := by
          intro hge
          rw [List.take_append_of_le_length (by omega)]
          exact h16 (by omega)
        by_cases h2 : num + 1 = 40
        · rw [if_pos h2]
          refine ⟨fun hc => by simp at hc, ?_⟩
          intro team damage hmem
          refine ⟨before, m, _, rfl, hm1, hm2, ?_⟩
          have : report ((bs ++ [c]).foldl pushBit 0 % 4294967296) = [(team, damage)] := by
            simp only at hmem
            unfold report at hmem ⊢
            split at hmem
            · rename_i hp
              rw [if_pos hp]
              rw [List.mem_singleton] at hmem
              rw [hmem]
            · simp at hmem
          rw [← bits_unique (by omega) (htake (by omega)) this]
          exact hb'
        · rw [if_neg h2]
          refine ⟨fun _ => ⟨before, m, _, _, rfl, hm1, hm2, hb', ?_, ?_, by simp only, fun h => ?_⟩, by simp⟩
          · simp only; omega
          · simp only; omega
          · exact htake (by simp only at h; omega)

/-- C65: a hit is only reported when the last pulses received are a start mark and the 40 bits of exactly that
message, checksum included, whatever was received before -/
theorem C65_no_false_hit (ps : List Pulse) (p : Pulse) {team damage : Nat} (h : (team, damage) ∈ ((Dec.init.run ps).1.signal p).2) :
    ∃ before m qs, ps ++ [p] = before ++ m :: qs ∧ m.1 = true ∧ classify m.2 = .mark1 ∧ Bits qs (msgBits team damage) := by
  have inv : ∀ (qs ps : List Pulse) (d : Dec), Inv ps d → Inv (ps ++ qs) (d.run qs).1 := by
    intro qs
    induction qs with
    | nil => intro ps d h; simpa [Dec.run] using h
    | cons q qs ih =>
      intro ps d h
      have := ih (ps ++ [q]) _ (h.signal q).1
      simpa [Dec.run] using this
  have h0 : Inv ps (Dec.init.run ps).1 := by simpa using inv ps [] Dec.init (fun h => by simp [Dec.init] at h)
  exact (h0.signal p).2 team damage h

example : ((Dec.init.run (encode 1 3).dropLast).1.signal (true, 400)).2 = [(1, 3)] := by decide +kernel

end Verif.IR.Blaster
