/-!
# Infrared: NEC protocol

Model of ir/nec.h and ir/ir.h.  A pulse is its level and its length in microseconds.
-/
set_option linter.unusedSimpArgs false
namespace Verif.IR

/-- `IRLength`, ir/ir.h:38-45 -/
inductive Len where
  | illegal | short | long | mark1 | mark2 | mark3
deriving DecidableEq

abbrev Pulse := Bool × Nat

namespace Nec

/-- `classify`, ir/nec.h:87-99 -/
def classify (us : Nat) : Len :=
  if us < 560 - 150 then .illegal
  else if us < 560 + 150 then .short
  else if us < 1690 - 200 then .illegal
  else if us < 1690 + 200 then .long
  else if us < 2250 - 200 then .illegal
  else if us < 2250 + 200 then .mark3
  else if us < 4500 - 1000 then .illegal
  else if us < 4500 + 1000 then .mark2
  else if us < 9000 - 1000 then .illegal
  else if us < 9000 + 1000 then .mark1
  else .illegal

inductive State where
  | begin | awaitMark | repeat_ | bits
deriving DecidableEq

/-- the members of `NECDecoder`, ir/nec.h:12-14 -/
structure Dec where
  data : Nat
  numBits : Nat
  state : State
deriving DecidableEq

def Dec.init : Dec := ⟨0, 0, .begin⟩

/-- what is printed -/
inductive Ev where
  | repeat_
  | cmd16 (data : Nat)
  | cmd32 (data : Nat)
deriving DecidableEq

/-- the label `fail`, ir/nec.h:77-84 -/
def Dec.fail (d : Dec) (out : List Ev) : Dec × List Ev :=
  (Dec.init, if d.numBits = 16 then out ++ [.cmd16 d.data] else out)

/-- ir/nec.h:72-84, after a bit was added -/
def Dec.afterBit (d : Dec) : Dec × List Ev :=
  if d.numBits < 32 then (d, []) else d.fail [.cmd32 d.data]

/-- `signal`, ir/nec.h:18-85; `num_bits_` is a `uint8_t`, `data_` has 32 bits -/
def Dec.signal (d : Dec) (high : Bool) (length : Len) : Dec × List Ev :=
  match d.state with
  | .begin => if length = .mark1 ∧ high = true then ({ d with state := .awaitMark }, []) else d.fail []
  | .awaitMark =>
    if high = true then d.fail []
    else match length with
      | .mark3 => ({ d with state := .repeat_ }, [])
      | .mark2 => ({ d with state := .bits }, [])
      | _ => d.fail []
  | .repeat_ => d.fail (if high = true ∧ length = .short then [.repeat_] else [])
  | .bits =>
    if high = true then (if length ≠ .short then d.fail [] else (d, []))
    else match length with
      | .long => Dec.afterBit { d with numBits := (d.numBits + 1) % 256, data := (d.data * 2 + 1) % 4294967296 }
      | .short => Dec.afterBit { d with numBits := (d.numBits + 1) % 256, data := d.data * 2 % 4294967296 }
      | _ => d.fail []

/-- several pulses -/
def Dec.run (d : Dec) : List Pulse → Dec × List Ev
  | [] => (d, [])
  | p :: ps =>
    let q := d.signal p.1 (classify p.2)
    let r := q.1.run ps
    (r.1, q.2 ++ r.2)

/-! ## Encoder -/

/-- the loop of ir/nec.h:162-166 and 172-176: `n` bits from the top of `w` -/
def bitsFrom (top : Nat) : Nat → Nat → List Pulse
  | 0, _ => []
  | n + 1, w => (true, 560) :: (false, if w / top % 2 = 1 then 1690 else 560) :: bitsFrom top n (w * 2 % (2 * top))

/-- `Encode16`, ir/nec.h:159-168 -/
def encode16 (w : Nat) : List Pulse := (true, 9000) :: (false, 4500) :: (bitsFrom 32768 16 w ++ [(true, 560)])

/-- `Encode32`, ir/nec.h:169-178 -/
def encode32 (w : Nat) : List Pulse := (true, 9000) :: (false, 4500) :: (bitsFrom 2147483648 32 w ++ [(true, 560)])

/-- `EncodeRepeat`, ir/nec.h:179-183 -/
def encodeRepeat : List Pulse := [(true, 9000), (false, 2250), (true, 560)]

/-! ## Specification -/

/-- how much a pulse may be distorted: 150, 200 or 1000 microseconds -/
def tolerance (us : Nat) : Nat := if us = 560 then 150 else if us = 1690 ∨ us = 2250 then 200 else 1000

/-- `p` sent, `q` received -/
def Near (p q : Pulse) : Prop := q.1 = p.1 ∧ p.2 - tolerance p.2 ≤ q.2 ∧ q.2 < p.2 + tolerance p.2

inductive Received : List Pulse → List Pulse → Prop
  | nil : Received [] []
  | cons {p q ps qs} (h : Near p q) (t : Received ps qs) : Received (p :: ps) (q :: qs)

theorem Received.split {ps ps' qs : List Pulse} (h : Received (ps ++ ps') qs) : ∃ a b, qs = a ++ b ∧ Received ps a ∧ Received ps' b := by
  induction ps generalizing qs with
  | nil => exact ⟨[], qs, rfl, .nil, h⟩
  | cons p ps ih =>
    cases h with
    | cons h t =>
      obtain ⟨a, b, rfl, h1, h2⟩ := ih t
      exact ⟨_ :: a, b, rfl, .cons h h1, h2⟩

inductive Msg where
  | repeat_
  | code16 (w : Nat)
  | code32 (w : Nat)

def Msg.Ok : Msg → Prop
  | .repeat_ => True
  | .code16 w => w < 65536
  | .code32 w => w < 4294967296

def Msg.pulses : Msg → List Pulse
  | .repeat_ => encodeRepeat
  | .code16 w => encode16 w
  | .code32 w => encode32 w

def Msg.ev : Msg → Ev
  | .repeat_ => .repeat_
  | .code16 w => .cmd16 w
  | .code32 w => .cmd32 w

/-- what the receiver sees: each message distorted, and followed by a pause of at least 10 ms -/
inductive Heard : List Msg → List Pulse → Prop
  | nil : Heard [] []
  | cons {m ms qs rest} {gap : Nat} (h : Received m.pulses qs) (hg : 10000 ≤ gap) (t : Heard ms rest) : Heard (m :: ms) (qs ++ (false, gap) :: rest)

/-! ## Proofs -/

theorem run_append (d : Dec) (a b : List Pulse) : d.run (a ++ b) = (((d.run a).1.run b).1, (d.run a).2 ++ ((d.run a).1.run b).2) := by
  induction a generalizing d with
  | nil => simp [Dec.run]
  | cons p a ih => simp only [List.cons_append, Dec.run]; rw [ih]; simp

theorem near_short {h : Bool} {q : Pulse} (hn : Near (h, 560) q) : q.1 = h ∧ classify q.2 = .short := by
  obtain ⟨h1, h2, h3⟩ := hn
  simp only [tolerance, if_pos] at h2 h3
  refine ⟨h1, ?_⟩
  unfold classify
  rw [if_neg (by omega), if_pos (by omega)]

theorem near_long {h : Bool} {q : Pulse} (hn : Near (h, 1690) q) : q.1 = h ∧ classify q.2 = .long := by
  obtain ⟨h1, h2, h3⟩ := hn
  rw [show tolerance (h, 1690).2 = 200 from rfl] at h2 h3
  simp only at h2 h3
  refine ⟨h1, ?_⟩
  unfold classify
  rw [if_neg (by omega), if_neg (by omega), if_neg (by omega), if_pos (by omega)]

theorem near_mark1 {h : Bool} {q : Pulse} (hn : Near (h, 9000) q) : q.1 = h ∧ classify q.2 = .mark1 := by
  obtain ⟨h1, h2, h3⟩ := hn
  rw [show tolerance (h, 9000).2 = 1000 from rfl] at h2 h3
  simp only at h2 h3
  refine ⟨h1, ?_⟩
  unfold classify
  rw [if_neg (by omega), if_neg (by omega), if_neg (by omega), if_neg (by omega), if_neg (by omega), if_neg (by omega), if_neg (by omega), if_neg (by omega), if_neg (by omega), if_pos (by omega)]

theorem near_mark2 {h : Bool} {q : Pulse} (hn : Near (h, 4500) q) : q.1 = h ∧ classify q.2 = .mark2 := by
  obtain ⟨h1, h2, h3⟩ := hn
  rw [show tolerance (h, 4500).2 = 1000 from rfl] at h2 h3
  simp only at h2 h3
  refine ⟨h1, ?_⟩
  unfold classify
  rw [if_neg (by omega), if_neg (by omega), if_neg (by omega), if_neg (by omega), if_neg (by omega), if_neg (by omega), if_neg (by omega), if_pos (by omega)]

theorem near_mark3 {h : Bool} {q : Pulse} (hn : Near (h, 2250) q) : q.1 = h ∧ classify q.2 = .mark3 := by
  obtain ⟨h1, h2, h3⟩ := hn
  rw [show tolerance (h, 2250).2 = 200 from rfl] at h2 h3
  simp only at h2 h3
  refine ⟨h1, ?_⟩
  unfold classify
  rw [if_neg (by omega), if_neg (by omega), if_neg (by omega), if_neg (by omega), if_neg (by omega), if_pos (by omega)]

theorem classify_gap {us : Nat} (h : 10000 ≤ us) : classify us = .illegal := by
  unfold classify
  rw [if_neg (by omega), if_neg (by omega), if_neg (by omega), if_neg (by omega), if_neg (by omega), if_neg (by omega), if_neg (by omega), if_neg (by omega), if_neg (by omega), if_neg (by omega)]

/-- a pause resets the decoder, whatever it was doing -/
theorem signal_gap (d : Dec) : d.signal false .illegal = d.fail [] := by
  unfold Dec.signal
  cases d.state <;> simp

/-- one bit -/
theorem run_bit {d : Dec} (hs : d.state = .bits) (b : Bool) {q1 q2 : Pulse} (h1 : Near (true, 560) q1) (h2 : Near (false, if b then 1690 else 560) q2) (rest : List Pulse) :
    d.run (q1 :: q2 :: rest) =
      let e : Dec := { d with numBits := (d.numBits + 1) % 256, data := (d.data * 2 + (if b then 1 else 0)) % 4294967296 }
      ((e.afterBit.1.run rest).1, e.afterBit.2 ++ (e.afterBit.1.run rest).2) := by
  obtain ⟨a1, a2⟩ := near_short h1
  have s1 : d.signal q1.1 (classify q1.2) = (d, []) := by rw [a1, a2]; simp [Dec.signal, hs]
  simp only [Dec.run, s1, List.nil_append]
  cases b
  · simp only [Bool.false_eq_true, if_false] at h2 ⊢
    obtain ⟨b1, b2⟩ := near_short h2
    rw [b1, b2]
    simp [Dec.signal, hs]
  · simp only [if_true] at h2 ⊢
    obtain ⟨b1, b2⟩ := near_long h2
    rw [b1, b2]
    simp [Dec.signal, hs]

theorem bit_arith {T n w d top : Nat} (h2 : 2 * top = T * 2 ^ (n + 1)) (hT : 0 < T) (hw : w < 2 * top) :
    w / top % 2 = w / top ∧ w / top ≤ 1 ∧ w * 2 % (2 * top) < 2 * top ∧ (d * 2 + w / top) * 2 ^ n + w * 2 % (2 * top) / (2 * T) = d * 2 ^ (n + 1) + w / T ∧ 2 * top = 2 * T * 2 ^ n := by
  have hp : 0 < 2 ^ n := Nat.pos_of_ne_zero (by simp)
  have htop : top = T * 2 ^ n := by
    have : T * 2 ^ (n + 1) = 2 * (T * 2 ^ n) := by rw [Nat.pow_succ]; ac_rfl
    omega
  have htp : 0 < top := by rw [htop]; exact Nat.mul_pos hT hp
  have hb : w / top ≤ 1 := by
    have : w / top < 2 := Nat.div_lt_of_lt_mul (by omega)
    omega
  have hmul : w * 2 % (2 * top) = 2 * (w % top) := by rw [Nat.mul_comm w 2, Nat.mul_mod_mul_left]
  refine ⟨Nat.mod_eq_of_lt (by omega), hb, Nat.mod_lt _ (by omega), ?_, by rw [htop]; ac_rfl⟩
  rw [hmul, Nat.mul_div_mul_left _ _ (by omega)]
  have e1 : w / T = (w / top) * 2 ^ n + w % top / T := by
    have hd := Nat.div_add_mod w top
    calc w / T = (top * (w / top) + w % top) / T := by rw [hd]
      _ = (T * (2 ^ n * (w / top)) + w % top) / T := by rw [← Nat.mul_assoc, ← htop]
      _ = 2 ^ n * (w / top) + w % top / T := by rw [Nat.mul_add_div hT]
      _ = _ := by rw [Nat.mul_comm (2 ^ n)]
  rw [e1, Nat.add_mul, Nat.pow_succ]
  have : d * 2 * 2 ^ n = d * (2 ^ n * 2) := by ac_rfl
  omega

theorem afterBit_lt {d : Dec} (h : d.numBits < 32) : d.afterBit = (d, []) := by unfold Dec.afterBit; rw [if_pos h]

/-- the bits of a word are received; with the 32nd bit the code is complete -/
theorem run_bits {top : Nat} : ∀ (n T w : Nat) (d : Dec) (qs rest : List Pulse), d.state = .bits → d.numBits < 32 → d.numBits + n ≤ 32 → 0 < T → 2 * top = T * 2 ^ n → w < 2 * top →
    d.data < 2 ^ d.numBits → Received (bitsFrom top n w) qs →
    d.run (qs ++ rest) =
      let e : Dec := { d with numBits := d.numBits + n, data := d.data * 2 ^ n + w / T }
      ((e.afterBit.1.run rest).1, e.afterBit.2 ++ (e.afterBit.1.run rest).2)
  | 0, T, w, d, qs, rest, hs, hn, _, hT, h2, hw, _, hr => by
    cases hr
    have : w / T = 0 := Nat.div_eq_of_lt (by simpa [h2] using hw)
    rw [this]
    simp only [Nat.pow_zero, Nat.mul_one, Nat.add_zero]
    rw [afterBit_lt (d := { d with numBits := d.numBits, data := d.data }) hn]
    rfl
  | n + 1, T, w, d, qs, rest, hs, hn, hn', hT, h2, hw, hd, hr => by
    obtain ⟨e1, e2, e3, e4, e5⟩ := bit_arith (d := d.data) h2 hT hw
    unfold bitsFrom at hr
    cases hr with
    | cons p1 t1 =>
      cases t1 with
      | cons p2 t2 =>
        rename_i q1 q2 qs'
        have hb : ∃ b : Bool, w / top = (if b then 1 else 0) := by
          by_cases h0 : w / top = 0
          · exact ⟨false, by simpa using h0⟩
          · exact ⟨true, by simp; omega⟩
        obtain ⟨b, hb⟩ := hb
        have p2' : Near (false, if b then 1690 else 560) q2 := by
          rw [e1, hb] at p2
          cases b <;> simpa using p2
        have hdata : d.data * 2 + 1 < 4294967296 := by
          have : 2 ^ d.numBits ≤ 2 ^ 31 := Nat.pow_le_pow_right (by omega) (by omega)
          omega
        have hmod : (d.data * 2 + (if b then 1 else 0)) % 4294967296 = d.data * 2 + w / top := by
          rw [hb, Nat.mod_eq_of_lt (by split <;> omega)]
        have hnum : (d.numBits + 1) % 256 = d.numBits + 1 := Nat.mod_eq_of_lt (by omega)
        rw [List.cons_append, List.cons_append, run_bit hs b p1 p2']
        simp only [hmod, hnum]
        by_cases hlast : d.numBits + 1 < 32
        · rw [afterBit_lt (d := { d with numBits := d.numBits + 1, data := d.data * 2 + w / top }) hlast]
          simp only [List.nil_append]
          have hd' : d.data * 2 + w / top < 2 ^ (d.numBits + 1) := by rw [Nat.pow_succ]; omega
          have := run_bits n (2 * T) (w * 2 % (2 * top)) { d with numBits := d.numBits + 1, data := d.data * 2 + w / top } qs' rest hs hlast (by simp only; omega) (by omega) e5 e3 hd' t2
          rw [this]
          simp only [e4]
          have : d.numBits + 1 + n = d.numBits + (n + 1) := by omega
          rw [this]
        · have hn0 : n = 0 := by omega
          subst hn0
          cases t2
          have : w * 2 % (2 * top) / (2 * T) = 0 := Nat.div_eq_of_lt (by rw [e5] at e3 ⊢; simpa using e3)
          rw [this] at e4
          simp only [Nat.pow_zero, Nat.mul_one, Nat.add_zero] at e4
          simp only [List.nil_append, e4]

theorem start_bits {q1 q2 : Pulse} (h1 : Near (true, 9000) q1) (h2 : Near (false, 4500) q2) (rest : List Pulse) :
    Dec.init.run (q1 :: q2 :: rest) = Dec.run ⟨0, 0, .bits⟩ rest := by
  obtain ⟨a1, a2⟩ := near_mark1 h1
  obtain ⟨b1, b2⟩ := near_mark2 h2
  simp [Dec.run, a1, a2, b1, b2, Dec.signal, Dec.init]

theorem run_msg {m : Msg} (hm : m.Ok) {qs : List Pulse} (h : Received m.pulses qs) {gap : Nat} (hg : 10000 ≤ gap) (rest : List Pulse) :
    Dec.init.run (qs ++ (false, gap) :: rest) = ((Dec.init.run rest).1, m.ev :: (Dec.init.run rest).2) := by
  have hgap : ∀ d : Dec, ∀ r, d.run ((false, gap) :: r) = ((Dec.init.run r).1, (d.fail []).2 ++ (Dec.init.run r).2) := by
    intro d r
    simp only [Dec.run, classify_gap hg, signal_gap]
    rfl
  cases m with
  | repeat_ =>
    simp only [Msg.pulses, encodeRepeat] at h
    cases h with
    | cons h1 t => cases t with
      | cons h2 t => cases t with
        | cons h3 t =>
          cases t
          rename_i q1 q2 q3
          obtain ⟨a1, a2⟩ := near_mark1 h1
          obtain ⟨b1, b2⟩ := near_mark3 h2
          obtain ⟨c1, c2⟩ := near_short h3
          simp only [List.cons_append, List.nil_append]
          have : ∀ r, Dec.init.run (q1 :: q2 :: q3 :: r) = ((Dec.init.run r).1, Ev.repeat_ :: (Dec.init.run r).2) := by
            intro r
            simp only [Dec.run, a1, a2, b1, b2, c1, c2]
            simp [Dec.signal, Dec.init, Dec.fail]
          rw [this, hgap]
          simp [Dec.fail, Dec.init, Msg.ev]
  | code16 w =>
    simp only [Msg.pulses, encode16] at h
    cases h with
    | cons h1 t => cases t with
      | cons h2 t0 =>
        obtain ⟨a, b, rfl, r1, r2⟩ := t0.split
        clear t0
        cases r2 with
        | cons r2 t2 => cases t2
                        rename_i q3
                        simp only [List.cons_append, List.append_assoc, List.nil_append]
                        rw [start_bits h1 h2, run_bits 16 1 w ⟨0, 0, .bits⟩ a _ rfl (by decide) (by decide) (by decide) (by decide) hm (by decide) r1]
                        simp only [Nat.zero_mul, Nat.zero_add, Nat.div_one]
                        rw [afterBit_lt (d := ⟨w, 16, .bits⟩) (show 16 < 32 by decide)]
                        simp only [List.nil_append]
                        obtain ⟨c1, c2⟩ := near_short r2
                        have : ∀ r, Dec.run ⟨w, 16, .bits⟩ (q3 :: r) = Dec.run ⟨w, 16, .bits⟩ r := by
                          intro r
                          simp only [Dec.run, c1, c2]
                          simp [Dec.signal]
                        rw [this, hgap]
                        simp [Dec.fail, Msg.ev]
  | code32 w =>
    simp only [Msg.pulses, encode32] at h
    cases h with
    | cons h1 t => cases t with
      | cons h2 t0 =>
        obtain ⟨a, b, rfl, r1, r2⟩ := t0.split
        clear t0
        cases r2 with
        | cons r2 t2 => cases t2
                        rename_i q3
                        simp only [List.cons_append, List.append_assoc, List.nil_append]
                        rw [start_bits h1 h2, run_bits 32 1 w ⟨0, 0, .bits⟩ a _ rfl (by decide) (by decide) (by decide) (by decide) hm (by decide) r1]
                        simp only [Nat.zero_mul, Nat.zero_add, Nat.div_one]
                        have ha : Dec.afterBit ⟨w, 32, .bits⟩ = (Dec.init, [.cmd32 w]) := rfl
                        rw [ha]
                        obtain ⟨c1, c2⟩ := near_short r2
                        have : ∀ r, Dec.init.run (q3 :: r) = Dec.init.run r := by
                          intro r
                          simp only [Dec.run, c1, c2]
                          simp [Dec.signal, Dec.init, Dec.fail]
                        rw [this, hgap]
                        simp [Dec.fail, Dec.init, Msg.ev]

/-- C44: whatever is sent, in any order and with any distortion within the tolerance, is received exactly once
and in order -/
theorem C44_roundtrip {ms : List Msg} (hm : ∀ m ∈ ms, m.Ok) {qs : List Pulse} (h : Heard ms qs) : Dec.init.run qs = (Dec.init, ms.map Msg.ev) := by
  induction h with
  | nil => rfl
  | cons h hg t ih =>
    rw [run_msg (hm _ List.mem_cons_self) h hg, ih (fun m hm' => hm m (List.mem_cons_of_mem _ hm'))]
    rfl

/-- C44: whatever was received before, after a pause the decoder is ready again -/
theorem C44_resync {ms : List Msg} (hm : ∀ m ∈ ms, m.Ok) {qs : List Pulse} (h : Heard ms qs) (junk : List Pulse) {gap : Nat} (hg : 10000 ≤ gap) :
    ∃ before, Dec.init.run (junk ++ (false, gap) :: qs) = (Dec.init, before ++ ms.map Msg.ev) := by
  rw [run_append]
  simp only [Dec.run, classify_gap hg, signal_gap]
  refine ⟨(Dec.init.run junk).2 ++ ((Dec.init.run junk).1.fail []).2, ?_⟩
  have : ((Dec.init.run junk).1.fail []).1 = Dec.init := rfl
  rw [this, C44_roundtrip hm h]
  simp

/-- a pulse as it was sent is within the tolerance -/
theorem near_refl (p : Pulse) : Near p p := by
  have h : 0 < tolerance p.2 := by unfold tolerance; repeat' split
                                   all_goals omega
  exact ⟨rfl, by omega, by omega⟩

theorem received_refl : ∀ l : List Pulse, Received l l
  | [] => .nil
  | p :: l => .cons (near_refl p) (received_refl l)

example : Heard [.code32 0xA10CF00F, .repeat_, .code16 0x1234]
    (encode32 0xA10CF00F ++ (false, 40000) :: (encodeRepeat ++ (false, 90000) :: (encode16 0x1234 ++ (false, 20001) :: []))) :=
  .cons (received_refl _) (by decide) (.cons (received_refl _) (by decide) (.cons (received_refl _) (by decide) .nil))

example : (Msg.code32 0xA10CF00F).Ok := by show (2701979663 : Nat) < 4294967296; decide
example : Near (false, 560) (false, 709) ∧ ¬ Near (false, 560) (false, 710) := by simp [Near, tolerance]

end Nec
end Verif.IR
