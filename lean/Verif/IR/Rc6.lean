import Verif.IR.Nec
/-!
# Infrared: RC6 protocol, mode 0

Model of ir/rc6.h.
-/
set_option linter.unusedSimpArgs false
namespace Verif.IR.Rc6
open Verif.IR (Pulse)

/-- the members of `RC6Decoder`, ir/rc6.h:6-8 -/
structure Dec where
  data : Nat
  pos : Nat
  toggle : Bool
deriving DecidableEq

/-- after `fail`, ir/rc6.h:146-149 -/
def Dec.init : Dec := ⟨0, 0, false⟩

/-- ir/rc6.h:127-139: what is printed when the last bit is complete -/
def report (data : Nat) : List (Nat × Nat) :=
  if data / 524288 % 256 ≠ 0 ∧ data / 65536 % 8 = 0 then [(data / 256 % 256, data % 256)] else []

/-- one round of `while (steps > 0)`, ir/rc6.h:87-142; `none` in the second component is `goto fail`,
otherwise the remaining steps -/
def Dec.step (d : Dec) (high : Bool) (steps : Nat) : Option (Dec × Nat) × List (Nat × Nat) :=
  if d.pos = 0 then
    if steps ≠ 6 ∨ high = false then (none, []) else (some ({ d with pos := d.pos + 6 }, 0), [])
  else if d.pos = 6 then
    if steps ≠ 2 ∨ high = true then (none, []) else (some ({ d with pos := d.pos + steps }, 0), [])
  else if d.pos = 16 then
    if steps ≠ 2 then (none, []) else (some ({ d with toggle := high, pos := d.pos + 2 }, 0), [])
  else if d.pos = 18 then
    if steps < 2 then (none, [])
    else if high = d.toggle then (none, [])
    else (some ({ d with pos := d.pos + 2 }, steps - 2), [])
  else if d.pos % 2 = 0 then
    if steps ≠ 1 then (none, [])
    else (some ({ d with data := (d.data * 2 + (if high then 1 else 0)) % 4294967296, pos := d.pos + 1 }, 0), [])
  else
    if decide (d.data % 2 = 1) = high then (none, [])
    else if d.pos + 1 ≥ 52 then (none, report d.data)
    else (some ({ d with pos := d.pos + 1 }, steps - 1), [])

/-- the loop; every round that goes on reduces `steps` -/
def Dec.loop (d : Dec) (high : Bool) : Nat → Nat → Dec × List (Nat × Nat)
  | 0, _ => (d, [])
  | fuel + 1, steps =>
    if steps = 0 then (d, [])
    else
      match d.step high steps with
      | (none, ev) => (Dec.init, ev)
      | (some (d', s'), ev) => ((d'.loop high fuel s').1, ev ++ (d'.loop high fuel s').2)

/-- `signal`, ir/rc6.h:68-150 -/
def Dec.signal (d : Dec) (p : Pulse) : Dec × List (Nat × Nat) :=
  let offset := p.2 % 444
  let steps := (p.2 + 222) % 4294967296 / 444
  if offset > 150 ∧ offset < 444 - 150 then (Dec.init, [])
  else d.loop p.1 steps steps

def Dec.run (d : Dec) : List Pulse → Dec × List (Nat × Nat)
  | [] => (d, [])
  | p :: ps => (((d.signal p).1.run ps).1, (d.signal p).2 ++ ((d.signal p).1.run ps).2)

/-! ## Encoder -/

/-- `EncodeBit`, ir/rc6.h:155-158 -/
def encodeBit (b : Bool) : List Pulse := [(b, 444), (!b, 444)]

/-- `EncodeSlowBit`, ir/rc6.h:159-162 -/
def encodeSlowBit (b : Bool) : List Pulse := [(b, 889), (!b, 889)]

/-- the loop of `EncodeByte`, ir/rc6.h:163-167 -/
def encodeBits : Nat → Nat → List Pulse
  | 0, _ => []
  | n + 1, x => encodeBit (x / 128 % 2 = 1) ++ encodeBits n (x * 2 % 256)

/-- `EncodeRC6mode0`, ir/rc6.h:168-178 -/
def encode (toggle : Bool) (ctrl info : Nat) : List Pulse :=
  [(true, 444 * 6), (false, 444 * 2)] ++ encodeBit true ++ encodeBit false ++ encodeBit false ++ encodeBit false ++
  encodeSlowBit toggle ++ encodeBits 8 ctrl ++ encodeBits 8 info

/-! ## What goes over the air (specification) -/

/-- adjacent pulses of the same level are one pulse -/
def mergeFrom (l : Bool) (u : Nat) : List Pulse → List Pulse
  | [] => [(l, u)]
  | p :: ps => if p.1 = l then mergeFrom l (u + p.2) ps else (l, u) :: mergeFrom p.1 p.2 ps

def merge : List Pulse → List Pulse
  | [] => []
  | p :: ps => mergeFrom p.1 p.2 ps

/-- `p` sent, `q` received: less than 150 microseconds longer or shorter -/
def Near (p q : Pulse) : Prop := q.1 = p.1 ∧ p.2 < q.2 + 150 ∧ q.2 < p.2 + 150

inductive Received : List Pulse → List Pulse → Prop
  | nil : Received [] []
  | cons {p q ps qs} (h : Near p q) (t : Received ps qs) : Received (p :: ps) (q :: qs)

/-! ## Proofs -/

theorem run_append (d : Dec) (a b : List Pulse) : d.run (a ++ b) = (((d.run a).1.run b).1, (d.run a).2 ++ ((d.run a).1.run b).2) := by
  induction a generalizing d with
  | nil => simp [Dec.run]
  | cons p a ih => simp only [List.cons_append, Dec.run]; rw [ih]; simp

/-- a pulse of `k` steps, or one microsecond more, is taken for `k` steps -/
theorem signal_near {d : Dec} {l : Bool} {u k : Nat} {q : Pulse} (hu : u = 444 * k ∨ u = 444 * k + 1) (hk : k ≤ 6) (h : Near (l, u) q) : d.signal q = d.loop l k k := by
  obtain ⟨h1, h2, h3⟩ := h
  simp only at h1 h2 h3
  unfold Dec.signal
  simp only
  rw [if_neg (by omega), h1]
  have : (q.2 + 222) % 4294967296 / 444 = k := by rw [Nat.mod_eq_of_lt (by omega)]; omega
  rw [this]

theorem loop_one {d d' : Dec} {l : Bool} {f : Nat} {k k' : Nat} (hk : k ≠ 0) (h : d.step l k = (some (d', k'), [])) : d.loop l (f + 1) k = d'.loop l f k' := by
  simp only [Dec.loop, if_neg hk, h, List.nil_append]

theorem loop_zero {d : Dec} {l : Bool} (f : Nat) : d.loop l f 0 = (d, []) := by
  cases f <;> simp [Dec.loop]

/-- first half of a bit -/
theorem step_first {d : Dec} (l : Bool) (h0 : d.pos ≠ 0) (h6 : d.pos ≠ 6) (h16 : d.pos ≠ 16) (h18 : d.pos ≠ 18) (he : d.pos % 2 = 0) :
    d.step l 1 = (some ({ d with data := (d.data * 2 + (if l then 1 else 0)) % 4294967296, pos := d.pos + 1 }, 0), []) := by
  unfold Dec.step
  rw [if_neg h0, if_neg h6, if_neg h16, if_neg h18, if_pos he, if_neg (by omega)]

/-- second half of a bit that is not the last -/
theorem step_second {d : Dec} {l : Bool} {k : Nat} (ho : d.pos % 2 = 1) (hl : decide (d.data % 2 = 1) = !l) (hp : d.pos + 1 < 52) :
    d.step l k = (some ({ d with pos := d.pos + 1 }, k - 1), []) := by
  unfold Dec.step
  rw [if_neg (by omega), if_neg (by omega), if_neg (by omega), if_neg (by omega), if_neg (by omega), if_neg (by rw [hl]; cases l <;> simp), if_neg (by omega)]

/-- where a sequence of bits may be -/
def Place (p n : Nat) : Prop := p % 2 = 1 ∧ ((9 ≤ p ∧ p + 2 * n ≤ 15) ∨ (21 ≤ p ∧ p + 2 * n ≤ 51))

def pushBit (d : Nat) (b : Bool) : Nat := d * 2 + (if b then 1 else 0)

/-- one more bit -/
theorem run_bit {d : Dec} {b c : Bool} (hb : decide (d.data % 2 = 1) = b) (hp : Place d.pos 1) (hd : pushBit d.data c < 4294967296) {tail qs : List Pulse}
    (h : Received (mergeFrom (!b) 444 (encodeBit c ++ tail)) qs) :
    ∃ qs', Received (mergeFrom (!c) 444 tail) qs' ∧ qs' <:+ qs ∧ d.run qs = Dec.run { d with data := pushBit d.data c, pos := d.pos + 2 } qs' := by
  obtain ⟨ho, hp⟩ := hp
  have hmod : (d.data * 2 + (if c then 1 else 0)) % 4294967296 = pushBit d.data c := Nat.mod_eq_of_lt hd
  have s2 : ∀ k, d.step (!b) k = (some ({ d with pos := d.pos + 1 }, k - 1), []) := fun k => step_second ho (by rw [hb]; simp) (by omega)
  have s1 : ({ d with pos := d.pos + 1 } : Dec).step c 1 = (some ({ d with data := pushBit d.data c, pos := d.pos + 2 }, 0), []) := by
    rw [step_first c (by simp only; omega) (by simp only; omega) (by simp only; omega) (by simp only; omega) (by simp only; omega)]
    simp only [hmod]
  by_cases hc : c = !b
  · have hm : mergeFrom (!b) 444 (encodeBit c ++ tail) = (!b, 888) :: mergeFrom (!c) 444 tail := by
      subst hc
      simp [encodeBit, mergeFrom]
    rw [hm] at h
    cases h with
    | cons h t =>
      refine ⟨_, t, ⟨[_], rfl⟩, ?_⟩
      have : ∀ q, Near (!b, 888) q → d.signal q = ({ d with data := pushBit d.data c, pos := d.pos + 2 }, []) := by
        intro q hq
        rw [signal_near (k := 2) (Or.inl rfl) (by decide) hq, loop_one (by decide) (s2 2), ← hc, loop_one (by decide) s1, loop_zero]
      simp only [Dec.run, this _ h, List.nil_append]
  · have hc' : c = b := by cases b <;> cases c <;> simp_all
    have hm : mergeFrom (!b) 444 (encodeBit c ++ tail) = (!b, 444) :: (c, 444) :: mergeFrom (!c) 444 tail := by
      subst hc'
      simp [encodeBit, mergeFrom]
    rw [hm] at h
    cases h with
    | cons h t =>
      cases t with
      | cons h' t' =>
        refine ⟨_, t', ⟨[_, _], rfl⟩, ?_⟩
        have e1 : ∀ q, Near (!b, 444) q → d.signal q = ({ d with pos := d.pos + 1 }, []) := by
          intro q hq
          rw [signal_near (k := 1) (Or.inl rfl) (by decide) hq, loop_one (by decide) (s2 1), loop_zero]
        have e2 : ∀ q, Near (c, 444) q → ({ d with pos := d.pos + 1 } : Dec).signal q = ({ d with data := pushBit d.data c, pos := d.pos + 2 }, []) := by
          intro q hq
          rw [signal_near (k := 1) (Or.inl rfl) (by decide) hq, loop_one (by decide) s1, loop_zero]
        simp only [Dec.run, e1 _ h, e2 _ h', List.nil_append]

theorem pushBit_odd (d : Nat) (c : Bool) : decide (pushBit d c % 2 = 1) = c := by
  unfold pushBit
  cases c
  · simp
  · simp

/-- the level of the last bit -/
def lastBit (b : Bool) : List Bool → Bool
  | [] => b
  | c :: cs => lastBit c cs

theorem foldl_ge (bs : List Bool) (d : Nat) : d ≤ bs.foldl pushBit d := by
  induction bs generalizing d with
  | nil => exact Nat.le_refl _
  | cons c cs ih => exact Nat.le_trans (by unfold pushBit; omega) (ih (pushBit d c))

theorem run_bits : ∀ (bs : List Bool) {d : Dec} {b : Bool} {tail qs : List Pulse}, decide (d.data % 2 = 1) = b → Place d.pos bs.length → bs.foldl pushBit d.data < 4294967296 →
    Received (mergeFrom (!b) 444 (bs.flatMap encodeBit ++ tail)) qs →
    ∃ qs', Received (mergeFrom (!lastBit b bs) 444 tail) qs' ∧ qs' <:+ qs ∧ d.run qs = Dec.run { d with data := bs.foldl pushBit d.data, pos := d.pos + 2 * bs.length } qs'
  | [], d, b, tail, qs, _, _, _, h => ⟨qs, h, List.suffix_refl _, rfl⟩
  | c :: bs, d, b, tail, qs, hb, hp, hd, h => by
    rw [List.flatMap_cons, List.append_assoc] at h
    rw [List.foldl_cons] at hd ⊢
    rw [List.length_cons] at hp ⊢
    have hd1 : pushBit d.data c < 4294967296 := Nat.lt_of_le_of_lt (foldl_ge bs _) hd
    unfold Place at hp
    obtain ⟨qs1, h1, x1, e1⟩ := run_bit hb (by unfold Place; omega) hd1 h
    obtain ⟨qs2, h2, x2, e2⟩ := run_bits bs (d := { d with data := pushBit d.data c, pos := d.pos + 2 }) (pushBit_odd _ _) (by unfold Place; simp only; omega) hd h1
    refine ⟨qs2, h2, x2.trans x1, ?_⟩
    rw [e1, e2]
    simp only
    have : d.pos + 2 + 2 * bs.length = d.pos + 2 * (bs.length + 1) := by omega
    rw [this]

/-- the bits of a byte, highest first -/
def bitList : Nat → Nat → List Bool
  | 0, _ => []
  | n + 1, x => decide (x / 128 % 2 = 1) :: bitList n (x * 2 % 256)

theorem bitList_length : ∀ n x, (bitList n x).length = n
  | 0, _ => rfl
  | n + 1, x => by simp [bitList, bitList_length n]

theorem encodeBits_eq : ∀ n x, encodeBits n x = (bitList n x).flatMap encodeBit
  | 0, _ => rfl
  | n + 1, x => by rw [encodeBits, bitList, List.flatMap_cons, encodeBits_eq n]

theorem fold_bits : ∀ (n T w d : Nat), 0 < T → 256 = T * 2 ^ n → w < 256 → (bitList n w).foldl pushBit d = d * 2 ^ n + w / T
  | 0, T, w, d, hT, h2, hw => by
    simp only [bitList, List.foldl_nil, Nat.pow_zero, Nat.mul_one]
    rw [Nat.pow_zero, Nat.mul_one] at h2
    rw [Nat.div_eq_of_lt (by omega)]; rfl
  | n + 1, T, w, d, hT, h2, hw => by
    obtain ⟨e1, e2, e3, e4, e5⟩ := Verif.IR.Nec.bit_arith (top := 128) (d := d) (w := w) h2 hT hw
    rw [bitList, List.foldl_cons, fold_bits n (2 * T) (w * 2 % 256) _ (by omega) e5 e3]
    have : pushBit d (decide (w / 128 % 2 = 1)) = d * 2 + w / 128 := by
      unfold pushBit
      rw [e1]
      by_cases h : w / 128 = 1
      · simp [h]
      · have : w / 128 = 0 := by omega
        simp [this]
    rw [this]; exact e4

theorem lastBit_bitList (x : Nat) (hx : x < 256) (b : Bool) : lastBit b (bitList 8 x) = decide (x % 2 = 1) := by
  have h1 : ∀ (bs : List Bool) (b : Bool) (d : Nat), decide (d % 2 = 1) = b → decide (bs.foldl pushBit d % 2 = 1) = lastBit b bs := by
    intro bs
    induction bs with
    | nil => intro b d h; exact h
    | cons c cs ih => intro b d h; exact ih c _ (pushBit_odd d c)
  have h2 := fold_bits 8 1 x (if b then 1 else 0) (by decide) (by decide) hx
  rw [← h1 (bitList 8 x) b (if b then 1 else 0) (by cases b <;> rfl), h2]
  congr 1
  cases b <;> simp <;> omega

/-- the toggle bit and the first bit after it -/
theorem run_toggle {data : Nat} (hd : data % 2 = 0) (hd2 : data * 2 + 1 < 4294967296) (t c : Bool) {tail qs : List Pulse} (tg : Bool)
    (h : Received (mergeFrom true 444 (encodeSlowBit t ++ (encodeBit c ++ tail))) qs) :
    ∃ qs', Received (mergeFrom (!c) 444 tail) qs' ∧ qs' <:+ qs ∧ Dec.run ⟨data, 15, tg⟩ qs = Dec.run ⟨pushBit data c, 21, t⟩ qs' := by
  have hmod : (data * 2 + (if c then 1 else 0)) % 4294967296 = pushBit data c := Nat.mod_eq_of_lt (by split <;> omega)
  have s15 : ∀ k, (⟨data, 15, tg⟩ : Dec).step true k = (some (⟨data, 16, tg⟩, k - 1), []) := fun k => step_second (by simp) (by simp [hd]) (by simp)
  have s16 : ∀ l, (⟨data, 16, tg⟩ : Dec).step l 2 = (some (⟨data, 18, l⟩, 0), []) := fun l => by simp [Dec.step]
  have s18 : ∀ k, 2 ≤ k → (⟨data, 18, t⟩ : Dec).step (!t) k = (some (⟨data, 20, t⟩, k - 2), []) := fun k hk => by
    unfold Dec.step
    rw [if_neg (by simp), if_neg (by simp), if_neg (by simp), if_pos rfl, if_neg (by omega), if_neg (by cases t <;> simp)]
  have s20 : (⟨data, 20, t⟩ : Dec).step c 1 = (some (⟨pushBit data c, 21, t⟩, 0), []) := by
    rw [step_first c (by simp) (by simp) (by simp) (by simp) (by simp)]
    simp only [hmod]
  -- the first half of the toggle bit
  have first : ∀ qs, Received (mergeFrom true 444 (encodeSlowBit t ++ (encodeBit c ++ tail))) qs →
      ∃ qs', Received (mergeFrom (!t) 889 (encodeBit c ++ tail)) qs' ∧ qs' <:+ qs ∧ Dec.run ⟨data, 15, tg⟩ qs = Dec.run ⟨data, 18, t⟩ qs' := by
    intro qs h
    cases t
    · have hm : mergeFrom true 444 (encodeSlowBit false ++ (encodeBit c ++ tail)) = (true, 444) :: (false, 889) :: mergeFrom true 889 (encodeBit c ++ tail) := by
        simp [encodeSlowBit, mergeFrom]
      rw [hm] at h
      cases h with
      | cons h u => cases u with
        | cons h' u' =>
          refine ⟨_, u', ⟨[_, _], rfl⟩, ?_⟩
          have e1 : ∀ q, Near (true, 444) q → (⟨data, 15, tg⟩ : Dec).signal q = (⟨data, 16, tg⟩, []) := by
            intro q hq
            rw [signal_near (k := 1) (Or.inl rfl) (by decide) hq, loop_one (by decide) (s15 1), loop_zero]
          have e2 : ∀ q, Near (false, 889) q → (⟨data, 16, tg⟩ : Dec).signal q = (⟨data, 18, false⟩, []) := by
            intro q hq
            rw [signal_near (k := 2) (Or.inr rfl) (by decide) hq, loop_one (by decide) (s16 false), loop_zero]
          simp only [Dec.run, e1 _ h, e2 _ h', List.nil_append]
    · have hm : mergeFrom true 444 (encodeSlowBit true ++ (encodeBit c ++ tail)) = (true, 1333) :: mergeFrom false 889 (encodeBit c ++ tail) := by
        simp [encodeSlowBit, mergeFrom]
      rw [hm] at h
      cases h with
      | cons h u =>
        refine ⟨_, u, ⟨[_], rfl⟩, ?_⟩
        have e1 : ∀ q, Near (true, 1333) q → (⟨data, 15, tg⟩ : Dec).signal q = (⟨data, 18, true⟩, []) := by
          intro q hq
          rw [signal_near (k := 3) (Or.inr rfl) (by decide) hq, loop_one (by decide) (s15 3), loop_one (by decide) (s16 true), loop_zero]
        simp only [Dec.run, e1 _ h, List.nil_append]
  obtain ⟨qs1, h1, x1, e1⟩ := first qs h
  rw [e1]
  clear e1 h
  by_cases hc : c = !t
  · have hm : mergeFrom (!t) 889 (encodeBit c ++ tail) = (!t, 1333) :: mergeFrom (!c) 444 tail := by
      subst hc
      simp [encodeBit, mergeFrom]
    rw [hm] at h1
    cases h1 with
    | cons h u =>
      refine ⟨_, u, List.IsSuffix.trans ⟨[_], rfl⟩ x1, ?_⟩
      have e1 : ∀ q, Near (!t, 1333) q → (⟨data, 18, t⟩ : Dec).signal q = (⟨pushBit data c, 21, t⟩, []) := by
        intro q hq
        rw [signal_near (k := 3) (Or.inr rfl) (by decide) hq, loop_one (by decide) (s18 3 (by decide)), ← hc, loop_one (by decide) s20, loop_zero]
      simp only [Dec.run, e1 _ h, List.nil_append]
  · have hc' : c = t := by cases t <;> cases c <;> simp_all
    have hm : mergeFrom (!t) 889 (encodeBit c ++ tail) = (!t, 889) :: (c, 444) :: mergeFrom (!c) 444 tail := by
      subst hc'
      simp [encodeBit, mergeFrom]
    rw [hm] at h1
    cases h1 with
    | cons h u => cases u with
      | cons h' u' =>
        refine ⟨_, u', List.IsSuffix.trans ⟨[_, _], rfl⟩ x1, ?_⟩
        have e1 : ∀ q, Near (!t, 889) q → (⟨data, 18, t⟩ : Dec).signal q = (⟨data, 20, t⟩, []) := by
          intro q hq
          rw [signal_near (k := 2) (Or.inr rfl) (by decide) hq, loop_one (by decide) (s18 2 (by decide)), loop_zero]
        have e2 : ∀ q, Near (c, 444) q → (⟨data, 20, t⟩ : Dec).signal q = (⟨pushBit data c, 21, t⟩, []) := by
          intro q hq
          rw [signal_near (k := 1) (Or.inl rfl) (by decide) hq, loop_one (by decide) s20, loop_zero]
        simp only [Dec.run, e1 _ h, e2 _ h', List.nil_append]

/-- a low pulse leaves the waiting decoder alone -/
theorem init_low (v : Nat) : Dec.init.signal (false, v) = (Dec.init, []) := by
  unfold Dec.signal
  simp only
  split
  · rfl
  · cases h : (v + 222) % 4294967296 / 444 with
    | zero => rfl
    | succ k =>
      unfold Dec.loop
      rw [if_neg (by omega)]
      have : Dec.init.step false (k + 1) = (none, []) := by
        unfold Dec.step
        rw [if_pos (show Dec.init.pos = 0 from rfl), if_pos (Or.inr rfl)]
      rw [this]

/-- the start of a frame -/
theorem run_start {tail qs : List Pulse} (h : Received (merge ([(true, 444 * 6), (false, 444 * 2)] ++ encodeBit true ++ tail)) qs) :
    ∃ qs', Received (mergeFrom false 444 tail) qs' ∧ qs' <:+ qs ∧ Dec.init.run qs = Dec.run ⟨1, 9, false⟩ qs' := by
  have hm : merge ([(true, 444 * 6), (false, 444 * 2)] ++ encodeBit true ++ tail) = (true, 2664) :: (false, 888) :: (true, 444) :: mergeFrom false 444 tail := by
    simp [merge, mergeFrom, encodeBit]
  rw [hm] at h
  cases h with
  | cons h t => cases t with
    | cons h' t => cases t with
      | cons h'' t =>
        refine ⟨_, t, ⟨[_, _, _], rfl⟩, ?_⟩
        have e1 : ∀ q, Near (true, 2664) q → Dec.init.signal q = (⟨0, 6, false⟩, []) := by
          intro q hq
          rw [signal_near (k := 6) (Or.inl rfl) (by decide) hq]; rfl
        have e2 : ∀ q, Near (false, 888) q → (⟨0, 6, false⟩ : Dec).signal q = (⟨0, 8, false⟩, []) := by
          intro q hq
          rw [signal_near (k := 2) (Or.inl rfl) (by decide) hq]; rfl
        have e3 : ∀ q, Near (true, 444) q → (⟨0, 8, false⟩ : Dec).signal q = (⟨1, 9, false⟩, []) := by
          intro q hq
          rw [signal_near (k := 1) (Or.inl rfl) (by decide) hq]; rfl
        simp only [Dec.run, e1 _ h, e2 _ h', e3 _ h'', List.nil_append]

/-- the last pulse is accepted: its length is near a multiple of 444 microseconds -/
def Accepted (v : Nat) : Prop := v % 444 ≤ 150 ∨ 294 ≤ v % 444

instance (v : Nat) : Decidable (Accepted v) := by unfold Accepted; infer_instance

theorem report_frame {ctrl info : Nat} (hc : ctrl < 256) (hi : info < 256) : report (524288 + ctrl * 256 + info) = [(ctrl, info)] := by
  unfold report
  rw [if_pos (by constructor <;> omega)]
  have h1 : (524288 + ctrl * 256 + info) / 256 % 256 = ctrl := by omega
  have h2 : (524288 + ctrl * 256 + info) % 256 = info := by omega
  rw [h1, h2]

theorem last_step {d : Dec} {l : Bool} {k : Nat} (hk : k ≠ 0) (hp : d.pos = 51) (hl : decide (d.data % 2 = 1) = !l) : d.loop l k k = (Dec.init, report d.data) := by
  obtain ⟨j, rfl⟩ := Nat.exists_eq_succ_of_ne_zero hk
  have : d.step l (j + 1) = (none, report d.data) := by
    unfold Dec.step
    rw [if_neg (by omega), if_neg (by omega), if_neg (by omega), if_neg (by omega), if_neg (by omega), if_neg (by rw [hl]; cases l <;> simp), if_pos (by omega)]
  show Dec.loop d l (j + 1) (j + 1) = _
  unfold Dec.loop
  rw [if_neg (by omega), this]

/-- everything up to the second half of the last bit -/
theorem run_frame (toggle : Bool) {ctrl info : Nat} (hc : ctrl < 256) (hi : info < 256) {tail qs : List Pulse}
    (h : Received (merge (encode toggle ctrl info ++ tail)) qs) :
    ∃ qs', Received (mergeFrom (!decide (info % 2 = 1)) 444 tail) qs' ∧ qs' <:+ qs ∧
      Dec.init.run qs = Dec.run ⟨524288 + ctrl * 256 + info, 51, toggle⟩ qs' := by
  obtain ⟨c0, hc0⟩ : ∃ c0, c0 = decide (ctrl / 128 % 2 = 1) := ⟨_, rfl⟩
  obtain ⟨cs, hcs⟩ : ∃ cs, cs = bitList 7 (ctrl * 2 % 256) ++ bitList 8 info := ⟨_, rfl⟩
  have hcons : c0 :: cs = bitList 8 ctrl ++ bitList 8 info := by rw [hc0, hcs]; rfl
  have hlen : cs.length = 15 := by rw [hcs]; simp [bitList_length]
  have he : encode toggle ctrl info ++ tail = [(true, 444 * 6), (false, 444 * 2)] ++ encodeBit true ++
      ([false, false, false].flatMap encodeBit ++ (encodeSlowBit toggle ++ (encodeBit c0 ++ (cs.flatMap encodeBit ++ tail)))) := by
    have : encodeBit c0 ++ (cs.flatMap encodeBit ++ tail) = (c0 :: cs).flatMap encodeBit ++ tail := by
      rw [List.flatMap_cons, List.append_assoc]
    rw [this, hcons, List.flatMap_append, ← encodeBits_eq, ← encodeBits_eq]
    simp only [encode, List.flatMap_cons, List.flatMap_nil, List.append_nil, List.append_assoc]
  rw [he] at h
  have hfold : cs.foldl pushBit (pushBit 8 c0) = 524288 + ctrl * 256 + info := by
    have : cs.foldl pushBit (pushBit 8 c0) = (c0 :: cs).foldl pushBit 8 := rfl
    rw [this, hcons, List.foldl_append, fold_bits 8 1 ctrl 8 (by decide) (by decide) hc, fold_bits 8 1 info _ (by decide) (by decide) hi]
    omega
  have hlast : lastBit c0 cs = decide (info % 2 = 1) := by
    have h1 : ∀ (a b : List Bool) (x : Bool), lastBit x (a ++ b) = lastBit (lastBit x a) b := by
      intro a
      induction a with
      | nil => intros; rfl
      | cons y a ih => intro b x; exact ih b y
    rw [hcs, h1, lastBit_bitList info hi]
  obtain ⟨q1, h1, x1, e1⟩ := run_start h
  obtain ⟨q2, h2, x2, e2⟩ := run_bits [false, false, false] (d := ⟨1, 9, false⟩) (b := true) rfl (by unfold Place; decide) (by decide) h1
  obtain ⟨q3, h3, x3, e3⟩ := run_toggle (data := 8) (by decide) (by decide) toggle c0 false h2
  obtain ⟨q4, h4, x4, e4⟩ := run_bits cs (d := ⟨pushBit 8 c0, 21, toggle⟩) (b := c0) (pushBit_odd _ _) (by rw [hlen]; show Place 21 15; unfold Place; decide) (Nat.lt_of_le_of_lt (Nat.le_of_eq hfold) (by omega)) h3
  refine ⟨q4, hlast ▸ h4, x4.trans (x3.trans (x2.trans x1)), ?_⟩
  have e2' : Dec.run ⟨1, 9, false⟩ q1 = Dec.run ⟨8, 15, false⟩ q2 := e2
  rw [e1, e2', e3, e4]
  simp only [hfold, hlen]

/-- C45: a frame, distorted, followed by `idle` microseconds of silence.  It ends with a low pulse of length
`v`; if the last bit is 1 that pulse is also the end of the frame, and the frame is received only if its length
happens to be accepted. -/
theorem C45_frame (toggle : Bool) {ctrl info idle : Nat} (hc : ctrl < 256) (hi : info < 256) (h1 : 444 ≤ idle) (h2 : idle < 4294960000) {qs : List Pulse}
    (h : Received (merge (encode toggle ctrl info ++ [(false, idle)])) qs) :
    ∃ qs0 v, qs = qs0 ++ [(false, v)] ∧ v < idle + 444 + 150 ∧
      Dec.init.run qs = (Dec.init, if info % 2 = 0 ∨ Accepted v then [(ctrl, info)] else []) := by
  obtain ⟨qs', hr, ⟨q0, hq0⟩, e⟩ := run_frame toggle hc hi h
  have hodd : (524288 + ctrl * 256 + info) % 2 = info % 2 := by omega
  by_cases hinfo : info % 2 = 1
  · rw [decide_eq_true hinfo] at hr
    have hm : mergeFrom (!true) 444 [(false, idle)] = [(false, 444 + idle)] := by simp [mergeFrom]
    rw [hm] at hr
    cases hr with
    | cons hn t => cases t with
      | nil =>
        rename_i q
        obtain ⟨l, v⟩ := q
        obtain ⟨rfl, n1, n2⟩ := hn
        simp only at n1 n2
        refine ⟨q0, v, hq0.symm, by omega, ?_⟩
        rw [e]
        simp only [Dec.run, List.append_nil]
        have hs : Dec.signal ⟨524288 + ctrl * 256 + info, 51, toggle⟩ (false, v) = (Dec.init, if Accepted v then [(ctrl, info)] else []) := by
          unfold Dec.signal
          simp only
          by_cases ha : v % 444 > 150 ∧ v % 444 < 444 - 150
          · rw [if_pos ha, if_neg (by unfold Accepted; omega)]
          · rw [if_neg ha, if_pos (by unfold Accepted; omega), last_step _ rfl (by simp only [hodd, hinfo]; rfl), report_frame hc hi]
            rw [Nat.mod_eq_of_lt (by omega)]
            omega
        rw [hs]
        have : ¬ info % 2 = 0 := by omega
        simp only [this, false_or]
  · rw [decide_eq_false hinfo] at hr
    have hm : mergeFrom (!false) 444 [(false, idle)] = [(true, 444), (false, idle)] := by simp [mergeFrom]
    rw [hm] at hr
    cases hr with
    | cons hn t => cases t with
      | cons hn' t => cases t with
        | nil =>
          rename_i q q'
          obtain ⟨l, v⟩ := q'
          obtain ⟨hl, n1, n2⟩ := hn'
          simp only at hl n1 n2
          subst hl
          refine ⟨q0 ++ [q], v, by rw [← hq0]; simp, by omega, ?_⟩
          rw [e]
          have hs : Dec.signal ⟨524288 + ctrl * 256 + info, 51, toggle⟩ q = (Dec.init, [(ctrl, info)]) := by
            rw [signal_near (k := 1) (Or.inl rfl) (by decide) hn, last_step (by decide) rfl, report_frame hc hi]
            have : info % 2 = 0 := by omega
            simp only [hodd, this]; rfl
          simp only [Dec.run, hs, init_low, List.append_nil]
          have : info % 2 = 0 := by omega
          simp only [this, true_or, if_true]

/-- a conversation: frames, each followed by silence, received with distortion -/
inductive Heard : List (Bool × Nat × Nat) → List Pulse → List (Nat × Nat) → Prop
  | nil : Heard [] [] []
  | cons {toggle ctrl info idle qs v ms rest out} (hc : ctrl < 256) (hi : info < 256) (h1 : 444 ≤ idle) (h2 : idle < 4294960000)
      (h : Received (merge (encode toggle ctrl info ++ [(false, idle)])) (qs ++ [(false, v)]))
      (t : Heard ms rest out) :
      Heard ((toggle, ctrl, info) :: ms) (qs ++ [(false, v)] ++ rest)
        (if info % 2 = 0 ∨ Accepted v then (ctrl, info) :: out else out)

/-- C45: frames sent one after the other are reported, in order, each once and nothing else; except those with an
odd last byte whose trailing silence has a length that is not accepted -/
theorem C45_roundtrip_partial {ms qs out} (h : Heard ms qs out) : Dec.init.run qs = (Dec.init, out) := by
  induction h with
  | nil => rfl
  | @cons toggle ctrl info idle qs v ms rest out hc hi h1 h2 h t ih =>
    obtain ⟨qs0, v', e, _, er⟩ := C45_frame toggle hc hi h1 h2 h
    have hv : v' = v := by
      have := congrArg List.getLast? e
      simpa using this.symm
    subst hv
    rw [run_append, er]
    simp only [ih]
    by_cases hx : info % 2 = 0 ∨ Accepted v'
    · simp only [if_pos hx, List.cons_append, List.nil_append]
    · simp only [if_neg hx, List.nil_append]

theorem received_refl : ∀ ps, Received ps ps
  | [] => .nil
  | p :: ps => .cons ⟨rfl, by omega, by omega⟩ (received_refl ps)

/-- an undistorted frame with an odd last byte and 20 milliseconds and 150 microseconds of silence is lost -/
theorem C45_counterexample : ∃ toggle ctrl info idle, ctrl < 256 ∧ info < 256 ∧ 20000 ≤ idle ∧ idle < 21000 ∧
    Dec.init.run (merge (encode toggle ctrl info ++ [(false, idle)])) = (Dec.init, []) :=
  ⟨true, 3, 0x15, 20150, by decide, by decide, by decide, by decide, by decide +kernel⟩

/-- the other half of the frames: even last bytes always arrive -/
example : Dec.init.run (merge (encode true 3 0x14 ++ [(false, 20150)])) = (Dec.init, [(3, 0x14)]) := by decide +kernel
example : Dec.init.run (merge (encode false 200 0x15 ++ [(false, 20000)])) = (Dec.init, [(200, 0x15)]) := by decide +kernel

example : ∃ qs, Heard [(true, 3, 0x15), (false, 3, 0x14)] qs [(3, 0x14)] ∧ qs ≠ [] := by
  have h1 := Heard.cons (toggle := true) (ctrl := 3) (info := 0x15) (idle := 20150) (v := 20594)
    (qs := (merge (encode true 3 0x15 ++ [(false, 20150)])).dropLast) (by decide) (by decide) (by decide) (by decide)
    (by have : (merge (encode true 3 0x15 ++ [(false, 20150)])).dropLast ++ [(false, 20594)] = merge (encode true 3 0x15 ++ [(false, 20150)]) := by decide +kernel
        rw [this]; exact received_refl _)
    (Heard.cons (toggle := false) (ctrl := 3) (info := 0x14) (idle := 20150) (v := 20150)
      (qs := (merge (encode false 3 0x14 ++ [(false, 20150)])).dropLast) (by decide) (by decide) (by decide) (by decide)
      (by have : (merge (encode false 3 0x14 ++ [(false, 20150)])).dropLast ++ [(false, 20150)] = merge (encode false 3 0x14 ++ [(false, 20150)]) := by decide +kernel
          rw [this]; exact received_refl _)
      Heard.nil)
  rw [if_neg (by decide), if_pos (by decide)] at h1
  exact ⟨_, h1, by simp⟩

theorem even_fail {d : Dec} {f k : Nat} (he : d.pos % 2 = 0) (h18 : d.pos ≠ 18) (hk : 3 ≤ k) : d.loop false (f + 1) k = (Dec.init, []) := by
  have : d.step false k = (none, []) := by
    unfold Dec.step
    rw [if_neg h18, if_pos he]
    split
    · rw [if_pos (Or.inr rfl)]
    · split
      · rw [if_pos (Or.inl (by omega))]
      · split
        · rw [if_pos (by omega)]
        · rw [if_pos (by omega)]
  unfold Dec.loop
  rw [if_neg (by omega), this]

theorem low_fail {d : Dec} {f k : Nat} (hk : 6 ≤ k) (hf : 3 ≤ f) : (d.loop false f k).1 = Dec.init := by
  obtain ⟨f, rfl⟩ : ∃ g, f = g + 3 := ⟨f - 3, by omega⟩
  -- at position 18
  have at18 : ∀ (d : Dec) (f k : Nat), d.pos = 18 → 5 ≤ k → (d.loop false (f + 2) k).1 = Dec.init := by
    intro d f k h18 hk
    have hs : d.step false k = (none, []) ∨ d.step false k = (some ({ d with pos := 20 }, k - 2), []) := by
      unfold Dec.step
      rw [if_neg (by omega), if_neg (by omega), if_neg (by omega), if_pos h18, if_neg (by omega), h18]
      split
      · exact Or.inl rfl
      · exact Or.inr rfl
    unfold Dec.loop
    rw [if_neg (by omega)]
    rcases hs with hs | hs <;> rw [hs]
    simp only
    rw [even_fail (by simp) (by simp) (by omega)]
  by_cases h18 : d.pos = 18
  · exact at18 d (f + 1) k h18 (by omega)
  by_cases he : d.pos % 2 = 0
  · rw [even_fail he h18 (by omega)]
  have hs : (∃ ev, d.step false k = (none, ev)) ∨ d.step false k = (some ({ d with pos := d.pos + 1 }, k - 1), []) := by
    unfold Dec.step
    rw [if_neg (by omega), if_neg (by omega), if_neg (by omega), if_neg (by omega), if_neg he]
    split
    · exact Or.inl ⟨_, rfl⟩
    · split
      · exact Or.inl ⟨_, rfl⟩
      · exact Or.inr rfl
  unfold Dec.loop
  rw [if_neg (by omega)]
  rcases hs with ⟨ev, hs⟩ | hs <;> rw [hs]
  simp only
  by_cases h18' : d.pos + 1 = 18
  · exact at18 _ f (k - 1) h18' (by omega)
  · rw [even_fail (by simp only; omega) h18' (by omega)]

/-- C45: whatever was received before, 3 milliseconds of silence bring the decoder back to waiting for a frame -/
theorem C45_resync (d : Dec) {v : Nat} (h1 : 3000 ≤ v) (h2 : v < 4294967000) : (d.signal (false, v)).1 = Dec.init := by
  unfold Dec.signal
  simp only
  split
  · rfl
  · have : 7 ≤ (v + 222) % 4294967296 / 444 := by rw [Nat.mod_eq_of_lt (by omega)]; omega
    exact low_fail (by omega) (by omega)

example : (Dec.signal ⟨17, 23, true⟩ (false, 3000)).1 = Dec.init := C45_resync _ (by decide) (by decide)

end Verif.IR.Rc6
