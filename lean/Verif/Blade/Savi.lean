/-!
# The blade with its own controller (C127)

Model of blades/saviblade.h: the ring of commands filled by the main program and sent, bit by bit, by a timer interrupt, and the
commands sent for what happens to the saber.
-/
namespace Verif.Blade.Savi

/-! ## Sending commands -/

/-- Where the main program is in `SendCMD`, blades/saviblade.h:148-159. -/
inductive Pc
  | idle
  /-- After line 149. -/
  | wrote
  /-- After line 150. -/
  | advanced
deriving DecidableEq

/-- The part of `SaviBlade` that the interrupt shares, blades/saviblade.h:224-232, the period of the timer, and what has been put on the
pin: a level, and how long it is held. -/
structure S where
  cmds : Nat → Nat
  first : Nat
  last : Nat
  n : Nat
  run : Bool
  period : Nat
  pc : Pc
  out : List (Nat × Nat)

/-- A write to one place. -/
def put (f : Nat → Nat) (i v : Nat) : Nat → Nat := fun j => if j = i then v else f j

/-- Line 149. -/
def write (s : S) (c : Nat) : S := { s with cmds := put s.cmds s.last c, pc := .wrote }

/-- Line 150. -/
def advance (s : S) : S := { s with last := (s.last + 1) % 8, pc := .advanced }

/-- Lines 151-158. -/
def kick (s : S) : S := if s.run then { s with pc := .idle } else { s with run := true, n := 0, period := 17000, pc := .idle }

/-- The period that `irq` sets, lines 192-208. -/
def nextPeriod (p n cur : Nat) : Nat :=
  if 2 ≤ n then
    if n % 2 = 1 then (if n = 19 then p else if cur / 128 % 2 = 1 then 1200 else 2400)
    else (if n = 18 then 17000 else if cur / 128 % 2 = 1 then 2400 else 1200)
  else p

/-- `irq`, blades/saviblade.h:184-210. -/
def irq (s : S) : S :=
  if s.first = s.last then { s with run := false }
  else
    { s with
      out := s.out ++ [(s.n % 2, nextPeriod s.period s.n (s.cmds s.first))]
      period := nextPeriod s.period s.n (s.cmds s.first)
      cmds := if 2 ≤ s.n ∧ s.n % 2 = 1 ∧ s.n ≠ 19 then put s.cmds s.first (s.cmds s.first * 2 % 256) else s.cmds
      first := if s.n = 19 then (s.first + 1) % 8 else s.first
      n := if s.n = 19 then 0 else s.n + 1 }

/-- The blade at first: a static object is zero. -/
def init : S := ⟨fun _ => 0, 0, 0, 0, false, 0, .idle, []⟩

inductive Op
  | write (c : Nat)
  | advance
  | kick
  | irq
deriving DecidableEq

/-- The blade with, for the statements, the commands handed over and the number of those sent in full. -/
structure G where
  s : S
  sent : List Nat
  done : Nat

/-- One step; `none` for one that cannot be taken: the main program goes line by line, the timer only runs when started, a command is a
byte, and, as an assumption, no command is given while seven are waiting. -/
def step (g : G) : Op → Option G
  | .write c => if g.s.pc = .idle ∧ c < 256 ∧ g.sent.length < g.done + 7 then some { g with s := write g.s c } else none
  | .advance => if g.s.pc = .wrote then some { g with s := advance g.s, sent := g.sent ++ [g.s.cmds g.s.last] } else none
  | .kick => if g.s.pc = .advanced then some { g with s := kick g.s } else none
  | .irq => if g.s.run = true then some { g with s := irq g.s, done := if g.s.first ≠ g.s.last ∧ g.s.n = 19 then g.done + 1 else g.done } else none

def runOps (g : G) : List Op → Option G
  | [] => some g
  | o :: r => match step g o with
    | none => none
    | some g' => runOps g' r

def g0 : G := ⟨init, [], 0⟩

/-! ## What a command looks like -/

/-- Bit `i` of a byte. -/
def bit (c i : Nat) : Bool := decide (c / 2 ^ i % 2 = 1)

/-- One bit on the pin: low then high, twice as long low for a one, twice as long high for a zero. -/
def pulse (b : Bool) : List (Nat × Nat) := [(0, if b then 2400 else 1200), (1, if b then 1200 else 2400)]

/-- A command: a long pulse, the bits from the highest, a long pulse. -/
def wave (c : Nat) : List (Nat × Nat) :=
  [(0, 17000), (1, 17000)] ++ (pulse (bit c 7) ++ pulse (bit c 6) ++ pulse (bit c 5) ++ pulse (bit c 4) ++ pulse (bit c 3) ++ pulse (bit c 2) ++
    pulse (bit c 1) ++ pulse (bit c 0)) ++ [(0, 17000), (1, 17000)]

/-- How a blade reads it: whether the pin was low for longer than high. -/
def readBits : List (Nat × Nat) → Nat → Nat
  | (0, a) :: (1, b) :: r, acc => if 10000 < a then readBits r acc else readBits r (acc * 2 + if b < a then 1 else 0)
  | _, acc => acc

/-- The blade reads each command as it was meant. -/
theorem C127_decode (c : Nat) (hc : c < 256) : readBits (wave c) 0 = c := by
  have hp : ∀ (b : Bool) (r : List (Nat × Nat)) (acc : Nat), readBits (pulse b ++ r) acc = readBits r (acc * 2 + if b then 1 else 0) := by
    intro b r acc; cases b <;> rfl
  unfold wave
  simp only [List.append_assoc, List.cons_append, List.nil_append]
  show readBits (pulse (bit c 7) ++ _) 0 = c
  simp only [hp]
  show readBits [] _ = c
  show ((((((((0 * 2 + _) * 2 + _) * 2 + _) * 2 + _) * 2 + _) * 2 + _) * 2 + _) * 2 + _) = c
  have hb : ∀ i, (if bit c i = true then 1 else 0) = c / 2 ^ i % 2 := by
    intro i; unfold bit
    by_cases h : c / 2 ^ i % 2 = 1
    · simp [h]
    · simp [h]; omega
  simp only [hb]
  omega

/-- Bits shifted out when the interrupt is at `n`. -/
def shifts (n : Nat) : Nat := if n < 2 then 0 else (n - 2) / 2

theorem wave_length (c : Nat) : (wave c).length = 20 := rfl

theorem wave_next (c n p : Nat) (hn : n < 20) (hp : n < 2 ∨ n = 19 → p = 17000) (hc : c < 256) :
    (wave c).take (n + 1) = (wave c).take n ++ [(n % 2, nextPeriod p n (c * 2 ^ shifts n % 256))] := by
  have hb : ∀ i k x y : Nat, i + k = 7 → (if c * 2 ^ k % 256 / 128 % 2 = 1 then x else y) = if bit c i = true then x else y := by
    intro i k x y hik
    have : c * 2 ^ k % 256 / 128 % 2 = c / 2 ^ i % 2 := by
      have hk : k = 0 ∨ k = 1 ∨ k = 2 ∨ k = 3 ∨ k = 4 ∨ k = 5 ∨ k = 6 ∨ k = 7 := by omega
      obtain rfl : i = 7 - k := by omega
      rcases hk with rfl | rfl | rfl | rfl | rfl | rfl | rfl | rfl <;> simp only [Nat.reducePow, Nat.reduceSub] <;> omega
    unfold bit
    rw [this]; simp
  have hcase : n = 0 ∨ n = 1 ∨ n = 2 ∨ n = 3 ∨ n = 4 ∨ n = 5 ∨ n = 6 ∨ n = 7 ∨ n = 8 ∨ n = 9 ∨ n = 10 ∨ n = 11 ∨ n = 12 ∨ n = 13 ∨ n = 14 ∨
      n = 15 ∨ n = 16 ∨ n = 17 ∨ n = 18 ∨ n = 19 := by omega
  rcases hcase with rfl | rfl | rfl | rfl | rfl | rfl | rfl | rfl | rfl | rfl | rfl | rfl | rfl | rfl | rfl | rfl | rfl | rfl | rfl | rfl
  · rw [hp (by omega)]; rfl
  · rw [hp (by omega)]; rfl
  all_goals first
    | (rw [hp (by omega)]; rfl)
    | (have e7 := hb 7 0 1200 2400 rfl; have e7' := hb 7 0 2400 1200 rfl; simp only [nextPeriod, shifts]; simp [wave, pulse]; done)
    | skip
  all_goals (simp only [nextPeriod, shifts, Nat.reduceSub, Nat.reduceDiv, Nat.reduceMod, Nat.reduceLeDiff, Nat.reduceLT, Nat.reduceEqDiff, ↓reduceIte])
  all_goals first
    | rfl
    | (rw [hb 7 0 _ _ rfl]; rfl)
    | (rw [hb 6 1 _ _ rfl]; rfl)
    | (rw [hb 5 2 _ _ rfl]; rfl)
    | (rw [hb 4 3 _ _ rfl]; rfl)
    | (rw [hb 3 4 _ _ rfl]; rfl)
    | (rw [hb 2 5 _ _ rfl]; rfl)
    | (rw [hb 1 6 _ _ rfl]; rfl)
    | (rw [hb 0 7 _ _ rfl]; rfl)

/-! ## The invariant -/

/-- What the place of command `i` holds: the command, or what is left of it while it is sent. -/
def left (g : G) (i : Nat) : Nat := if i = g.done then g.sent.getD i 0 * 2 ^ shifts g.s.n % 256 else g.sent.getD i 0

structure Inv (g : G) : Prop where
  le : g.done ≤ g.sent.length
  few : g.sent.length < g.done + 8
  more : g.s.pc = .wrote → g.sent.length < g.done + 7
  byte : g.s.pc = .wrote → g.s.cmds g.s.last < 256
  bytes : ∀ c ∈ g.sent, c < 256
  first : g.s.first = g.done % 8
  last : g.s.last = g.sent.length % 8
  n : g.s.n < 20
  n0 : g.done = g.sent.length → g.s.n = 0
  mem : ∀ i, g.done ≤ i → i < g.sent.length → g.s.cmds (i % 8) = left g i
  run : g.done < g.sent.length → g.s.pc ≠ .advanced → g.s.run = true
  period : g.s.run = true → g.s.n ≤ 2 ∨ g.s.n = 19 → g.s.period = 17000
  idle : g.s.run = false → g.s.n = 0
  out : g.s.out = (g.sent.take g.done).flatMap wave ++ (wave (g.sent.getD g.done 0)).take g.s.n

theorem inv_init : Inv g0 := by
  refine ⟨by decide, by decide, by decide, by decide, by simp [g0], rfl, rfl, by decide, fun _ => rfl, ?_, by decide, by decide, fun _ => rfl, rfl⟩
  intro i _ h
  simp [g0] at h

theorem getD_append_lt (l : List Nat) (c i : Nat) (h : i < l.length) : (l ++ [c]).getD i 0 = l.getD i 0 := by
  rw [List.getD_eq_getElem?_getD, List.getD_eq_getElem?_getD, List.getElem?_append_left h]

theorem getD_append_eq (l : List Nat) (c : Nat) : (l ++ [c]).getD l.length 0 = c := by
  rw [List.getD_eq_getElem?_getD, List.getElem?_append_right (Nat.le_refl _)]; simp

theorem getD_mem (l : List Nat) (i : Nat) (h : i < l.length) : l.getD i 0 ∈ l := by
  rw [List.getD_eq_getElem?_getD, List.getElem?_eq_getElem h]
  simp

theorem take_succ_flat (l : List Nat) (d : Nat) (h : d < l.length) :
    (l.take (d + 1)).flatMap wave = (l.take d).flatMap wave ++ wave (l.getD d 0) := by
  rw [List.take_add_one, List.flatMap_append, List.getElem?_eq_getElem h, List.getD_eq_getElem?_getD, List.getElem?_eq_getElem h]
  simp

theorem inv_write (g : G) (c : Nat) (h : Inv g) (hi : g.s.pc = .idle) (hc : c < 256) (hf : g.sent.length < g.done + 7) : Inv { g with s := write g.s c } := by
  refine ⟨h.le, h.few, fun _ => hf, fun _ => ?_, h.bytes, h.first, h.last, h.n, h.n0, ?_, ?_, h.period, h.idle, h.out⟩
  · show put g.s.cmds g.s.last c g.s.last < 256
    unfold put; rw [if_pos rfl]; exact hc
  · intro i a b
    show put g.s.cmds g.s.last c (i % 8) = left g i
    have b' : i < g.sent.length := b
    have a' : g.done ≤ i := a
    unfold put
    rw [if_neg (by rw [h.last]; omega)]
    exact h.mem i a b
  · intro a _
    show g.s.run = true
    exact h.run a (by rw [hi]; decide)

theorem inv_advance (g : G) (h : Inv g) (hw : g.s.pc = .wrote) :
    Inv { g with s := advance g.s, sent := g.sent ++ [g.s.cmds g.s.last] } := by
  have hm := h.more hw
  have hle := h.le
  have hby := h.byte hw
  have hget : g.done < g.sent.length ∨ g.done = g.sent.length := by omega
  refine ⟨(by simp; omega), (by simp; omega), (fun e => by cases e), (fun e => by cases e), ?_, h.first, ?_, h.n, ?_, ?_, fun _ e => absurd rfl e, h.period, h.idle, ?_⟩
  · intro c hc
    rcases List.mem_append.1 hc with hc | hc
    · exact h.bytes c hc
    · rw [List.mem_singleton.1 hc]; exact hby
  · show (g.s.last + 1) % 8 = _
    rw [h.last]; simp only [List.length_append, List.length_singleton]; omega
  · intro e
    simp only [List.length_append, List.length_singleton] at e
    omega
  · intro i a b
    show g.s.cmds (i % 8) = left _ i
    have a' : g.done ≤ i := a
    simp only [List.length_append, List.length_singleton] at b
    by_cases hi : i < g.sent.length
    · rw [h.mem i a hi]
      unfold left advance
      simp only
      rw [getD_append_lt _ _ _ hi]
    · obtain rfl : i = g.sent.length := by omega
      unfold left advance
      simp only
      rw [getD_append_eq]
      by_cases hd : g.sent.length = g.done
      · rw [if_pos hd, h.n0 hd.symm, ← h.last]
        show _ = _ * 2 ^ 0 % 256
        rw [Nat.pow_zero, Nat.mul_one, Nat.mod_eq_of_lt hby]
      · rw [if_neg hd, h.last]
  · show g.s.out = ((g.sent ++ [_]).take g.done).flatMap wave ++ (wave ((g.sent ++ [_]).getD g.done 0)).take g.s.n
    rw [List.take_append_of_le_length hle, h.out]
    rcases hget with hd | hd
    · rw [getD_append_lt _ _ _ hd]
    · rw [h.n0 hd]; rfl

theorem inv_kick (g : G) (h : Inv g) : Inv { g with s := kick g.s } := by
  cases hr : g.s.run with
  | true =>
    have e : kick g.s = { g.s with pc := .idle } := by unfold kick; rw [if_pos hr]
    rw [e]
    exact ⟨h.le, h.few, (fun e => by cases e), (fun e => by cases e), h.bytes, h.first, h.last, h.n, h.n0, h.mem, fun _ _ => hr, h.period, h.idle, h.out⟩
  | false =>
    have e : kick g.s = { g.s with run := true, n := 0, period := 17000, pc := .idle } := by
      unfold kick; rw [if_neg (by rw [hr]; decide)]
    rw [e]
    have hn := h.idle hr
    refine ⟨h.le, h.few, (fun e => by cases e), (fun e => by cases e), h.bytes, h.first, h.last, Nat.zero_lt_succ _, fun _ => rfl, ?_, fun _ _ => rfl, fun _ _ => rfl, fun _ => rfl, ?_⟩
    · intro i a b
      have := h.mem i a b
      unfold left at this ⊢
      rw [hn] at this
      exact this
    · have := h.out
      rw [hn] at this
      exact this

theorem irq_empty (s : S) (h : s.first = s.last) : irq s = { s with run := false } := by unfold irq; rw [if_pos h]

theorem irq_full (s : S) (h : s.first ≠ s.last) : irq s =
    { s with
      out := s.out ++ [(s.n % 2, nextPeriod s.period s.n (s.cmds s.first))]
      period := nextPeriod s.period s.n (s.cmds s.first)
      cmds := if 2 ≤ s.n ∧ s.n % 2 = 1 ∧ s.n ≠ 19 then put s.cmds s.first (s.cmds s.first * 2 % 256) else s.cmds
      first := if s.n = 19 then (s.first + 1) % 8 else s.first
      n := if s.n = 19 then 0 else s.n + 1 } := by unfold irq; rw [if_neg h]

theorem empty_iff (g : G) (h : Inv g) : g.s.first = g.s.last ↔ g.done = g.sent.length := by
  rw [h.first, h.last]
  have := h.le
  have := h.few
  omega

theorem shift_step (c n : Nat) (hn : n < 19) :
    (if 2 ≤ n ∧ n % 2 = 1 ∧ n ≠ 19 then c * 2 ^ shifts n % 256 * 2 % 256 else c * 2 ^ shifts n % 256) = c * 2 ^ shifts (n + 1) % 256 := by
  by_cases h : 2 ≤ n ∧ n % 2 = 1 ∧ n ≠ 19
  · rw [if_pos h]
    have : shifts (n + 1) = shifts n + 1 := by
      unfold shifts; rw [if_neg (by omega), if_neg (by omega)]; omega
    rw [this, Nat.pow_succ, ← Nat.mul_assoc, Nat.mod_mul_mod]
  · rw [if_neg h]
    have : shifts (n + 1) = shifts n := by
      unfold shifts
      by_cases h2 : n < 2
      · rw [if_pos h2]; split <;> omega
      · rw [if_neg h2, if_neg (by omega)]; omega
    rw [this]

theorem inv_irq (g : G) (h : Inv g) (hr : g.s.run = true) :
    Inv { g with s := irq g.s, done := if g.s.first ≠ g.s.last ∧ g.s.n = 19 then g.done + 1 else g.done } := by
  have hle := h.le
  have hfew := h.few
  have hn := h.n
  by_cases he : g.s.first = g.s.last
  · have hd := (empty_iff g h).1 he
    rw [irq_empty _ he, if_neg (fun e => e.1 he)]
    exact ⟨h.le, h.few, h.more, h.byte, h.bytes, h.first, h.last, h.n, h.n0, h.mem, fun a => absurd a (by show ¬ g.done < g.sent.length; omega),
      (fun e => by cases e), fun _ => h.n0 hd, h.out⟩
  · have hd : g.done < g.sent.length := by
      have := mt (empty_iff g h).2 he; omega
    have hbyte : g.sent.getD g.done 0 < 256 := h.bytes _ (getD_mem _ _ hd)
    have hcur : g.s.cmds g.s.first = g.sent.getD g.done 0 * 2 ^ shifts g.s.n % 256 := by
      rw [h.first, h.mem g.done (Nat.le_refl _) hd]; unfold left; rw [if_pos rfl]
    have hper := h.period hr
    have hw := wave_next (g.sent.getD g.done 0) g.s.n g.s.period hn (fun e => hper (by omega)) hbyte
    rw [irq_full _ he, hcur]
    by_cases h19 : g.s.n = 19
    · rw [if_pos (show g.s.first ≠ g.s.last ∧ g.s.n = 19 from ⟨he, h19⟩), if_neg (show ¬ (2 ≤ g.s.n ∧ g.s.n % 2 = 1 ∧ g.s.n ≠ 19) from fun e => e.2.2 h19), if_pos h19, if_pos h19]
      have hp : nextPeriod g.s.period g.s.n (g.sent.getD g.done 0 * 2 ^ shifts g.s.n % 256) = 17000 := by
        rw [h19]; exact hper (Or.inr h19)
      refine ⟨by show g.done + 1 ≤ g.sent.length; omega, by show g.sent.length < g.done + 1 + 8; omega, fun e => by have := h.more e; show g.sent.length < g.done + 1 + 7; omega, h.byte, h.bytes, ?_, h.last,
        Nat.zero_lt_succ _, fun _ => rfl, ?_, fun _ _ => hr, fun _ _ => hp, fun _ => rfl, ?_⟩
      · show (g.s.first + 1) % 8 = (g.done + 1) % 8
        rw [h.first]; omega
      · intro i a b
        have a' : g.done + 1 ≤ i := a
        have b' : i < g.sent.length := b
        show g.s.cmds (i % 8) = if i = g.done + 1 then g.sent.getD i 0 * 2 ^ 0 % 256 else g.sent.getD i 0
        rw [h.mem i (by omega) b']
        unfold left
        rw [if_neg (by omega), Nat.pow_zero, Nat.mul_one, Nat.mod_eq_of_lt (h.bytes _ (getD_mem _ _ b'))]
        split <;> rfl
      · show g.s.out ++ [_] = (g.sent.take (g.done + 1)).flatMap wave ++ []
        rw [take_succ_flat _ _ hd, List.append_nil, h.out, List.append_assoc, ← hw, h19]
        rfl
    · rw [if_neg (show ¬ (g.s.first ≠ g.s.last ∧ g.s.n = 19) from fun e => h19 e.2), if_neg h19, if_neg h19]
      refine ⟨h.le, h.few, h.more, ?_, h.bytes, h.first, h.last, by show g.s.n + 1 < 20; omega, fun e => by have e' : g.done = g.sent.length := e; omega, ?_, fun _ _ => hr, ?_,
        (fun e => by have e' : g.s.run = false := e; rw [hr] at e'; cases e'), ?_⟩
      · intro e
        show (if _ then _ else _ : Nat → Nat) g.s.last < 256
        by_cases hc : 2 ≤ g.s.n ∧ g.s.n % 2 = 1 ∧ g.s.n ≠ 19
        · rw [if_pos hc]; unfold put; rw [if_neg (fun e => he e.symm)]; exact h.byte e
        · rw [if_neg hc]; exact h.byte e
      · intro i a b
        have a' : g.done ≤ i := a
        have b' : i < g.sent.length := b
        show (if _ then _ else _ : Nat → Nat) (i % 8) = if i = g.done then g.sent.getD i 0 * 2 ^ shifts (g.s.n + 1) % 256 else g.sent.getD i 0
        by_cases hid : i = g.done
        · subst hid
          rw [if_pos rfl, ← shift_step _ _ (by omega)]
          by_cases hc : 2 ≤ g.s.n ∧ g.s.n % 2 = 1 ∧ g.s.n ≠ 19
          · rw [if_pos hc, if_pos hc]; unfold put; rw [if_pos h.first.symm]
          · rw [if_neg hc, if_neg hc, ← h.first, hcur]
        · rw [if_neg hid]
          have hm := h.mem i a' b'
          unfold left at hm
          rw [if_neg hid] at hm
          by_cases hc : 2 ≤ g.s.n ∧ g.s.n % 2 = 1 ∧ g.s.n ≠ 19
          · rw [if_pos hc]; unfold put; rw [if_neg (by rw [h.first]; omega)]; exact hm
          · rw [if_neg hc]; exact hm
      · intro _ hn2
        have hn2 : g.s.n + 1 ≤ 2 ∨ g.s.n + 1 = 19 := hn2
        show nextPeriod _ _ _ = 17000
        unfold nextPeriod
        rcases hn2 with hn2 | hn2
        · rw [if_neg (by omega)]; exact hper (by omega)
        · rw [if_pos (by omega), if_neg (by omega), if_pos (by omega)]
      · show g.s.out ++ [_] = (g.sent.take g.done).flatMap wave ++ (wave (g.sent.getD g.done 0)).take (g.s.n + 1)
        rw [hw, h.out, List.append_assoc]

theorem inv_step (g g' : G) (o : Op) (h : Inv g) (hs : step g o = some g') : Inv g' := by
  cases o with
  | write c =>
    simp only [step] at hs
    split at hs
    · rename_i hc; rw [← Option.some.inj hs]; exact inv_write g c h hc.1 hc.2.1 hc.2.2
    · cases hs
  | advance =>
    simp only [step] at hs
    split at hs
    · rename_i hc; rw [← Option.some.inj hs]; exact inv_advance g h hc
    · cases hs
  | kick =>
    simp only [step] at hs
    split at hs
    · rw [← Option.some.inj hs]; exact inv_kick g h
    · cases hs
  | irq =>
    simp only [step] at hs
    split at hs
    · rename_i hc; rw [← Option.some.inj hs]; exact inv_irq g h hc
    · cases hs

theorem inv_run (ops : List Op) (g g' : G) (h : Inv g) (hr : runOps g ops = some g') : Inv g' := by
  induction ops generalizing g with
  | nil => rw [← Option.some.inj hr]; exact h
  | cons o r ih =>
    unfold runOps at hr
    split at hr
    · cases hr
    · rename_i g1 h1; exact ih g1 (inv_step g g1 o h h1) hr

/-- However the interrupt falls between the lines of the main program, the pin shows the commands in the order given, each complete and
unchanged, and then the beginning of the next; and the timer runs whenever something is left and the main program is outside of
`SendCMD`. -/
theorem C127_stream (ops : List Op) (g : G) (h : runOps g0 ops = some g) :
    g.done ≤ g.sent.length ∧ g.s.out = (g.sent.take g.done).flatMap wave ++ (wave (g.sent.getD g.done 0)).take g.s.n ∧ g.s.n < 20 ∧
    (g.done = g.sent.length → g.s.out = g.sent.flatMap wave) ∧ (g.done < g.sent.length → g.s.pc = .idle → g.s.run = true) := by
  have i := inv_run ops g0 g inv_init h
  refine ⟨i.le, i.out, i.n, ?_, fun a b => i.run a (by rw [b]; decide)⟩
  intro e
  rw [i.out, i.n0 e, e, List.take_of_length_le (Nat.le_refl _)]
  exact List.append_nil _

/-- Nothing else is counted as sent than what was handed over, in order. -/
theorem C127_sent (g g' : G) (o : Op) (h : step g o = some g') :
    g'.sent = g.sent ∨ ∃ c, g'.sent = g.sent ++ [c] ∧ o = .advance ∧ g.s.cmds g.s.last = c := by
  cases o <;> simp only [step] at h <;> split at h <;> first | (cases h; done) | skip
  · exact Or.inl (by rw [← Option.some.inj h])
  · exact Or.inr ⟨_, by rw [← Option.some.inj h], rfl, rfl⟩
  · exact Or.inl (by rw [← Option.some.inj h])
  · exact Or.inl (by rw [← Option.some.inj h])

/-- The steps of one call of `SendCMD`: handed over is the command given, whatever interrupts fall between. -/
theorem C127_call (g g1 g2 g3 : G) (c : Nat) (k : Nat) (hi : Inv g) (h1 : step g (.write c) = some g1) (h2 : runOps g1 (List.replicate k .irq) = some g2)
    (h3 : step g2 .advance = some g3) : g3.sent = g.sent ++ [c] := by
  have i1 := inv_step g g1 _ hi h1
  have hw : g1.sent = g.sent ∧ g1.s.pc = .wrote ∧ g1.s.cmds g1.s.last = c := by
    simp only [step] at h1
    split at h1
    · rw [← Option.some.inj h1]
      refine ⟨rfl, rfl, ?_⟩
      show put g.s.cmds g.s.last c g.s.last = c
      unfold put; rw [if_pos rfl]
    · cases h1
  have key : ∀ (k : Nat) (a b : G), Inv a → runOps a (List.replicate k .irq) = some b → b.sent = a.sent ∧ b.s.cmds b.s.last = a.s.cmds a.s.last := by
    intro k
    induction k with
    | zero => intro a b _ e; rw [← Option.some.inj e]; exact ⟨rfl, rfl⟩
    | succ k ih =>
      intro a b ia e
      rw [List.replicate_succ] at e
      unfold runOps at e
      split at e
      · cases e
      · rename_i a1 e1
        have ⟨p, q⟩ := ih a1 b (inv_step a a1 _ ia e1) e
        simp only [step] at e1
        split at e1
        · have e1 := Option.some.inj e1
          rw [p, q, ← e1]
          refine ⟨rfl, ?_⟩
          by_cases he : a.s.first = a.s.last
          · rw [irq_empty _ he]
          · rw [irq_full _ he]
            show (if _ then _ else _ : Nat → Nat) a.s.last = _
            split
            · exact if_neg (fun e => he e.symm)
            · rfl
        · cases e1
  have ⟨p, q⟩ := key k g1 g2 i1 h2
  simp only [step] at h3
  split at h3
  · rw [← Option.some.inj h3, p, hw.1, q, hw.2.2]
  · cases h3

/-- All is sent: with no more commands, after 20 interrupts for each that waits, less those already had, everything has gone out. -/
theorem C127_drain (k : Nat) (g : G) (h : Inv g) (hr : g.s.run = true) (hk : k + g.s.n = 20 * (g.sent.length - g.done)) :
    ∃ g', runOps g (List.replicate k .irq) = some g' ∧ g'.sent = g.sent ∧ g'.done = g.sent.length ∧ g'.s.out = g.sent.flatMap wave := by
  induction k generalizing g with
  | zero =>
    have hn := h.n
    have hle := h.le
    have hd : g.done = g.sent.length := by omega
    refine ⟨g, rfl, rfl, hd, ?_⟩
    rw [h.out, h.n0 hd, hd, List.take_of_length_le (Nat.le_refl _)]
    exact List.append_nil _
  | succ k ih =>
    have hle := h.le
    have hn := h.n
    have hd : g.done < g.sent.length := by omega
    have he : g.s.first ≠ g.s.last := fun e => by have := (empty_iff g h).1 e; omega
    have hstep : step g .irq = some { g with s := irq g.s, done := if g.s.first ≠ g.s.last ∧ g.s.n = 19 then g.done + 1 else g.done } := by
      simp only [step]; rw [if_pos hr]
    have hi := inv_irq g h hr
    have hr' : (irq g.s).run = true := by rw [irq_full _ he]; exact hr
    have hn' : (irq g.s).n = if g.s.n = 19 then 0 else g.s.n + 1 := by rw [irq_full _ he]
    obtain ⟨g', a, b, c, d⟩ := ih _ hi hr' (by
      show k + (irq g.s).n = 20 * (g.sent.length - if g.s.first ≠ g.s.last ∧ g.s.n = 19 then g.done + 1 else g.done)
      rw [hn']
      by_cases h19 : g.s.n = 19
      · rw [if_pos h19, if_pos ⟨he, h19⟩]; omega
      · rw [if_neg h19, if_neg (fun e => h19 e.2)]; omega)
    refine ⟨g', ?_, b, c, d⟩
    rw [List.replicate_succ]
    unfold runOps
    rw [hstep]
    exact a

/-- With no limit on what waits: `SendCMD` eight times, then the interrupt. -/
def eight (s : S) : List Nat → S
  | [] => s
  | c :: r => eight (kick (advance (write s c))) r

/-- Eight commands given at once are all lost: the ring looks empty and the timer is stopped. -/
theorem C127_overrun_counterexample (c1 c2 c3 c4 c5 c6 c7 c8 : Nat) :
    (irq (eight init [c1, c2, c3, c4, c5, c6, c7, c8])).out = [] ∧ (irq (eight init [c1, c2, c3, c4, c5, c6, c7, c8])).run = false := by
  simp [eight, irq, kick, advance, write, init]

example : ((runOps g0 ([.write 0x21, .advance, .kick] ++ List.replicate 7 .irq ++ [.write 0xA4, .irq, .advance, .irq, .kick])).map fun g => (g.sent, g.done, g.s.n)) =
    some ([0x21, 0xA4], 0, 9) := by decide +kernel

/-! ## What is sent -/

/-- The part of `SaviBlade` for the main program, blades/saviblade.h:217-226, and the commands sent. -/
structure B where
  on : Bool
  powered : Bool
  color : Nat
  state : Nat
  lastSend : Nat
  out : List Nat
deriving DecidableEq

/-- The choice of a colour, blades/saviblade.h:69-81. -/
def pick (r g b : Nat) : Nat :=
  match decide (r > 32768), decide (g > 32768), decide (b > 32768) with
  | true, true, true => 0
  | true, false, false => 1
  | true, true, false => 3
  | false, true, false => 4
  | false, true, true => 5
  | false, false, true => 6
  | true, false, true => 7
  | false, false, false => 0

/-- `set`, blades/saviblade.h:82-85, with the colour chosen. -/
def set (s : B) (color : Nat) : B :=
  if color ≠ s.color ∧ s.on = true then { s with out := s.out ++ [0xA0 + color], color := color } else { s with color := color }

/-- `Power`, blades/saviblade.h:44-57: `style` is the colour of the style run when it goes on. -/
def power (s : B) (on : Bool) (style : Nat) : B :=
  if s.powered ≠ on then (if on then { set s style with powered := true } else { s with powered := false }) else s

/-- `SB_On2`, blades/saviblade.h:105-114. -/
def turnOn (s : B) (now style : Nat) : B :=
  let p := power { s with on := true } true style
  { p with out := p.out ++ [0x20 + p.color], state := 0xA0 + p.color, lastSend := now }

/-- `SB_Off2`, blades/saviblade.h:116-126. -/
def turnOff (s : B) (now : Nat) (idle : Bool) : B :=
  let p := { s with on := false, out := s.out ++ [0x40], lastSend := now, state := 0 }
  if idle then power p false 0 else p

/-- `SetState`, blades/saviblade.h:161-165. -/
def setState (s : B) (state now : Nat) : B := { s with state := state, lastSend := now, out := s.out ++ [state] }

/-- Whether more than 550 ms have passed, line 175; running the style does not change `last_send_`. -/
def due (s : B) (now : Nat) : Bool := decide ((now + 4294967296 - s.lastSend) % 4294967296 > 550)

/-- Lines 172-181. -/
def repeatOr (q : B) (d : Bool) (now : Nat) : B := if d then (if q.on then setState q q.state now else power q false 0) else q

/-- `Loop`, blades/saviblade.h:167-182. -/
def loop (s : B) (now style : Nat) : B := if s.powered then repeatOr (set s style) (due s now) now else s

inductive BladeOp
  | turnOn (now style : Nat)
  | turnOff (now : Nat) (idle : Bool)
  | clash
  | lockBegin (now : Nat)
  | lockEnd (now : Nat)
  | loop (now style : Nat)
deriving DecidableEq

/-- `SB_Effect`, blades/saviblade.h:128-145, and the others. -/
def act (s : B) : BladeOp → B
  | .turnOn n c => turnOn s n c
  | .turnOff n i => turnOff s n i
  | .clash => { s with out := s.out ++ [0xC0] }
  | .lockBegin n => setState s 0x60 n
  | .lockEnd n => setState s (0xA0 + s.color) n
  | .loop n c => loop s n c

/-- The colours of the three thresholds: each of the seven codes for exactly its own combination; dark is white. -/
theorem C127_colour (r g b : Nat) :
    (pick r g b = 1 ↔ 32768 < r ∧ g ≤ 32768 ∧ b ≤ 32768) ∧ (pick r g b = 3 ↔ 32768 < r ∧ 32768 < g ∧ b ≤ 32768) ∧
    (pick r g b = 4 ↔ r ≤ 32768 ∧ 32768 < g ∧ b ≤ 32768) ∧ (pick r g b = 5 ↔ r ≤ 32768 ∧ 32768 < g ∧ 32768 < b) ∧
    (pick r g b = 6 ↔ r ≤ 32768 ∧ g ≤ 32768 ∧ 32768 < b) ∧ (pick r g b = 7 ↔ 32768 < r ∧ g ≤ 32768 ∧ 32768 < b) ∧
    (pick r g b = 0 ↔ (32768 < r ∧ 32768 < g ∧ 32768 < b) ∨ (r ≤ 32768 ∧ g ≤ 32768 ∧ b ≤ 32768)) := by
  unfold pick
  by_cases h1 : r > 32768 <;> by_cases h2 : g > 32768 <;> by_cases h3 : b > 32768 <;> simp [h1, h2, h3] <;> omega

theorem alive_aux (s : B) (d : Bool) (now style : Nat) (hp : s.powered = true) :
    (d = true → s.on = true → (repeatOr (set s style) d now).out.getLast? = some s.state ∧ (repeatOr (set s style) d now).lastSend = now) ∧
    (d = true → s.on = false → (repeatOr (set s style) d now).powered = false ∧ (repeatOr (set s style) d now).out = s.out) ∧
    (d = false → (repeatOr (set s style) d now).powered = true ∧ (repeatOr (set s style) d now).lastSend = s.lastSend) := by
  have hs : (set s style).lastSend = s.lastSend ∧ (set s style).on = s.on ∧ (set s style).state = s.state ∧ (set s style).powered = s.powered ∧
      (s.on = false → (set s style).out = s.out) := by
    unfold set
    split
    · rename_i h; exact ⟨rfl, rfl, rfl, rfl, fun e => by rw [h.2] at e; cases e⟩
    · exact ⟨rfl, rfl, rfl, rfl, fun _ => rfl⟩
  obtain ⟨a, b, c, d', e⟩ := hs
  unfold repeatOr
  refine ⟨?_, ?_, ?_⟩
  · intro h1 h2
    rw [if_pos h1, b, if_pos h2]
    unfold setState
    simp [c]
  · intro h1 h2
    rw [if_pos h1, b, if_neg (by rw [h2]; decide)]
    unfold power
    rw [d', hp, if_pos (by decide), if_neg (by decide)]
    exact ⟨rfl, e h2⟩
  · intro h1
    rw [if_neg (by rw [h1]; decide)]
    exact ⟨by rw [d', hp], a⟩

theorem loop_powered (s : B) (now style : Nat) (hp : s.powered = true) : loop s now style = repeatOr (set s style) (due s now) now := by
  unfold loop; rw [if_pos hp]

/-- A blade that is on hears its state at each turn of the loop at which nothing was sent for more than 550 ms; a blade that is off loses
its power then. -/
theorem C127_alive (s : B) (now style : Nat) (hp : s.powered = true) :
    (550 < (now + 4294967296 - s.lastSend) % 4294967296 → s.on = true →
      (loop s now style).out.getLast? = some s.state ∧ (loop s now style).lastSend = now) ∧
    (550 < (now + 4294967296 - s.lastSend) % 4294967296 → s.on = false →
      (loop s now style).powered = false ∧ (loop s now style).out = s.out) ∧
    ((now + 4294967296 - s.lastSend) % 4294967296 ≤ 550 → (loop s now style).powered = true ∧ (loop s now style).lastSend = s.lastSend) := by
  rw [loop_powered s now style hp]
  have h := alive_aux s (due s now) now style hp
  have hd : due s now = decide ((now + 4294967296 - s.lastSend) % 4294967296 > 550) := rfl
  generalize due s now = d at *
  generalize (now + 4294967296 - s.lastSend) % 4294967296 = t at *
  exact ⟨fun a => h.1 (by rw [hd]; exact decide_eq_true a), fun a => h.2.1 (by rw [hd]; exact decide_eq_true a),
    fun a => h.2.2 (by rw [hd]; exact decide_eq_false (by omega))⟩

/-- A change of colour while the blade is on does not last: it is sent, but the next repeat sends the old colour again, and the new one is
not sent any more however often the style asks for it. -/
theorem C127_repeat_counterexample (a b : Nat) (hab : a ≠ b) :
    let s0 : B := ⟨false, true, a, 0, 0, []⟩
    let s1 := turnOn s0 0 a
    let s2 := loop s1 1 b
    let s3 := loop s2 551 b
    s2.out = [0x20 + a, 0xA0 + b] ∧ s3.out = [0x20 + a, 0xA0 + b, 0xA0 + a] ∧ s3.color = b ∧ (set s3 b).out = s3.out := by
  simp [turnOn, power, loop, due, repeatOr, set, setState, Ne.symm hab]

/-- With the colour left as it is while the blade is on, what is repeated is the colour, or the code for lockup. -/
theorem C127_repeat_partial (s : B) (c : Nat) (ops : List BladeOp)
    (hops : ∀ o ∈ ops, ∀ n x, (o = .turnOn n x → x = c) ∧ (o = .loop n x → x = c))
    (hc : s.color = c) (hs : s.on = true → s.state = 0x60 ∨ s.state = 0xA0 + c) :
    (ops.foldl act s).color = c ∧ ((ops.foldl act s).on = true → (ops.foldl act s).state = 0x60 ∨ (ops.foldl act s).state = 0xA0 + c) := by
  induction ops generalizing s with
  | nil => exact ⟨hc, hs⟩
  | cons o r ih =>
    have hset : ∀ s : B, s.color = c → set s c = { s with color := c } := by
      intro s e; unfold set; rw [if_neg (fun h => h.1 e.symm)]
    have hpow : ∀ (s : B) (on : Bool), s.color = c → (power s on c).color = c ∧ (power s on c).on = s.on ∧ (power s on c).state = s.state := by
      intro s on e
      unfold power
      split
      · split
        · rw [hset s e]; exact ⟨rfl, rfl, rfl⟩
        · exact ⟨e, rfl, rfl⟩
      · exact ⟨e, rfl, rfl⟩
    have hpow0 : ∀ s : B, s.color = c → (power s false 0).color = c ∧ (power s false 0).on = s.on ∧ (power s false 0).state = s.state := by
      intro s e
      unfold power
      split
      · exact ⟨e, rfl, rfl⟩
      · exact ⟨e, rfl, rfl⟩
    refine ih (act s o) (fun o' ho' => hops o' (List.mem_cons_of_mem _ ho')) ?_ ?_ <;> cases o
    case turnOn n x =>
      obtain rfl := (hops _ List.mem_cons_self n x).1 rfl
      exact (hpow { s with on := true } true hc).1
    case turnOff n i =>
      show (turnOff s n i).color = c
      unfold turnOff
      cases i
      · exact hc
      · exact (hpow0 { s with on := false, out := s.out ++ [0x40], lastSend := n, state := 0 } hc).1
    case clash => exact hc
    case lockBegin n => exact hc
    case lockEnd n => exact hc
    case loop n x =>
      obtain rfl := (hops _ List.mem_cons_self n x).2 rfl
      show (loop s n x).color = x
      unfold loop
      rw [hset s hc]
      generalize due s n = d
      split
      · unfold repeatOr
        split
        · split
          · rfl
          · exact (hpow0 _ rfl).1
        · rfl
      · exact hc
    case turnOn n x =>
      obtain rfl := (hops _ List.mem_cons_self n x).1 rfl
      intro _
      exact Or.inr (by show 0xA0 + (power { s with on := true } true x).color = _; rw [(hpow { s with on := true } true hc).1])
    case turnOff n i =>
      show (turnOff s n i).on = true → _
      intro h
      unfold turnOff at h
      cases i
      · cases h
      · have := (hpow0 { s with on := false, out := s.out ++ [0x40], lastSend := n, state := 0 } hc).2.1
        have h' : (power { s with on := false, out := s.out ++ [0x40], lastSend := n, state := 0 } false 0).on = true := h
        rw [this] at h'; cases h'
    case clash => exact hs
    case lockBegin n => exact fun _ => Or.inl rfl
    case lockEnd n => exact fun _ => Or.inr (by show 0xA0 + s.color = _; rw [hc])
    case loop n x =>
      obtain rfl := (hops _ List.mem_cons_self n x).2 rfl
      show (loop s n x).on = true → (loop s n x).state = 0x60 ∨ (loop s n x).state = 0xA0 + x
      unfold loop
      rw [hset s hc]
      generalize due s n = d
      split
      · unfold repeatOr
        split
        · split
          · exact hs
          · obtain ⟨-, p, q⟩ := hpow0 { s with color := x } rfl
            rw [p, q]; exact hs
        · exact hs
      · exact hs

example : ((act (act (act ⟨false, true, 4, 0, 0, []⟩ (.turnOn 0 4)) (.lockBegin 100)) (.loop 700 4)).out) = [0x24, 0x60, 0x60] := by decide +kernel

end Verif.Blade.Savi
