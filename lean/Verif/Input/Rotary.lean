import Verif.Input.Model
/-!
# C35: the rotary knob
-/
namespace Verif.Input

/-- what happens to a knob: it moves one quarter step up or down, or the main loop runs -/
inductive Turn where
  | up | down | loop
deriving DecidableEq

/-- the position of the knob, the driver, its `pos_`, and all calls of `Update` so far, oldest first -/
structure Knob where
  x : Int
  rot : Rot
  pos : Int
  out : List Int

/-- one thing happening to a knob with `s` quarter steps per detent -/
def Knob.step (s : Int) (k : Knob) : Turn → Option Knob
  | .up => some { k with x := k.x + 1, rot := k.rot.move k.x (k.x + 1) }
  | .down => some { k with x := k.x - 1, rot := k.rot.move k.x (k.x - 1) }
  | .loop => (rotLoop s k.rot.delta k.pos).map fun r => { k with pos := r.1, out := k.out ++ r.2 }

/-- a sequence of them -/
def Knob.run (s : Int) (k : Knob) (ts : List Turn) : Option Knob := ts.foldlM (fun k (t : Turn) => k.step s t) k

/-- a knob at rest with the driver waiting for pin 1 to fall, as after one full detent -/
def Knob.ready : Knob := ⟨0, ⟨some 0, 0⟩, 0, []⟩

/-- the position of the knob after some turns -/
def position (ts : List Turn) : Int := (ts.map fun t => if t = .up then 1 else if t = .down then -1 else 0).foldl (· + ·) 0

/-- the driver follows the knob -/
structure Follows (r : Rot) (x : Int) : Prop where
  near : r.delta = x ∨ r.delta = x + 1
  irq : ∃ i : Fin 4, r.irq = some i ∧ (i.val : Int) = r.delta % 4

theorem toI8_id (x : Int) (h1 : -128 ≤ x) (h2 : x ≤ 127) : toI8 x = x := by unfold toI8; omega

theorem adjust_eq (delta p d : Int) (h : (delta - p) % 4 = 0) (h1 : -128 ≤ delta + d) (h2 : delta + d ≤ 127) : adjust delta p d = delta + d := by
  unfold adjust; rw [h]; exact toI8_id _ h1 h2

theorem move_up (r : Rot) (x : Int) (h : Follows r x) (h1 : -126 ≤ x) (h2 : x ≤ 125) :
    Follows (r.move x (x + 1)) (x + 1) ∧ (r.move x (x + 1)).delta = x + 1 := by
  obtain ⟨irq, delta⟩ := r
  obtain ⟨hn, i, hi, hv⟩ := h
  simp only at hn hi hv
  subst hi
  match i, hv with
  | 0, hv =>
    rcases hn with hn | hn
    · have e : edge x (x + 1) 0 = true := by simp [edge, pins]; omega
      have e1 : (pins (x + 1)).2 = true := by simp [pins]; omega
      have e2 : adjust delta 0 1 = delta + 1 := adjust_eq _ _ _ (by (try simp at hv); omega) (by omega) (by omega)
      simp [Rot.move, e, Rot.isr, e1, setup2, e2]
      exact ⟨⟨by simp; omega, 1, rfl, by (try simp at hv); (try simp); omega⟩, by (try simp); omega⟩
    · have e : edge x (x + 1) 0 = false := by simp [edge, pins]; (try simp at hv); omega
      simp [Rot.move, e]
      exact ⟨⟨by simp; omega, 0, rfl, by (try simp at hv); (try simp); omega⟩, by (try simp); omega⟩
  | 1, hv =>
    rcases hn with hn | hn
    · have e : edge x (x + 1) 1 = true := by simp [edge, pins]; (try simp at hv); omega
      have e1 : (pins (x + 1)).1 = false := by simp [pins]; (try simp at hv); omega
      have e2 : adjust delta 1 1 = delta + 1 := adjust_eq _ _ _ (by (try simp at hv); omega) (by omega) (by omega)
      simp [Rot.move, e, Rot.isr, e1, setup1, e2]
      exact ⟨⟨by simp; omega, 2, rfl, by (try simp at hv); (try simp); omega⟩, by (try simp); omega⟩
    · have e : edge x (x + 1) 1 = false := by simp [edge, pins]; (try simp at hv); omega
      simp [Rot.move, e]
      exact ⟨⟨by simp; omega, 1, rfl, by (try simp at hv); (try simp); omega⟩, by (try simp); omega⟩
  | 2, hv =>
    rcases hn with hn | hn
    · have e : edge x (x + 1) 2 = true := by simp [edge, pins]; (try simp at hv); omega
      have e1 : (pins (x + 1)).2 = false := by simp [pins]; (try simp at hv); omega
      have e2 : adjust delta 2 1 = delta + 1 := adjust_eq _ _ _ (by (try simp at hv); omega) (by omega) (by omega)
      simp [Rot.move, e, Rot.isr, e1, setup2, e2]
      exact ⟨⟨by simp; omega, 3, rfl, by (try simp at hv); (try simp); omega⟩, by (try simp); omega⟩
    · have e : edge x (x + 1) 2 = false := by simp [edge, pins]; (try simp at hv); omega
      simp [Rot.move, e]
      exact ⟨⟨by simp; omega, 2, rfl, by (try simp at hv); (try simp); omega⟩, by (try simp); omega⟩
  | 3, hv =>
    rcases hn with hn | hn
    · have e : edge x (x + 1) 3 = true := by simp [edge, pins]; (try simp at hv); omega
      have e1 : (pins (x + 1)).1 = true := by simp [pins]; (try simp at hv); omega
      have e2 : adjust delta 3 1 = delta + 1 := adjust_eq _ _ _ (by (try simp at hv); omega) (by omega) (by omega)
      simp [Rot.move, e, Rot.isr, e1, setup1, e2]
      exact ⟨⟨by simp; omega, 0, rfl, by (try simp at hv); (try simp); omega⟩, by (try simp); omega⟩
    · have e : edge x (x + 1) 3 = false := by simp [edge, pins]; (try simp at hv); omega
      simp [Rot.move, e]
      exact ⟨⟨by simp; omega, 3, rfl, by (try simp at hv); (try simp); omega⟩, by (try simp); omega⟩

theorem move_down (r : Rot) (x : Int) (h : Follows r x) (h1 : -125 ≤ x) (h2 : x ≤ 126) :
    Follows (r.move x (x - 1)) (x - 1) ∧ (r.move x (x - 1)).delta = x := by
  obtain ⟨irq, delta⟩ := r
  obtain ⟨hn, i, hi, hv⟩ := h
  simp only at hn hi hv
  subst hi
  match i, hv with
  | 0, hv =>
    rcases hn with hn | hn
    · have e : edge x (x - 1) 0 = false := by simp [edge, pins]; (try simp at hv); omega
      simp [Rot.move, e]
      exact ⟨⟨by simp; omega, 0, rfl, by (try simp at hv); (try simp); omega⟩, by (try simp); omega⟩
    · have e : edge x (x - 1) 0 = true := by simp [edge, pins]; (try simp at hv); omega
      have e1 : (pins (x - 1)).2 = false := by simp [pins]; (try simp at hv); omega
      have e2 : adjust delta 0 (-1) = delta - 1 := adjust_eq _ _ _ (by (try simp at hv); omega) (by omega) (by omega)
      simp [Rot.move, e, Rot.isr, e1, setup2, e2]
      exact ⟨⟨by simp; omega, 3, rfl, by (try simp at hv); (try simp); omega⟩, by (try simp); omega⟩
  | 1, hv =>
    rcases hn with hn | hn
    · have e : edge x (x - 1) 1 = false := by simp [edge, pins]; (try simp at hv); omega
      simp [Rot.move, e]
      exact ⟨⟨by simp; omega, 1, rfl, by (try simp at hv); (try simp); omega⟩, by (try simp); omega⟩
    · have e : edge x (x - 1) 1 = true := by simp [edge, pins]; (try simp at hv); omega
      have e1 : (pins (x - 1)).1 = true := by simp [pins]; (try simp at hv); omega
      have e2 : adjust delta 1 (-1) = delta - 1 := adjust_eq _ _ _ (by (try simp at hv); omega) (by omega) (by omega)
      simp [Rot.move, e, Rot.isr, e1, setup1, e2]
      exact ⟨⟨by simp; omega, 0, rfl, by (try simp at hv); (try simp); omega⟩, by (try simp); omega⟩
  | 2, hv =>
    rcases hn with hn | hn
    · have e : edge x (x - 1) 2 = false := by simp [edge, pins]; (try simp at hv); omega
      simp [Rot.move, e]
      exact ⟨⟨by simp; omega, 2, rfl, by (try simp at hv); (try simp); omega⟩, by (try simp); omega⟩
    · have e : edge x (x - 1) 2 = true := by simp [edge, pins]; (try simp at hv); omega
      have e1 : (pins (x - 1)).2 = true := by simp [pins]; (try simp at hv); omega
      have e2 : adjust delta 2 (-1) = delta - 1 := adjust_eq _ _ _ (by (try simp at hv); omega) (by omega) (by omega)
      simp [Rot.move, e, Rot.isr, e1, setup2, e2]
      exact ⟨⟨by simp; omega, 1, rfl, by (try simp at hv); (try simp); omega⟩, by (try simp); omega⟩
  | 3, hv =>
    rcases hn with hn | hn
    · have e : edge x (x - 1) 3 = false := by simp [edge, pins]; (try simp at hv); omega
      simp [Rot.move, e]
      exact ⟨⟨by simp; omega, 3, rfl, by (try simp at hv); (try simp); omega⟩, by (try simp); omega⟩
    · have e : edge x (x - 1) 3 = true := by simp [edge, pins]; (try simp at hv); omega
      have e1 : (pins (x - 1)).1 = false := by simp [pins]; (try simp at hv); omega
      have e2 : adjust delta 3 (-1) = delta - 1 := adjust_eq _ _ _ (by (try simp at hv); omega) (by omega) (by omega)
      simp [Rot.move, e, Rot.isr, e1, setup1, e2]
      exact ⟨⟨by simp; omega, 2, rfl, by (try simp at hv); (try simp); omega⟩, by (try simp); omega⟩

/-- the first loop stops below one detent above the position -/
theorem upLoop_eq (s delta : Int) (hs : 1 ≤ s) (hd : delta ≤ 127) : ∀ (f : Nat) (pos : Int), -128 ≤ pos → delta - pos ≤ f →
    ∃ n : Nat, upLoop s delta (f + 1) pos = some (pos + n * s, List.replicate n 1) ∧ delta - (pos + n * s) < s ∧ (n = 0 ∨ 0 ≤ delta - (pos + n * s))
  | f, pos, hp, hf => by
    unfold upLoop
    by_cases h : delta - pos ≥ s
    · match f, hf with
      | 0, hf => simp at hf; omega
      | f + 1, hf =>
        obtain ⟨n, e, h1, h2⟩ := upLoop_eq s delta hs hd f (pos + s) (by omega) (by simp at hf; omega)
        have em : ((n : Int) + 1) * s = n * s + s := by rw [Int.add_mul, Int.one_mul]
        generalize hns : (n : Int) * s = ns at *
        have em' : ((n + 1 : Nat) : Int) * s = ns + s := by rw [← em]; rfl
        rw [if_pos h, toI8_id _ (by omega) (by omega), e]
        refine ⟨n + 1, ?_, ?_, ?_⟩
        · simp only [em', Option.map_some, List.replicate_succ]
          congr 2; omega
        · rw [em']; omega
        · right; rw [em']; rcases h2 with h2 | h2
          · subst h2; simp at hns; omega
          · omega
    · rw [if_neg h]
      exact ⟨0, by simp, by simp; omega, Or.inl rfl⟩

/-- the second loop stops above one detent below the position -/
theorem downLoop_eq (s delta : Int) (hs : 2 ≤ s) (hd : -127 ≤ delta) : ∀ (f : Nat) (pos : Int), pos ≤ 127 → pos - delta ≤ f →
    ∃ n : Nat, downLoop s delta (f + 1) pos = some (pos - n * s, List.replicate n (-1)) ∧ -s + 1 < delta - (pos - n * s) ∧ (n = 0 ∨ delta - (pos - n * s) ≤ 1)
  | f, pos, hp, hf => by
    unfold downLoop
    by_cases h : delta - pos ≤ -s + 1
    · match f, hf with
      | 0, hf => simp at hf; omega
      | f + 1, hf =>
        obtain ⟨n, e, h1, h2⟩ := downLoop_eq s delta hs hd f (pos - s) (by omega) (by simp at hf; omega)
        have em : ((n : Int) + 1) * s = n * s + s := by rw [Int.add_mul, Int.one_mul]
        generalize hns : (n : Int) * s = ns at *
        have em' : ((n + 1 : Nat) : Int) * s = ns + s := by rw [← em]; rfl
        rw [if_pos h, toI8_id _ (by omega) (by omega), e]
        refine ⟨n + 1, ?_, ?_, ?_⟩
        · simp only [em', Option.map_some, List.replicate_succ]
          congr 2; omega
        · rw [em']; omega
        · right; rw [em']; rcases h2 with h2 | h2
          · subst h2; simp at hns; omega
          · omega
    · rw [if_neg h]
      exact ⟨0, by simp, by simp; omega, Or.inl rfl⟩

/-- the main loop: the new position is a whole number of detents away, all calls go in that direction -/
theorem rotLoop_eq (s delta pos : Int) (hs : 2 ≤ s) (h1 : -127 ≤ delta) (h2 : delta ≤ 127) (h3 : -128 ≤ pos) (h4 : pos ≤ 127) :
    ∃ (k : Int) (n : Nat), rotLoop s delta pos = some (pos + k * s, List.replicate n (if 0 < k then 1 else -1)) ∧ (n : Int) = k.natAbs ∧
      -s + 1 < delta - (pos + k * s) ∧ delta - (pos + k * s) < s := by
  obtain ⟨n, e1, a1, a2⟩ := upLoop_eq s delta (by omega) h2 599 pos h3 (by omega)
  unfold rotLoop
  rw [e1, Option.bind_eq_bind, Option.bind_some]
  by_cases hn : n = 0
  · subst hn
    simp only [Int.natCast_zero, Int.zero_mul, Int.add_zero] at *
    obtain ⟨m, e2, b1, b2⟩ := downLoop_eq s delta hs h1 599 pos h4 (by omega)
    rw [e2, Option.bind_some]
    refine ⟨-m, m, ?_, by omega, ?_, ?_⟩
    · have : ¬ (0 < -(m : Int)) := by omega
      simp [this, Int.neg_mul]; omega
    · rw [Int.neg_mul]; omega
    · rw [Int.neg_mul]
      rcases b2 with b2 | b2
      · subst b2; simp at *; omega
      · omega
  · have h0 : 0 ≤ delta - (pos + n * s) := a2.resolve_left hn
    have e2 : downLoop s delta 600 (pos + n * s) = some (pos + n * s, []) := by
      unfold downLoop; rw [if_neg (by omega)]
    rw [e2, Option.bind_some]
    refine ⟨n, n, ?_, by omega, by omega, a1⟩
    have : (0 : Int) < n := by omega
    rw [if_pos this]; simp

/-- the sum of the calls of `Update`: detents up minus detents down -/
def net (out : List Int) : Int := out.foldl (· + ·) 0

theorem foldl_add (l : List Int) : ∀ a : Int, l.foldl (· + ·) a = a + net l := by
  induction l with
  | nil => intro a; simp [net]
  | cons x l ih => intro a; rw [List.foldl_cons, ih]; conv => { rhs; rw [net, List.foldl_cons, ih] }; omega

theorem net_append (a b : List Int) : net (a ++ b) = net a + net b := by
  unfold net; rw [List.foldl_append, foldl_add]; rfl

theorem net_replicate (n : Nat) (v : Int) : net (List.replicate n v) = n * v := by
  induction n with
  | zero => simp [net]
  | succ n ih =>
    rw [List.replicate_succ, net, List.foldl_cons, foldl_add, ih]
    rw [show ((n + 1 : Nat) : Int) = (n : Int) + 1 from rfl, Int.add_mul]; omega

/-- the knob, the driver and the position after any history -/
structure Knob.inv (s : Int) (k : Knob) : Prop where
  fol : Follows k.rot k.x
  pos : k.pos = s * net k.out

theorem position_cons (ts : List Turn) (t : Turn) : position (t :: ts) = (if t = .up then 1 else if t = .down then -1 else 0) + position ts := by
  unfold position
  rw [List.map_cons, List.foldl_cons]
  have := foldl_add (ts.map fun t => if t = Turn.up then (1 : Int) else if t = .down then -1 else 0)
  rw [this, net]; omega

/-- one step of the history -/
theorem step_inv (s : Int) (hs : 2 ≤ s) (k : Knob) (t : Turn) (h : k.inv s) (hp1 : -128 ≤ k.pos) (hp2 : k.pos ≤ 127) (hx1 : -120 ≤ k.x) (hx2 : k.x ≤ 120) :
    ∃ k', k.step s t = some k' ∧ k'.inv s ∧ k'.x = k.x + (if t = .up then 1 else if t = .down then -1 else 0) ∧
      (t = .loop → -s < k'.x - k'.pos ∧ k'.x - k'.pos < s) ∧ (t ≠ .loop → k'.pos = k.pos) ∧
      (t = .loop → ∃ (n : Nat) (d : Int), (d = 1 ∨ d = -1) ∧ k'.out = k.out ++ List.replicate n d) := by
  obtain ⟨hf, hpos⟩ := h
  cases t with
  | up => exact ⟨_, rfl, ⟨(move_up _ _ hf (by omega) (by omega)).1, hpos⟩, rfl, by simp, by simp, by simp⟩
  | down => exact ⟨_, rfl, ⟨(move_down _ _ hf (by omega) (by omega)).1, hpos⟩, rfl, by simp, by simp, by simp⟩
  | loop =>
    have hn := hf.near
    obtain ⟨m, n, e, hm, h1, h2⟩ := rotLoop_eq s k.rot.delta k.pos hs (by omega) (by omega) hp1 hp2
    refine ⟨⟨k.x, k.rot, k.pos + m * s, k.out ++ List.replicate n (if 0 < m then 1 else -1)⟩, by unfold Knob.step; simp only [e]; rfl, ⟨hf, ?_⟩, by simp, ?_, by simp, fun _ => ⟨n, _, ?_, rfl⟩⟩
    · show k.pos + m * s = s * net (k.out ++ _)
      rw [net_append, net_replicate, Int.mul_add, ← hpos, Int.mul_comm m s]
      congr 2
      by_cases h0 : 0 < m
      · rw [if_pos h0]; omega
      · rw [if_neg h0]; omega
    · intro _
      show -s < k.x - (k.pos + m * s) ∧ k.x - (k.pos + m * s) < s
      omega
    · by_cases h0 : 0 < m
      · left; rw [if_pos h0]
      · right; rw [if_neg h0]

theorem run_cons (s : Int) (k : Knob) (t : Turn) (ts : List Turn) : k.run s (t :: ts) = (k.step s t).bind fun k' => k'.run s ts := rfl

theorem krun_append (s : Int) (ts us : List Turn) : ∀ k : Knob, k.run s (ts ++ us) = (k.run s ts).bind fun k' => k'.run s us := by
  induction ts with
  | nil => intro k; rfl
  | cons t ts ih =>
    intro k
    rw [List.cons_append, run_cons, run_cons]
    cases k.step s t with
    | none => rfl
    | some k' => exact ih k'

/-- any history within the range -/
theorem run_inv (s : Int) (hs : 2 ≤ s) (hs6 : s ≤ 6) : ∀ (ts : List Turn) (k : Knob), k.inv s → -126 ≤ k.pos → k.pos ≤ 126 →
    (∀ i, i ≤ ts.length → (k.x + position (ts.take i)).natAbs ≤ 120) →
    ∃ k', k.run s ts = some k' ∧ k'.inv s ∧ -126 ≤ k'.pos ∧ k'.pos ≤ 126 ∧ k'.x = k.x + position ts
  | [], k, h, h1, h2, _ => ⟨k, rfl, h, h1, h2, by simp [position]⟩
  | t :: ts, k, h, h1, h2, hr => by
    have hx := hr 0 (by simp)
    simp [position] at hx
    obtain ⟨k', e, hi, hx', hl, hn, _⟩ := step_inv s hs k t h (by omega) (by omega) (by omega) (by omega)
    have hx1 := hr 1 (by simp)
    rw [List.take_succ_cons, List.take_zero, position_cons] at hx1
    simp only [position, List.map_nil, List.foldl_nil] at hx1
    have hp : -126 ≤ k'.pos ∧ k'.pos ≤ 126 := by
      by_cases ht : t = .loop
      · have := hl ht; subst ht; simp at hx1 hx'; omega
      · rw [hn ht]; exact ⟨h1, h2⟩
    obtain ⟨k'', e2, hi2, hp2, hp3, hx2⟩ := run_inv s hs hs6 ts k' hi hp.1 hp.2 (by
      intro i hi'
      have := hr (i + 1) (by simpa using hi')
      rw [List.take_succ_cons, position_cons] at this
      rw [hx']; omega)
    refine ⟨k'', ?_, hi2, hp2, hp3, ?_⟩
    · rw [run_cons, e]; exact e2
    · rw [position_cons, hx2, hx']; omega

theorem ready_inv (s : Int) : Knob.ready.inv s := ⟨⟨Or.inl rfl, 0, rfl, rfl⟩, by simp [Knob.ready, net]⟩

/-- C35: for every history of quarter steps and main loop runs that ends with a run of the main loop, as
long as the knob stays within 120 quarter steps of its start: the calls of `Update` add up to the
position, off by less than one detent, and exactly at every detent.  It is partial because the position
must stay in that range and the driver must be waiting for an edge at the start. -/
theorem C35_counts_partial (s : Int) (hs : 2 ≤ s) (hs6 : s ≤ 6) (ts : List Turn)
    (hrange : ∀ i, i ≤ ts.length → (position (ts.take i)).natAbs ≤ 120) :
    ∃ k, Knob.ready.run s (ts ++ [.loop]) = some k ∧ k.x = position ts ∧ (position ts - s * net k.out).natAbs < s.natAbs ∧
      (s ∣ position ts → s * net k.out = position ts) := by
  obtain ⟨k, e, hi, hp1, hp2, hx⟩ := run_inv s hs hs6 ts Knob.ready (ready_inv s) (by decide) (by decide) (by
    intro i h
    have := hrange i h
    simpa [Knob.ready] using this)
  have hx0 : k.x = position ts := by rw [hx]; simp [Knob.ready]
  have hr := hrange ts.length (Nat.le_refl _)
  rw [List.take_length] at hr
  obtain ⟨k', e', hi', hx', hl, _, _⟩ := step_inv s hs k .loop hi (by omega) (by omega) (by omega) (by omega)
  have hx1 : k'.x = position ts := by rw [hx', hx0]; simp
  have hl := hl rfl
  have hpos := hi'.pos
  rw [hx1, hpos] at hl
  refine ⟨k', by rw [krun_append, e]; simp [run_cons, e', Knob.run], hx1, by omega, ?_⟩
  rintro ⟨c, hc⟩
  rw [hc] at hl ⊢
  have h3 : s * c - s * net k'.out = s * (c - net k'.out) := (Int.mul_sub s c _).symm
  rw [h3] at hl
  have h4 : c - net k'.out = 0 := by
    by_cases h : 1 ≤ c - net k'.out
    · have := Int.mul_le_mul_of_nonneg_left h (show (0:Int) ≤ s by omega); omega
    · by_cases h' : c - net k'.out ≤ -1
      · have := Int.mul_le_mul_of_nonneg_left h' (show (0:Int) ≤ s by omega)
        rw [Int.mul_neg] at this; omega
      · omega
  rw [show net k'.out = c by omega]

/-- C35: every run of the main loop calls `Update` in one direction only -/
theorem C35_direction (s delta pos : Int) (hs : 2 ≤ s) (h1 : -127 ≤ delta) (h2 : delta ≤ 127) (h3 : -128 ≤ pos) (h4 : pos ≤ 127) :
    ∃ (p : Int) (n : Nat) (d : Int), rotLoop s delta pos = some (p, List.replicate n d) ∧ (d = 1 ∨ d = -1) ∧ p = pos + n * d * s := by
  obtain ⟨k, n, e, hn, _, _⟩ := rotLoop_eq s delta pos hs h1 h2 h3 h4
  refine ⟨_, n, _, e, ?_, ?_⟩
  · by_cases h0 : 0 < k
    · left; rw [if_pos h0]
    · right; rw [if_neg h0]
  · congr 2
    by_cases h0 : 0 < k
    · rw [if_pos h0]; omega
    · rw [if_neg h0]; omega

/-- between the two positions next to the edge the driver waits behind, no edge happens -/
theorem no_edge (r : Rot) (q : Int) (hd : r.delta = q + 1) (hi : ∃ i : Fin 4, r.irq = some i ∧ (i.val : Int) = r.delta % 4) :
    r.move q (q + 1) = r ∧ r.move (q + 1) q = r := by
  obtain ⟨i, hi, hv⟩ := hi
  rw [hd] at hv
  match i, hv with
  | 0, hv =>
    have e1 : edge q (q + 1) 0 = false := by simp [edge, pins]; (try simp at hv); omega
    have e2 : edge (q + 1) q 0 = false := by simp [edge, pins]; (try simp at hv); omega
    simp [Rot.move, hi, e1, e2]
  | 1, hv =>
    have e1 : edge q (q + 1) 1 = false := by simp [edge, pins]; (try simp at hv); omega
    have e2 : edge (q + 1) q 1 = false := by simp [edge, pins]; (try simp at hv); omega
    simp [Rot.move, hi, e1, e2]
  | 2, hv =>
    have e1 : edge q (q + 1) 2 = false := by simp [edge, pins]; (try simp at hv); omega
    have e2 : edge (q + 1) q 2 = false := by simp [edge, pins]; (try simp at hv); omega
    simp [Rot.move, hi, e1, e2]
  | 3, hv =>
    have e1 : edge q (q + 1) 3 = false := by simp [edge, pins]; (try simp at hv); omega
    have e2 : edge (q + 1) q 3 = false := by simp [edge, pins]; (try simp at hv); omega
    simp [Rot.move, hi, e1, e2]

/-- C35: a knob that bounces between two neighbouring positions, once the driver has seen it, causes no
further calls of `Update`, for any number of bounces and main loop runs -/
theorem C35_bounce_partial (s : Int) (hs : 2 ≤ s) (hs6 : s ≤ 6) (ts bs : List Turn)
    (hrange : ∀ i, i ≤ ts.length → (position (ts.take i)).natAbs ≤ 119)
    (hb : ∀ i, i ≤ bs.length → position (bs.take i) = 0 ∨ position (bs.take i) = -1) :
    ∃ k k', Knob.ready.run s (ts ++ [.up, .loop]) = some k ∧ Knob.ready.run s (ts ++ [.up, .loop] ++ bs) = some k' ∧ k'.out = k.out := by
  obtain ⟨k0, e0, hi0, hp1, hp2, hx0⟩ := run_inv s hs hs6 ts Knob.ready (ready_inv s) (by decide) (by decide) (by
    intro i h
    have := hrange i h
    simp [Knob.ready]; omega)
  have hx : k0.x = position ts := by rw [hx0]; simp [Knob.ready]
  have hr := hrange ts.length (Nat.le_refl _)
  rw [List.take_length] at hr
  -- up
  obtain ⟨k1, e1, hi1, hx1, _, hp, _⟩ := step_inv s hs k0 .up hi0 (by omega) (by omega) (by omega) (by omega)
  have hp := hp (by simp)
  simp at hx1
  have hk : k1 = { k0 with x := k0.x + 1, rot := k0.rot.move k0.x (k0.x + 1) } := by
    simp [Knob.step] at e1; exact e1.symm
  have hd1 : k1.rot.delta = k0.x + 1 := by
    rw [hk]; exact (move_up k0.rot k0.x hi0.fol (by omega) (by omega)).2
  -- loop
  obtain ⟨m, n, er, _, h1, h2⟩ := rotLoop_eq s k1.rot.delta k1.pos hs (by omega) (by omega) (by omega) (by omega)
  generalize hP : k1.pos + m * s = P at er h1 h2
  let k2 : Knob := ⟨k1.x, k1.rot, P, k1.out ++ List.replicate n (if 0 < m then 1 else -1)⟩
  have e2 : k1.step s .loop = some k2 := by unfold Knob.step; simp only [er]; rfl
  have er2 : rotLoop s (k0.x + 1) P = some (P, []) := by
    rw [hd1] at h1 h2
    have u : upLoop s (k0.x + 1) 600 P = some (P, []) := by unfold upLoop; rw [if_neg (by omega)]
    have d : downLoop s (k0.x + 1) 600 P = some (P, []) := by unfold downLoop; rw [if_neg (by omega)]
    unfold rotLoop
    rw [u, Option.bind_eq_bind, Option.bind_some]
    simp only [d]; rfl
  have ek : Knob.ready.run s (ts ++ [.up, .loop]) = some k2 := by
    rw [krun_append, e0, Option.bind_some, run_cons, e1, Option.bind_some, run_cons, e2]; rfl
  have hno := no_edge k1.rot k0.x hd1 hi1.fol.irq
  -- the bounces change nothing
  have main : ∀ (bs : List Turn) (k : Knob), k.rot = k1.rot → k.pos = P →
      (∀ i, i ≤ bs.length → k.x + position (bs.take i) = k0.x + 1 ∨ k.x + position (bs.take i) = k0.x) →
      ∃ k', k.run s bs = some k' ∧ k'.out = k.out := by
    intro bs
    induction bs with
    | nil => intro k _ _ _; exact ⟨k, rfl, rfl⟩
    | cons t bs ih =>
      intro k hr hp hb
      have hb0 := hb 0 (by simp)
      have hb1 := hb 1 (by simp)
      rw [List.take_succ_cons, List.take_zero, position_cons] at hb1
      simp only [position, List.take_zero, List.map_nil, List.foldl_nil, Int.add_zero] at hb0 hb1
      have hrest : ∀ i, i ≤ bs.length → k.x + (if t = .up then 1 else if t = .down then -1 else 0) + position (bs.take i) = k0.x + 1 ∨
          k.x + (if t = .up then 1 else if t = .down then -1 else 0) + position (bs.take i) = k0.x := by
        intro i hi
        have := hb (i + 1) (by simpa using hi)
        rw [List.take_succ_cons, position_cons] at this
        omega
      rw [run_cons]
      cases t with
      | up =>
        simp at hb1 hrest
        have hx : k.x = k0.x := by omega
        exact ih { k with x := k.x + 1, rot := k.rot.move k.x (k.x + 1) } (by simp only [hr, hx, hno.1]) hp hrest
      | down =>
        simp at hb1 hrest
        have hx : k.x = k0.x + 1 := by omega
        exact ih { k with x := k.x - 1, rot := k.rot.move k.x (k.x - 1) } (by
          simp only [hr, hx]
          rw [show k0.x + 1 - 1 = k0.x by omega]; exact hno.2) hp hrest
      | loop =>
        simp at hb1 hrest
        have e : k.step s .loop = some { k with pos := P, out := k.out ++ [] } := by
          unfold Knob.step
          simp only [hr, hd1, hp, er2]; rfl
        rw [e, Option.bind_some]
        obtain ⟨k', h1, h2⟩ := ih { k with pos := P, out := k.out ++ [] } hr rfl hrest
        exact ⟨k', h1, by rw [h2]; simp⟩
  obtain ⟨k', e', ho⟩ := main bs k2 rfl rfl (by
    intro i hi
    have := hb i hi
    show k1.x + _ = _ ∨ k1.x + _ = _
    omega)
  exact ⟨k2, k', ek, by rw [krun_append, ek]; exact e', ho⟩

/-- the hypotheses can be met: two detents up, one down, with bounces; the calls are `+1 +1 -1` -/
example : (∀ i, i ≤ 13 → (position (([.up, .up, .up, .up, .loop, .up, .up, .down, .up, .up, .up, .loop, .loop] : List Turn).take i)).natAbs ≤ 119) ∧
    (Knob.ready.run 4 ([.up, .up, .up, .up, .loop, .up, .up, .down, .up, .up, .up, .loop, .loop, .down, .down, .down, .down, .loop])).map (fun k => (k.x, k.out)) = some (4, [1, 1, -1]) := by
  decide +kernel

/-- C35: `Setup` attaches no interrupt, and only the interrupt routines themselves would: with the driver
as it is after `Setup`, turning the knob never calls `Update` -/
theorem C35_setup_counterexample (s : Int) (hs : 2 ≤ s) (ts : List Turn) :
    ∃ k, Knob.run s ⟨0, Rot.setup, 0, []⟩ ts = some k ∧ k.out = [] := by
  suffices H : ∀ (ts : List Turn) (x : Int), ∃ k, Knob.run s ⟨x, Rot.setup, 0, []⟩ ts = some k ∧ k.out = [] from H ts 0
  intro ts
  induction ts with
  | nil => intro x; exact ⟨_, rfl, rfl⟩
  | cons t ts ih =>
    intro x
    rw [run_cons]
    cases t with
    | up => exact ih (x + 1)
    | down => exact ih (x - 1)
    | loop =>
      have u : upLoop s 0 600 0 = some (0, []) := by unfold upLoop; rw [if_neg (by omega)]
      have d : downLoop s 0 600 0 = some (0, []) := by unfold downLoop; rw [if_neg (by omega)]
      have e : rotLoop s 0 0 = some (0, []) := by
        unfold rotLoop
        rw [u, Option.bind_eq_bind, Option.bind_some]
        simp only [d]; rfl
      have e2 : Knob.step s ⟨x, Rot.setup, 0, []⟩ .loop = some ⟨x, Rot.setup, 0, []⟩ := by
        unfold Knob.step
        simp only [Rot.setup, e]; rfl
      rw [e2]; exact ih x

/-- C35: whatever happened before (edges lost to noise, say), each interrupt routine leaves the counter in
phase with the pins again, having moved it by at most two quarter steps more than the step itself, and
towards zero when exactly two. -/
theorem C35_resync (delta p d : Int) (h1 : -120 ≤ delta) (h2 : delta ≤ 120) (hd1 : -1 ≤ d) (hd2 : d ≤ 1) :
    adjust delta p d % 4 = (p + d) % 4 ∧ (adjust delta p d - (delta + d)) ≤ 2 ∧ -2 ≤ (adjust delta p d - (delta + d)) ∧
      ((delta - p) % 4 = 0 → adjust delta p d = delta + d) ∧ (0 < delta → adjust delta p d - (delta + d) < 2) ∧ (delta ≤ 0 → -2 < adjust delta p d - (delta + d)) := by
  have e : ∃ m : Nat, ((delta - p) % 4).toNat = m ∧ m < 4 ∧ (m : Int) = (delta - p) % 4 := ⟨((delta - p) % 4).toNat, rfl, by omega, by omega⟩
  obtain ⟨m, e1, e2, e3⟩ := e
  have key : ∀ c : Int, adjust delta p d = toI8 (c + d) → c - delta ≤ 2 → -2 ≤ c - delta → (c - p) % 4 = 0 → (m = 0 → c = delta) → (0 < delta → c - delta < 2) → (delta ≤ 0 → -2 < c - delta) →
      adjust delta p d % 4 = (p + d) % 4 ∧ (adjust delta p d - (delta + d)) ≤ 2 ∧ -2 ≤ (adjust delta p d - (delta + d)) ∧
      ((delta - p) % 4 = 0 → adjust delta p d = delta + d) ∧ (0 < delta → adjust delta p d - (delta + d) < 2) ∧ (delta ≤ 0 → -2 < adjust delta p d - (delta + d)) := by
    intro c hc a1 a2 a3 a4 a5 a6
    rw [hc, toI8_id _ (by omega) (by omega)]
    refine ⟨by omega, by omega, by omega, fun h => ?_, fun h => ?_, fun h => ?_⟩
    · rw [a4 (by omega)]
    · have := a5 h; omega
    · have := a6 h; omega
  match m, e1, e2, e3, key with
  | 0, e1, _, e3, key => exact key delta (by unfold adjust; rw [e1]; rfl) (by omega) (by omega) (by omega) (by omega) (by omega) (by omega)
  | 1, e1, _, e3, key => exact key (delta - 1) (by unfold adjust; rw [e1]; rfl) (by omega) (by omega) (by omega) (by omega) (by omega) (by omega)
  | 2, e1, _, e3, key =>
    by_cases hp : delta > 0
    · exact key (delta - 2) (by unfold adjust; rw [e1]; show toI8 ((if delta > 0 then delta - 2 else delta + 2) + d) = _; rw [if_pos hp]) (by omega) (by omega) (by omega) (by omega) (by omega) (by omega)
    · exact key (delta + 2) (by unfold adjust; rw [e1]; show toI8 ((if delta > 0 then delta - 2 else delta + 2) + d) = _; rw [if_neg hp]) (by omega) (by omega) (by omega) (by omega) (by omega) (by omega)
  | 3, e1, _, e3, key => exact key (delta + 1) (by unfold adjust; rw [e1]; rfl) (by omega) (by omega) (by omega) (by omega) (by omega) (by omega)
  | m + 4, _, e2, _, _ => omega

example : adjust 6 3 1 = 8 ∧ adjust 5 3 1 = 4 ∧ adjust (-5) 1 1 = -2 := by decide

/-- C35: at the 32nd detent the 8-bit counter wraps, and the next main loop calls `Update(-1)` 63 times -/
theorem C35_wrap_counterexample :
    (Knob.ready.run 4 (List.replicate 127 .up ++ [.loop])).map (fun k => (k.x, net k.out)) = some (127, 31) ∧
    (Knob.ready.run 4 (List.replicate 127 .up ++ [.loop, .up, .loop])).map (fun k => (k.x, net k.out)) = some (128, -32) := by
  decide +kernel

end Verif.Input
