import Verif.Func.Range
/-!
# Functions which change slowly or hold a peak

functions/change_slowly.h, hold_peak.h.  `micros()` and `millis()` are 32-bit counters of a clock which is unbounded here; one
frame reads one time.
-/
set_option linter.unusedSimpArgs false
set_option linter.unusedVariables false
namespace Verif.Func
open Verif.Color (i32)

/-- a 64-bit unsigned number assigned to an `int` -/
def toI32 (x : Int) : Int := (x + 2147483648) % 4294967296 - 2147483648

theorem toI32_id {x : Int} (h1 : -2147483648 ≤ x) (h2 : x < 2147483648) : toI32 x = x := by unfold toI32; omega

/-- the time since the last frame in steps of the value: functions/change_slowly.h:17-23, hold_peak.h:21-27 -/
def steps (delta : Nat) (speed : Int) : Nat :=
  let delta := if delta > 1000000 then 1 else delta
  ((delta * speed) % 18446744073709551616).toNat / 1000000

/-- one frame: the time in microseconds, the speed and the input -/
structure SIn where
  time : Nat
  speed : Int
  target : Int

structure Slow where
  last : Nat
  value : Int

/-- `ChangeSlowlySVF::run`, functions/change_slowly.h:14-32 -/
def Slow.run (s : Slow) (i : SIn) : Option Slow := do
  let now := i.time % 4294967296
  let d := steps ((now + 4294967296 - s.last) % 4294967296) i.speed
  let diff ← i32 (s.value - i.target)
  let value := if d > diff.natAbs then i.target
    else if s.value < i.target then toI32 (s.value + d)
    else toI32 (s.value - d)
  some ⟨now, value⟩

theorem steps_le {delta : Nat} {speed : Int} (h0 : 0 ≤ speed) (h1 : speed < 2147483648) : (steps delta speed : Int) * 1000000 ≤ speed * delta ∧
    (delta ≤ 1000000 → (steps delta speed : Int) = speed * delta / 1000000) := by
  unfold steps
  generalize hd : (if delta > 1000000 then 1 else delta) = d
  have h2 : d ≤ 1000000 := by rw [← hd]; split <;> omega
  have h3 : d ≤ delta := by rw [← hd]; split <;> omega
  have h4 : 0 ≤ (d : Int) * speed := mul_nonneg (by omega) h0
  have h5 : (d : Int) * speed ≤ 1000000 * 2147483648 := by nlinarith
  have h6 : (d : Int) * speed % 18446744073709551616 = d * speed := Int.emod_eq_of_lt h4 (by omega)
  simp only [h6]
  constructor
  · have : (d : Int) * speed ≤ speed * delta := by nlinarith
    omega
  · intro h7
    have : d = delta := by rw [← hd, if_neg (by omega)]
    subst this
    rw [mul_comm speed]
    omega

/-- values and inputs far from the ends of `int`, so that differences fit -/
def Mid (x : Int) : Prop := -1073741824 ≤ x ∧ x ≤ 1073741823

/-- between two values, ends included -/
def Between (a b x : Int) : Prop := (a ≤ x ∧ x ≤ b) ∨ (b ≤ x ∧ x ≤ a)

theorem slow_step {s : Slow} {i : SIn} {last : Nat} (hl : s.last = last % 4294967296) (ht : last ≤ i.time)
    (hv : Mid s.value) (hi : Mid i.target) (h0 : 0 ≤ i.speed) (h1 : i.speed < 2147483648) :
    ∃ s', s.run i = some s' ∧ s'.last = i.time % 4294967296 ∧ Mid s'.value ∧ Between s.value i.target s'.value ∧
      ((s'.value - s.value).natAbs : Int) * 1000000 ≤ i.speed * (i.time - last) ∧
      (i.time - last ≤ 1000000 → (s'.value - s.value).natAbs = min (s.value - i.target).natAbs ((i.speed * (i.time - last)) / 1000000).toNat) := by
  have e : (i.time % 4294967296 + 4294967296 - s.last) % 4294967296 = (i.time - last) % 4294967296 := by rw [hl]; omega
  have hs := steps_le (delta := (i.time - last) % 4294967296) h0 h1
  have hs1 : (steps ((i.time - last) % 4294967296) i.speed : Int) * 1000000 ≤ i.speed * (i.time - last) := by
    refine Int.le_trans hs.1 (mul_le_mul_of_nonneg_left ?_ h0)
    omega
  have hs2 : i.time - last ≤ 1000000 → (steps ((i.time - last) % 4294967296) i.speed : Int) = i.speed * (i.time - last) / 1000000 := by
    intro h
    have c : (((i.time - last) % 4294967296 : Nat) : Int) = i.time - last := by omega
    rw [hs.2 (by omega), c]
  clear hs
  unfold Slow.run
  simp only [e]
  generalize steps ((i.time - last) % 4294967296) i.speed = d at hs1 hs2 ⊢
  unfold Mid at *
  rw [bind_ok (by omega) (by omega)]
  refine ⟨_, rfl, rfl, ?_⟩
  simp only
  generalize i.speed * ((i.time : Int) - last) = p at *
  generalize i.target = t at *
  generalize s.value = v at *
  clear e
  have hp : 0 ≤ p := by omega
  by_cases c1 : d > (v - t).natAbs
  · rw [if_pos c1]
    refine ⟨by omega, by unfold Between; omega, by omega, fun h => ?_⟩
    have := hs2 h
    omega
  · rw [if_neg c1]
    by_cases c2 : v < t
    · rw [if_pos c2, toI32_id (by omega) (by omega)]
      refine ⟨by omega, by unfold Between; omega, by omega, fun h => ?_⟩
      have := hs2 h
      omega
    · rw [if_neg c2, toI32_id (by omega) (by omega)]
      refine ⟨by omega, by unfold Between; omega, by omega, fun h => ?_⟩
      have := hs2 h
      omega

/-- frames in order of time, from `last` -/
def Slow.runs : Slow → List SIn → Option Slow
  | s, [] => some s
  | s, i :: is => do (← s.run i).runs is

/-- frames at increasing times, at one speed -/
inductive SFrames (speed : Int) : Nat → List SIn → Nat → Prop where
  | nil (t : Nat) : SFrames speed t [] t
  | cons {t e : Nat} {i : SIn} {is : List SIn} : t ≤ i.time → Mid i.target → i.speed = speed → SFrames speed i.time is e → SFrames speed t (i :: is) e

/-- Over any number of frames the value changes by no more than `speed` per second, whatever the input does. -/
theorem C50_speed {speed : Int} (h0 : 0 ≤ speed) (h1 : speed < 2147483648) {t e : Nat} {is : List SIn} (hf : SFrames speed t is e) :
    ∀ {s : Slow}, s.last = t % 4294967296 → Mid s.value →
      ∃ s', s.runs is = some s' ∧ s'.last = e % 4294967296 ∧ Mid s'.value ∧ ((s'.value - s.value).natAbs : Int) * 1000000 ≤ speed * (e - t) := by
  induction hf with
  | nil t => intro s hl hv; exact ⟨s, rfl, hl, hv, by simp⟩
  | @cons t e i is a1 a3 a4 _ ih =>
    intro s hl hv
    obtain ⟨s1, r1, l1, v1, -, d1, -⟩ := slow_step hl a1 hv a3 (a4 ▸ h0) (a4 ▸ h1)
    obtain ⟨s2, r2, l2, v2, d2⟩ := ih l1 v1
    refine ⟨s2, ?_, l2, v2, ?_⟩
    · unfold Slow.runs; rw [r1]; exact r2
    · rw [a4] at d1
      have : speed * ((e : Int) - t) = speed * (e - i.time) + speed * (i.time - t) := by ring
      omega

/-- In every frame the value moves towards the input and not beyond it. -/
theorem C50_towards {s : Slow} {i : SIn} {last : Nat} (hl : s.last = last % 4294967296) (ht : last ≤ i.time)
    (hv : Mid s.value) (hi : Mid i.target) (h0 : 0 ≤ i.speed) (h1 : i.speed < 2147483648) :
    ∃ s', s.run i = some s' ∧ Between s.value i.target s'.value := by
  obtain ⟨s', r, -, -, b, -⟩ := slow_step hl ht hv hi h0 h1
  exact ⟨s', r, b⟩

/-- When the frames are not so frequent that a frame's share of the change is rounded to nothing, the value arrives at a constant
input after at most as many frames as it is away. -/
theorem C50_arrives {speed : Int} (h0 : 0 ≤ speed) (h1 : speed < 2147483648) {target : Int} {t e : Nat} {is : List SIn} (hf : SFrames speed t is e)
    (hc : ∀ i ∈ is, i.target = target)
    (hd : ∀ a b : SIn, ∀ k : Nat, ((⟨t, speed, target⟩ : SIn) :: is)[k]? = some a → is[k]? = some b → b.time - a.time ≤ 1000000 ∧ 1000000 ≤ speed * (b.time - a.time)) :
    ∀ {s : Slow}, s.last = t % 4294967296 → Mid s.value → (s.value - target).natAbs ≤ is.length →
      ∃ s', s.runs is = some s' ∧ (is ≠ [] → s'.value = target) := by
  induction hf with
  | nil t => intro s hl hv hn; exact ⟨s, rfl, fun h => absurd rfl h⟩
  | @cons t e i is a1 a3 a4 _ ih =>
    intro s hl hv hn
    obtain ⟨s1, r1, l1, v1, b1, -, d1⟩ := slow_step hl a1 hv a3 (a4 ▸ h0) (a4 ▸ h1)
    have hit : i.target = target := hc i List.mem_cons_self
    have h := hd ⟨t, speed, target⟩ i 0 rfl rfl
    have d2 := d1 h.1
    have dd := h.2
    simp only at dd
    rw [a4] at d2
    rw [hit] at d2 b1
    generalize speed * ((i.time : Int) - t) = p at *
    have key : (s1.value - target).natAbs ≤ is.length := by
      unfold Between at b1
      simp only [List.length_cons] at hn
      omega
    obtain ⟨s2, r2, v2⟩ := ih (fun j hj => hc j (List.mem_cons_of_mem _ hj)) (fun a b k ha hb => by
      cases k with
      | zero =>
        have : a = ⟨i.time, speed, target⟩ := by simpa using ha.symm
        subst this
        exact hd i b 1 rfl hb
      | succ k => exact hd a b (k + 2) (by simpa using ha) (by simpa using hb)) l1 v1 key
    refine ⟨s2, by unfold Slow.runs; rw [r1]; exact r2, fun _ => ?_⟩
    by_cases hx : is = []
    · subst hx
      have : s2 = s1 := by simpa [Slow.runs] using r2.symm
      subst this
      simp at key
      omega
    · exact v2 hx

/-- At 1000 frames per second and a speed of 500 per second the value never moves at all. -/
theorem C50_stuck_counterexample : ∃ (speed : Int) (gap : Nat), 0 < speed ∧ 0 < gap ∧ ∀ (target : Int) (n : Nat), Mid target →
    ∀ s : Slow, s.last = 0 → Mid s.value →
    ∃ s', s.runs ((List.range n).map fun k => ⟨gap * (k + 1), speed, target⟩) = some s' ∧ s'.value = s.value := by
  refine ⟨500, 1000, by decide, by decide, fun target n ht s hl hv => ?_⟩
  have key : ∀ (n a : Nat) (s : Slow), s.last = 1000 * a % 4294967296 → Mid s.value →
      ∃ s', s.runs ((List.range n).map fun k => ⟨1000 * (a + k + 1), 500, target⟩) = some s' ∧ s'.value = s.value := by
    intro n
    induction n with
    | zero => intro a s hl hv; exact ⟨s, rfl, rfl⟩
    | succ n ih =>
      intro a s hl hv
      rw [List.range_succ_eq_map, List.map_cons, List.map_map]
      obtain ⟨s1, r1, l1, v1, -, -, d⟩ := slow_step (i := ⟨1000 * (a + 0 + 1), 500, target⟩) hl (show 1000 * a ≤ 1000 * (a + 0 + 1) by omega) hv ht (show (0 : Int) ≤ 500 by decide) (show (500 : Int) < 2147483648 by decide)
      have d := d (show 1000 * (a + 0 + 1) - 1000 * a ≤ 1000000 by omega)
      have e : ((500 : Int) * (((1000 * (a + 0 + 1) : Nat) : Int) - ((1000 * a : Nat) : Int)) / 1000000).toNat = 0 := by omega
      simp only [e] at d
      obtain ⟨s2, r2, v2⟩ := ih (a + 1) s1 l1 v1
      refine ⟨s2, ?_, by omega⟩
      unfold Slow.runs
      rw [r1]
      refine Eq.trans (congrArg (Slow.runs s1) ?_) r2
      refine List.map_congr_left fun k _ => ?_
      show (⟨_, _, _⟩ : SIn) = _
      congr 1
      show 1000 * (a + (k + 1) + 1) = 1000 * (a + 1 + k + 1)
      omega
  have := key n 0 s hl hv
  simpa using this

/-- 20 frames per second at 500 per second: 25 each frame, then arrived -/
example : ((⟨0, 0⟩ : Slow).runs [⟨50000, 500, 60⟩, ⟨100000, 500, 60⟩]).map (·.value) = some 50 ∧
    ((⟨0, 0⟩ : Slow).runs [⟨50000, 500, 60⟩, ⟨100000, 500, 60⟩, ⟨150000, 500, 60⟩]).map (·.value) = some 60 := by decide
example : SFrames 500 0 [⟨50000, 500, 60⟩, ⟨100000, 500, 60⟩] 100000 :=
  .cons (by decide) (by unfold Mid; decide) rfl (.cons (by decide) (by unfold Mid; decide) rfl (.nil _))

/-! ## Holding a peak -/

/-- one frame: time in microseconds, hold time in milliseconds, speed, input -/
structure HIn where
  time : Nat
  hold : Nat
  speed : Int
  current : Int

structure Hold where
  value : Int
  last : Nat
  peak : Nat

/-- `HoldPeakF::run`, functions/hold_peak.h:20-29: the value after falling -/
def Hold.fallen (s : Hold) (i : HIn) : Int :=
  if (i.time / 1000 % 4294967296 + 4294967296 - s.peak) % 4294967296 > i.hold % 4294967296
  then toI32 (s.value - steps ((i.time % 4294967296 + 4294967296 - s.last) % 4294967296) i.speed) else s.value

/-- `HoldPeakF::run`, functions/hold_peak.h:15-34 -/
def Hold.run (s : Hold) (i : HIn) : Hold :=
  if i.current > s.fallen i then ⟨i.current, i.time % 4294967296, i.time / 1000 % 4294967296⟩
  else ⟨s.fallen i, i.time % 4294967296, s.peak⟩

/-- Whatever happened before, the value is never below the current input. -/
theorem C50_peak (s : Hold) (i : HIn) : i.current ≤ (s.run i).value := by
  unfold Hold.run
  by_cases c : i.current > s.fallen i
  · rw [if_pos c]
  · rw [if_neg c]; show i.current ≤ s.fallen i; omega
example : (Hold.run ⟨1000, 0, 0⟩ ⟨500000, 100, 600, 720⟩).value = 720 := by decide

theorem steps_lt {delta : Nat} {speed : Int} (h0 : 0 ≤ speed) (h1 : speed < 2147483648) : steps delta speed < 2147483648 := by
  unfold steps
  generalize hd : (if delta > 1000000 then 1 else delta) = d
  have h2 : d ≤ 1000000 := by rw [← hd]; split <;> omega
  have h4 : 0 ≤ (d : Int) * speed := mul_nonneg (by omega) h0
  have h5 : (d : Int) * speed ≤ 1000000 * 2147483647 := by nlinarith
  simp only
  omega

/-- The value falls by no more than `speed` per second. -/
theorem C50_fall {s : Hold} {i : HIn} {last : Nat} (hl : s.last = last % 4294967296) (ht : last ≤ i.time)
    (hv : 0 ≤ s.value ∧ s.value < 2147483648) (h0 : 0 ≤ i.speed) (h1 : i.speed < 2147483648) :
    (s.run i).last = i.time % 4294967296 ∧ (s.value - (s.run i).value) * 1000000 ≤ i.speed * (i.time - last) := by
  have e : (i.time % 4294967296 + 4294967296 - s.last) % 4294967296 = (i.time - last) % 4294967296 := by rw [hl]; omega
  have hs : (steps ((i.time - last) % 4294967296) i.speed : Int) * 1000000 ≤ i.speed * (i.time - last) := by
    refine Int.le_trans (steps_le h0 h1).1 (mul_le_mul_of_nonneg_left ?_ h0)
    omega
  have hd : steps ((i.time - last) % 4294967296) i.speed < 2147483648 := steps_lt h0 h1
  have hx : s.fallen i = s.value - steps ((i.time - last) % 4294967296) i.speed ∨ s.fallen i = s.value := by
    unfold Hold.fallen
    rw [e, toI32_id (by omega) (by omega)]
    split <;> simp
  unfold Hold.run
  generalize steps ((i.time - last) % 4294967296) i.speed = d at *
  generalize i.speed * ((i.time : Int) - last) = p at *
  generalize s.fallen i = x at *
  by_cases cx : i.current > x
  · rw [if_pos cx]; refine ⟨rfl, ?_⟩; show (s.value - i.current) * 1000000 ≤ p; omega
  · rw [if_neg cx]; refine ⟨rfl, ?_⟩; show (s.value - x) * 1000000 ≤ p; omega
example : (Hold.run ⟨1000, 0, 0⟩ ⟨500000, 100, 600, 20⟩).value = 700 := by decide

/-- frames in order, no earlier than `t`, no later than `e` -/
inductive HFrames : Nat → List HIn → Nat → Prop where
  | nil {t e : Nat} : t ≤ e → HFrames t [] e
  | cons {t e : Nat} {i : HIn} {is : List HIn} : t ≤ i.time → HFrames i.time is e → HFrames t (i :: is) e

theorem HFrames.le {t e : Nat} {is : List HIn} (h : HFrames t is e) : t ≤ e := by
  induction h with
  | nil h => exact h
  | cons h _ ih => exact Nat.le_trans h ih

theorem hold_keep {hold : Nat} (hh : hold < 4294967296) {t e : Nat} {is : List HIn} (hf : HFrames t is e) :
    ∀ {s : Hold} {p0 p : Nat}, s.peak = p / 1000 % 4294967296 → p0 ≤ p → p ≤ t → e / 1000 - p0 / 1000 ≤ hold → (∀ i ∈ is, i.hold = hold) →
      s.value ≤ (is.foldl Hold.run s).value := by
  induction hf with
  | nil _ => intros; exact Int.le_refl _
  | @cons t e i is a1 hf ih =>
    intro s p0 p hp h1 h2 h3 h4
    have hie : i.time ≤ e := hf.le
    have hi := h4 i List.mem_cons_self
    have hs : (s.run i).value = max s.value i.current ∧ ((s.run i).peak = p / 1000 % 4294967296 ∨ (s.run i).peak = i.time / 1000 % 4294967296) := by
      have d1 : i.time / 1000 - p / 1000 ≤ hold := by
        have := Nat.div_le_div_right (c := 1000) hie
        have := Nat.div_le_div_right (c := 1000) h1
        omega
      have d2 : p / 1000 ≤ i.time / 1000 := Nat.div_le_div_right (by omega)
      have d3 : (i.time / 1000 % 4294967296 + 4294967296 - s.peak) % 4294967296 = i.time / 1000 - p / 1000 := by
        rw [hp]
        generalize i.time / 1000 = x at *
        generalize p / 1000 = y at *
        clear h2 h1 h3 hie a1
        omega
      have hx : s.fallen i = s.value := by
        unfold Hold.fallen
        rw [d3, hi, if_neg (by rw [Nat.mod_eq_of_lt hh]; omega)]
      unfold Hold.run
      rw [hx]
      by_cases cx : i.current > s.value
      · rw [if_pos cx]; exact ⟨show i.current = max s.value i.current by omega, Or.inr rfl⟩
      · rw [if_neg cx]; exact ⟨show s.value = max s.value i.current by omega, Or.inl hp⟩
    rw [List.foldl_cons]
    refine Int.le_trans (show s.value ≤ (s.run i).value by omega) ?_
    rcases hs.2 with hpk | hpk
    · exact ih hpk h1 (by omega) h3 (fun j hj => h4 j (List.mem_cons_of_mem _ hj))
    · exact ih (p := i.time) hpk (by omega) (Nat.le_refl _) h3 (fun j hj => h4 j (List.mem_cons_of_mem _ hj))

/-- Once the input exceeds the value, the value is at least that input in every frame of the following `hold` milliseconds. -/
theorem C50_hold {s : Hold} {i : HIn} {is : List HIn} {e : Nat} (hh : i.hold < 4294967296) (hv : s.value < i.current) (hv2 : 0 ≤ s.value ∧ s.value < 2147483648)
    (h0 : 0 ≤ i.speed) (h1 : i.speed < 2147483648) (hf : HFrames i.time is e)
    (ht : e / 1000 - i.time / 1000 ≤ i.hold) (hc : ∀ j ∈ is, j.hold = i.hold) :
    i.current ≤ ((i :: is).foldl Hold.run s).value := by
  rw [List.foldl_cons]
  have h2 : (s.run i).value = i.current ∧ (s.run i).peak = i.time / 1000 % 4294967296 := by
    unfold Hold.run
    rw [if_pos]
    · exact ⟨rfl, rfl⟩
    · unfold Hold.fallen
      have := steps_lt (delta := (i.time % 4294967296 + 4294967296 - s.last) % 4294967296) h0 h1
      rw [toI32_id (by omega) (by omega)]
      split <;> omega
  have := hold_keep hh hf (s := s.run i) (p0 := i.time) (p := i.time) h2.2 (Nat.le_refl _) (Nat.le_refl _) ht hc
  omega
/-- a peak of 900 held for 100 ms, falling afterwards -/
example : ([⟨500000, 100, 6000, 900⟩, ⟨599999, 100, 6000, 20⟩].foldl Hold.run ⟨0, 0, 0⟩).value = 900 ∧
    ([⟨500000, 100, 6000, 900⟩, ⟨599999, 100, 6000, 20⟩, ⟨619999, 100, 6000, 20⟩].foldl Hold.run ⟨0, 0, 0⟩).value = 780 := by decide

end Verif.Func
