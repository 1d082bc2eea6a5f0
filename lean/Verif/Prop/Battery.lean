import Mathlib.Tactic.Linarith
import Mathlib.Tactic.Ring
import Mathlib.Algebra.Order.Field.Basic
/-
  The battery: common/battery_monitor.h:17-131 (`BatteryMonitor`), and what the prop does
  with it and with being left alone: props/prop_base.h:1057-1077 (`LowBatteryOff`,
  `CheckLowBattery`), 1114, 1123-1132 (`Loop`, IDLE_OFF_TIME), 357-359 and 503-505 (the
  other places which restart the idle clock).

  Times are real (unbounded) and seen by the code modulo 2^32: microseconds in the
  monitor, milliseconds in the prop.  Voltages are rationals (floats in the code).  The
  monitor's endless loop is modelled one check at a time, so that a run is any schedule
  of its `Loop`; `millis()` does not advance inside one call of the prop's `Loop`.
  Simplified: the analog reader is an input (did it start, is it done, what did it
  measure); the decay factor `expf(logf(0.05) * dt / 1e6)` is any function with values
  between 0 and 1.
-/
namespace Verif.Prop.Battery

/-! ## Model: the monitor -/

/-- 2^32 -/
def W : Nat := 4294967296

/-- `now - then` for `uint32_t`, `then` already reduced -/
def since (now last : Nat) : Nat := (now % W + W - last) % W

/-- Where the endless loop of `Loop` stands (battery_monitor.h:62-68): before line 63,
    waiting for a millisecond (65), for the reader to start (66), for it to be done
    (67). -/
inductive Pc
  | begin | wait | start | read
  deriving DecidableEq, Repr

/-- `last_voltage_`, `low_count_`, `loaded_`, `last_voltage_read_time_`
    (battery_monitor.h:126-130) and the position in the loop. -/
structure Mon where
  v : Rat
  low : Nat
  loaded : Bool
  readT : Nat
  pc : Pc
  deriving DecidableEq, Repr

/-- battery_monitor.h:126-130; `Setup` (47-50) takes the first reading `v0`. -/
def Mon.init (v0 : Rat) : Mon := ⟨v0, 0, false, 0, .begin⟩

/-- `IsLow` (battery_monitor.h:83-91). -/
def isLow (usb loaded : Bool) (v : Rat) : Bool :=
  if usb then false
  else if v < 1 / 2 then false
  else decide (v < if loaded then 26 / 10 else 3)

/-- What one reading of the voltage gave: when, the measurement, the smoothed voltage,
    and what `IsLow` looked at besides. -/
structure Reading where
  time : Nat
  raw : Rat
  v : Rat
  usb : Bool
  loaded : Bool
  deriving DecidableEq, Repr

/-- battery_monitor.h:68-79: one reading. -/
def sample (decay : Nat → Rat) (m : Mon) (now : Nat) (raw : Rat) (usb : Bool) : Mon × List Reading :=
  let mul := decay (since now m.readT)
  let v' := m.v * mul + raw * (1 - mul)
  ({ m with v := v', readT := now % W, pc := .wait,
            low := if isLow usb m.loaded v' then (m.low + 1) % W else 0 },
   [⟨now, raw, v', usb, m.loaded⟩])

/-- What happens to the monitor: one check of its loop, a blade switching its load on or
    off (`SetLoad`, 21-23), the monitoring pin being released (`SetPinHigh(false)`,
    31-44). -/
inductive Op
  | check (now : Nat) (started done : Bool) (raw : Rat) (usb : Bool)
  | load (on : Bool)
  | pinLow (now : Nat)

/-- battery_monitor.h:62-81, one check. -/
def step (decay : Nat → Rat) (m : Mon) : Op → Mon × List Reading
  | .load b => ({ m with loaded := b }, [])
  | .pinLow now => ({ m with readT := now % W }, [])
  | .check now started done raw usb =>
    match m.pc with
    | .begin => ({ m with readT := now % W, pc := .wait }, [])
    | .wait => if since now m.readT < 1000 then (m, []) else ({ m with pc := .start }, [])
    | .start => if started then ({ m with pc := .read }, []) else (m, [])
    | .read => if done then sample decay m now raw usb else (m, [])

/-- A run; the readings, the latest first. -/
def run (decay : Nat → Rat) : Mon → List Reading → List Op → Mon × List Reading
  | m, rs, [] => (m, rs)
  | m, rs, op :: ops => run decay (step decay m op).1 ((step decay m op).2 ++ rs) ops

/-- `low()` (battery_monitor.h:24). -/
def lowB (m : Mon) : Bool := decide (1000 < m.low)

/-- `clamp` (common/math.h:10-14) -/
def clamp (x a b : Rat) : Rat := if x < a then a else if x > b then b else x

/-- `battery_percent` (battery_monitor.h:25-32). -/
def percent (v : Rat) : Rat :=
  100 * clamp ((v * v - 285 / 100 * (285 / 100)) / (41 / 10 * (41 / 10) - 285 / 100 * (285 / 100))) 0 1

/-! ## Specification -/

/-- A reading says the battery is low: not on USB, something is connected, and the
    voltage is below 3 volts, or 2.6 with a blade lit. -/
def Low (r : Reading) : Prop :=
  r.usb = false ∧ 1 / 2 ≤ r.v ∧ (r.loaded = true → r.v < 26 / 10) ∧ (r.loaded = false → r.v < 3)

instance (r : Reading) : Decidable (Low r) := inferInstanceAs (Decidable (_ ∧ _))

/-- How many of the latest readings in a row say low. -/
def inARow : List Reading → Nat
  | [] => 0
  | r :: rs => if Low r then inARow rs + 1 else 0

/-- The times of the operations never go back (starting from `t`). -/
def Ordered : Nat → List Op → Prop
  | _, [] => True
  | t, .load _ :: ops => Ordered t ops
  | t, .pinLow now :: ops => t ≤ now ∧ Ordered now ops
  | t, .check now _ _ _ _ :: ops => t ≤ now ∧ Ordered now ops

/-- Successive readings (latest first) are at least `d` microseconds apart. -/
def Spaced (d : Nat) : List Reading → Prop
  | [] => True
  | [_] => True
  | r :: r' :: rs => r'.time + d ≤ r.time ∧ Spaced d (r' :: rs)

instance instDecidableSpaced (d : Nat) : (rs : List Reading) → Decidable (Spaced d rs)
  | [] => .isTrue trivial
  | [_] => .isTrue trivial
  | r :: r' :: rs =>
    have := instDecidableSpaced d (r' :: rs)
    inferInstanceAs (Decidable (r'.time + d ≤ r.time ∧ Spaced d (r' :: rs)))

/-! ## Proofs -/

theorem isLow_iff (usb loaded : Bool) (v : Rat) (t : Nat) (raw : Rat) :
    isLow usb loaded v = true ↔ Low ⟨t, raw, v, usb, loaded⟩ := by
  unfold isLow Low
  cases usb <;> cases loaded <;> simp

theorem since_le {t now : Nat} (h : t ≤ now) : since now (t % W) ≤ now - t := by
  unfold since W; omega

/-- `low_count_` counts the latest low readings. -/
theorem step_count (decay : Nat → Rat) (m : Mon) (rs : List Reading) (op : Op)
    (h : m.low = inARow rs % W) :
    (step decay m op).1.low = inARow ((step decay m op).2 ++ rs) % W := by
  cases op with
  | load b => exact h
  | pinLow n => exact h
  | check now st dn raw usb =>
    unfold step
    simp only
    split
    · exact h
    · split <;> exact h
    · split <;> exact h
    · split
      · unfold sample
        simp only [List.cons_append, List.nil_append, inARow]
        generalize m.v * decay (since now m.readT) + raw * (1 - decay (since now m.readT)) = v'
        by_cases hl : isLow usb m.loaded v' = true
        · rw [if_pos hl, if_pos ((isLow_iff ..).mp hl), h]
          unfold W; omega
        · rw [if_neg hl, if_neg (fun hh => hl ((isLow_iff ..).mpr hh))]
          simp
      · exact h

theorem run_count (decay : Nat → Rat) (ops : List Op) : ∀ (m : Mon) (rs : List Reading),
    m.low = inARow rs % W →
    (run decay m rs ops).1.low = inARow (run decay m rs ops).2 % W := by
  induction ops with
  | nil => intro m rs h; exact h
  | cons op ops ih => intro m rs h; exact ih _ _ (step_count decay m rs op h)

/-- All of the latest `inARow` readings are low. -/
theorem inARow_get (rs : List Reading) : ∀ i, i < inARow rs → ∃ r, rs[i]? = some r ∧ Low r := by
  induction rs with
  | nil => intro i h; simp [inARow] at h
  | cons r rs ih =>
    intro i h
    unfold inARow at h
    split at h
    · rename_i hr
      cases i with
      | zero => exact ⟨r, rfl, hr⟩
      | succ i => simpa using ih i (by omega)
    · omega

theorem inARow_of (n : Nat) : ∀ rs : List Reading,
    (∀ i, i < n → ∃ r, rs[i]? = some r ∧ Low r) → n ≤ inARow rs := by
  induction n with
  | zero => intro rs _; omega
  | succ n ih =>
    intro rs h
    obtain ⟨r, hr, hl⟩ := h 0 (by omega)
    cases rs with
    | nil => simp at hr
    | cons r' rs =>
      simp at hr; subst hr
      have := ih rs (fun i hi => by simpa using h (i + 1) (by omega))
      unfold inARow; rw [if_pos hl]; omega

/-- The clock of the loop: `T` is the real time `last_voltage_read_time_` stands for.  The
    latest reading is not after `T`; past the wait, a millisecond has passed since the
    latest reading. -/
def Clk (now : Nat) (m : Mon) (rs : List Reading) : Prop :=
  Spaced 1000 rs ∧
  (∀ r, rs.head? = some r → m.pc ≠ .begin ∧ r.time ≤ now ∧
    ((m.pc = .start ∨ m.pc = .read) → r.time + 1000 ≤ now) ∧
    ∃ T, m.readT = T % W ∧ r.time ≤ T ∧ T ≤ now)

theorem step_clk (decay : Nat → Rat) (m : Mon) (rs : List Reading) (op : Op) (t : Nat)
    (rest : List Op) (ho : Ordered t (op :: rest)) (h : Clk t m rs) :
    ∃ t', Ordered t' rest ∧ Clk t' (step decay m op).1 ((step decay m op).2 ++ rs) := by
  obtain ⟨hs, hh⟩ := h
  cases op with
  | load b => exact ⟨t, ho, hs, hh⟩
  | pinLow n =>
    obtain ⟨hle, ho⟩ := ho
    refine ⟨n, ho, hs, fun r hr => ?_⟩
    obtain ⟨h1, h2, h3, _⟩ := hh r hr
    exact ⟨h1, by omega, fun hp => by have := h3 hp; omega, n, rfl, by omega, Nat.le_refl _⟩
  | check now st dn raw usb =>
    obtain ⟨hle, ho⟩ := ho
    refine ⟨now, ho, ?_⟩
    unfold step
    simp only
    split
    · rename_i hpc
      refine ⟨hs, fun r hr => ?_⟩
      exact absurd hpc (hh r hr).1
    · rename_i hpc
      split
      · refine ⟨hs, fun r hr => ?_⟩
        obtain ⟨h1, h2, h3, T, hT, hT1, hT2⟩ := hh r hr
        exact ⟨h1, by omega, fun hp => by have := h3 hp; omega, T, hT, hT1, by omega⟩
      · rename_i hw
        refine ⟨hs, fun r hr => ?_⟩
        obtain ⟨h1, h2, h3, T, hT, hT1, hT2⟩ := hh r hr
        have hsl : since now (T % W) ≤ now - T := since_le (by omega)
        rw [hT] at hw
        exact ⟨by simp, by omega, fun _ => by omega, T, hT, hT1, by omega⟩
    · rename_i hpc
      split
      · refine ⟨hs, fun r hr => ?_⟩
        obtain ⟨h1, h2, h3, T, hT, hT1, hT2⟩ := hh r hr
        exact ⟨by simp, by omega, fun _ => by have := h3 (.inl hpc); omega, T, hT, hT1, by omega⟩
      · refine ⟨hs, fun r hr => ?_⟩
        obtain ⟨h1, h2, h3, T, hT, hT1, hT2⟩ := hh r hr
        exact ⟨h1, by omega, fun hp => by have := h3 hp; omega, T, hT, hT1, by omega⟩
    · rename_i hpc
      split
      · unfold sample
        refine ⟨?_, fun r hr => ?_⟩
        · cases rs with
          | nil => trivial
          | cons r' rs =>
            obtain ⟨h1, h2, h3, _⟩ := hh r' rfl
            exact ⟨by have := h3 (.inr hpc); simp only; omega, hs⟩
        · simp only [List.cons_append, List.head?_cons, Option.some.injEq] at hr
          subst hr
          exact ⟨by simp, Nat.le_refl _, by simp, now, rfl, Nat.le_refl _, Nat.le_refl _⟩
      · refine ⟨hs, fun r hr => ?_⟩
        obtain ⟨h1, h2, h3, T, hT, hT1, hT2⟩ := hh r hr
        exact ⟨h1, by omega, fun hp => by have := h3 hp; omega, T, hT, hT1, by omega⟩

theorem run_clk (decay : Nat → Rat) (ops : List Op) : ∀ (m : Mon) (rs : List Reading) (t : Nat),
    Ordered t ops → Clk t m rs → Spaced 1000 (run decay m rs ops).2 := by
  induction ops with
  | nil => intro m rs t _ h; exact h.1
  | cons op ops ih =>
    intro m rs t ho h
    obtain ⟨t', ho', h'⟩ := step_clk decay m rs op t ops ho h
    exact ih _ _ t' ho' h'

theorem spaced_get (d : Nat) (k : Nat) : ∀ (rs : List Reading) (r r' : Reading),
    Spaced d rs → rs[0]? = some r → rs[k]? = some r' → r'.time + k * d ≤ r.time := by
  induction k with
  | zero => intro rs r r' _ h h'; rw [h] at h'; cases h'; omega
  | succ k ih =>
    intro rs r r' hs h h'
    match rs, hs with
    | [], _ => simp at h
    | [a], _ => simp at h'
    | a :: b :: rs, hs =>
      simp at h h'
      subst h
      have := ih (b :: rs) b r' hs.2 rfl (by simpa using h')
      have := hs.1
      rw [Nat.succ_mul]; omega

/-! ### Properties of the monitor -/

/-- **C95** (the warning is real).  Whatever the schedule: when the battery is reported
    low, each of the latest 1001 readings was low, and they cover at least a second; so
    a moment's dip is never reported. -/
theorem C95_low (decay : Nat → Rat) (v0 : Rat) (t : Nat) (ops : List Op) (ho : Ordered t ops)
    (h : lowB (run decay (Mon.init v0) [] ops).1 = true) :
    (∀ i, i ≤ 1000 → ∃ r, (run decay (Mon.init v0) [] ops).2[i]? = some r ∧ Low r) ∧
    ∀ r r', (run decay (Mon.init v0) [] ops).2[0]? = some r →
      (run decay (Mon.init v0) [] ops).2[1000]? = some r' → r'.time + 1000000 ≤ r.time := by
  have hc := run_count decay ops (Mon.init v0) [] (by simp [Mon.init, inARow])
  have hk := run_clk decay ops (Mon.init v0) [] t ho ⟨trivial, by simp⟩
  unfold lowB at h
  simp only [decide_eq_true_eq] at h
  rw [hc] at h
  refine ⟨fun i hi => inARow_get _ i ?_, fun r r' h0 h1 => ?_⟩
  · have := Nat.mod_le (inARow (run decay (Mon.init v0) [] ops).2) W
    omega
  · have := spaced_get 1000 1000 _ r r' hk h0 h1
    omega

/-- **C95** (and is given).  The battery is reported low as soon as the latest 1001
    readings were all low, and as long as they are (for 2^32 readings, seven weeks); one
    reading which is not low ends it. -/
theorem C95_reported (decay : Nat → Rat) (v0 : Rat) (ops : List Op) :
    ((∀ i, i ≤ 1000 → ∃ r, (run decay (Mon.init v0) [] ops).2[i]? = some r ∧ Low r) →
      (run decay (Mon.init v0) [] ops).2.length < 4294967296 →
      lowB (run decay (Mon.init v0) [] ops).1 = true) ∧
    (∀ r, (run decay (Mon.init v0) [] ops).2[0]? = some r → ¬ Low r →
      lowB (run decay (Mon.init v0) [] ops).1 = false) := by
  have hc := run_count decay ops (Mon.init v0) [] (by simp [Mon.init, inARow])
  revert hc
  generalize (run decay (Mon.init v0) [] ops).1 = m
  generalize (run decay (Mon.init v0) [] ops).2 = rs
  intro hc
  have hlen : ∀ rs : List Reading, inARow rs ≤ rs.length := by
    intro rs
    induction rs with
    | nil => simp [inARow]
    | cons r rs ih => unfold inARow; simp only [List.length_cons]; split <;> omega
  constructor
  · intro h hl
    have h1 := inARow_of 1001 rs (fun i hi => h i (by omega))
    have h2 := hlen rs
    unfold lowB
    rw [hc, Nat.mod_eq_of_lt (by unfold W; omega)]
    simp; omega
  · intro r h0 hn
    cases rs with
    | nil => simp at h0
    | cons r' rs =>
      simp at h0; subst h0
      unfold lowB
      rw [hc]
      simp [inARow, hn]

/-- The count wraps: with more low readings in a row than fit 32 bits (seven weeks of
    them at a thousand per second) the report pauses for a second. -/
theorem C95_wrap_counterexample (decay : Nat → Rat) (m : Mon) (now : Nat) (raw : Rat) (usb : Bool)
    (hm : m.low = W - 1)
    (hlow : isLow usb m.loaded (m.v * decay (since now m.readT) +
      raw * (1 - decay (since now m.readT))) = true) :
    lowB m = true ∧ lowB (sample decay m now raw usb).1 = false := by
  unfold sample lowB
  simp only [hlow, if_true, hm]
  simp [W]

/-- One step keeps the voltage between the bounds. -/
theorem step_hull (decay : Nat → Rat) (hd : ∀ n, 0 ≤ decay n ∧ decay n ≤ 1) (a b : Rat) (m : Mon)
    (op : Op) (hm : a ≤ m.v ∧ m.v ≤ b)
    (hop : ∀ now st dn raw usb, op = .check now st dn raw usb → a ≤ raw ∧ raw ≤ b) :
    a ≤ (step decay m op).1.v ∧ (step decay m op).1.v ≤ b := by
  cases op with
  | load _ => exact hm
  | pinLow _ => exact hm
  | check now st dn raw usb =>
    obtain ⟨hr1, hr2⟩ := hop now st dn raw usb rfl
    unfold step
    simp only
    split
    · exact hm
    · split <;> exact hm
    · split <;> exact hm
    · split
      · unfold sample
        simp only
        obtain ⟨h0, h1⟩ := hd (since now m.readT)
        generalize decay (since now m.readT) = q at h0 h1
        constructor
        · nlinarith [mul_nonneg h0 (sub_nonneg.mpr hm.1),
            mul_nonneg (sub_nonneg.mpr h1) (sub_nonneg.mpr hr1)]
        · nlinarith [mul_nonneg h0 (sub_nonneg.mpr hm.2),
            mul_nonneg (sub_nonneg.mpr h1) (sub_nonneg.mpr hr2)]
      · exact hm

/-- **C95** (the voltage shown).  Whatever the schedule, the voltage reported is never
    below all the measurements nor above all of them. -/
theorem C95_voltage (decay : Nat → Rat) (hd : ∀ n, 0 ≤ decay n ∧ decay n ≤ 1) (a b : Rat)
    (ops : List Op)
    (hops : ∀ now st dn raw usb, Op.check now st dn raw usb ∈ ops → a ≤ raw ∧ raw ≤ b) :
    ∀ (m : Mon) (rs : List Reading), a ≤ m.v ∧ m.v ≤ b →
    a ≤ (run decay m rs ops).1.v ∧ (run decay m rs ops).1.v ≤ b := by
  induction ops with
  | nil => intro m rs h; exact h
  | cons op ops ih =>
    intro m rs h
    refine ih (fun now st dn raw usb hm => hops now st dn raw usb (List.mem_cons_of_mem _ hm)) _ _ ?_
    exact step_hull decay hd a b m op h
      (fun now st dn raw usb e => hops now st dn raw usb (by rw [e]; exact List.mem_cons_self))

/-- **C95** (the percentage).  Never outside 0..100, zero up to 2.85 volts, 100 from 4.1
    volts on, and a higher voltage never shows less. -/
theorem C95_percent (v : Rat) (hv : 0 ≤ v) :
    (0 ≤ percent v ∧ percent v ≤ 100) ∧ (percent v = 0 ↔ v ≤ 285 / 100) ∧
    (percent v = 100 ↔ 41 / 10 ≤ v) ∧ ∀ v', v ≤ v' → percent v ≤ percent v' := by
  have key : ∀ v : Rat, percent v = 100 * clamp ((v * v - 81225 / 10000) / (86875 / 10000)) 0 1 := by
    intro v
    unfold percent
    have e1 : (285 / 100 * (285 / 100) : Rat) = 81225 / 10000 := by decide +kernel
    have e2 : (41 / 10 * (41 / 10) - 81225 / 10000 : Rat) = 86875 / 10000 := by decide +kernel
    rw [e1, e2]
  have hmul : ∀ v : Rat, (v * v - 81225 / 10000) / (86875 / 10000) = (v * v - 81225 / 10000) * (400 / 3475) := by
    intro v
    rw [div_eq_mul_inv]
    congr 1
    decide +kernel
  have cl : ∀ x : Rat, 0 ≤ clamp x 0 1 ∧ clamp x 0 1 ≤ 1 ∧ (clamp x 0 1 = 0 ↔ x ≤ 0) ∧
      (clamp x 0 1 = 1 ↔ 1 ≤ x) := by
    intro x
    unfold clamp
    split
    · exact ⟨by linarith, by linarith, ⟨fun _ => by linarith, fun _ => rfl⟩,
        ⟨fun h => by linarith, fun h => by linarith⟩⟩
    · split
      · exact ⟨by linarith, by linarith, ⟨fun h => by linarith, fun h => by linarith⟩,
          ⟨fun _ => by linarith, fun _ => rfl⟩⟩
      · exact ⟨by linarith, by linarith, ⟨fun h => by linarith, fun h => by linarith⟩,
          ⟨fun h => by linarith, fun h => by linarith⟩⟩
  have mono : ∀ x y : Rat, x ≤ y → clamp x 0 1 ≤ clamp y 0 1 := by
    intro x y h
    unfold clamp
    split <;> split <;> (try split) <;> (try split) <;> linarith
  rw [key]
  obtain ⟨c1, c2, c3, c4⟩ := cl ((v * v - 81225 / 10000) / (86875 / 10000))
  rw [hmul] at *
  generalize hx : (v * v - 81225 / 10000) * (400 / 3475 : Rat) = x at *
  refine ⟨⟨by linarith, by linarith⟩, ?_, ?_, ?_⟩
  · constructor
    · intro h
      have : clamp x 0 1 = 0 := by linarith
      have := c3.mp this
      by_contra hc
      have : 285 / 100 < v := not_le.mp hc
      nlinarith
    · intro h
      have : x ≤ 0 := by nlinarith
      rw [c3.mpr this]; decide +kernel
  · constructor
    · intro h
      have : clamp x 0 1 = 1 := by linarith
      have := c4.mp this
      by_contra hc
      have : v < 41 / 10 := not_le.mp hc
      nlinarith
    · intro h
      have : 1 ≤ x := by nlinarith
      rw [c4.mpr this]; decide +kernel
  · intro v' hv'
    rw [key, hmul]
    have : x ≤ (v' * v' - 81225 / 10000) * (400 / 3475 : Rat) := by nlinarith
    have := mono _ _ this
    linarith

/-! ## Model: the prop -/

/-- `last_beep_` (prop_base.h:1096) and `last_on_time_` (1141). -/
structure P where
  beep : Nat
  on : Nat
  deriving DecidableEq, Repr

/-- The prop is a static object: both start at zero. -/
def P.init : P := ⟨0, 0⟩

/-- What one call of `Loop` finds: the battery is reported low, the first blade has a
    style, it shows charging, a blade is on (before and after the battery check and the
    mode had their turn). -/
structure In where
  now : Nat
  low : Bool
  styled : Bool
  charging : Bool
  on : Bool
  on' : Bool
  deriving DecidableEq, Repr

/-- What it does: turn off for the battery (`Off`), warn (`DoLowBatt`), switch off
    everything for idleness (`DoOff(OFF_IDLE)`). -/
structure Out where
  off : Bool
  warn : Bool
  idle : Bool
  deriving DecidableEq, Repr

/-- `CheckLowBattery` (prop_base.h:1065-1077) with `LowBatteryOff` (1057-1063). -/
def checkLow (p : P) (i : In) : P × Bool × Bool :=
  if i.low then
    if i.styled && !i.charging then
      if 15000 < since i.now p.beep then ({ p with beep := i.now % W }, i.on, true)
      else (p, i.on, false)
    else (p, false, false)
  else (p, false, false)

/-- prop_base.h:1124-1127: `last_on_time_` while in use. -/
def stamp (p : P) (i : In) : Nat :=
  if i.on' || (i.styled && i.charging) then i.now % W else p.on

/-- prop_base.h:1123-1132; `idle` = IDLE_OFF_TIME. -/
def checkIdle (idle : Nat) (p : P) (i : In) : P × Bool :=
  if idle < since i.now (stamp p i) then ({ p with on := i.now % W }, true)
  else ({ p with on := stamp p i }, false)

/-- `Loop` (prop_base.h:1114, 1123-1132). -/
def loop (idle : Nat) (p : P) (i : In) : P × Out :=
  let r := checkLow p i
  let q := checkIdle idle r.1 i
  (q.1, ⟨r.2.1, r.2.2, q.2⟩)

/-- Either one call of `Loop`, or something which restarts the idle clock: changing
    presets (357-359, 503-505). -/
inductive POp
  | loop (i : In)
  | touch (now : Nat)

def POp.time : POp → Nat
  | .loop i => i.now
  | .touch n => n

/-- One operation. -/
def pstep (idle : Nat) (p : P) : POp → P × Out
  | .loop i => loop idle p i
  | .touch now => ({ p with on := now % W }, ⟨false, false, false⟩)

/-- A run: the operations done with what each did, the latest first. -/
def prun (idle : Nat) : P → List (POp × Out) → List POp → P × List (POp × Out)
  | p, h, [] => (p, h)
  | p, h, op :: ops => prun idle (pstep idle p op).1 ((op, (pstep idle p op).2) :: h) ops

/-! ## Specification -/

/-- The time of the latest warning (0 = switched on). -/
def lastWarn : List (POp × Out) → Nat
  | [] => 0
  | (op, o) :: h => if o.warn then op.time else lastWarn h

/-- The latest time the saber was in use (0 = switched on): on, charging, presets being
    changed; or was switched off for idleness. -/
def lastUse : List (POp × Out) → Nat
  | [] => 0
  | (.touch n, _) :: _ => n
  | (.loop i, o) :: h =>
    if o.idle ∨ i.on' = true ∨ (i.styled = true ∧ i.charging = true) then i.now else lastUse h

/-- Times never go back. -/
def POrdered : Nat → List POp → Prop
  | _, [] => True
  | t, op :: ops => t ≤ op.time ∧ POrdered op.time ops

/-- Time `t` has been reached, `since` sees the spans it should. -/
structure PInv (t : Nat) (p : P) (h : List (POp × Out)) : Prop where
  beep : p.beep = lastWarn h % W
  on : p.on = lastUse h % W
  tb : lastWarn h ≤ t
  tu : lastUse h ≤ t

theorem checkLow_on (p : P) (i : In) : (checkLow p i).1.on = p.on := by
  unfold checkLow; split <;> (try split) <;> (try split) <;> rfl

theorem checkIdle_beep (idle : Nat) (p : P) (i : In) : (checkIdle idle p i).1.beep = p.beep := by
  unfold checkIdle; split <;> rfl

theorem checkLow_beep (p : P) (i : In) :
    (checkLow p i).1.beep = if (checkLow p i).2.2 then i.now % W else p.beep := by
  unfold checkLow
  cases i.low <;> cases i.styled <;> cases i.charging <;> simp
  by_cases h : 15000 < since i.now p.beep
  · rw [if_pos h]; simp
  · rw [if_neg h]; simp

theorem checkIdle_on (idle : Nat) (p : P) (i : In) :
    (checkIdle idle p i).1.on =
      if (checkIdle idle p i).2 = true ∨ i.on' = true ∨ (i.styled = true ∧ i.charging = true)
      then i.now % W else p.on := by
  unfold checkIdle
  by_cases hc : idle < since i.now (stamp p i)
  · simp only [if_pos hc, true_or, if_true]
  · simp only [if_neg hc]
    unfold stamp
    by_cases h : (i.on' || (i.styled && i.charging)) = true
    · rw [if_pos h, if_pos]
      right; simpa using h
    · rw [if_neg h, if_neg]
      simpa using h

theorem pstep_eq (idle : Nat) (p : P) (i : In) : pstep idle p (.loop i) = loop idle p i := rfl

theorem loop_eq (idle : Nat) (p : P) (i : In) : loop idle p i =
    ((checkIdle idle (checkLow p i).1 i).1,
      ⟨(checkLow p i).2.1, (checkLow p i).2.2, (checkIdle idle (checkLow p i).1 i).2⟩) := rfl

theorem of_pair {x : P × Out} {a : P} {b c d : Bool} (h : x = (a, ⟨b, c, d⟩)) :
    x.1 = a ∧ x.2.off = b ∧ x.2.warn = c ∧ x.2.idle = d := by
  subst h; exact ⟨rfl, rfl, rfl, rfl⟩

theorem pstep_beep (idle : Nat) (p : P) (i : In) :
    (pstep idle p (.loop i)).1.beep = (checkLow p i).1.beep :=
  (congrArg P.beep (of_pair ((pstep_eq ..).trans (loop_eq ..))).1).trans (checkIdle_beep ..)

theorem pstep_on (idle : Nat) (p : P) (i : In) :
    (pstep idle p (.loop i)).1.on = (checkIdle idle (checkLow p i).1 i).1.on :=
  congrArg P.on (of_pair ((pstep_eq ..).trans (loop_eq ..))).1

theorem loop_off (idle : Nat) (p : P) (i : In) : (loop idle p i).2.off = (checkLow p i).2.1 :=
  (of_pair (loop_eq ..)).2.1

theorem loop_warn (idle : Nat) (p : P) (i : In) : (loop idle p i).2.warn = (checkLow p i).2.2 :=
  (of_pair (loop_eq ..)).2.2.1

theorem loop_idle (idle : Nat) (p : P) (i : In) :
    (loop idle p i).2.idle = (checkIdle idle (checkLow p i).1 i).2 :=
  (of_pair (loop_eq ..)).2.2.2

theorem pstep_out (idle : Nat) (p : P) (i : In) :
    (pstep idle p (.loop i)).2 = (loop idle p i).2 := congrArg Prod.snd (pstep_eq ..)

theorem checkIdle_out (idle : Nat) (p : P) (i : In) :
    (checkIdle idle p i).2 = decide (idle < since i.now (stamp p i)) := by
  unfold checkIdle
  generalize since i.now (stamp p i) = s
  by_cases hc : idle < s
  · rw [decide_eq_true hc, if_pos hc]
  · rw [decide_eq_false hc, if_neg hc]

theorem pstep_inv (idle : Nat) (p : P) (h : List (POp × Out)) (op : POp) (t : Nat)
    (ht : t ≤ op.time) (hi : PInv t p h) :
    PInv op.time (pstep idle p op).1 ((op, (pstep idle p op).2) :: h) := by
  obtain ⟨h1, h2, h3, h4⟩ := hi
  cases op with
  | touch n =>
    simp only [POp.time] at ht
    refine ⟨by simp only [pstep, lastWarn, Bool.false_eq_true, if_false]; exact h1,
      by simp only [pstep, lastUse], ?_, ?_⟩
    · simp only [pstep, lastWarn, POp.time, Bool.false_eq_true, if_false]; omega
    · simp only [lastUse, POp.time, Nat.le_refl]
  | loop i =>
    simp only [POp.time] at ht
    refine ⟨?_, ?_, ?_, ?_⟩
    · have e : (pstep idle p (.loop i)).1.beep = (checkLow p i).1.beep := pstep_beep ..
      have e2 : (pstep idle p (.loop i)).2.warn = (checkLow p i).2.2 := by rw [pstep_out, loop_warn]
      rw [e, checkLow_beep, ← e2]
      generalize (pstep idle p (.loop i)).2 = o
      unfold lastWarn
      by_cases hb : o.warn = true
      · rw [if_pos hb, if_pos hb]; simp only [POp.time]
      · rw [if_neg hb, if_neg hb]; exact h1
    · have e : (pstep idle p (.loop i)).1.on = (checkIdle idle (checkLow p i).1 i).1.on :=
        pstep_on ..
      have e2 : (pstep idle p (.loop i)).2.idle = (checkIdle idle (checkLow p i).1 i).2 := by
        rw [pstep_out, loop_idle]
      rw [e, checkIdle_on, ← e2, checkLow_on]
      generalize (pstep idle p (.loop i)).2 = o
      unfold lastUse
      by_cases hb : o.idle = true ∨ i.on' = true ∨ (i.styled = true ∧ i.charging = true)
      · rw [if_pos hb, if_pos hb]
      · rw [if_neg hb, if_neg hb]; exact h2
    · simp only [lastWarn, POp.time]; split <;> omega
    · simp only [lastUse, POp.time]; split <;> omega

theorem prun_inv (idle : Nat) (ops : List POp) : ∀ (p : P) (h : List (POp × Out)) (t : Nat),
    POrdered t ops → PInv t p h → ∃ t', PInv t' (prun idle p h ops).1 (prun idle p h ops).2 ∧
      t ≤ t' ∧ (∀ op ∈ ops, op.time ≤ t') ∧ (t' = t ∨ ∃ op ∈ ops, op.time = t') := by
  induction ops with
  | nil => intro p h t _ hi; exact ⟨t, hi, Nat.le_refl _, by simp, .inl rfl⟩
  | cons op ops ih =>
    intro p h t ho hi
    obtain ⟨t', h1, h2, h3, h4⟩ := ih _ _ op.time ho.2 (pstep_inv idle p h op t ho.1 hi)
    refine ⟨t', h1, by have := ho.1; omega, ?_, ?_⟩
    · intro o hm
      rcases List.mem_cons.mp hm with rfl | hm
      · exact h2
      · exact h3 o hm
    · rcases h4 with rfl | ⟨o, hm, he⟩
      · exact .inr ⟨op, List.mem_cons_self, rfl⟩
      · exact .inr ⟨o, List.mem_cons_of_mem _ hm, he⟩

theorem prun_ordered (ops : List POp) (i : In) (t : Nat)
    (ho : POrdered t (ops ++ [.loop i])) :
    POrdered t ops ∧ t ≤ i.now ∧ ∀ op ∈ ops, op.time ≤ i.now := by
  induction ops generalizing t with
  | nil => exact ⟨trivial, ho.1, by simp⟩
  | cons op ops ih =>
    obtain ⟨h1, h2⟩ := ho
    obtain ⟨a, b, c⟩ := ih _ h2
    refine ⟨⟨h1, a⟩, by omega, ?_⟩
    intro o hm
    rcases List.mem_cons.mp hm with rfl | hm
    · exact b
    · exact c o hm

/-- What holds when `Loop` is called after any history. -/
theorem loop_now (idle : Nat) (ops : List POp) (i : In) (ho : POrdered 0 (ops ++ [.loop i])) :
    PInv i.now (prun idle P.init [] ops).1 (prun idle P.init [] ops).2 := by
  obtain ⟨a, _, c⟩ := prun_ordered ops i 0 ho
  obtain ⟨t', ⟨h1, h2, h3, h4⟩, _, _, h6⟩ :=
    prun_inv idle ops P.init [] 0 a ⟨rfl, rfl, Nat.le_refl _, Nat.le_refl _⟩
  have : t' ≤ i.now := by
    rcases h6 with rfl | ⟨o, hm, rfl⟩
    · omega
    · exact c o hm
  exact ⟨h1, h2, by omega, by omega⟩

theorem since_eq {t now : Nat} (h : t ≤ now) (hl : now - t < W) : since now (t % W) = now - t := by
  unfold since W at *; omega

theorem checkLow_out (p : P) (i : In) :
    (checkLow p i).2 = (i.low && i.styled && !i.charging && i.on,
      i.low && i.styled && !i.charging && decide (15000 < since i.now p.beep)) := by
  unfold checkLow
  generalize since i.now p.beep = s
  cases i.low <;> cases i.styled <;> cases i.charging <;> simp
  by_cases h : 15000 < s
  · rw [if_pos h]; simp [h]
  · rw [if_neg h]; simp [h]

/-- **C95** (low battery).  After any history, when the prop's `Loop` runs: the blade is
    told to go off exactly when the battery is reported low, the style is not showing
    charging and a blade is on.  A warning needs a low battery too, and comes only more
    than 15 seconds after the previous one (or after being switched on); it does come
    then. -/
theorem C95_warning (idle : Nat) (ops : List POp) (i : In)
    (ho : POrdered 0 (ops ++ [.loop i])) :
    let p := (prun idle P.init [] ops).1
    let last := lastWarn (prun idle P.init [] ops).2
    ((loop idle p i).2.off = true ↔
      i.low = true ∧ i.styled = true ∧ i.charging = false ∧ i.on = true) ∧
    ((loop idle p i).2.warn = true →
      i.low = true ∧ i.styled = true ∧ i.charging = false ∧ last + 15000 < i.now) ∧
    (i.low = true → i.styled = true → i.charging = false → last + 15000 < i.now →
      i.now < last + 4294967296 → (loop idle p i).2.warn = true) := by
  intro p last
  obtain ⟨h1, h2, h3, h4⟩ := loop_now idle ops i ho
  have hs := since_le h3
  change p.beep = last % W at h1
  change last ≤ i.now at h3
  change since i.now (last % W) ≤ i.now - last at hs
  rw [← h1] at hs
  rw [loop_off, loop_warn, checkLow_out]
  simp only [Bool.and_eq_true, Bool.not_eq_true', decide_eq_true_eq]
  refine ⟨?_, ?_, ?_⟩
  · exact ⟨fun ⟨⟨⟨a, b⟩, c⟩, d⟩ => ⟨a, b, c, d⟩, fun ⟨a, b, c, d⟩ => ⟨⟨⟨a, b⟩, c⟩, d⟩⟩
  · rintro ⟨⟨⟨a, b⟩, c⟩, d⟩
    exact ⟨a, b, c, by omega⟩
  · intro a b c d e
    have hq := since_eq (t := last) h3 (by unfold W; omega)
    rw [← h1] at hq
    exact ⟨⟨⟨a, b⟩, c⟩, by omega⟩

/-- **C95** (left alone).  After any history: the idle switch-off comes only when the
    saber has been unused — off, not charging, no preset change, no earlier switch-off —
    for longer than the time configured; it does come then, as long as `Loop` runs at all
    often; and never while a blade is on. -/
theorem C95_idle (idle : Nat) (ops : List POp) (i : In) (ho : POrdered 0 (ops ++ [.loop i])) :
    let p := (prun idle P.init [] ops).1
    let last := lastUse (prun idle P.init [] ops).2
    ((loop idle p i).2.idle = true →
      i.on' = false ∧ ¬ (i.styled = true ∧ i.charging = true) ∧ last + idle < i.now) ∧
    (i.on' = false → ¬ (i.styled = true ∧ i.charging = true) → last + idle < i.now →
      i.now < last + 4294967296 → (loop idle p i).2.idle = true) := by
  intro p last
  obtain ⟨h1, h2, h3, h4⟩ := loop_now idle ops i ho
  have hs := since_le h4
  change p.on = last % W at h2
  change last ≤ i.now at h4
  change since i.now (last % W) ≤ i.now - last at hs
  rw [← h2] at hs
  have h0 : since i.now (i.now % W) = 0 := by unfold since W; omega
  have hq : (checkLow p i).1.on = p.on := checkLow_on p i
  have key : (loop idle p i).2.idle =
      decide (idle < since i.now (if i.on' || (i.styled && i.charging) then i.now % W else p.on)) := by
    have hst : stamp (checkLow p i).1 i =
        if i.on' || (i.styled && i.charging) then i.now % W else p.on := by
      unfold stamp; rw [hq]
    rw [← hst, loop_idle, checkIdle_out]
  rw [key]
  constructor
  · intro h
    simp only [decide_eq_true_eq] at h
    split at h
    · omega
    · rename_i hn
      simp at hn
      refine ⟨hn.1, ?_, by omega⟩
      rintro ⟨a, b⟩
      rw [hn.2 a] at b; cases b
  · intro a b c d
    have hw := since_eq h4 (by unfold W; omega)
    change since i.now (last % W) = i.now - last at hw
    rw [← h2] at hw
    simp only [decide_eq_true_eq]
    rw [if_neg (by simp only [a, Bool.false_or, Bool.and_eq_true]; exact b), hw]
    omega

/-- The warnings of a history, latest first. -/
def warnTimes : List (POp × Out) → List Nat
  | [] => []
  | (op, o) :: h => if o.warn then op.time :: warnTimes h else warnTimes h

/-- More than `d` apart (latest first), the first one more than `d` after the start. -/
def Apart (d : Nat) : List Nat → Prop
  | [] => True
  | [a] => d < a
  | a :: b :: l => b + d < a ∧ Apart d (b :: l)

theorem lastWarn_eq (h : List (POp × Out)) : lastWarn h = (warnTimes h).headD 0 := by
  induction h with
  | nil => rfl
  | cons x h ih =>
    obtain ⟨op, o⟩ := x
    unfold lastWarn warnTimes
    split <;> simp [ih]

theorem pstep_warn (idle : Nat) (p : P) (h : List (POp × Out)) (op : POp) (t : Nat)
    (ht : t ≤ op.time) (hi : PInv t p h) (hw : (pstep idle p op).2.warn = true) :
    lastWarn h + 15000 < op.time := by
  cases op with
  | touch n => simp [pstep] at hw
  | loop i =>
    simp only [POp.time] at ht ⊢
    have hs := since_le (show lastWarn h ≤ i.now by have := hi.tb; omega)
    rw [← hi.beep] at hs
    rw [pstep_out, loop_warn, checkLow_out] at hw
    simp only [Bool.and_eq_true, decide_eq_true_eq] at hw
    have := hw.2
    omega

/-- **C95** (no nagging).  In any run any two warnings are more than 15 seconds apart,
    and the first one comes more than 15 seconds after switching on. -/
theorem C95_apart (idle : Nat) (ops : List POp) (ho : POrdered 0 ops) :
    Apart 15000 (warnTimes (prun idle P.init [] ops).2) := by
  suffices ∀ (ops : List POp) (p : P) (h : List (POp × Out)) (t : Nat), POrdered t ops → PInv t p h →
      Apart 15000 (warnTimes h) → Apart 15000 (warnTimes (prun idle p h ops).2) from
    this ops _ _ 0 ho ⟨rfl, rfl, Nat.le_refl _, Nat.le_refl _⟩ trivial
  intro ops
  induction ops with
  | nil => intro p h t _ _ ha; exact ha
  | cons op ops ih =>
    intro p h t ho hi ha
    refine ih _ _ op.time ho.2 (pstep_inv idle p h op t ho.1 hi) ?_
    unfold warnTimes
    split
    · rename_i hw
      have hl := pstep_warn idle p h op t ho.1 hi hw
      rw [lastWarn_eq] at hl
      cases hx : warnTimes h with
      | nil => rw [hx] at hl; simpa [Apart] using hl
      | cons a l => rw [hx] at hl ha; exact ⟨by simpa using hl, ha⟩
    · exact ha

/-! ## Non-vacuity -/

/-- One round of the monitor's loop, `k`-th reading of `v` volts. -/
def round (v : Rat) (k : Nat) : List Op :=
  [.check (k * 1000) true true v false, .check (k * 1000) true true v false,
   .check (k * 1000) true true v false]

/-- Two low readings, then a dip is over: counted, then forgotten. -/
example :
    let r := run (fun _ => 0) (Mon.init 3) [] (.check 0 true true 0 false :: (round (29 / 10) 1 ++ round (28 / 10) 2))
    r.1.low = 2 ∧ r.2.length = 2 ∧ Spaced 1000 r.2 ∧
    (run (fun _ => 0) r.1 r.2 (round (37 / 10) 3)).1.low = 0 := by
  decide +kernel

/-- A loaded battery may sag further. -/
example : isLow false true (28 / 10) = false ∧ isLow false false (28 / 10) = true ∧
    isLow true false (28 / 10) = false ∧ isLow false false (3 / 10) = false := by decide +kernel

/-- 1001 low readings are reported: such states are reached. -/
example : lowB { Mon.init 3 with low := 1000 } = false ∧
    lowB (sample (fun _ => 0) { Mon.init 3 with low := 1000 } 5 (28 / 10) false).1 = true := by
  decide +kernel

/-- Warnings at 16 and 32 seconds, not between; switched off for idleness after a minute. -/
example :
    let f := fun t on => POp.loop ⟨t, true, true, false, on, false⟩
    (prun 60000 P.init [] [f 10000 true, f 16000 false, f 20000 false, f 32000 false, f 61000 false,
        f 62000 false]).2.map (fun x => (x.1.time, x.2))
      = [(62000, ⟨false, false, false⟩), (61000, ⟨false, true, true⟩), (32000, ⟨false, true, false⟩),
         (20000, ⟨false, false, false⟩), (16000, ⟨false, true, false⟩), (10000, ⟨true, false, false⟩)] := by
  decide +kernel

end Verif.Prop.Battery
