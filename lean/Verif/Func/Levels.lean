/-!
# Random blinking, the charge of a blaster and the volume as functions (C147)

Model of functions/random_blink.h, functions/bullet_count.h (`BlasterChargeSVF`) and functions/volume_level.h.  Times are 32 bit and wrap; division by zero
and signed overflow have no defined outcome (`none`).
-/
namespace Verif.Func.Levels

/-- `bits_`, `last_update_`, and how often new bits were drawn -/
structure S where
  bits : Nat → Nat
  last : Nat
  draws : Nat

/-- `run`, functions/random_blink.h:13-21: `now` below 2^32; `hz` is the value of MILLIHZ, converted to unsigned by the division; `new` are the numbers drawn. -/
def blink (leds now : Nat) (hz : Int) (new : Nat → Nat) (s : S) : Option S :=
  if hz = 0 then none
  else if (now + 4294967296 - s.last) % 4294967296 > 1000000000 / (hz % 4294967296).toNat then
    some ⟨fun i => if i < (leds + 15) / 16 then new i % 65536 else s.bits i, now, s.draws + 1⟩
  else some s

/-- `getInteger`, functions/random_blink.h:22-24 -/
def get (s : S) (led : Nat) : Nat := (s.bits (led / 16) / 2 ^ (led % 16) % 2) * 32768

/-- signed 32 bit arithmetic -/
def i32 (x : Int) : Option Int := if -2147483648 ≤ x ∧ x ≤ 2147483647 then some x else none

/-- `BlasterChargeSVF::calculate`, functions/bullet_count.h:36-38, and `VolumeLevelSVF::calculate`, functions/volume_level.h:15-17 -/
def level (x full : Int) : Option Int := if full = 0 then none else (i32 (x * 32768)).map fun y => y.tdiv full

/-- One call after another, at these times. -/
def blinks (leds : Nat) (hz : Int) (new : Nat → Nat → Nat) : List Nat → S → Option S
  | [], s => some s
  | t :: ts, s => (blink leds t hz (new t) s).bind (blinks leds hz new ts)

/-! ## Claims -/

/-- **C147.** Each pixel is off or fully on. -/
theorem C147_values (s : S) (led : Nat) : get s led = 0 ∨ get s led = 32768 := by
  unfold get
  generalize s.bits (led / 16) / 2 ^ (led % 16) = b
  have : b % 2 = 0 ∨ b % 2 = 1 := by omega
  rcases this with h | h <;> rw [h] <;> simp

/-- **C147.** When new bits are drawn each pixel of the blade gets a bit of its own: any pattern of any length is shown for some numbers drawn. -/
theorem C147_patterns (leds now : Nat) (hz : Int) (s : S) (h0 : hz ≠ 0)
    (hd : (now + 4294967296 - s.last) % 4294967296 > 1000000000 / (hz % 4294967296).toNat) (pat : Nat → Bool) :
    ∃ new s', blink leds now hz new s = some s' ∧ ∀ led < leds, get s' led = if pat led then 32768 else 0 := by
  -- the number with the sixteen bits of the pattern
  have key : ∀ (n : Nat) (p : Nat → Bool), ∃ v, v < 2 ^ n ∧ ∀ k < n, v / 2 ^ k % 2 = if p k then 1 else 0 := by
    intro n
    induction n with
    | zero => exact fun p => ⟨0, by decide, fun k hk => absurd hk (by omega)⟩
    | succ n ih =>
      intro p
      obtain ⟨v, hv, hk⟩ := ih fun k => p (k + 1)
      refine ⟨2 * v + (if p 0 then 1 else 0), ?_, ?_⟩
      · rw [Nat.pow_succ]; split <;> omega
      · intro k hkn
        cases k with
        | zero => simp only [Nat.pow_zero, Nat.div_one]; split <;> omega
        | succ k =>
          have h1 : (2 * v + (if p 0 then 1 else 0)) / 2 ^ (k + 1) = v / 2 ^ k := by
            rw [show 2 ^ (k + 1) = 2 * 2 ^ k by rw [Nat.pow_succ, Nat.mul_comm], ← Nat.div_div_eq_div_mul]
            congr 1
            split <;> omega
          rw [h1]; exact hk k (by omega)
  refine ⟨fun i => Classical.choose (key 16 fun k => pat (16 * i + k)), _, by rw [blink, if_neg h0, if_pos hd], ?_⟩
  intro led hl
  unfold get
  dsimp only
  rw [if_pos (by omega)]
  obtain ⟨hv, hk⟩ := Classical.choose_spec (key 16 fun k => pat (16 * (led / 16) + k))
  generalize Classical.choose (key 16 fun k => pat (16 * (led / 16) + k)) = v at *
  rw [Nat.mod_eq_of_lt hv, hk (led % 16) (by omega)]
  have : 16 * (led / 16) + led % 16 = led := by omega
  rw [this]
  split <;> rfl

/-- **C147.** The pattern holds still for at least the time of one cycle: between two draws more than `1000000000 / hz` microseconds pass, whatever the clock
shows and whether it wraps between them. -/
theorem C147_hold (leds now : Nat) (hz : Int) (new : Nat → Nat) (s s' : S) (hp : 0 < hz) (hb : hz < 4294967296) (h : blink leds now hz new s = some s') :
    ((now + 4294967296 - s.last) % 4294967296 ≤ 1000000000 / hz.toNat → s' = s) ∧
      ((now + 4294967296 - s.last) % 4294967296 > 1000000000 / hz.toNat → s'.draws = s.draws + 1 ∧ s'.last = now) := by
  have hm : hz % 4294967296 = hz := Int.emod_eq_of_lt (by omega) hb
  rw [blink, if_neg (by omega), hm] at h
  constructor
  · intro hle
    rw [if_neg (by omega)] at h
    exact (Option.some.inj h).symm
  · intro hgt
    rw [if_pos hgt] at h
    rw [← Option.some.inj h]
    exact ⟨rfl, rfl⟩

/-- **C147.** Over any series of calls at increasing times, with the clock not wrapping, there are no more draws than cycles have passed. -/
theorem C147_rate (leds : Nat) (hz : Int) (new : Nat → Nat → Nat) (hp : 0 < hz) (hb : hz < 4294967296) (ts : List Nat) (s s' : S)
    (hs : (s.last :: ts).Pairwise (· ≤ ·)) (ht : ∀ t ∈ ts, t < 4294967296) (h : blinks leds hz new ts s = some s') :
    (s'.draws - s.draws) * (1000000000 / hz.toNat) ≤ s'.last - s.last ∧ s.draws ≤ s'.draws ∧ s.last ≤ s'.last := by
  induction ts generalizing s with
  | nil => cases h; simp
  | cons t ts ih =>
    simp only [blinks] at h
    cases hb1 : blink leds t hz (new t) s with
    | none => rw [hb1] at h; cases h
    | some s1 =>
      rw [hb1] at h
      simp only [Option.bind_some] at h
      obtain ⟨c1, c2⟩ := C147_hold leds t hz (new t) s s1 hp hb hb1
      have hst : s.last ≤ t := (List.pairwise_cons.mp hs).1 t (by simp)
      have htt : t < 4294967296 := ht t (by simp)
      have hw : (t + 4294967296 - s.last) % 4294967296 = t - s.last := by omega
      rw [hw] at c1 c2
      by_cases hgt : t - s.last > 1000000000 / hz.toNat
      · obtain ⟨d1, d2⟩ := c2 hgt
        have hs1 : (s1.last :: ts).Pairwise (· ≤ ·) := by rw [d2]; exact (List.pairwise_cons.mp hs).2
        obtain ⟨i1, i2, i3⟩ := ih s1 hs1 (fun x hx => ht x (by simp [hx])) h
        generalize 1000000000 / hz.toNat = c at *
        refine ⟨?_, by omega, by omega⟩
        have : s'.draws - s.draws = (s'.draws - s1.draws) + 1 := by omega
        rw [this, Nat.add_mul]
        omega
      · have e := c1 (by omega)
        subst e
        have hs1 : (s1.last :: ts).Pairwise (· ≤ ·) := by
          rw [List.pairwise_cons] at hs ⊢
          exact ⟨fun x hx => hs.1 x (by simp [hx]), (List.pairwise_cons.mp hs.2).2⟩
        exact ih s1 hs1 (fun x hx => ht x (by simp [hx])) h

/-- **C147.** Counterexample: with a frequency of zero the function divides by zero. -/
theorem C147_zero_counterexample (leds now : Nat) (new : Nat → Nat) (s : S) : blink leds now 0 new s = none := if_pos rfl

/-- **C147.** Counterexample: a frequency below zero blinks with every microsecond instead of never. -/
theorem C147_negative_counterexample (leds now : Nat) (hz : Int) (new : Nat → Nat) (s : S) (h : hz < 0) (hb : -2147483648 ≤ hz)
    (ht : (now + 4294967296 - s.last) % 4294967296 ≠ 0) : ∃ s', blink leds now hz new s = some s' ∧ s'.draws = s.draws + 1 := by
  have hm : hz % 4294967296 = hz + 4294967296 := by omega
  have h1 : 1000000000 / (hz % 4294967296).toNat = 0 := Nat.div_eq_of_lt (by omega)
  rw [blink, if_neg (by omega), h1, if_pos (by omega)]
  exact ⟨_, rfl, rfl⟩

/-- **C147.** A blaster's charge, and the volume, are shown from nothing, 0, to full, 32768, in proportion and in order, for magazines and volumes below
65536. -/
theorem C147_level (x full : Int) (h0 : 0 ≤ x) (hx : x ≤ full) (hf : 0 < full) (hb : full < 65536) :
    ∃ v, level x full = some v ∧ 0 ≤ v ∧ v ≤ 32768 ∧ v * full ≤ x * 32768 ∧ x * 32768 < (v + 1) * full := by
  have hr : i32 (x * 32768) = some (x * 32768) := if_pos (by omega)
  refine ⟨(x * 32768) / full, ?_, Int.ediv_nonneg (by omega) (by omega), ?_, Int.ediv_mul_le _ (by omega), Int.lt_ediv_add_one_mul_self _ hf⟩
  · rw [level, if_neg (by omega), hr]
    simp only [Option.map_some]
    rw [Int.tdiv_eq_ediv_of_nonneg (by omega)]
  · have : x * 32768 ≤ 32768 * full := by omega
    have h2 := Int.ediv_le_ediv hf this
    rwa [Int.mul_ediv_cancel _ (by omega)] at h2

/-- **C147.** Counterexample: from 65536 on the product overflows, and a volume boosted beyond the loudest is shown as more than full. -/
theorem C147_level_counterexample : (∀ x full : Int, 65536 ≤ x → level x full = none) ∧ level 3000 2000 = some 49152 := by
  refine ⟨fun x full h => ?_, by decide⟩
  have : i32 (x * 32768) = none := if_neg (by omega)
  rw [level, this]
  split <;> rfl

/-- The claims apply: twice a second, half a second and a bit later; seven shots of twelve. -/
example : ∃ s : S, s.last = 4294900000 ∧ ((500001 - 67296) + 4294967296 - s.last) % 4294967296 > 1000000000 / ((2000 : Int) % 4294967296).toNat ∧
    level 7 12 = some 19114 ∧ (7 : Int) ≤ 12 :=
  ⟨⟨fun _ => 0, 4294900000, 0⟩, rfl, by decide, by decide, by decide⟩

/-- The claims apply: three calls, of which one draws. -/
example : ∃ s', blinks 100 2000 (fun _ _ => 5) [400000, 500001, 600000] ⟨fun _ => 0, 0, 0⟩ = some s' ∧ s'.draws = 1 ∧
    ((0 : Nat) :: [400000, 500001, 600000]).Pairwise (· ≤ ·) := ⟨_, rfl, rfl, by decide⟩

end Verif.Func.Levels
