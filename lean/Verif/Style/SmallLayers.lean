import Verif.Style.Choose
/-!
# Gradients, pixelation, clashes and sequences (C114)

Model of `Gradient` (styles/gradient.h:14-31), `PixelateX` (styles/pixelate.h:18-39), `SimpleClashL` and
`LocalizedClashL` (styles/clash.h:16-116), `ColorSequence` (styles/sequence.h:26-51) and `LengthFinder`
(styles/length_finder.h:14-53).
-/
namespace Verif.Style.SmallLayers
open Verif.Style.Choose (pick C111_pick getElem?_some)

/-! ## `Gradient` -/

/-- `mul_`, styles/gradient.h:19, for `k` colours and `n` LEDs; division by zero is undefined. -/
def gradMul (k n : Nat) : Option Nat := if n = 1 then none else some ((k - 1) * 32768 / (n - 1))

/-- `getColor`, styles/gradient.h:25-30: the two colours and the part of the second in 32768. -/
def gradient {C : Type} (cs : List C) (n led : Nat) : Option (C × C × Nat) :=
  match gradMul cs.length n with
  | none => none
  | some m =>
    match pick cs ((led * m / 32768 : Nat) : Int), pick cs ((led * m / 32768 : Nat) + 1 : Int) with
    | some a, some b => some (a, b, led * m % 32768)
    | _, _ => none

/-- LED `led` shows the colours at its place: `x` of 32768 parts a colour, less than one part per LED below the exact place
`led * (k - 1) * 32768 / (n - 1)`; the first LED shows exactly the first colour. -/
theorem C114_gradient_partial {C : Type} (cs : List C) (hk : 2 ≤ cs.length) (n : Nat) (hn : 2 ≤ n) (led : Nat) (hl : led < n) :
    ∃ x : Nat, x * (n - 1) ≤ led * ((cs.length - 1) * 32768) ∧ led * ((cs.length - 1) * 32768) < (x + led + (if led = 0 then 1 else 0)) * (n - 1) ∧
      (led = 0 → x = 0) ∧
      ∃ a b, cs[x / 32768]? = some a ∧ cs[min (x / 32768 + 1) (cs.length - 1)]? = some b ∧ gradient cs n led = some (a, b, x % 32768) := by
  have hne : cs ≠ [] := by intro hh; rw [hh] at hk; simp at hk
  obtain ⟨m, hm⟩ : ∃ m, m = (cs.length - 1) * 32768 / (n - 1) := ⟨_, rfl⟩
  have hpos : 0 < n - 1 := by omega
  have d1 : m * (n - 1) ≤ (cs.length - 1) * 32768 := by rw [hm]; exact Nat.div_mul_le_self _ _
  have d2 : (cs.length - 1) * 32768 < (m + 1) * (n - 1) := by
    rw [hm, Nat.add_mul, Nat.one_mul]
    exact Nat.lt_div_mul_add hpos
  refine ⟨led * m, ?_, ?_, fun h => by rw [h, Nat.zero_mul], ?_⟩
  · rw [Nat.mul_assoc]; exact Nat.mul_le_mul_left _ d1
  · by_cases h0 : led = 0
    · subst h0; simp; omega
    · rw [if_neg h0, Nat.add_zero]
      have : led * m + led = led * (m + 1) := by rw [Nat.mul_add, Nat.mul_one]
      rw [this, Nat.mul_assoc]
      exact Nat.mul_lt_mul_of_pos_left d2 (by omega)
  · have hx : led * m ≤ (cs.length - 1) * 32768 := by
      calc led * m ≤ (n - 1) * m := Nat.mul_le_mul_right _ (by omega)
        _ = m * (n - 1) := Nat.mul_comm _ _
        _ ≤ _ := d1
    have h1 : led * m / 32768 < cs.length := by omega
    have h2 : min (led * m / 32768 + 1) (cs.length - 1) < cs.length := by omega
    refine ⟨cs[led * m / 32768], cs[min (led * m / 32768 + 1) (cs.length - 1)], getElem?_some cs _ h1, getElem?_some cs _ h2, ?_⟩
    unfold gradient gradMul
    rw [if_neg (by omega), ← hm]
    simp only
    have e1 : (min (max ((led * m / 32768 : Nat) : Int) 0) ((cs.length : Int) - 1)).toNat = led * m / 32768 := by omega
    have e2 : (min (max (((led * m / 32768 : Nat) : Int) + 1) 0) ((cs.length : Int) - 1)).toNat = min (led * m / 32768 + 1) (cs.length - 1) := by omega
    rw [C111_pick cs hne, C111_pick cs hne, e1, e2, getElem?_some cs _ h1, getElem?_some cs _ h2]

/-- "Gradient, color A at base, B at tip": on a blade of one LED the division is undefined, and with 145 LEDs the tip is
not quite B. -/
theorem C114_gradient_counterexample {C : Type} (cs : List C) (led : Nat) : gradient cs 1 led = none ∧
    gradient ["a", "b"] 145 144 = some ("a", "b", 32688) := by
  constructor
  · rfl
  · have hp : ∀ x : Int, pick ["a", "b"] x = ["a", "b"][(min (max x 0) (2 - 1)).toNat]? := fun x => C111_pick _ (by simp) x
    have hm : gradMul ["a", "b"].length 145 = some 227 := by decide
    unfold gradient
    rw [hm]
    simp only
    rw [hp, hp]
    decide

example : gradient ["a", "b", "c"] 5 1 = some ("a", "b", 16384) := by
  have hp : ∀ x : Int, pick ["a", "b", "c"] x = ["a", "b", "c"][(min (max x 0) (3 - 1)).toNat]? := fun x => C111_pick _ (by simp) x
  have hm : gradMul ["a", "b", "c"].length 5 = some 16384 := by decide
  unfold gradient
  rw [hm]
  simp only
  rw [hp, hp]
  decide

/-! ## `PixelateX` -/

/-- `last_led_` and `last_color_`. -/
structure Pix (C : Type) where
  led : Int
  color : C

/-- `getColor`, styles/pixelate.h:32-38, with `c` the colours of the inner style in this frame. -/
def pixGet {C : Type} (n : Int) (c : Nat → C) (s : Pix C) (led : Nat) : Pix C :=
  if ((led : Int) - s.led).natAbs ≥ n then ⟨led, c led⟩ else s

/-- A frame: the LEDs in order; the colours shown and the state left. -/
def pixFrame {C : Type} (n : Int) (c : Nat → C) : Nat → Nat → Pix C → List C × Pix C
  | _, 0, s => ([], s)
  | led, k + 1, s =>
    ((pixGet n c s led).color :: (pixFrame n c (led + 1) k (pixGet n c s led)).1, (pixFrame n c (led + 1) k (pixGet n c s led)).2)

theorem pix_run {C : Type} (n : Nat) (hn : 0 < n) (c : Nat → C) : ∀ (k led : Nat) (s : Pix C), 0 < led →
    s = ⟨(n * ((led - 1) / n) : Nat), c (n * ((led - 1) / n))⟩ →
    (pixFrame n c led k s).1 = (List.range' led k).map (fun i => c (n * (i / n))) ∧
    (pixFrame n c led k s).2 = ⟨(n * ((led + k - 1) / n) : Nat), c (n * ((led + k - 1) / n))⟩ := by
  intro k
  induction k with
  | zero => intro led s hl hs; exact ⟨rfl, hs⟩
  | succ k ih =>
    intro led s hl hs
    have hg : pixGet n c s led = ⟨(n * (led / n) : Nat), c (n * (led / n))⟩ := by
      obtain ⟨d, rfl⟩ : ∃ d, led = d + 1 := ⟨led - 1, by omega⟩
      have e0 : d + 1 - 1 = d := by omega
      rw [e0] at hs
      subst hs
      unfold pixGet
      simp only
      have hd := Nat.div_add_mod d n
      have hm := Nat.mod_lt d hn
      by_cases hx : d % n + 1 = n
      · have e : (d + 1) / n = d / n + 1 := by
          apply Nat.div_eq_of_lt_le
          · rw [Nat.add_mul, Nat.one_mul, Nat.mul_comm]; omega
          · rw [Nat.add_mul, Nat.add_mul, Nat.one_mul, Nat.mul_comm]; omega
        have e2 : n * ((d + 1) / n) = d + 1 := by rw [e, Nat.mul_add, Nat.mul_one]; omega
        rw [e2, if_pos (by omega)]
      · have e : (d + 1) / n = d / n := by
          apply Nat.div_eq_of_lt_le
          · rw [Nat.mul_comm]; omega
          · rw [Nat.add_mul, Nat.one_mul, Nat.mul_comm]; omega
        rw [e, if_neg (by omega)]
    obtain ⟨i1, i2⟩ := ih (led + 1) (pixGet n c s led) (by omega) (by rw [hg]; rfl)
    constructor
    · simp only [pixFrame]
      rw [i1, hg]; rfl
    · simp only [pixFrame]
      rw [i2, show led + 1 + k - 1 = led + (k + 1) - 1 by omega]

/-- On a blade with more than `n` LEDs, every group of `n` LEDs shows the colour of its first LED in this frame, and the next
frame does so again, for ever. -/
theorem C114_pixelate_partial {C : Type} (n leds : Nat) (hn : 0 < n) (hl : n < leds) (c : Nat → C) (s : Pix C) (hs : (n : Int) ≤ s.led.natAbs) :
    (pixFrame n c 0 leds s).1 = (List.range leds).map (fun i => c (n * (i / n))) ∧ (n : Int) ≤ (pixFrame n c 0 leds s).2.led.natAbs := by
  obtain ⟨k, rfl⟩ : ∃ k, leds = k + 1 := ⟨leds - 1, by omega⟩
  have hg : pixGet n c s 0 = ⟨(0 : Nat), c 0⟩ := by unfold pixGet; rw [if_pos (by omega)]
  have hz : (0 : Nat) / n = 0 := Nat.zero_div n
  obtain ⟨i1, i2⟩ := pix_run n hn c k 1 (pixGet n c s 0) (by omega) (by rw [hg]; simp)
  have hq : 1 ≤ k / n := by rw [Nat.le_div_iff_mul_le hn]; omega
  constructor
  · simp only [pixFrame]
    rw [Nat.zero_add, i1, hg, List.range_eq_range', List.range'_succ, List.map_cons, hz, Nat.mul_zero]
  · simp only [pixFrame]
    rw [Nat.zero_add, i2]
    simp only
    rw [show 1 + k - 1 = k by omega]
    have : n * 1 ≤ n * (k / n) := Nat.mul_le_mul_left _ hq
    omega

example : (pixFrame 2 (fun i => i) 0 5 ⟨100, 77⟩).1 = [0, 0, 2, 2, 4] := by decide

/-- On a blade of at most `n` LEDs, a single LED for instance, the colour once taken is shown for ever: whatever the inner style shows
in later frames, nothing changes. -/
theorem C114_pixelate_counterexample {C : Type} (n leds : Nat) (hl : leds ≤ n) (s : Pix C) (hs : s.led = 0) (cs : List (Nat → C)) :
    cs.foldl (fun s c => (pixFrame n c 0 leds s).2) s = s ∧ ∀ c, (pixFrame n c 0 leds s).1 = List.replicate leds s.color := by
  have key : ∀ (c : Nat → C) (k led : Nat), led + k ≤ n → pixFrame n c led k s = (List.replicate k s.color, s) := by
    intro c k
    induction k with
    | zero => intro led _; rfl
    | succ k ih =>
      intro led h
      have hg : pixGet n c s led = s := by unfold pixGet; rw [if_neg (by rw [hs]; omega)]
      simp only [pixFrame]
      rw [hg, ih (led + 1) (by omega)]; rfl
  constructor
  · induction cs with
    | nil => rfl
    | cons c cs ih => rw [List.foldl_cons, key c leds 0 (by omega)]; exact ih
  · intro c; rw [key c leds 0 (by omega)]

/-! ## Clashes -/

/-- A frame: real time in microseconds, and the start of the effect the detector reports. -/
structure Fr where
  now : Nat
  hit : Option Nat

/-- `micros() - t`. -/
def since (now t : Nat) : Nat := (now % 4294967296 + 4294967296 - t % 4294967296) % 4294967296

/-- `clash_` and `last_detected_`. -/
structure Cl where
  clash : Bool
  last : Nat

/-- `SimpleClashL::run`, styles/clash.h:21-32, for `us` microseconds. -/
def simpleRun (us : Nat) (s : Cl) (f : Fr) : Cl :=
  match f.hit with
  | some t => ⟨true, t⟩
  | none => if s.clash = true ∧ since f.now s.last > us then ⟨false, s.last⟩ else s

/-- `LocalizedClashL::run`, styles/clash.h:85-97. -/
def localRun (us : Nat) (s : Cl) (f : Fr) : Cl :=
  match f.hit with
  | some t => ⟨true, t⟩
  | none => if since f.now s.last < us then ⟨true, s.last⟩ else ⟨false, s.last⟩

/-- Frames in order, less than `g` apart, from time `t`; effects start before the frame which reports them. -/
def Ok (g : Nat) : Nat → List Fr → Prop
  | _, [] => True
  | t, f :: fs => t ≤ f.now ∧ f.now ≤ t + g ∧ (∀ x, f.hit = some x → x ≤ f.now ∧ f.now ≤ x + g) ∧ Ok g f.now fs

/-- Whether the blade is to be lit: in the frame which reports a clash, and until `us` after the start of the last one. -/
def lit (us : Nat) : Bool → Nat → List Fr → Bool
  | b, _, [] => b
  | b, last, f :: fs => match f.hit with
    | some t => lit us true t fs
    | none => lit us (b && decide (f.now ≤ last + us)) last fs

theorem since_eq {now t : Nat} (h : t ≤ now) (h2 : now < t + 4294967296) : since now t = now - t := by unfold since; omega

/-- A clash is shown in the frame that reports it and then until its time is over, and not again, however long nothing happens. -/
theorem C114_clash (us g : Nat) (hg : us + g + g < 4294967296) (fs : List Fr) (t0 : Nat) (s : Cl) (h : Ok g t0 fs)
    (hs : s.clash = true → s.last ≤ t0 ∧ t0 ≤ s.last + us + g) :
    (fs.foldl (simpleRun us) s).clash = lit us s.clash s.last fs := by
  induction fs generalizing t0 s with
  | nil => rfl
  | cons f fs ih =>
    obtain ⟨h1, h2, h3, h4⟩ := h
    rw [List.foldl_cons]
    unfold lit
    cases hf : f.hit with
    | some t =>
      obtain ⟨a, b⟩ := h3 t hf
      have e : simpleRun us s f = ⟨true, t⟩ := by unfold simpleRun; rw [hf]
      rw [e, ih f.now ⟨true, t⟩ h4 (fun _ => ⟨a, by simp only; omega⟩)]
    | none =>
      have e : simpleRun us s f = if s.clash = true ∧ since f.now s.last > us then ⟨false, s.last⟩ else s := by unfold simpleRun; rw [hf]
      rw [e]
      cases hc : s.clash with
      | false =>
        rw [if_neg (by simp), ih f.now s h4 (by rw [hc]; simp), hc]; rfl
      | true =>
        obtain ⟨a, b⟩ := hs hc
        have hsi := since_eq (show s.last ≤ f.now by omega) (by omega)
        by_cases hlt : f.now ≤ s.last + us
        · rw [if_neg (by omega), ih f.now s h4 (fun _ => ⟨by omega, by omega⟩), hc]
          simp [hlt]
        · rw [if_pos ⟨rfl, by omega⟩, ih f.now ⟨false, s.last⟩ h4 (by simp)]
          simp [hlt]

/-- `LocalizedClashL` does so too for an hour after the last clash; -/
theorem C114_local_partial (us : Nat) (f : Fr) (s : Cl) (hf : f.hit = none) (h1 : s.last ≤ f.now) (h2 : f.now < s.last + 4294967296) :
    (localRun us s f).clash = true ↔ f.now < s.last + us := by
  unfold localRun
  rw [hf]
  simp only
  rw [since_eq h1 h2]
  by_cases h : f.now - s.last < us
  · rw [if_pos h]; simp; omega
  · rw [if_neg h]; simp; omega

/-- but when the clock has gone round, 71 minutes later, the clash is shown again although there was none. -/
theorem C114_local_counterexample (us : Nat) (h : 0 < us) (s : Cl) :
    (localRun us s ⟨s.last + 4294967296, none⟩).clash = true ∧ (simpleRun us ⟨false, s.last⟩ ⟨s.last + 4294967296, none⟩).clash = false := by
  constructor
  · unfold localRun
    simp only
    have : since (s.last + 4294967296) s.last = 0 := by unfold since; omega
    rw [this, if_pos h]
  · unfold simpleRun; simp

example : Ok 100 0 [⟨50, none⟩, ⟨90, some 80⟩, ⟨110, none⟩, ⟨130, none⟩] := by simp [Ok]

example : ([⟨50, none⟩, ⟨90, some 80⟩, ⟨110, none⟩].foldl (simpleRun 40) ⟨false, 0⟩).clash = true ∧
    ([⟨50, none⟩, ⟨90, some 80⟩, ⟨110, none⟩, ⟨130, none⟩].foldl (simpleRun 40) ⟨false, 0⟩).clash = false := by
  have h : Ok 100 0 [⟨50, none⟩, ⟨90, some 80⟩, ⟨110, none⟩, ⟨130, none⟩] := by simp [Ok]
  have h2 : Ok 100 0 [⟨50, none⟩, ⟨90, some 80⟩, ⟨110, none⟩] := by simp [Ok]
  rw [C114_clash 40 100 (by omega) _ 0 ⟨false, 0⟩ h2 (by simp), C114_clash 40 100 (by omega) _ 0 ⟨false, 0⟩ h (by simp)]
  decide

/-! ## The place of a localized clash -/

/-- `mult_`, styles/clash.h:90. -/
def mult (width leds : Nat) : Nat := 32 * 2 * 102400 / width / leds

/-- Whether `getColor` lights an LED at all, styles/clash.h:108-109; the place is in LEDs. -/
def near (width leds led place : Nat) : Bool := decide (((led * mult width leds : Int) - place * mult width leds).natAbs / 1024 < 32)

/-- At least the LEDs within half the width of the place are lit, and all lit ones are within it but for a small rounding. -/
theorem C114_local_width (width leds led place : Nat) (hw : 0 < width) (hl : 0 < leds) :
    (((led : Int) - place).natAbs * 200 < width * leds → near width leds led place = true) ∧
    (near width leds led place = true → ((led : Int) - place).natAbs * 6553600 < (((led : Int) - place).natAbs + 32768) * (width * leds)) := by
  have e : ((led * mult width leds : Int) - place * mult width leds).natAbs = ((led : Int) - place).natAbs * mult width leds := by
    rw [← Int.sub_mul, Int.natAbs_mul, Int.natAbs_natCast]
  unfold near
  rw [decide_eq_true_eq, e]
  generalize ((led : Int) - place).natAbs = d
  have hmul : mult width leds = 6553600 / (width * leds) := by unfold mult; rw [Nat.div_div_eq_div_mul]
  have hp : 0 < width * leds := Nat.mul_pos hw hl
  have b1 : mult width leds * (width * leds) ≤ 6553600 := by rw [hmul]; exact Nat.div_mul_le_self _ _
  have b2 : 6553600 < (mult width leds + 1) * (width * leds) := by
    rw [hmul, Nat.add_mul, Nat.one_mul]; exact Nat.lt_div_mul_add hp
  generalize mult width leds = m at *
  generalize width * leds = w at *
  rw [Nat.div_lt_iff_lt_mul (by omega)]
  constructor
  · intro h
    apply Nat.lt_of_not_le
    intro hc
    have h1 : 32768 * w ≤ d * m * w := Nat.mul_le_mul_right _ (by omega)
    have h2 : d * (m * w) ≤ d * 6553600 := Nat.mul_le_mul_left _ b1
    rw [← Nat.mul_assoc] at h2
    omega
  · intro h
    by_cases hd : d = 0
    · subst hd; simp; exact hp
    · have h1 : d * 6553600 < d * ((m + 1) * w) := Nat.mul_lt_mul_of_pos_left b2 (by omega)
      have h2 : d * ((m + 1) * w) = (d * m + d) * w := by rw [← Nat.mul_assoc, Nat.mul_add, Nat.mul_one]
      have h3 : (d * m + d) * w ≤ (d + 32768) * w := Nat.mul_le_mul_right _ (by omega)
      omega

example : near 50 100 30 50 = true ∧ near 50 100 20 50 = false := by decide

/-! ## `ColorSequence` -/

/-- `n_` and `last_micros_` (in real time). -/
structure Sq where
  n : Nat
  last : Nat

/-- `run`, styles/sequence.h:29-41, with `m` microseconds a colour and `k` colours. -/
def sqRun (m k : Nat) (s : Sq) (now : Nat) : Sq :=
  if now - s.last > m then
    if now - s.last > m * 10 then ⟨0, now⟩ else ⟨(s.n + 1) % k, s.last + m⟩
  else s

/-- Frames at most `m` apart. -/
def Steps (m : Nat) : Nat → List Nat → Prop
  | _, [] => True
  | t, u :: us => t ≤ u ∧ u ≤ t + m ∧ Steps m u us

/-- The last time. -/
def endTime : Nat → List Nat → Nat
  | t, [] => t
  | _, u :: us => endTime u us

/-- Every colour is shown for its time, without drift: at `x` microseconds after the first colour came the colour is number
`(x - 1) / m`, over and over. -/
theorem C114_sequence (m k : Nat) (hm : 0 < m) (us : List Nat) (t0 : Nat) (h : Steps m t0 us) :
    (us.foldl (sqRun m k) ⟨0, t0⟩).n = (endTime t0 us - t0 - 1) / m % k := by
  have key : ∀ (us : List Nat) (t : Nat) (j : Nat) (s : Sq), t0 ≤ t → s.last = t0 + j * m → s.n = j % k → j = (t - t0 - 1) / m → Steps m t us →
      ∃ j', (us.foldl (sqRun m k) s).n = j' % k ∧ j' = (endTime t us - t0 - 1) / m := by
    intro us
    induction us with
    | nil => intro t j s _ h1 h2 h3 _; exact ⟨j, h2, h3⟩
    | cons u us ih =>
      intro t j s ht h1 h2 h3 hs
      obtain ⟨a, b, c⟩ := hs
      rw [List.foldl_cons]
      have q1 : j * m ≤ t - t0 - 1 := by rw [h3]; exact Nat.div_mul_le_self _ _
      have q2 : t - t0 - 1 < j * m + m := by rw [h3]; exact Nat.lt_div_mul_add hm
      by_cases hgt : u - s.last > m
      · have e : sqRun m k s u = ⟨(s.n + 1) % k, s.last + m⟩ := by
          unfold sqRun
          rw [if_pos hgt, if_neg (by omega)]
        rw [e]
        refine ih u (j + 1) _ (by omega) ?_ ?_ ?_ c
        · simp only; rw [h1, Nat.add_mul, Nat.one_mul]; omega
        · simp only; rw [h2, Nat.mod_add_mod]
        · symm
          apply Nat.div_eq_of_lt_le
          · rw [Nat.add_mul, Nat.one_mul]; omega
          · rw [Nat.add_mul, Nat.add_mul, Nat.one_mul]; omega
      · have e : sqRun m k s u = s := by unfold sqRun; rw [if_neg hgt]
        rw [e]
        refine ih u j s (by omega) h1 h2 ?_ c
        symm
        apply Nat.div_eq_of_lt_le
        · omega
        · rw [Nat.add_mul, Nat.one_mul]; omega
  obtain ⟨j, e1, e2⟩ := key us t0 0 ⟨0, t0⟩ (Nat.le_refl _) (by simp) (by simp) (by simp) h
  rw [e1, e2]

example : Steps 1000 0 [900, 1800, 2600] ∧ ([900, 1800, 2600].foldl (sqRun 1000 3) ⟨0, 0⟩).n = 2 := by
  refine ⟨by simp [Steps], by decide⟩

/-! ## `LengthFinder` -/

/-- The variation after the limits of styles/length_finder.h:24-29; the variation is unsigned, so it is never below zero. -/
def limit (leds v : Nat) : Nat := if v ≥ leds then leds - 1 else v

/-- The LED lit is always on the blade and is the one with the number of the variation if there is one. -/
theorem C114_length (leds v : Nat) (h : 0 < leds) : limit leds v < leds ∧ (v < leds → limit leds v = v) ∧ (leds ≤ v → limit leds v = leds - 1) := by
  unfold limit; split <;> omega

/-- Turned down from the first LED, it is the last one, not the first. -/
theorem C114_length_counterexample (leds : Nat) (h : 1 < leds) (h2 : leds < 4294967295) : limit leds ((0 + 4294967296 - 1) % 4294967296) = leds - 1 ∧ leds - 1 ≠ 0 := by
  unfold limit; rw [if_pos (by omega)]; omega

end Verif.Style.SmallLayers
