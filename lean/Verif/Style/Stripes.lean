import Verif.Num.Props
import Verif.Style.SinTable
import Mathlib.Tactic.Linarith
import Mathlib.Tactic.Ring
import Mathlib.Data.List.GetD

/-!
# Stripes and HardStripes (C100)

Model of `styles/stripes.h`: colours travelling along the blade, either melting into each other
(`Stripes`) or with hard edges (`HardStripes`).

One colour channel is modelled; the three channels are computed alike and independently.  The
colours of the template arguments are the channel values they have for the LED in question at the
time `getColor` is called.  `size_t` is 32 bits wide, as on the boards.

Where the code performs undefined behaviour (signed overflow, division by zero) the model
returns `none`.
-/
namespace Verif.Style.Stripes

open Verif.Num (Range u32 sub32 W32 MOD clampi32)

/-! ## Model -/

/-- `SimpleColor` channel accumulation of `StripesHelper::get`, styles/stripes.h:49-58, with
`ret` the channel accumulated so far; the empty helper is styles/stripes.h:38.  `>> 14` of the
non negative product is a division. -/
def get : List Nat → Int → Int → Int
  | [], _, ret => ret
  | c :: cs, p, ret =>
    get cs (p - 341)
      (if p > 0 ∧ p < 512 then clampi32 (ret + ((c : Int) * sinAt p.toNat) / 16384) 0 65535 else ret)

/-- Conversion of an unsigned 32 bit value to `int32_t`. -/
def s32 (x : Nat) : Int := if x < 2147483648 then (x : Int) else (x : Int) - 4294967296

/-- A signed result which does not fit is undefined behaviour. -/
def i32 (x : Int) : Option Int := if -2147483648 ≤ x ∧ x < 2147483648 then some x else none

/-- Conversion of an `int` to `uint32_t`. -/
def toU32 (x : Int) : Nat := (x % 4294967296).toNat

/-- `StripesHelper::hardGet`, styles/stripes.h:60-76 (and :39 for the empty helper), for the
pixel `Range(0, w)`.  `weight` and everything multiplied with it is `uint32_t`. -/
def hardGet (w mod : Nat) : List Nat → Nat → Int → Option Int
  | [], _, ret => some ret
  | c :: cs, p, ret => do
    let weight ← (⟨0, w⟩ : Range).stripesR ⟨p, p + 341⟩ mod
    if weight = 0 then hardGet w mod cs (p + 341) ret
    else if weight = (⟨0, w⟩ : Range).size then some c
    else if (⟨0, w⟩ : Range).size = 0 then none
    else
      let weight := u32 (weight * 16384) / (⟨0, w⟩ : Range).size
      hardGet w mod cs (p + 341)
        (clampi32 (s32 (u32 (toU32 ret + u32 (c * weight) / 16384))) 0 65535)

/-- The fields of `StripesBase`, styles/stripes.h:109-112. -/
structure St where
  mult : Nat
  last : Nat
  m : Int
deriving DecidableEq, Repr

/-- `StripesBase::run`, styles/stripes.h:85-94, with `n` colours. -/
def run (n : Nat) (now : Nat) (width speed : Int) (s : St) : Option St := do
  let prod ← i32 (s32 (sub32 now s.last) * speed)
  let sum ← i32 (s.m + prod.tdiv 333)
  let m ← MOD sum (n * 341 * 1024)
  if width = 0 then none
  else some { mult := toU32 ((50000 * 1024 : Int).tdiv width), last := now, m := m }

/-- The position `p` of an LED, styles/stripes.h:97 and :119. -/
def posn (n : Nat) (s : St) (led : Nat) : Nat :=
  u32 (toU32 s.m + u32 (led * s.mult)) / 1024 % (n * 341)

/-- `StripesBase::getColor`, styles/stripes.h:95-104. -/
def getColor (cs : List Nat) (s : St) (led : Nat) : Int :=
  let p : Int := posn cs.length s led
  get cs (p + 341 * cs.length) (get cs p 0)

/-- `HardStripesBase::getColor`, styles/stripes.h:118-126. -/
def hardColor (cs : List Nat) (s : St) (led : Nat) : Option Int :=
  hardGet (s.mult / 1024) (cs.length * 341) cs (posn cs.length s led) 0

/-- Several calls of `run`, at the given times. -/
def runAll (n : Nat) (width speed : Int) : List Nat → St → Option St
  | [], s => some s
  | now :: r, s => (run n now width speed s).bind (runAll n width speed r)

/-! ## Specification

The endless band: slot `k` of the band, for every integer `k`, carries the colour `k mod n`.  Each
slot is lit over 512 units by half a sine wave and slots start every 341 units, so that at most
two of them meet at any point. -/

/-- Brightness of a slot at distance `d` from its start, in units of 1/16384. -/
def wave (d : Int) : Int := if 0 < d ∧ d < 512 then sinAt d.toNat else 0

/-- Light which a colour contributes at distance `d` from the start of its slot. -/
def layer (c : Nat) (d : Int) : Int := ((c : Int) * wave d) / 16384

/-- The colour of slot `k`. -/
def slot (cs : List Nat) (k : Int) : Nat := cs.getD (k % cs.length).toNat 0

/-- The light at point `x` of the endless band. -/
def band (cs : List Nat) (x : Int) : Int :=
  min 65535 (layer (slot cs (x / 341)) (x % 341) + layer (slot cs (x / 341 - 1)) (x % 341 + 341))

/-! ## Lemmas -/

theorem sin_range : ∀ i : Nat, i < 512 → 0 ≤ sinAt i ∧ sinAt i ≤ 16383 := by decide +kernel

theorem sin_step : ∀ i : Nat, i < 512 → sinAt (i+1) - sinAt i ≤ 101 ∧ sinAt i - sinAt (i+1) ≤ 101 := by
  decide +kernel

theorem sin_pair : ∀ i : Nat, i < 341 →
    14204 ≤ sinAt i + (if i + 341 < 512 then sinAt (i + 341) else 0) ∧
    sinAt i + (if i + 341 < 512 then sinAt (i + 341) else 0) ≤ 16411 := by decide +kernel

theorem sin_zero : sinAt 0 = 0 := by decide +kernel
theorem sin_512 : sinAt 512 = 0 := by decide +kernel

theorem wave_range (d : Int) : 0 ≤ wave d ∧ wave d ≤ 16383 := by
  unfold wave
  split
  · exact sin_range d.toNat (by omega)
  · omega

theorem wave_nat (i : Nat) (h : i ≤ 512) : wave i = sinAt i := by
  unfold wave
  by_cases h0 : i = 0
  · subst h0; simp [sin_zero]
  · by_cases h1 : i = 512
    · subst h1; simp [sin_512]
    · rw [if_pos (by omega)]; simp

theorem wave_out (d : Int) (h : d ≤ 0 ∨ 512 ≤ d) : wave d = 0 := by
  unfold wave; rw [if_neg (by omega)]

theorem layer_nonneg (c : Nat) (d : Int) : 0 ≤ layer c d := by
  unfold layer
  have := (wave_range d).1
  have : 0 ≤ (c : Int) * wave d := Int.mul_nonneg (by omega) this
  omega

theorem layer_out (c : Nat) (d : Int) (h : d ≤ 0 ∨ 512 ≤ d) : layer c d = 0 := by
  unfold layer; rw [wave_out d h]; simp

/-- All the light the listed colours contribute, the first starting at 0. -/
def total : List Nat → Int → Int
  | [], _ => 0
  | c :: cs, p => layer c p + total cs (p - 341)

theorem get_eq (cs : List Nat) : ∀ (p ret : Int), 0 ≤ ret → ret ≤ 65535 →
    get cs p ret = min 65535 (ret + total cs p) := by
  induction cs with
  | nil => intro p ret h0 h1; simp only [get, total]; omega
  | cons c cs ih =>
    intro p ret h0 h1
    simp only [get, total]
    have hl := layer_nonneg c p
    by_cases hp : p > 0 ∧ p < 512
    · rw [if_pos hp]
      have e : (c : Int) * sinAt p.toNat / 16384 = layer c p := by
        unfold layer wave; rw [if_pos ⟨hp.1, hp.2⟩]
      rw [e]
      have hc : clampi32 (ret + layer c p) 0 65535 = min 65535 (ret + layer c p) := by
        unfold clampi32; split
        · omega
        · split <;> omega
      rw [hc, ih _ _ (by omega) (by omega)]
      have ht : 0 ≤ total cs (p - 341) := by
        clear ih e hc
        generalize p - 341 = q
        induction cs generalizing q with
        | nil => simp [total]
        | cons a as ih => simp only [total]; have := ih (q - 341); have := layer_nonneg a q; omega
      omega
    · rw [if_neg hp, ih _ _ h0 h1, layer_out c p (by omega)]
      omega

theorem total_nonneg (cs : List Nat) : ∀ q, 0 ≤ total cs q := by
  induction cs with
  | nil => intro q; simp [total]
  | cons a as ih => intro q; simp only [total]; have := ih (q - 341); have := layer_nonneg a q; omega

/-- Only the two slots meeting at a point contribute to it. -/
theorem total_eq (cs : List Nat) : ∀ (k r : Int), 0 ≤ r → r < 341 →
    total cs (341 * k + r) =
      (if 0 ≤ k ∧ k < cs.length then layer (cs.getD k.toNat 0) r else 0) +
      (if 1 ≤ k ∧ k ≤ cs.length then layer (cs.getD (k - 1).toNat 0) (r + 341) else 0) := by
  induction cs with
  | nil =>
    intro k r h0 h1
    simp only [total, List.length_nil]
    rw [if_neg (by omega), if_neg (by omega)]; rfl
  | cons c cs ih =>
    intro k r h0 h1
    simp only [total]
    rw [show 341 * k + r - 341 = 341 * (k - 1) + r by omega, ih _ _ h0 h1]
    simp only [List.length_cons]
    by_cases hk : k < 0
    · rw [layer_out c _ (by omega), if_neg (by omega), if_neg (by omega), if_neg (by omega),
        if_neg (by omega)]; rfl
    · by_cases hk0 : k = 0
      · subst hk0
        rw [if_neg (by omega), if_neg (by omega), if_pos (by omega), if_neg (by omega)]
        simp
      · by_cases hk1 : k = 1
        · subst hk1
          have e : layer c (341 * 1 + r) = layer c (r + 341) := by congr 1; omega
          rw [e]
          rw [if_neg (c := 1 ≤ (1:Int) - 1 ∧ _) (by omega), if_pos (c := 1 ≤ (1:Int) ∧ _) (by omega)]
          by_cases hl : 0 < cs.length
          · rw [if_pos (by omega), if_pos (by omega)]
            simp; omega
          · rw [if_neg (by omega), if_neg (by omega)]
            simp
        · rw [layer_out c _ (by omega)]
          have g1 : (c :: cs).getD k.toNat 0 = cs.getD (k - 1).toNat 0 := by
            rw [show k.toNat = (k - 1).toNat + 1 by omega]; simp
          have g2 : (c :: cs).getD (k - 1).toNat 0 = cs.getD (k - 1 - 1).toNat 0 := by
            rw [show (k - 1).toNat = (k - 1 - 1).toNat + 1 by omega]; simp
          rw [g1, g2]
          have c1 : (0 ≤ k - 1 ∧ k - 1 < (cs.length : Int)) ↔ (0 ≤ k ∧ k < ((cs.length + 1 : Nat) : Int)) := by
            omega
          have c2 : (1 ≤ k - 1 ∧ k - 1 ≤ (cs.length : Int)) ↔ (1 ≤ k ∧ k ≤ ((cs.length + 1 : Nat) : Int)) := by
            omega
          simp only [c1, c2]
          omega

/-- What `getColor` computes at position `p` is the endless band at `p`. -/
theorem get_band (cs : List Nat) (hn : 0 < cs.length) (p : Nat) (hp : p < cs.length * 341) :
    get cs ((p : Int) + 341 * cs.length) (get cs p 0) = band cs p := by
  rw [get_eq cs p 0 (by omega) (by omega)]
  have t1 := total_nonneg cs p
  have t2 := total_nonneg cs ((p : Int) + 341 * cs.length)
  rw [get_eq cs _ _ (by omega) (by omega)]
  unfold band
  obtain ⟨k, hk⟩ : ∃ k : Int, (p : Int) / 341 = k := ⟨_, rfl⟩
  obtain ⟨r, hr⟩ : ∃ r : Int, (p : Int) % 341 = r := ⟨_, rfl⟩
  have hp' : (p : Int) = 341 * k + r := by omega
  have h0 : 0 ≤ r := by omega
  have h1 : r < 341 := by omega
  have hk0 : 0 ≤ k := by omega
  have hkn : k < cs.length := by omega
  rw [hk, hr]
  have e1 : total cs (p : Int) = layer (slot cs k) r +
      (if 1 ≤ k then layer (slot cs (k - 1)) (r + 341) else 0) := by
    rw [hp', total_eq cs k r h0 h1, if_pos ⟨hk0, hkn⟩]
    unfold slot
    rw [Int.emod_eq_of_lt hk0 hkn]
    by_cases h : 1 ≤ k
    · rw [if_pos (by omega), if_pos h, Int.emod_eq_of_lt (by omega) (by omega)]
    · rw [if_neg (by omega), if_neg h]
  have e2 : total cs ((p : Int) + 341 * cs.length) =
      (if 1 ≤ k then 0 else layer (slot cs (k - 1)) (r + 341)) := by
    rw [hp', show 341 * k + r + 341 * (cs.length : Int) = 341 * (k + cs.length) + r by omega,
      total_eq cs _ r h0 h1, if_neg (by omega)]
    by_cases h : 1 ≤ k
    · rw [if_neg (by omega), if_pos h]; rfl
    · have : k = 0 := by omega
      subst this
      rw [if_pos (by omega), if_neg h]
      unfold slot
      have : ((0:Int) - 1) % (cs.length : Int) = (cs.length : Int) - 1 := by
        rw [show (0:Int) - 1 = ((cs.length : Int) - 1) + (cs.length : Int) * (-1) by omega,
          Int.add_mul_emod_self_left, Int.emod_eq_of_lt (by omega) (by omega)]
      rw [this, show (0 + (cs.length : Int) - 1) = (cs.length : Int) - 1 by omega]; omega
  rw [e1, e2]
  by_cases h : 1 ≤ k
  · rw [if_pos h, if_pos h]
    have := layer_nonneg (slot cs k) r
    have := layer_nonneg (slot cs (k-1)) (r+341)
    omega
  · rw [if_neg h, if_neg h]
    have := layer_nonneg (slot cs k) r
    have := layer_nonneg (slot cs (k-1)) (r+341)
    omega

theorem band_period (cs : List Nat) (x j : Int) :
    band cs (x + (cs.length * 341) * j) = band cs x := by
  unfold band
  have e1 : (x + (cs.length * 341 : Int) * j) / 341 = x / 341 + cs.length * j := by
    rw [show (cs.length * 341 : Int) * j = 341 * (cs.length * j) by ring,
      Int.add_mul_ediv_left _ _ (by omega)]
  have e2 : (x + (cs.length * 341 : Int) * j) % 341 = x % 341 := by
    rw [show (cs.length * 341 : Int) * j = 341 * (cs.length * j) by ring,
      Int.add_mul_emod_self_left]
  have es : ∀ k : Int, slot cs (k + cs.length * j) = slot cs k := by
    intro k; unfold slot; rw [Int.add_mul_emod_self_left]
  rw [e1, e2, es, show x / 341 + cs.length * j - 1 = (x / 341 - 1) + cs.length * j by ring, es]

/-! ## Theorems: Stripes -/

/-- Every LED shows the endless band at the point `(m + led * mult) / 1024`: no LED, wherever it is
and wherever the stripes have got to, sees where the list of colours begins or ends. -/
theorem C100_pattern (cs : List Nat) (hn : 0 < cs.length) (s : St) (led : Nat)
    (hm : 0 ≤ s.m) (hfit : s.m + led * s.mult < 4294967296) :
    getColor cs s led = band cs ((s.m + led * s.mult) / 1024) := by
  unfold getColor
  have hL : 0 < cs.length * 341 := by omega
  have hp : posn cs.length s led = ((s.m + led * s.mult) / 1024).toNat % (cs.length * 341) := by
    have h1 : toU32 s.m = s.m.toNat := by
      have : (0:Int) ≤ led * s.mult := by positivity
      unfold toU32; rw [Int.emod_eq_of_lt hm (by omega)]
    have hc : ((led * s.mult : Nat) : Int) = led * s.mult := by push_cast; rfl
    generalize hq : led * s.mult = q at *
    have h2 : u32 q = q := by
      unfold u32 W32; exact Nat.mod_eq_of_lt (by omega)
    have h3 : u32 (s.m.toNat + q) = s.m.toNat + q := by
      unfold u32 W32; exact Nat.mod_eq_of_lt (by omega)
    unfold posn
    rw [hq, h1, h2, h3, ← hc]
    congr 1
    omega
  rw [hp, get_band cs hn _ (Nat.mod_lt _ hL)]
  have hx0 : 0 ≤ (s.m + led * s.mult) / 1024 := by
    have : (0:Int) ≤ led * s.mult := by positivity
    omega
  generalize (s.m + led * s.mult) / 1024 = x at *
  have hd := Int.emod_add_mul_ediv x (cs.length * 341)
  have e : ((x.toNat % (cs.length * 341) : Nat) : Int) = x % (cs.length * 341) := by
    push_cast; rw [Int.toNat_of_nonneg hx0]
  rw [e]
  conv => rhs; rw [← hd]
  rw [band_period]

/-- Two colours, the third LED, somewhere in the middle. -/
example : getColor [65535, 1000] ⟨51200, 0, 300000⟩ 2 = band [65535, 1000] 392 ∧
    band [65535, 1000] 392 = 44314 := by decide +kernel

/-- When the stripes have travelled over the whole list they start again at zero; this cannot be
seen. -/
theorem C100_wrap_unseen (cs : List Nat) (m j q : Int) :
    band cs ((m + (cs.length * 341 * 1024) * j + q) / 1024) = band cs ((m + q) / 1024) := by
  rw [show m + (cs.length * 341 * 1024 : Int) * j + q = (m + q) + 1024 * ((cs.length * 341) * j) by ring,
    Int.add_mul_ediv_left _ _ (by omega), band_period]

/-- Moving by 341 units is the same as rotating the list of colours by one. -/
theorem C100_rotate (c : Nat) (cs : List Nat) (x : Int) :
    band (cs ++ [c]) x = band (c :: cs) (x + 341) := by
  unfold band
  rw [show (x + 341) / 341 = x / 341 + 1 by omega, show (x + 341) % 341 = x % 341 by omega]
  have hs : ∀ k : Int, slot (cs ++ [c]) k = slot (c :: cs) (k + 1) := by
    intro k
    unfold slot
    simp only [List.length_append, List.length_cons, List.length_nil]
    obtain ⟨n, hn⟩ : ∃ n : Int, ((cs.length + 1 : Nat) : Int) = n := ⟨_, rfl⟩
    rw [show cs.length + (0 + 1) = cs.length + 1 by omega, hn]
    have hnp : 0 < n := by omega
    have h0 := Int.emod_nonneg k (show n ≠ 0 by omega)
    have h1 := Int.emod_lt_of_pos k hnp
    have hk : (k + 1) % n = (k % n + 1) % n := by rw [Int.emod_add_emod]
    rw [hk]
    generalize k % n = v at *
    clear hk
    by_cases he : v + 1 = n
    · rw [he, Int.emod_self]
      rw [show v.toNat = cs.length by omega]
      simp
    · rw [Int.emod_eq_of_lt (by omega) (by omega)]
      rw [show (v + 1).toNat = v.toNat + 1 by omega]
      simp only [List.getD_cons_succ]
      rw [List.getD_append _ _ _ _ (by omega)]
  rw [hs, hs]
  rw [show x / 341 - 1 + 1 = x / 341 + 1 - 1 by omega]

/-- The value never leaves the range of a channel. -/
theorem C100_range (cs : List Nat) (x : Int) : 0 ≤ band cs x ∧ band cs x ≤ 65535 := by
  unfold band
  have := layer_nonneg (slot cs (x / 341)) (x % 341)
  have := layer_nonneg (slot cs (x / 341 - 1)) (x % 341 + 341)
  omega

/-- If all the stripes have the same colour the whole blade shows it, with at least 86 percent of
its brightness, and never brighter than 0.2 percent above it: there is no dark gap between
stripes. -/
theorem C100_no_gap (cs : List Nat) (c : Nat) (hn : 0 < cs.length) (hc : c ≤ 65535)
    (hall : ∀ a ∈ cs, a = c) (x : Int) :
    (c : Int) * 14204 ≤ 16384 * (band cs x + 2) ∧ 16384 * band cs x ≤ c * 16411 := by
  have hs : ∀ k : Int, slot cs k = c := by
    intro k
    unfold slot
    have h0 := Int.emod_nonneg k (show (cs.length : Int) ≠ 0 by omega)
    have h1 := Int.emod_lt_of_pos k (show (0 : Int) < cs.length by omega)
    have hlt : (k % (cs.length : Int)).toNat < cs.length := by omega
    rw [List.getD_eq_getElem _ _ hlt]
    exact hall _ (List.getElem_mem hlt)
  unfold band
  rw [hs, hs]
  obtain ⟨r, hr⟩ : ∃ r : Nat, (r : Int) = x % 341 := ⟨(x % 341).toNat, by omega⟩
  have hr1 : r < 341 := by omega
  rw [← hr]
  have w1 : wave (r : Int) = sinAt r := wave_nat r (by omega)
  have w2 : wave ((r : Int) + 341) = if r + 341 < 512 then sinAt (r + 341) else 0 := by
    split
    · have := wave_nat (r + 341) (by omega); push_cast at this; exact this
    · exact wave_out _ (by omega)
  have hp := sin_pair r hr1
  rw [← w1, ← w2] at hp
  have r1 := wave_range (r : Int)
  have r2 := wave_range ((r : Int) + 341)
  unfold layer
  generalize wave (r : Int) = a at *
  generalize wave ((r : Int) + 341) = b at *
  have hlo : (c : Int) * 14204 ≤ c * a + c * b := by nlinarith
  have hhi : (c : Int) * a + c * b ≤ c * 16411 := by nlinarith
  generalize (c : Int) * a = A at *
  generalize (c : Int) * b = B at *
  omega

example : band [65535, 65535] 0 = 56815 ∧ band [65535, 65535] 256 = 65531 := by decide +kernel

theorem layer_step (c : Nat) (hc : c ≤ 65535) (d : Int) :
    layer c (d + 1) - layer c d ≤ 404 ∧ layer c d - layer c (d + 1) ≤ 404 := by
  have hw : wave (d + 1) - wave d ≤ 101 ∧ wave d - wave (d + 1) ≤ 101 := by
    by_cases h : 0 ≤ d ∧ d < 512
    · obtain ⟨i, rfl⟩ : ∃ i : Nat, (i : Int) = d := ⟨d.toNat, by omega⟩
      have e1 := wave_nat i (by omega)
      have e2 := wave_nat (i + 1) (by omega)
      push_cast at e2
      rw [e1, e2]
      exact sin_step i (by omega)
    · rw [wave_out d (by omega), wave_out (d + 1) (by omega)]; omega
  unfold layer
  generalize wave (d + 1) = a at *
  generalize wave d = b at *
  have h1 : (c : Int) * a - c * b ≤ 65535 * 101 := by nlinarith
  have h2 : (c : Int) * b - c * a ≤ 65535 * 101 := by nlinarith
  generalize (c : Int) * a = A at *
  generalize (c : Int) * b = B at *
  omega

/-- The band has no edges: one unit along it the value changes by at most 808 of 65535. -/
theorem C100_smooth (cs : List Nat) (hc : ∀ a ∈ cs, a ≤ 65535) (x : Int) :
    band cs (x + 1) - band cs x ≤ 808 ∧ band cs x - band cs (x + 1) ≤ 808 := by
  have hs : ∀ k : Int, slot cs k ≤ 65535 := by
    intro k
    unfold slot
    by_cases hlt : (k % (cs.length : Int)).toNat < cs.length
    · rw [List.getD_eq_getElem _ _ hlt]
      exact hc _ (List.getElem_mem hlt)
    · rw [List.getD_eq_default _ _ (by omega)]; omega
  unfold band
  by_cases h : x % 341 = 340
  · rw [show (x + 1) / 341 = x / 341 + 1 by omega, show (x + 1) % 341 = 0 by omega, h,
      show x / 341 + 1 - 1 = x / 341 by omega, layer_out _ 0 (by omega), layer_out _ (340 + 341) (by omega)]
    have := layer_step (slot cs (x / 341)) (hs _) 340
    rw [show (340 : Int) + 1 = 0 + 341 by rfl] at this
    omega
  · rw [show (x + 1) / 341 = x / 341 by omega, show (x + 1) % 341 = x % 341 + 1 by omega]
    have a1 := layer_step (slot cs (x / 341)) (hs _) (x % 341)
    have a2 := layer_step (slot cs (x / 341 - 1)) (hs _) (x % 341 + 341)
    rw [show x % 341 + 341 + 1 = x % 341 + 1 + 341 by omega] at a2
    omega

/-! ## Theorems: movement -/

theorem MOD_spec (x M : Int) (hM : 0 < M) : MOD x M = some (x % M) := by
  unfold MOD
  rw [if_neg (by omega)]
  split
  · rename_i h
    rw [Int.tmod_eq_emod_of_nonneg h]
  · rename_i h
    have hb : 0 ≤ Verif.Num.bnot x := by unfold Verif.Num.bnot; omega
    rw [Int.tmod_eq_emod_of_nonneg hb]
    congr 1
    have h1 := Int.emod_add_mul_ediv (Verif.Num.bnot x) M
    have h2 := Int.emod_nonneg (Verif.Num.bnot x) (show M ≠ 0 by omega)
    have h3 := Int.emod_lt_of_pos (Verif.Num.bnot x) hM
    generalize hq : Verif.Num.bnot x / M = q at *
    generalize hr : Verif.Num.bnot x % M = r at *
    unfold Verif.Num.bnot at *
    have hx : x = (M + (-r - 1)) + M * (-q - 1) := by
      have : M * (-q - 1) = -(M * q) - M := by ring
      omega
    rw [hx, Int.add_mul_emod_self_left, Int.emod_eq_of_lt (by omega) (by omega)]

theorem run_some {n now : Nat} {width speed : Int} {s s' : St} (hn : 0 < n)
    (h : run n now width speed s = some s') :
    s'.m = (s.m + (s32 (sub32 now s.last) * speed).tdiv 333) % ((n : Int) * 341 * 1024) ∧
    s'.last = now ∧ s'.mult = toU32 ((51200000 : Int).tdiv width) ∧ width ≠ 0 := by
  unfold run at h
  generalize hP : s32 (sub32 now s.last) * speed = P at *
  rcases h1 : i32 P with _ | P'
  · rw [h1] at h; cases h
  have e1 : P' = P := by
    unfold i32 at h1; split at h1
    · exact (Option.some.inj h1).symm
    · cases h1
  subst e1
  rcases h2 : i32 (s.m + P'.tdiv 333) with _ | Q
  · simp only [h1, h2, bind, Option.bind] at h; cases h
  have e2 : Q = s.m + P'.tdiv 333 := by
    unfold i32 at h2; split at h2
    · exact (Option.some.inj h2).symm
    · cases h2
  have h3 := MOD_spec Q ((n : Int) * 341 * 1024) (by omega)
  simp only [h1, h2, h3, bind, Option.bind] at h
  split at h
  · cases h
  · rename_i hw
    have := Option.some.inj h
    subst this
    exact ⟨by rw [e2], rfl, rfl, hw⟩

/-- The time which passed between the calls. -/
def elapsed : Nat → List Nat → Int
  | _, [] => 0
  | last, now :: r => s32 (sub32 now last) + elapsed now r

theorem tdiv333 (P : Int) : 333 * P.tdiv 333 - P ≤ 332 ∧ P - 333 * P.tdiv 333 ≤ 332 := by
  rcases Int.le_total 0 P with h | h
  · rw [Int.tdiv_eq_ediv_of_nonneg h]; omega
  · rw [show P = -(-P) by omega, Int.neg_tdiv, Int.tdiv_eq_ediv_of_nonneg (by omega)]; omega

/-- After any number of calls the stripes have moved on by `speed / 333` units of 1/1024 per
microsecond, up to less than one unit for each call, and `m` is again within the list of
colours. -/
theorem C100_travel (n : Nat) (hn : 0 < n) (width speed : Int) :
    ∀ (ts : List Nat) (s s' : St), runAll n width speed ts s = some s' →
      ∃ D : Int, s'.m % ((n : Int) * 341 * 1024) = (s.m + D) % ((n : Int) * 341 * 1024) ∧
        333 * D - speed * elapsed s.last ts ≤ 332 * ts.length ∧
        speed * elapsed s.last ts - 333 * D ≤ 332 * ts.length ∧
        (ts ≠ [] → 0 ≤ s'.m ∧ s'.m < (n : Int) * 341 * 1024) := by
  intro ts
  induction ts with
  | nil =>
    intro s s' h
    simp only [runAll, Option.some.injEq] at h
    subst h
    exact ⟨0, by simp, by simp [elapsed], by simp [elapsed], by simp⟩
  | cons now r ih =>
    intro s s' h
    simp only [runAll] at h
    rcases h1 : run n now width speed s with _ | s1
    · rw [h1] at h; cases h
    · rw [h1] at h
      simp only [Option.bind] at h
      obtain ⟨D, hD, hle, hge, hb⟩ := ih s1 s' h
      obtain ⟨hm, hl, _, _⟩ := run_some hn h1
      have hM : (0 : Int) < (n : Int) * 341 * 1024 := by omega
      refine ⟨(s32 (sub32 now s.last) * speed).tdiv 333 + D, ?_, ?_, ?_, ?_⟩
      · rw [hD, hm, Int.emod_add_emod]; congr 1; ring
      · simp only [elapsed, List.length_cons]
        rw [hl] at hle hge
        rw [show ∀ a b : Int, speed * (a + b) = a * speed + speed * b by intro a b; ring]
        generalize s32 (sub32 now s.last) * speed = P at *
        generalize speed * elapsed now r = E at *
        have := tdiv333 P
        push_cast; omega
      · simp only [elapsed, List.length_cons]
        rw [hl] at hle hge
        rw [show ∀ a b : Int, speed * (a + b) = a * speed + speed * b by intro a b; ring]
        generalize s32 (sub32 now s.last) * speed = P at *
        generalize speed * elapsed now r = E at *
        have := tdiv333 P
        push_cast; omega
      · intro _
        rcases r with _ | ⟨a, r⟩
        · simp only [runAll, Option.some.injEq] at h
          subst h
          rw [hm]
          exact ⟨Int.emod_nonneg _ (by omega), Int.emod_lt_of_pos _ hM⟩
        · exact hb (by simp)

example : (runAll 3 1000 2000 [1000, 2500, 5000] ⟨0, 0, 5⟩).map (·.m) = some (5 + 6006 + 9009 + 15015) := by
  decide +kernel

/-- `run` is well defined if the time since the last call and the speed are not too large. -/
theorem C100_defined (n : Nat) (hn : 0 < n) (hn' : n ≤ 6000) (now : Nat) (width speed : Int) (s : St)
    (hw : width ≠ 0) (hm : 0 ≤ s.m ∧ s.m < (n : Int) * 341 * 1024)
    (hp : -2147483648 ≤ s32 (sub32 now s.last) * speed ∧ s32 (sub32 now s.last) * speed < 2147483648) :
    ∃ s', run n now width speed s = some s' := by
  unfold run
  generalize s32 (sub32 now s.last) * speed = P at *
  have h2 : i32 P = some P := by unfold i32; rw [if_pos (by omega)]
  have hq : -6448900 ≤ P.tdiv 333 ∧ P.tdiv 333 ≤ 6448900 := by
    rcases Int.le_total 0 P with h | h
    · rw [Int.tdiv_eq_ediv_of_nonneg h]; omega
    · rw [show P = -(-P) by omega, Int.neg_tdiv, Int.tdiv_eq_ediv_of_nonneg (by omega)]; omega
  have h3 : i32 (s.m + P.tdiv 333) = some (s.m + P.tdiv 333) := by
    unfold i32; rw [if_pos (by omega)]
  have h4 := MOD_spec (s.m + P.tdiv 333) ((n : Int) * 341 * 1024) (by omega)
  simp only [bind, Option.bind, h2, h3, h4, hw, if_false]
  exact ⟨_, rfl⟩

/-- After 2.2 seconds without a call, at the recommended speed of 1000, the multiplication
overflows. -/
theorem C100_gap_counterexample : run 2 2200000 1000 1000 ⟨51200, 0, 0⟩ = none := by decide +kernel

/-- At a speed of 1 and calls every 300 microseconds, the stripes never move, however long one
waits. -/
theorem C100_frozen_counterexample (s s' : St) (now : Nat) (width : Int)
    (hd : 0 ≤ s32 (sub32 now s.last) ∧ s32 (sub32 now s.last) ≤ 300)
    (hm : 0 ≤ s.m ∧ s.m < 2 * 341 * 1024) (h : run 2 now width 1 s = some s') : s'.m = s.m := by
  obtain ⟨h1, _⟩ := run_some (by omega) h
  rw [h1]
  generalize s32 (sub32 now s.last) = d at *
  rw [show (d * 1).tdiv 333 = 0 by rw [Int.tdiv_eq_ediv_of_nonneg (by omega)]; omega]
  rw [Int.add_zero, Int.emod_eq_of_lt (by omega) (by omega)]

/-- With a width of 1 the position of LED 84 no longer fits 32 bits, and the band shows
an edge there: LED 84 of a blade is not the continuation of LED 83. -/
theorem C100_fit_counterexample :
    getColor [0, 65535, 0] ⟨51200000, 0, 0⟩ 84 ≠ band [0, 65535, 0] ((0 + 84 * 51200000) / 1024) := by
  decide +kernel

/-! ## Theorems: HardStripes -/

theorem size0 (w : Nat) (hw : w < W32) : (⟨0, w⟩ : Range).size = w := by
  unfold Range.size sub32
  unfold W32 at *
  simp only
  split <;> omega

/-- Weight of a stripe which starts at or before the end of the list of colours. -/
theorem weight_eq (w st L : Nat) (hL : 341 ≤ L) (hst : st ≤ L) (hb : w + L + 341 < W32) :
    (⟨0, w⟩ : Range).stripesR ⟨st, st + 341⟩ L =
      some (Verif.Num.countIn (fun x => decide ((x + (L - st)) % L < 341)) 0 w) := by
  have := Verif.Num.C20_stripes_general ⟨0, w⟩ ⟨st, st + 341⟩ L (by omega) hst (by simp) (by simp; omega)
    (by simp) (by simp only; omega) (by simp only; omega)
  rw [this]
  congr 2
  funext x
  congr 3
  simp

theorem count_all (f : Nat → Bool) (w : Nat) (h : ∀ x, x < w → f x = true) :
    Verif.Num.countIn f 0 w = w := by
  rw [Verif.Num.countIn_eq _ _ _ (by omega)]
  simp only [Verif.Num.countBelow, Nat.sub_zero]
  induction w with
  | zero => rfl
  | succ w ih =>
    simp only [Verif.Num.countBelow]
    rw [ih (fun x hx => h x (by omega)), h w (by omega)]; simp

theorem count_none (f : Nat → Bool) (w : Nat) (h : ∀ x, x < w → f x = false) :
    Verif.Num.countIn f 0 w = 0 := by
  rw [Verif.Num.countIn_eq _ _ _ (by omega)]
  simp only [Verif.Num.countBelow, Nat.sub_zero]
  induction w with
  | zero => rfl
  | succ w ih =>
    simp only [Verif.Num.countBelow]
    rw [ih (fun x hx => h x (by omega)), h w (by omega)]; simp

theorem hard_skip (w L c p : Nat) (cs : List Nat) (ret : Int)
    (h : (⟨0, w⟩ : Range).stripesR ⟨p, p + 341⟩ L = some 0) :
    hardGet w L (c :: cs) p ret = hardGet w L cs (p + 341) ret := by
  simp only [hardGet, h, bind, Option.bind, if_true]

theorem hard_full (w L c p : Nat) (cs : List Nat) (ret : Int) (hw : 0 < w) (hb : w < W32)
    (h : (⟨0, w⟩ : Range).stripesR ⟨p, p + 341⟩ L = some w) :
    hardGet w L (c :: cs) p ret = some (c : Int) := by
  simp only [hardGet, h, bind, Option.bind]
  rw [if_neg (by omega), size0 w hb, if_pos rfl]

theorem hard_inside_aux (w L : Nat) (hw : 0 < w) (hb : w + L + 341 < W32) (hL : 341 ≤ L) :
    ∀ (cs : List Nat) (p j : Nat) (ret : Int), j < cs.length → w ≤ p →
      p + 341 * j ≤ L → L + w ≤ p + 341 * (j + 1) →
      hardGet w L cs p ret = some ((cs.getD j 0 : Nat) : Int) := by
  intro cs
  induction cs with
  | nil => intro p j ret hj; exact absurd hj (Nat.not_lt_zero _)
  | cons c cs ih =>
    intro p j ret hj hp h1 h2
    rcases j with _ | j
    · have hwt := weight_eq w p L hL (by omega) hb
      rw [count_all _ _ (by
        intro x hx
        rw [decide_eq_true_eq, Nat.mod_eq_of_lt (by omega)]; omega)] at hwt
      rw [hard_full w L c p cs ret hw (by omega) hwt]; simp
    · have hwt := weight_eq w p L hL (by omega) hb
      rw [count_none _ _ (by
        intro x hx
        rw [decide_eq_false_iff_not, Nat.mod_eq_of_lt (by omega)]; omega)] at hwt
      have g1 : p + 341 + 341 * j ≤ L := by omega
      have g2 : L + w ≤ p + 341 + 341 * (j + 1) := by
        rw [Nat.mul_add, Nat.mul_one, ← Nat.add_assoc] at h2; linarith
      have g3 : w ≤ p + 341 := Nat.le_trans hp (Nat.le_add_right _ _)
      rw [hard_skip w L c p cs ret hwt, ih (p + 341) j ret (Nat.lt_of_succ_lt_succ hj) g3 g1 g2]
      rfl

/-- HardStripes, away from the edges: an LED which lies completely inside a stripe shows exactly
the colour of this stripe.  The LED covers `[0, w)`, stripe `j` covers `[p + 341 j, p + 341 (j+1))`
and everything repeats after the `341 n` units of all the stripes. -/
theorem C100_hard_inside (cs : List Nat) (s : St) (led j : Nat) (hj : j < cs.length)
    (hn : cs.length ≤ 1000000) (w p : Nat) (hw : w = s.mult / 1024) (hp : p = posn cs.length s led)
    (hw0 : 0 < w) (hm : s.mult < 4294967296)
    (hin : ∃ e : Int, (p : Int) + 341 * j ≤ e * (cs.length * 341) ∧
      e * (cs.length * 341) + w ≤ (p : Int) + 341 * (j + 1)) :
    hardColor cs s led = some ((cs.getD j 0 : Nat) : Int) := by
  have hpl : p < cs.length * 341 := by
    rw [hp]; unfold posn; exact Nat.mod_lt _ (by omega)
  unfold hardColor
  rw [← hw, ← hp]
  obtain ⟨e, h1, h2⟩ := hin
  have hb : w + cs.length * 341 + 341 < W32 := by unfold W32; omega
  have he0 : 0 ≤ e := by
    by_contra hh
    have : e * ((cs.length : Int) * 341) ≤ (-1) * ((cs.length : Int) * 341) :=
      Int.mul_le_mul_of_nonneg_right (by omega) (by omega)
    omega
  have he1 : e ≤ 1 := by
    by_contra hh
    have : 2 * ((cs.length : Int) * 341) ≤ e * ((cs.length : Int) * 341) :=
      Int.mul_le_mul_of_nonneg_right (by omega) (by omega)
    omega
  obtain rfl | rfl : e = 0 ∨ e = 1 := by omega
  · have hp0 : p = 0 := by omega
    have hj0 : j = 0 := by omega
    rw [hp0, hj0]
    rcases cs with _ | ⟨c, cs⟩
    · simp at hj
    · have hl : 341 ≤ (c :: cs).length * 341 := by omega
      have hwt := weight_eq w 0 ((c :: cs).length * 341) hl (by omega) hb
      rw [count_all _ _ (by
        intro x hx
        rw [decide_eq_true_eq, Nat.sub_zero, Nat.add_mod_right, Nat.mod_eq_of_lt (by omega)]
        omega)] at hwt
      rw [hard_full w _ c 0 cs 0 hw0 (by omega) hwt]; simp
  · exact hard_inside_aux w _ hw0 hb (by omega) cs p j 0 hj (by omega) (by omega) (by omega)

example : hardColor [10, 20, 30] ⟨51200, 0, 0⟩ 3 = some 30 ∧ posn 3 ⟨51200, 0, 0⟩ 3 = 150 ∧
    (150 : Int) + 341 * 2 ≤ 1 * (3 * 341) ∧ 1 * (3 * 341) + (50 : Int) ≤ 150 + 341 * 3 := by decide +kernel

/-- The mixing of `hardGet` for a partial weight. -/
theorem hard_mix (w L c p k : Nat) (cs : List Nat) (ret : Int) (hk : 0 < k) (hkw : k < w)
    (hw : w ≤ 341) (hc : c ≤ 65535) (hr : 0 ≤ ret ∧ ret ≤ 65535)
    (h : (⟨0, w⟩ : Range).stripesR ⟨p, p + 341⟩ L = some k) :
    hardGet w L (c :: cs) p ret =
      hardGet w L cs (p + 341) (min 65535 (ret + ((c * (k * 16384 / w) / 16384 : Nat) : Int))) := by
  have hb : w < W32 := by unfold W32; omega
  simp only [hardGet, h, bind, Option.bind]
  rw [if_neg (by omega), size0 w hb, if_neg (by omega), if_neg (by omega)]
  have e1 : u32 (k * 16384) = k * 16384 := by unfold u32 W32; exact Nat.mod_eq_of_lt (by omega)
  have hq : k * 16384 / w ≤ 16384 := by
    apply Nat.div_le_of_le_mul
    have : k * 16384 ≤ w * 16384 := Nat.mul_le_mul_right _ (by omega)
    omega
  rw [e1]
  generalize k * 16384 / w = q at *
  have hcq : c * q ≤ 65535 * 16384 := Nat.mul_le_mul hc hq
  have e2 : u32 (c * q) = c * q := by unfold u32 W32; exact Nat.mod_eq_of_lt (by omega)
  rw [e2]
  generalize hz : c * q / 16384 = z
  have hz' : z ≤ 65535 := by omega
  congr 1
  have e3 : toU32 ret = ret.toNat := by unfold toU32; rw [Int.emod_eq_of_lt hr.1 (by omega)]
  have e4 : u32 (ret.toNat + z) = ret.toNat + z := by unfold u32 W32; exact Nat.mod_eq_of_lt (by omega)
  rw [e3, e4]
  have e5 : s32 (ret.toNat + z) = ret + z := by unfold s32; rw [if_pos (by omega)]; omega
  rw [e5]
  unfold clampi32
  split
  · omega
  · split <;> omega

theorem hard_tail (w L p cl : Nat) (hw : w ≤ 341) (hb : w + L + 341 < W32) (hp : 0 < p) (hpw : p < w)
    (hcl : cl ≤ 65535) :
    ∀ (cs : List Nat) (st : Nat) (ret : Int), 0 ≤ ret → ret ≤ 65535 → 341 ≤ st →
      st + 341 * cs.length + 341 = L + p →
      hardGet w L (cs ++ [cl]) st ret =
        some (min 65535 (ret + ((cl * (p * 16384 / w) / 16384 : Nat) : Int))) := by
  intro cs
  induction cs with
  | nil =>
    intro st ret h0 h1 hst hL
    simp only [List.length_nil, List.nil_append] at *
    have hwt := weight_eq w st L (by omega) (by omega) hb
    have hc : Verif.Num.countIn (fun x => decide ((x + (L - st)) % L < 341)) 0 w = p := by
      rw [Verif.Num.countIn_eq _ _ _ (by omega)]
      simp only [Verif.Num.countBelow, Nat.sub_zero]
      have key : ∀ v, v ≤ w → Verif.Num.countBelow (fun x => decide ((x + (L - st)) % L < 341)) v = min v p := by
        intro v
        induction v with
        | zero => intro _; simp [Verif.Num.countBelow]
        | succ v ih =>
          intro hv
          simp only [Verif.Num.countBelow]
          rw [ih (by omega)]
          simp only [decide_eq_true_eq]
          rw [Nat.mod_eq_of_lt (by omega)]
          split <;> omega
      rw [key w (by omega)]; omega
    rw [hc] at hwt
    rw [hard_mix w L cl st p [] ret hp hpw hw hcl ⟨h0, h1⟩ hwt]
    rfl
  | cons c cs ih =>
    intro st ret h0 h1 hst hL
    simp only [List.length_cons, List.cons_append] at *
    have hwt := weight_eq w st L (by omega) (by omega) hb
    rw [count_none _ _ (by
      intro x hx
      rw [decide_eq_false_iff_not, Nat.mod_eq_of_lt (by omega)]; omega)] at hwt
    rw [hard_skip w L c st _ ret hwt]
    exact ih (st + 341) ret h0 h1 (by omega) (by omega)

/-- HardStripes at the edge between the last and the first colour: an LED of width `w`, of which
the first `p` units belong to the last colour and the rest to the first, shows both in this
proportion.  This is what every edge should look like; for the other edges see
`C100_edge_counterexample`. -/
theorem C100_edge_partial (c cl : Nat) (cs : List Nat) (hc : c ≤ 65535) (hcl : cl ≤ 65535)
    (hn : cs.length ≤ 1000000) (s : St) (led w p : Nat) (hw : w = s.mult / 1024)
    (hp : p = posn (cs.length + 2) s led) (hw1 : w ≤ 341) (hp0 : 0 < p) (hpw : p < w) :
    hardColor (c :: cs ++ [cl]) s led = some (min 65535 (
      ((c * ((w - p) * 16384 / w) / 16384 : Nat) : Int) + ((cl * (p * 16384 / w) / 16384 : Nat) : Int))) := by
  unfold hardColor
  have hl : (c :: cs ++ [cl]).length = cs.length + 2 := by simp
  rw [hl, ← hw, ← hp]
  obtain ⟨L, hL⟩ : ∃ L, (cs.length + 2) * 341 = L := ⟨_, rfl⟩
  rw [hL]
  have hb : w + L + 341 < W32 := by unfold W32; omega
  have hwt := weight_eq w p L (by omega) (by omega) hb
  have hcnt : Verif.Num.countIn (fun x => decide ((x + (L - p)) % L < 341)) 0 w = w - p := by
    rw [Verif.Num.countIn_eq _ _ _ (by omega)]
    simp only [Verif.Num.countBelow, Nat.sub_zero]
    have key : ∀ v, v ≤ w → Verif.Num.countBelow (fun x => decide ((x + (L - p)) % L < 341)) v = v - p := by
      intro v
      induction v with
      | zero => intro _; simp [Verif.Num.countBelow]
      | succ v ih =>
        intro hv
        simp only [Verif.Num.countBelow]
        rw [ih (by omega)]
        simp only [decide_eq_true_eq]
        by_cases hvp : v < p
        · rw [Nat.mod_eq_of_lt (by omega)]
          split <;> omega
        · rw [show v + (L - p) = (v - p) + L by omega, Nat.add_mod_right, Nat.mod_eq_of_lt (by omega)]
          split <;> omega
    exact key w (by omega)
  rw [hcnt] at hwt
  rw [List.cons_append, hard_mix w L c p (w - p) _ 0 (by omega) (by omega) hw1 hc (by omega) hwt]
  have hcq : c * ((w - p) * 16384 / w) ≤ 65535 * 16384 := by
    apply Nat.mul_le_mul hc
    apply Nat.div_le_of_le_mul
    have : (w - p) * 16384 ≤ w * 16384 := Nat.mul_le_mul_right _ (by omega)
    omega
  generalize c * ((w - p) * 16384 / w) = z at *
  rw [hard_tail w L p cl hw1 hb hp0 hpw hcl cs (p + 341) _ (by omega) (by omega) (by omega) (by omega)]
  congr 1
  omega

example : hardColor [1000, 5, 3000] ⟨51200, 0, 20 * 1024⟩ 0 = some (599 + 1199) ∧
    posn 3 ⟨51200, 0, 20 * 1024⟩ 0 = 20 := by decide +kernel

/-- Every other edge is computed wrongly, as `mod - stripe.start` is negative there: with three
dim stripes of one and the same colour, the LEDs at the edges flash in full brightness. -/
theorem C100_edge_counterexample :
    hardColor [1000, 1000, 1000] ⟨51200, 0, 350 * 1024⟩ 0 = some 65535 ∧
    posn 3 ⟨51200, 0, 350 * 1024⟩ 0 = 350 ∧
    (350 + 341 * 2 = 3 * 341 + 9) := by decide +kernel

/-- With a width above 50000 the LED covers no whole unit, and HardStripes stays dark whatever the
colours. -/
theorem C100_wide_counterexample (now : Nat) (s s' : St) (cs : List Nat) (led : Nat) (width : Int)
    (speed : Int) (hn : 0 < cs.length) (hw : 50000 < width) (h : run cs.length now width speed s = some s') :
    hardColor cs s' led = some 0 := by
  obtain ⟨_, _, hm, _⟩ := run_some hn h
  have h0 : s'.mult / 1024 = 0 := by
    rw [hm, Int.tdiv_eq_ediv_of_nonneg (by omega)]
    have hq : (51200000 : Int) / width < 1024 := Int.ediv_lt_of_lt_mul (by omega) (by omega)
    have hq0 : 0 ≤ (51200000 : Int) / width := Int.ediv_nonneg (by omega) (by omega)
    unfold toU32
    rw [Int.emod_eq_of_lt hq0 (by omega)]
    omega
  unfold hardColor
  rw [h0]
  have hL : 0 < cs.length * 341 := by omega
  generalize cs.length * 341 = L at *
  generalize posn cs.length s' led = p
  have key : ∀ (cs : List Nat) (p : Nat), hardGet 0 L cs p 0 = some 0 := by
    intro cs
    induction cs with
    | nil => intro p; rfl
    | cons c cs ih =>
      intro p
      rw [hard_skip 0 L c p cs 0 ?_, ih]
      unfold Range.stripesR Range.stripesW
      simp only []
      unfold Verif.Num.stripes0
      rw [if_neg (by omega)]
      simp only [bind, Option.bind, pure]
      congr 1
      generalize u32 _ = z
      unfold sub32 W32
      omega
  exact key cs p

end Verif.Style.Stripes
