import Mathlib.Algebra.Order.Field.Basic
import Mathlib.Algebra.Order.Floor.Ring
import Mathlib.Data.Rat.Floor
import Mathlib.Tactic.Linarith
import Mathlib.Tactic.Ring
import Verif.Pov.RleProps
/-!
# Pictures drawn in the air (C137)

Model of styles/pov.h: decoding a column of the picture, which column is shown at which angle, and which pixel is lit by which row.  `float` is
idealised as the rational numbers.  An access outside of a table or buffer is `none`.
-/
namespace Verif.Style.Pov

/-- Copying from what was written before, byte by byte, styles/pov.h:74-78. -/
def copyBack (off : Nat) : Nat → List Nat → Option (List Nat)
  | 0, out => some out
  | k + 1, out => if off ≤ out.length then (out[out.length - off]?).bind fun b => copyBack off k (out ++ [b]) else none

/-- What follows one token: none if more was written than there is room for. -/
def fits (n : Nat) (out : List Nat) : Option (List Nat) := if out.length ≤ n then some out else none

/-- `rle_decode`, styles/pov.h:64-92; `fuel` bounds the number of tokens (each takes at least two bytes). -/
def decode (n : Nat) : Nat → List Nat → List Nat → Option (List Nat)
  | 0, _, out => if n ≤ out.length then some out else none
  | fuel + 1, inp, out =>
    if n ≤ out.length then some out else
    match inp with
    | [] => none
    | c :: r =>
      if c = 255 then
        match r with
        | o :: len :: r => ((copyBack (o + 1) len out).bind (fits n)).bind (decode n fuel r)
        | _ => none
      else if c < 128 then
        if r.length < c + 1 then none else (fits n (out ++ r.take (c + 1))).bind (decode n fuel (r.drop (c + 1)))
      else
        match r with
        | b :: r => (fits n (out ++ List.replicate (c - 128 + 2) b)).bind (decode n fuel r)
        | [] => none

/-! ### What the bytes are to mean -/

/-- A piece of a column: bytes as they are, a byte several times, or a repetition of what was `off` bytes before. -/
inductive Tok
  | lit (l : List Nat)
  | rep (b k : Nat)
  | back (off len : Nat)

/-- the pieces that can be written -/
def Tok.ok : Tok → Prop
  | .lit l => 1 ≤ l.length ∧ l.length ≤ 128
  | .rep _ k => 2 ≤ k ∧ k ≤ 128
  | .back off len => 1 ≤ off ∧ off ≤ 256 ∧ len ≤ 255

/-- how they are written -/
def Tok.enc : Tok → List Nat
  | .lit l => (l.length - 1) :: l
  | .rep b k => [126 + k, b]
  | .back off len => [255, off - 1, len]

/-- `new` is what the column is after the piece, if it was `old` before. -/
def Tok.adds (old new : List Nat) : Tok → Prop
  | .lit l => new = old ++ l
  | .rep b k => new = old ++ List.replicate k b
  | .back off len => off ≤ old.length ∧ new.length = old.length + len ∧ (∀ i < old.length, new[i]? = old[i]?) ∧
      ∀ i < len, new[old.length + i]? = new[old.length + i - off]?

/-- the column made of the pieces -/
inductive Column : List Nat → List Tok → List Nat → Prop
  | nil (out) : Column out [] out
  | cons {out mid fin t l} : t.ok → t.adds out mid → Column mid l fin → Column out (t :: l) fin

theorem copyBack_eq (off : Nat) (h0 : 1 ≤ off) : ∀ (k : Nat) (old new : List Nat), off ≤ old.length → new.length = old.length + k →
    (∀ i < old.length, new[i]? = old[i]?) → (∀ i < k, new[old.length + i]? = new[old.length + i - off]?) → copyBack off k old = some new
  | 0, old, new, _, h2, h3, _ => by
    have : new = old := List.ext_getElem? fun i => by
      by_cases hi : i < old.length
      · exact h3 i hi
      · rw [List.getElem?_eq_none (by omega), List.getElem?_eq_none (by omega)]
    rw [this]; rfl
  | k + 1, old, new, h1, h2, h3, h4 => by
    have hlt : old.length - off < old.length := by omega
    have hb : old[old.length - off]? = some old[old.length - off] := List.getElem?_eq_getElem hlt
    rw [copyBack, if_pos h1, hb, Option.bind_some]
    have hn : new[old.length]? = some old[old.length - off] := by
      have := h4 0 (by omega)
      rw [Nat.add_zero] at this
      rw [this, h3 _ hlt, hb]
    refine copyBack_eq off h0 k _ new (by simp; omega) (by simp; omega) (fun i hi => ?_) (fun i hi => ?_)
    · by_cases hi2 : i < old.length
      · rw [List.getElem?_append_left hi2]; exact h3 i hi2
      · have : i = old.length := by simp at hi; omega
        subst this; rw [hn]; simp
    · have := h4 (i + 1) (by omega)
      rw [List.length_append, List.length_singleton]
      rwa [show old.length + 1 + i = old.length + (i + 1) by omega]

theorem adds_length {old new : List Nat} {t : Tok} (h : t.adds old new) : old.length ≤ new.length := by
  cases t with
  | lit l => rw [show new = old ++ l from h]; simp
  | rep b k => rw [show new = old ++ List.replicate k b from h]; simp
  | back off len => have := h.2.1; omega

theorem column_length {l : List Tok} {old new : List Nat} (h : Column old l new) : old.length ≤ new.length := by
  induction h with
  | nil => exact Nat.le_refl _
  | cons _ h2 _ ih => exact Nat.le_trans (adds_length h2) ih

theorem adds_eq {old new : List Nat} {l : List Tok} (h : Column old l new) (hl : new.length ≤ old.length) : new = old := by
  induction h with
  | nil => rfl
  | cons hok h2 h3 ih =>
    rename_i out mid fin t l
    have e := column_length h3
    have e2 := adds_length h2
    rw [ih (by omega)]
    cases t with
    | lit x => have h2 : mid = out ++ x := h2; have := hok.1; rw [h2, List.length_append] at e; omega
    | rep b k => have h2 : mid = out ++ List.replicate k b := h2; have := hok.1; rw [h2, List.length_append, List.length_replicate] at e; omega
    | back off len =>
      obtain ⟨_, h5, h6, _⟩ := h2
      exact List.ext_getElem? fun i => by
        by_cases hi : i < out.length
        · exact h6 i hi
        · rw [List.getElem?_eq_none (by omega), List.getElem?_eq_none (by omega)]

theorem decode_column {l : List Tok} {old new : List Nat} (h : Column old l new) (rest : List Nat) (fuel : Nat) (hf : l.length ≤ fuel) :
    decode new.length fuel (l.flatMap Tok.enc ++ rest) old = some new := by
  induction h generalizing fuel with
  | nil => cases fuel <;> simp [decode]
  | cons hok h2 h3 ih =>
    rename_i out mid fin t l
    obtain ⟨fuel, rfl⟩ : ∃ f, fuel = f + 1 := ⟨fuel - 1, by simp at hf; omega⟩
    have e := column_length h3
    have ih := ih fuel (by simpa using hf)
    rw [decode.eq_def]
    dsimp only
    by_cases hfull : fin.length ≤ out.length
    · rw [if_pos hfull, adds_eq (.cons hok h2 h3) hfull]
    · rw [if_neg hfull]
      have hfit : fits fin.length mid = some mid := by simp [fits, e]
      cases t with
      | lit x =>
        have h2 : mid = out ++ x := h2
        obtain ⟨k1, k2⟩ := hok
        simp only [List.flatMap_cons, Tok.enc, List.cons_append, List.append_assoc]
        rw [if_neg (by omega), if_pos (by omega), if_neg (by rw [List.length_append]; omega), show x.length - 1 + 1 = x.length by omega,
          List.take_left, List.drop_left, ← h2, hfit]
        exact ih
      | rep b k =>
        have h2 : mid = out ++ List.replicate k b := h2
        obtain ⟨k1, k2⟩ := hok
        simp only [List.flatMap_cons, Tok.enc, List.cons_append, List.nil_append]
        rw [if_neg (by omega), if_neg (by omega), show 126 + k - 128 + 2 = k by omega, ← h2, hfit]
        exact ih
      | back off len =>
        obtain ⟨k1, k2, k3⟩ := hok
        obtain ⟨h5, h6, h7, h8⟩ := h2
        simp only [List.flatMap_cons, Tok.enc, List.cons_append, List.nil_append, if_true]
        rw [show off - 1 + 1 = off by omega, copyBack_eq off k1 len out mid h5 h6 h7 h8, Option.bind_some, hfit]
        exact ih

/-- A column is decoded to just what its pieces say, whatever follows it in the table, without writing outside the buffer or reading beyond. -/
theorem C137_decode (l : List Tok) (col rest : List Nat) (h : Column [] l col) (fuel : Nat) (hf : l.length ≤ fuel) :
    decode col.length fuel (l.flatMap Tok.enc ++ rest) [] = some col := decode_column h rest fuel hf

/-- Two dark bytes, a byte as it is, then the last two again, for five bytes: 0 0 7 0 7 0 7 0. -/
example : Column [] [.rep 0 2, .lit [7], .back 2 5] [0, 0, 7, 0, 7, 0, 7, 0] := by
  refine .cons (mid := [0, 0]) ⟨by decide, by decide⟩ rfl (.cons (mid := [0, 0, 7]) ⟨by decide, by decide⟩ rfl (.cons ⟨by decide, by decide, by decide⟩ ⟨by decide, rfl, ?_, ?_⟩ (.nil _))) <;> decide

example : decode 8 3 [128, 0, 0, 7, 255, 1, 5, 99] [] = some [0, 0, 7, 0, 7, 0, 7, 0] := by decide

/-- Nothing keeps a piece that goes beyond the end of the column from being written beyond the buffer. -/
theorem C137_overrun_counterexample (n k b : Nat) (fuel : Nat) (rest : List Nat) (h0 : 0 < n) (hk : 2 ≤ k) (hk2 : k ≤ 128) (h : n < k) :
    decode n (fuel + 1) (Tok.enc (.rep b k) ++ rest) [] = none := by
  rw [decode.eq_def]
  dsimp only
  rw [if_neg (by simp; omega)]
  simp only [Tok.enc, List.cons_append, List.nil_append]
  rw [if_neg (by omega), if_neg (by omega), fits, if_neg (by simp; omega)]
  rfl

example : decode 3 5 [130, 9, 0, 0] [] = none := by decide

theorem copyBack_same (off : Nat) (k : Nat) (out : List Nat) : Verif.Pov.copyBack off k out = copyBack off k out := by
  induction k generalizing out with
  | zero => rfl
  | succ k ih =>
    rw [Verif.Pov.copyBack, copyBack]
    by_cases h : out.length < off
    · rw [if_pos h, if_neg (by omega)]
    · rw [if_neg h, if_pos (by omega)]
      cases out[out.length - off]? with
      | none => rfl
      | some b => exact ih _

theorem loop_same (n fuel : Nat) (inp out : List Nat) : Verif.Pov.decLoop n fuel out inp = decode n fuel inp out := by
  induction fuel generalizing inp out with
  | zero =>
    rw [Verif.Pov.decLoop, decode.eq_def]
    dsimp only
    by_cases h : out.length < n
    · rw [if_pos h, if_neg (by omega)]
    · rw [if_neg h, if_pos (by omega)]
  | succ fuel ih =>
    rw [Verif.Pov.decLoop, decode.eq_def]
    dsimp only
    by_cases h : out.length < n
    · rw [if_pos h, if_neg (by omega)]
      have hfit : Verif.Pov.checkLen n = fits n := rfl
      have hb : ∀ (x : Option (List Nat)) (r : List Nat),
          ((x.bind fun o => some (o, r)).bind fun q : List Nat × List Nat => Verif.Pov.decLoop n fuel q.1 q.2) = x.bind (decode n fuel r) := by
        intro x r
        cases x with
        | none => rfl
        | some x => exact ih _ _
      cases inp with
      | nil => rfl
      | cons c r =>
        simp only [Verif.Pov.decStep]
        by_cases h1 : c = 255
        · simp only [if_pos h1]
          cases r with
          | nil => rfl
          | cons o r =>
            cases r with
            | nil => rfl
            | cons l r =>
              simp only [hfit, copyBack_same]
              rw [← hb]
              cases copyBack (o + 1) l out <;> rfl
        · simp only [if_neg h1]
          by_cases h2 : c < 128
          · simp only [if_pos h2]
            by_cases h3 : r.length < c + 1
            · simp only [if_pos h3]; rfl
            · simp only [if_neg h3, hfit]
              exact hb _ _
          · simp only [if_neg h2]
            cases r with
            | nil => rfl
            | cons b r => exact hb _ _
    · rw [if_neg h, if_pos (by omega)]

/-- What the picture tool encodes (pov_tools/rle.h), the blade decodes: each column is shown as it was drawn.  Pictures in which something repeats for more than
255 bytes, which the tool encodes wrongly (C43), are excepted. -/
theorem C137_tool_partial (col rest : List Nat) (h : Verif.Pov.NoLongRepeat col) :
    decode col.length (Verif.Pov.encode col ++ rest).length (Verif.Pov.encode col ++ rest) [] = some col := by
  rw [← loop_same]; exact Verif.Pov.C43_roundtrip_partial col h rest

/-- All columns of at most 256 bytes are so, as is any picture of the usual height of 144. -/
example (col : List Nat) (h : col.length ≤ 256) : Verif.Pov.NoLongRepeat col := fun i p _ h2 h3 _ _ _ => by omega

/-! ### Columns -/

/-- `fract`, common/math.h:5-7 -/
def fract (x : Rat) : Rat := x - ⌊x⌋

/-- conversion to `int` -/
def trunc (x : Rat) : Int := if 0 ≤ x then ⌊x⌋ else ⌈x⌉

/-- styles/pov.h:130-145: the place in the picture, none if outside. -/
def place (rep mirror : Bool) (f : Rat) : Option Rat :=
  if rep then
    if mirror then
      let g := fract (f / 2) * f
      some (if g > 1 then 2 - g else g)
    else some (fract f)
  else if f < 0 ∨ f > 1 then none
  else some f

/-- `fraction * (NELEM(imageoffsets) - 1)`, styles/pov.h:147, 164: the column for a place, of `m` in all. -/
def column (m : Nat) (f : Rat) : Int := trunc (f * ((m : Rat) - 1))

/-- `angle_` of `ContinuousPOV`, styles/pov.h:158-163 -/
def turn (degrees angle speed delta : Rat) : Rat := fract (angle + speed * (if delta > 1000000 then 1 else delta) / 1000000 / degrees)

/-- `getColor`, styles/pov.h:106: the row shown by a pixel; dividing by zero is not defined. -/
def row (height leds led : Nat) : Option Nat := if leds = 0 then none else some (led * height / leds)

theorem fract_range (x : Rat) : 0 ≤ fract x ∧ fract x < 1 := by
  have h1 := Int.floor_le x
  have h2 := Int.lt_floor_add_one x
  exact ⟨by unfold fract; linarith, by unfold fract; linarith⟩

theorem column_range (m : Nat) (hm : 1 ≤ m) (f : Rat) (h0 : 0 ≤ f) (h1 : f ≤ 1) :
    0 ≤ column m f ∧ column m f < m ∧ (column m f : Rat) ≤ f * ((m : Rat) - 1) ∧ f * ((m : Rat) - 1) < column m f + 1 := by
  have hm' : (1 : Rat) ≤ m := by exact_mod_cast hm
  have hp : 0 ≤ f * ((m : Rat) - 1) := mul_nonneg h0 (by linarith)
  have hq : f * ((m : Rat) - 1) ≤ (m : Rat) - 1 := by nlinarith
  have hc : column m f = ⌊f * ((m : Rat) - 1)⌋ := by unfold column trunc; rw [if_pos hp]
  rw [hc]
  refine ⟨Int.floor_nonneg.2 hp, ?_, Int.floor_le _, Int.lt_floor_add_one _⟩
  rw [Int.floor_lt]
  push_cast
  linarith

/-- Without repetition: the picture is shown from its first column at the smallest angle to its last at the largest, in proportion, and never
anything outside the table; and there is nothing to show just outside the angles given. -/
theorem C137_window (m : Nat) (hm : 1 ≤ m) (mirror : Bool) (lo hi deg : Rat) (h : lo < hi) :
    (place false mirror ((deg - lo) / (hi - lo)) = none ↔ deg < lo ∨ hi < deg) ∧
    ∀ f, place false mirror ((deg - lo) / (hi - lo)) = some f → 0 ≤ column m f ∧ column m f < m ∧
      (column m f : Rat) * (hi - lo) ≤ (deg - lo) * ((m : Rat) - 1) ∧ (deg - lo) * ((m : Rat) - 1) < (column m f + 1) * (hi - lo) := by
  have hp : 0 < hi - lo := by linarith
  have e1 : (deg - lo) / (hi - lo) < 0 ↔ deg < lo := by
    rw [div_lt_iff₀ hp]; constructor <;> intro h <;> linarith
  have e2 : (deg - lo) / (hi - lo) > 1 ↔ hi < deg := by
    rw [gt_iff_lt, lt_div_iff₀ hp]; constructor <;> intro h <;> linarith
  have e3 : place false mirror ((deg - lo) / (hi - lo)) = if deg < lo ∨ hi < deg then none else some ((deg - lo) / (hi - lo)) := by
    simp only [place, Bool.false_eq_true, if_false, e1, e2]
  rw [e3]
  refine ⟨by split <;> simp_all, fun f hf => ?_⟩
  split at hf
  · cases hf
  · rename_i hn
    rw [not_or] at hn
    cases hf
    obtain ⟨r1, r2, r3, r4⟩ := column_range m hm ((deg - lo) / (hi - lo)) (by rw [← not_lt, e1]; exact hn.1) (by rw [← not_lt]; exact fun h => hn.2 (e2.1 h))
    have hk : (deg - lo) / (hi - lo) * ((m : Rat) - 1) * (hi - lo) = (deg - lo) * ((m : Rat) - 1) := by
      field_simp
    refine ⟨r1, r2, ?_, ?_⟩
    · rw [← hk]; exact mul_le_mul_of_nonneg_right r3 hp.le
    · rw [← hk]; exact mul_lt_mul_of_pos_right r4 hp

/-- Straight up, of 81 columns over 90 degrees, the one in the middle; at 45 degrees the last. -/
example : place false true ((0 - (-45)) / (45 - (-45))) = some (1 / 2) ∧ column 81 (1 / 2) = 40 ∧ column 81 1 = 80 := by
  refine ⟨by decide +kernel, by decide +kernel, by decide +kernel⟩

/-- Repeated without mirroring, or moving on with the swing: always a column of the table, whatever the angle, time and speed; but of several
columns never the last. -/
theorem C137_repeat (m : Nat) (hm : 2 ≤ m) (f degrees angle speed delta : Rat) :
    (∃ g, place true false f = some g ∧ (∃ z : Int, g = f - z) ∧ 0 ≤ column m g ∧ column m g < (m : Int) - 1) ∧
    0 ≤ column m (turn degrees angle speed delta) ∧ column m (turn degrees angle speed delta) < (m : Int) - 1 := by
  have key : ∀ x : Rat, 0 ≤ column m (fract x) ∧ column m (fract x) < (m : Int) - 1 := by
    intro x
    obtain ⟨h1, h2⟩ := fract_range x
    have hm' : (2 : Rat) ≤ m := by exact_mod_cast hm
    obtain ⟨r1, -, r3, -⟩ := column_range m (by omega) (fract x) h1 h2.le
    refine ⟨r1, ?_⟩
    have : ((column m (fract x) : Int) : Rat) < ((m : Int) - 1 : Int) := by
      push_cast
      refine lt_of_le_of_lt r3 ?_
      nlinarith
    exact_mod_cast this
  exact ⟨⟨fract f, rfl, ⟨⌊f⌋, rfl⟩, key f⟩, key _⟩

example : column 81 (fract (7 / 2)) = 40 := by decide +kernel

/-- Repeated with mirroring, a column of the table as long as the angle is within the first picture or its first mirror image ... -/
theorem C137_mirror_partial (m : Nat) (hm : 1 ≤ m) (f : Rat) (h0 : 0 ≤ f) (h2 : f ≤ 2) :
    ∃ g, place true true f = some g ∧ 0 ≤ column m g ∧ column m g < m := by
  obtain ⟨h3, h4⟩ := fract_range (f / 2)
  have hp : 0 ≤ fract (f / 2) * f := mul_nonneg h3 h0
  have hq : fract (f / 2) * f ≤ 2 := by nlinarith
  refine ⟨_, rfl, ?_⟩
  by_cases hg : fract (f / 2) * f > 1
  · simp only [hg, if_true]
    obtain ⟨r1, r2, -⟩ := column_range m hm (2 - fract (f / 2) * f) (by linarith) (by linarith)
    exact ⟨r1, r2⟩
  · simp only [hg, if_false]
    obtain ⟨r1, r2, -⟩ := column_range m hm (fract (f / 2) * f) hp (by linarith)
    exact ⟨r1, r2⟩

/-- ... but not the right one: the picture should be in proportion to the angle, and half way it is already at the first eighth. -/
theorem C137_mirror_counterexample : place true true (1 / 2) = some (1 / 8) := by decide +kernel

/-- One picture before the first (135 degrees to the left, as is usual), a place before the table is read. -/
theorem C137_before_counterexample (m : Nat) (hm : 3 ≤ m) : ∃ g, place true true (-1) = some g ∧ column m g < 0 := by
  refine ⟨-(1 / 2), by decide +kernel, ?_⟩
  have hm' : (3 : Rat) ≤ m := by exact_mod_cast hm
  unfold column trunc
  rw [if_neg (by linarith)]
  have : ⌈(-(1 / 2) : Rat) * ((m : Rat) - 1)⌉ ≤ -1 := by
    rw [Int.ceil_le]; push_cast; linarith
  omega

/-! ### Pixels -/

/-- Each pixel shows a row of the column, the first the first; rows never go back along the blade, and with at least as many pixels as rows
each row is shown. -/
theorem C137_rows (height leds : Nat) (hh : 0 < height) (hl : 0 < leds) :
    (∀ led < leds, ∃ r, row height leds led = some r ∧ r < height) ∧ row height leds 0 = some 0 ∧
    (∀ i j, i ≤ j → ∃ a b, row height leds i = some a ∧ row height leds j = some b ∧ a ≤ b) ∧
    (height ≤ leds → ∀ r < height, ∃ led < leds, row height leds led = some r) := by
  have hr : ∀ led, row height leds led = some (led * height / leds) := fun led => by rw [row, if_neg (by omega)]
  refine ⟨fun led h => ⟨_, hr led, (Nat.div_lt_iff_lt_mul hl).2 ?_⟩, by rw [hr]; simp, fun i j h => ⟨_, _, hr i, hr j, Nat.div_le_div_right (Nat.mul_le_mul_right _ h)⟩,
    fun hle r h => ?_⟩
  · rw [Nat.mul_comm]; exact Nat.mul_lt_mul_of_pos_left h hh
  · -- the first pixel at or after the start of the row
    have hdiv := Nat.div_add_mod (r * leds + height - 1) height
    have hmod := Nat.mod_lt (r * leds + height - 1) hh
    set q := (r * leds + height - 1) / height with hq
    have h1 : r * leds ≤ q * height := by rw [Nat.mul_comm q]; omega
    have h2 : q * height < r * leds + height := by rw [Nat.mul_comm q]; omega
    refine ⟨q, ?_, ?_⟩
    · by_contra hc
      have : leds * height ≤ q * height := Nat.mul_le_mul_right _ (by omega)
      have h4 : (r + 1) * leds ≤ height * leds := Nat.mul_le_mul_right _ h
      rw [Nat.add_mul, Nat.one_mul] at h4
      rw [Nat.mul_comm leds] at this
      omega
    · rw [hr]
      congr 1
      refine Nat.div_eq_of_lt_le h1 ?_
      rw [Nat.add_mul, Nat.one_mul]
      omega

example : row 144 100 50 = some 72 := by decide

/-- What the style keeps from frame to frame: the length of the blade, which is not set at first, and the column. -/
structure V where
  leds : Option Nat
  col : Int

/-- one frame of `StylePOV`, styles/pov.h:128-148 -/
def frame (m : Nat) (rep mirror : Bool) (leds : Nat) (v : V) (f : Rat) : V :=
  match place rep mirror f with
  | none => v
  | some g => ⟨some leds, column m g⟩

/-- The style does not go dark outside the angles given: the blade is cleared, but then each pixel is drawn as usual
(styles/style_ptr.h:83-87), from the column last shown, or if there was none yet with a length that was never set. -/
theorem C137_outside_counterexample (m leds : Nat) (mirror : Bool) (v : V) (f g : Rat) (h0 : 0 ≤ f) (h1 : f ≤ 1) (hg : 1 < g) :
    frame m false mirror leds (frame m false mirror leds v f) g = ⟨some leds, column m f⟩ ∧ frame m false mirror leds ⟨none, 0⟩ g = ⟨none, 0⟩ := by
  have e1 : place false mirror f = some f := by
    simp only [place, Bool.false_eq_true, if_false]; rw [if_neg (by rw [not_or, not_lt, gt_iff_lt, not_lt]; exact ⟨h0, h1⟩)]
  have e2 : place false mirror g = none := by
    simp only [place, Bool.false_eq_true, if_false]; rw [if_pos (.inr hg)]
  simp only [frame, e1, e2, and_self]

end Verif.Style.Pov
