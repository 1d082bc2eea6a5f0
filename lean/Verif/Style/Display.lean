import Mathlib.Data.Finset.Card
import Mathlib.Data.Fintype.Card
import Mathlib.Data.Finset.Image
import Mathlib.Tactic.IntervalCases
/-!
# Blades as displays (C141)

Model of styles/display.h: a picture in memory shown on the pixels of a blade, row after row, every other row backwards if the strip is folded.
A read outside of the picture is `none`.
-/
namespace Verif.Style.Display

/-! ### Which pixel -/

/-- `pixels[y][x]`, styles/display.h:38, 46, in a picture stored row by row: where it is, none outside of all rows. -/
def cell (w h x y : Nat) : Option Nat := if y * w + x < h * w then some (y * w + x) else none

/-- What is read: dark, or a place of the picture. -/
inductive R
  | dark
  | at (p : Option Nat)
  deriving DecidableEq

/-- `getColor(int x, int y)`, styles/display.h:116-119 -/
def colorXY (w h x y : Nat) : R := if x > w ∨ y > h then .dark else .at (cell w h x y)

/-- `getColor(int led)`, styles/display.h:120-127; `rot` is made of three flags.  `x ≤ w`, so that `w - x` does not go below zero. -/
def color (w h : Nat) (zz r1 r2 r4 : Bool) (led : Nat) : R :=
  let x := led % w
  let y := led / w
  let x := if zz && y % 2 == 1 then w - x else x
  let x := if r1 then w - x else x
  let y := if r2 then h - y else y
  if r4 then colorXY w h y x else colorXY w h x y

/-- Row by row without folding or turning, each pixel of the blade shows its own pixel of the picture. -/
theorem C141_rows_partial (w h led : Nat) (hl : led < w * h) : color w h false false false false led = .at (some led) := by
  have hw : 0 < w := Nat.pos_of_ne_zero fun e => by subst e; simp at hl
  have hm := Nat.mod_lt led hw
  have hd : led / w < h := (Nat.div_lt_iff_lt_mul hw).2 (by rwa [Nat.mul_comm])
  have he : led / w * w + led % w = led := by rw [Nat.mul_comm]; exact Nat.div_add_mod led w
  simp only [color, Bool.false_and, Bool.false_eq_true, if_false, colorXY, cell]
  rw [if_neg (by omega), he, if_pos (by rwa [Nat.mul_comm])]

/-- What folding is to do: odd rows are shown from their last pixel to their first. -/
def folded (w led : Nat) : Nat := if led / w % 2 = 1 then led / w * w + (w - 1 - led % w) else led

/-- Folded, the even rows are right. -/
theorem C141_folded_partial (w h led : Nat) (hl : led < w * h) (he : led / w % 2 = 0) :
    color w h true false false false led = .at (some (folded w led)) := by
  have := C141_rows_partial w h led hl
  simp only [color, Bool.false_and, Bool.false_eq_true, if_false] at this
  simp only [color, Bool.true_and, show ((0 : Nat) == 1) = false from rfl, Bool.false_eq_true, if_false, folded, he, Nat.zero_ne_one]
  exact this

/-- The odd rows are not: each pixel shows the one after that which it should, and the first of the row one of the next row, or if it is the
last row reads beyond the picture. -/
theorem C141_folded_counterexample (w h led : Nat) (hl : led < w * h) (ho : led / w % 2 = 1) :
    color w h true false false false led = .at (if folded w led + 1 < h * w then some (folded w led + 1) else none) ∧
    (led % w = 0 → led / w + 1 = h → color w h true false false false led = .at none) := by
  have hw : 0 < w := Nat.pos_of_ne_zero fun e => by subst e; simp at hl
  have hm := Nat.mod_lt led hw
  have hd : led / w < h := (Nat.div_lt_iff_lt_mul hw).2 (by rwa [Nat.mul_comm])
  have hc : color w h true false false false led = .at (if folded w led + 1 < h * w then some (folded w led + 1) else none) := by
    simp only [color, Bool.true_and, beq_self_eq_true, if_true, Bool.false_eq_true, if_false, colorXY, cell, folded, ho]
    rw [if_neg (by omega)]
    rw [show led / w * w + (w - 1 - led % w) + 1 = led / w * w + (w - led % w) by omega]
  refine ⟨hc, fun h0 h1 => ?_⟩
  rw [hc]
  have e : folded w led + 1 = h * w := by
    rw [folded, if_pos ho, h0, ← h1, Nat.add_mul]; omega
  rw [if_neg (by omega)]

/-- of a picture of 8 by 8, pixel 8 of a folded blade shows the first of row 2 instead of the last of row 1, and 56 nothing defined -/
example : folded 8 8 = 15 ∧ color 8 8 true false false false 8 = .at (some 16) ∧ color 8 8 true false false false 56 = .at none := by decide

/-- Turned upside down, the first row shown is beyond the last one of the picture. -/
theorem C141_turned_counterexample (w h : Nat) : color w h false false true false 0 = .at none := by
  simp [color, colorXY, cell]

/-! ### Colours -/

/-- styles/display.h:46-53: five or six bits to sixteen -/
def wide5 (c : Nat) : Nat := c * 0x8421 / 16
def wide6 (c : Nat) : Nat := c * 0x1041 / 4

/-- Dark stays dark, full stays full, brighter stays brighter, and the highest bits are those of the picture. -/
theorem C141_colors (c d : Nat) :
    wide5 0 = 0 ∧ wide5 31 = 65535 ∧ wide6 0 = 0 ∧ wide6 63 = 65535 ∧ (c < d → wide5 c < wide5 d ∧ wide6 c < wide6 d) ∧
    (c < 32 → wide5 c / 2048 = c ∧ wide5 c < 65536) ∧ (c < 64 → wide6 c / 1024 = c ∧ wide6 c < 65536) := by
  unfold wide5 wide6
  refine ⟨rfl, rfl, rfl, rfl, fun h => ⟨by omega, by omega⟩, fun h => by omega, fun h => by omega⟩

/-! ### Buffers -/

/-- The buffers: which one is drawn into, which one is to be shown, and which one each style shows (`frame_`); `refs` of a buffer is how many of these there are. -/
structure B where
  target : Nat
  active : Option Nat
  shown : List (Option Nat)

/-- whether a buffer is in use -/
def B.used (b : B) (i : Nat) : Bool := b.target == i || b.active == some i || b.shown.contains (some i)

/-- `next_buffer`, styles/display.h:87-92 -/
def B.next (n : Nat) (b : B) : Nat := match (List.range n).find? fun i => !b.used i with
  | some i => i
  | none => (b.target + 1) % n

/-- A frame is complete (`swapBuffers`, styles/display.h:77-80), or style `i` starts to draw the blade (113-115). -/
inductive Op
  | swap
  | draw (i : Nat)

/-- one step -/
def step (n : Nat) (b : B) : Op → B
  | .swap => { b with active := some b.target, target := B.next n { b with active := some b.target } }
  | .draw i => { b with shown := b.shown.set i b.active }

/-- any history -/
def run (n : Nat) (b : B) (l : List Op) : B := l.foldl (step n) b

/-- at first, with `k` styles -/
def b0 (k : Nat) : B := ⟨0, none, List.replicate k none⟩

/-- the buffer drawn into is not to be shown, nor being shown -/
def Free (b : B) : Prop := b.active ≠ some b.target ∧ some b.target ∉ b.shown

theorem next_free (n : Nat) (b : B) (h : b.shown.length + 1 < n) (ha : b.active = some b.target) : b.used (b.next n) = false := by
  unfold B.next
  split
  · rename_i i hi
    have := List.find?_some hi
    simpa using this
  · rename_i hi
    exfalso
    rw [List.find?_eq_none] at hi
    -- all `n` buffers are in use by at most `n - 1` users
    have hsub : Finset.range n ⊆ insert b.target (b.shown.filterMap id).toFinset := by
      intro i hmem
      have := hi i (by simpa using hmem)
      simp only [Bool.not_eq_true', Bool.not_eq_false] at this
      simp only [B.used, ha, Bool.or_eq_true, beq_iff_eq, Option.some.injEq, List.contains_iff_mem] at this
      rw [Finset.mem_insert, List.mem_toFinset, List.mem_filterMap]
      rcases this with (rfl | rfl) | h
      · exact .inl rfl
      · exact .inl rfl
      · exact .inr ⟨some i, h, rfl⟩
    have h1 := Finset.card_le_card hsub
    have h2 := Finset.card_insert_le b.target (b.shown.filterMap id).toFinset
    have h3 := List.toFinset_card_le (b.shown.filterMap id)
    have h4 : (b.shown.filterMap id).length ≤ b.shown.length := List.length_filterMap_le _ _
    rw [Finset.card_range] at h1
    omega

theorem free_step (n : Nat) (b : B) (o : Op) (h : b.shown.length + 1 < n) (hf : Free b) : Free (step n b o) := by
  cases o with
  | swap =>
    have := next_free n { b with active := some b.target } h rfl
    simp only [B.used, Bool.or_eq_false_iff] at this
    obtain ⟨⟨h1, h2⟩, h3⟩ := this
    refine ⟨fun e => ?_, fun hm => ?_⟩
    · have e : some b.target = some (B.next n { b with active := some b.target }) := e
      rw [← e] at h2; simp at h2
    · have hm : some (B.next n { b with active := some b.target }) ∈ b.shown := hm
      rw [← List.contains_iff_mem] at hm
      rw [hm] at h3; cases h3
  | draw i =>
    refine ⟨hf.1, fun hm => ?_⟩
    rcases List.mem_or_eq_of_mem_set (show some b.target ∈ b.shown.set i b.active from hm) with hm | hm
    · exact hf.2 hm
    · exact hf.1 hm.symm

/-- With two buffers more than there are styles, whatever the order of frames and styles, no buffer is drawn into while a style shows it or
is to show it: no half drawn frame is ever seen. -/
theorem C141_whole (n k : Nat) (h : k + 1 < n) (l : List Op) : Free (run n (b0 k) l) := by
  have key : ∀ (l : List Op) (b : B), b.shown.length = k → Free b → Free (run n b l) := by
    intro l
    induction l with
    | nil => intro b _ hf; exact hf
    | cons o l ih =>
      intro b hb hf
      refine ih (step n b o) ?_ (free_step n b o (by omega) hf)
      cases o with
      | swap => exact hb
      | draw i => simpa [step] using hb
  refine key l (b0 k) (by simp [b0]) ⟨by simp [b0], ?_⟩
  simp [b0, List.mem_replicate]

/-- three buffers, one style: frames and drawing by turns -/
example : (run 3 (b0 1) [.swap, .draw 0, .swap, .swap, .draw 0, .swap]).target = 0 := by decide

/-- A style that draws before the first frame is complete has no buffer, and reads through a null pointer. -/
theorem C141_early_counterexample (n : Nat) : (run n (b0 1) [.draw 0]).shown = [none] := rfl

/-- With two styles three buffers (the default) are not enough: a frame is drawn into the buffer that a style shows. -/
theorem C141_three_counterexample : ∃ l, ¬ Free (run 3 (b0 2) l) :=
  ⟨[.swap, .draw 0, .swap, .draw 1, .swap], by unfold Free; decide⟩

end Verif.Style.Display
