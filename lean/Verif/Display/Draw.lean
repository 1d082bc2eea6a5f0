import Verif.Display.Mono
/-! # C88: drawing on monochrome displays -/
namespace Verif.Display

/-! ## Specification -/

/-- the pixel of a glyph at column `u` and row `v` from its upper left corner -/
def Glyph.pixel {n : Nat} (g : Glyph n) (u v : Int) : Bool :=
  decide (0 ≤ u ∧ 0 ≤ v) && ((g.data[u.toNat]?).getD 0#n).getLsbD v.toNat

/-- the characters after the last newline -/
def lastLine (t : List Nat) : List Nat := (t.reverse.takeWhile (· ≠ 10)).reverse

/-- the width of printed characters -/
def textWidth {n : Nat} (font : List (Glyph n)) (t : List Nat) : Int :=
  (t.map fun c => if 0x20 ≤ c ∧ c ≤ 0x7e then ((font[c - 0x20]?).map Glyph.skip).getD 0 else 0).sum

/-- where the character after `t` is printed, for text starting at `x`, `y` -/
def penX {n : Nat} (font : List (Glyph n)) (x : Int) (t : List Nat) : Int := (if 10 ∈ t then 0 else x) + textWidth font (lastLine t)
def penY (y : Int) (t : List Nat) : Int := y + 16 * t.count 10

/-! ## Drawing glyphs -/

theorem set_apply {n : Nat} (F : Frame n) (x : Nat) (v : BitVec n) (i : Nat) : (F.set x v) i = if i = x then v else F i := rfl

theorem shifted_some {n : Nat} (v : BitVec n) (s : Int) (h : -(n : Int) < s ∧ s < n) :
    ∃ w, shifted v s = some w ∧ ∀ Y, Y < n → w.getLsbD Y = (decide (0 ≤ (Y : Int) - s) && v.getLsbD ((Y : Int) - s).toNat) := by
  unfold shifted
  by_cases h1 : s > 0
  · rw [if_pos h1, if_pos (by omega)]
    refine ⟨_, rfl, fun Y hY => ?_⟩
    rw [BitVec.getLsbD_shiftLeft]
    have e : ((Y : Int) - s).toNat = Y - s.toNat := by omega
    rw [e]
    have : (decide (Y < n) && !decide (Y < s.toNat)) = decide (0 ≤ (Y : Int) - s) := by
      rw [Bool.eq_iff_iff]; simp; omega
    rw [this]
  · rw [if_neg h1]
    by_cases h2 : s < 0
    · rw [if_pos h2, if_pos (by omega)]
      refine ⟨_, rfl, fun Y hY => ?_⟩
      rw [BitVec.getLsbD_ushiftRight]
      have e : ((Y : Int) - s).toNat = (-s).toNat + Y := by omega
      rw [e, decide_eq_true (by omega), Bool.true_and]
    · rw [if_neg h2]
      have : s = 0 := by omega
      subst this
      refine ⟨v, rfl, fun Y hY => ?_⟩
      rw [decide_eq_true (by omega), Bool.true_and]
      congr 1

/-- the loop draws the columns from `i` on -/
theorem draw2_spec {n : Nat} (W : Nat) (data : List (BitVec n)) (x s : Int) (hs : -(n : Int) < s ∧ s < n) :
    ∀ (count : Nat) (i : Int) (F : Frame n), 0 ≤ i → 0 ≤ x + i → x + i + count ≤ W → i + count ≤ data.length →
      ∃ G, draw2 W data x s count i F = some G ∧ ∀ X Y, Y < n → (G X).getLsbD Y =
        ((F X).getLsbD Y || (decide (x + i ≤ X ∧ X < x + i + count ∧ 0 ≤ (Y : Int) - s) &&
          ((data[((X : Int) - x).toNat]?).getD 0#n).getLsbD ((Y : Int) - s).toNat))
  | 0, i, F, _, _, _, _ => ⟨F, rfl, fun X Y _ => by
      rw [decide_eq_false (by omega), Bool.false_and, Bool.or_false]⟩
  | count + 1, i, F, h1, h2, h3, h4 => by
    have hlt : i.toNat < data.length := by omega
    obtain ⟨w, hw, hw'⟩ := shifted_some data[i.toNat] s hs
    obtain ⟨G, hG, hG'⟩ := draw2_spec W data x s hs count (i + 1)
      (F.set (x + i).toNat (F (x + i).toNat ||| w)) (by omega) (by omega) (by omega) (by omega)
    refine ⟨G, ?_, fun X Y hY => ?_⟩
    · simp only [draw2, if_pos (show 0 ≤ x + i ∧ x + i < W ∧ 0 ≤ i by omega), List.getElem?_eq_getElem hlt, hw]
      exact hG
    · rw [hG' X Y hY, set_apply]
      by_cases hX : X = (x + i).toNat
      · subst hX
        rw [if_pos rfl, BitVec.getLsbD_or, hw' Y hY]
        have e : (((x + i).toNat : Int) - x).toNat = i.toNat := by omega
        rw [e, List.getElem?_eq_getElem hlt, Option.getD_some]
        by_cases hsY : 0 ≤ (Y : Int) - s
        · rw [decide_eq_true hsY, decide_eq_false (by omega), decide_eq_true (by omega)]
          simp
        · rw [decide_eq_false hsY, decide_eq_false (by omega), decide_eq_false (by omega)]
          simp
      · rw [if_neg hX]
        congr 2
        rw [decide_eq_decide]
        omega

/-- **C88**, glyphs: drawing a glyph anywhere, also partly or completely outside the display to the left or right,
sets exactly its pixels that are on the display; no access leaves the buffer or the glyph.  Vertically it
must overlap the rows (see the witness below). -/
theorem C88_draw {n : Nat} (W : Nat) (F : Frame n) (g : Glyph n) (x y : Int)
    (hy : -(n : Int) < y + g.yoffset ∧ y + g.yoffset < n) :
    ∃ G, draw W F g x y = some G ∧ (∀ X Y, X < W → Y < n → (G X).getLsbD Y =
      ((F X).getLsbD Y || g.pixel (X - (x + g.xoffset)) (Y - (y + g.yoffset)))) ∧ ∀ X, W ≤ X → G X = F X := by
  have key : ∀ (x0 y0 : Int), x0 = x + g.xoffset → y0 = y + g.yoffset →
      ∃ G, draw2 W g.data x0 y0 (min (g.data.length : Int) (W - x0) - max 0 (-x0)).toNat (max 0 (-x0)) F = some G ∧
      (∀ X Y, X < W → Y < n → (G X).getLsbD Y = ((F X).getLsbD Y || g.pixel (X - x0) (Y - y0))) ∧ ∀ X, W ≤ X → G X = F X := by
    intro x0 y0 ex ey
    by_cases hpos : max 0 (-x0) ≤ min (g.data.length : Int) (W - x0)
    · obtain ⟨G, h1, h2⟩ := draw2_spec W g.data x0 y0 (by omega) (min (g.data.length : Int) (W - x0) - max 0 (-x0)).toNat
        (max 0 (-x0)) F (by omega) (by omega) (by omega) (by omega)
      refine ⟨G, h1, fun X Y hX hY => ?_, fun X hX => ?_⟩
      · rw [h2 X Y hY]
        congr 1
        simp only [Glyph.pixel]
        by_cases hin : 0 ≤ (X : Int) - x0 ∧ (X : Int) - x0 < g.data.length
        · congr 1
          rw [decide_eq_decide]
          omega
        · by_cases h0 : 0 ≤ (X : Int) - x0
          · rw [List.getElem?_eq_none (by omega), Option.getD_none, BitVec.getLsbD_zero, Bool.and_false, Bool.and_false]
          · rw [decide_eq_false (by omega), decide_eq_false (by omega)]
      · refine BitVec.eq_of_getLsbD_eq fun Y hY => ?_
        rw [h2 X Y hY, decide_eq_false (by omega), Bool.false_and, Bool.or_false]
    · refine ⟨F, ?_, fun X Y hX hY => ?_, fun _ _ => rfl⟩
      · rw [show (min (g.data.length : Int) (W - x0) - max 0 (-x0)).toNat = 0 by omega]
        rfl
      · have : g.pixel (X - x0) (Y - y0) = false := by
          simp only [Glyph.pixel]
          by_cases h0 : 0 ≤ (X : Int) - x0
          · rw [List.getElem?_eq_none (by omega), Option.getD_none, BitVec.getLsbD_zero, Bool.and_false]
          · rw [decide_eq_false (by omega), Bool.false_and]
        rw [this, Bool.or_false]
  exact key _ _ rfl rfl

/-- drawing below the display shifts by the word size: undefined behaviour instead of nothing to draw -/
theorem C88_below_counterexample {n : Nat} (W : Nat) (F : Frame n) (g : Glyph n) (v : BitVec n) (x y : Int) (hg : g.data = [v])
    (hx : 0 ≤ x + g.xoffset ∧ x + g.xoffset < W) (hy : (n : Int) ≤ y + g.yoffset) (hn : 0 < n) : draw W F g x y = none := by
  have h1 : (min (([v].length : Nat) : Int) (W - (x + g.xoffset)) - 0).toNat = 1 := by
    simp only [List.length_cons, List.length_nil]; omega
  have h2 : max 0 (-(x + g.xoffset)) = 0 := by omega
  simp only [draw, hg, h2]
  rw [h1]
  simp only [draw2]
  rw [if_pos (by omega)]
  simp only [Int.toNat_zero, List.getElem?_cons_zero, shifted]
  rw [if_pos (by omega), if_neg (by omega)]

/-! ## Text -/

theorem lastLine_snoc_newline (t : List Nat) : lastLine (t ++ [10]) = [] := by
  simp [lastLine]

theorem lastLine_snoc {c : Nat} (hc : c ≠ 10) (t : List Nat) : lastLine (t ++ [c]) = lastLine t ++ [c] := by
  simp [lastLine, hc]

theorem penX_newline {n : Nat} (font : List (Glyph n)) (x : Int) (t : List Nat) : penX font x (t ++ [10]) = 0 := by
  simp [penX, lastLine_snoc_newline, textWidth]

theorem penX_snoc {n : Nat} (font : List (Glyph n)) (x : Int) {c : Nat} (hc : c ≠ 10) (t : List Nat) :
    penX font x (t ++ [c]) = penX font x t + (if 0x20 ≤ c ∧ c ≤ 0x7e then ((font[c - 0x20]?).map Glyph.skip).getD 0 else 0) := by
  simp only [penX, lastLine_snoc hc, textWidth, List.map_append, List.sum_append, List.map_cons, List.map_nil, List.sum_cons, List.sum_nil]
  have : (10 ∈ t ++ [c]) ↔ 10 ∈ t := by
    simp only [List.mem_append, List.mem_singleton]
    constructor
    · rintro (h | h)
      · exact h
      · exact absurd h.symm hc
    · exact .inl
  simp only [this]
  omega

theorem penY_newline (y : Int) (t : List Nat) : penY y (t ++ [10]) = penY y t + 16 := by
  simp only [penY, List.count_append, List.count_singleton_self]; omega

theorem penY_snoc (y : Int) {c : Nat} (hc : c ≠ 10) (t : List Nat) : penY y (t ++ [c]) = penY y t := by
  simp only [penY, List.count_append, List.count_singleton]
  have : (c == 10) = false := by simpa using hc
  rw [this]; simp

/-- a pixel of a character of the text -/
def TextPixel {n : Nat} (font : List (Glyph n)) (x y : Int) (done rest : List Nat) (X Y : Nat) : Prop :=
  ∃ a c b g, rest = a ++ c :: b ∧ 0x20 ≤ c ∧ c ≤ 0x7e ∧ font[c - 0x20]? = some g ∧
    g.pixel (X - (penX font x (done ++ a) + g.xoffset)) (Y - (penY y (done ++ a) + g.yoffset)) = true

theorem text_step {n : Nat} (font : List (Glyph n)) (x y : Int) (done rest : List Nat) (c X Y : Nat) :
    TextPixel font x y done (c :: rest) X Y ↔
      (0x20 ≤ c ∧ c ≤ 0x7e ∧ ∃ g, font[c - 0x20]? = some g ∧ g.pixel (X - (penX font x done + g.xoffset)) (Y - (penY y done + g.yoffset)) = true) ∨
      TextPixel font x y (done ++ [c]) rest X Y := by
  constructor
  · rintro ⟨a, c', b, g, e, h1, h2, h3, h4⟩
    cases a with
    | nil =>
      rw [List.nil_append] at e
      injection e with e1 e2
      subst e1
      rw [List.append_nil] at h4
      exact .inl ⟨h1, h2, g, h3, h4⟩
    | cons c0 a =>
      rw [List.cons_append] at e
      injection e with e1 e2
      subst e1
      refine .inr ⟨a, c', b, g, e2, h1, h2, h3, ?_⟩
      rw [List.append_assoc, List.singleton_append]
      exact h4
  · rintro (⟨h1, h2, g, h3, h4⟩ | ⟨a, c', b, g, e, h1, h2, h3, h4⟩)
    · exact ⟨[], c, rest, g, rfl, h1, h2, h3, by rw [List.append_nil]; exact h4⟩
    · refine ⟨c :: a, c', b, g, by rw [e]; rfl, h1, h2, h3, ?_⟩
      rw [List.append_assoc, List.singleton_append] at h4
      exact h4

theorem drawText_spec {n : Nat} (W : Nat) (font : List (Glyph n)) (hfont : font.length = 95) (x y : Int) :
    ∀ (rest done : List Nat) (F : Frame n),
      (∀ c ∈ rest, c ≠ 0x7f) →
      (∀ a c b g, rest = a ++ c :: b → 0x20 ≤ c → font[c - 0x20]? = some g →
        -(n : Int) < penY y (done ++ a) + g.yoffset ∧ penY y (done ++ a) + g.yoffset < n) →
      ∃ G, drawText W font rest (penX font x done) (penY y done) F = some G ∧
        (∀ X Y, X < W → Y < n → ((G X).getLsbD Y = true ↔ (F X).getLsbD Y = true ∨ TextPixel font x y done rest X Y)) ∧
        ∀ X, W ≤ X → G X = F X
  | [], done, F, _, _ => by
    refine ⟨F, rfl, fun X Y _ _ => ⟨.inl, ?_⟩, fun _ _ => rfl⟩
    rintro (h | ⟨a, c, b, g, e, _⟩)
    · exact h
    · simp at e
  | c :: rest, done, F, h7, hy => by
    have h7' : ∀ c ∈ rest, c ≠ 0x7f := fun c hc => h7 c (List.mem_cons_of_mem _ hc)
    have hy' : ∀ a c' b g, rest = a ++ c' :: b → 0x20 ≤ c' → font[c' - 0x20]? = some g →
        -(n : Int) < penY y (done ++ [c] ++ a) + g.yoffset ∧ penY y (done ++ [c] ++ a) + g.yoffset < n := by
      intro a c' b g e h1 h2
      rw [List.append_assoc, List.singleton_append]
      exact hy (c :: a) c' b g (by rw [e]; rfl) h1 h2
    by_cases hc : c = 10
    · subst hc
      obtain ⟨G, h1, h2, h3⟩ := drawText_spec W font hfont x y rest (done ++ [10]) F h7' hy'
      refine ⟨G, ?_, fun X Y hX hY => ?_, h3⟩
      · simp only [drawText, if_true]
        rw [penX_newline, penY_newline] at h1
        exact h1
      · rw [h2 X Y hX hY, text_step]
        constructor
        · rintro (h | h)
          · exact .inl h
          · exact .inr (.inr h)
        · rintro (h | ⟨h, _⟩ | h)
          · exact .inl h
          · omega
          · exact .inr h
    · by_cases hp : 0x20 ≤ c ∧ c ≤ 0x7f
      · have hne : c ≠ 0x7f := h7 c List.mem_cons_self
        have hlt : c - 0x20 < font.length := by omega
        have hg : font[c - 0x20]? = some font[c - 0x20] := List.getElem?_eq_getElem hlt
        generalize font[c - 0x20] = g at hg
        have hgy := hy [] c rest g rfl hp.1 hg
        rw [List.append_nil] at hgy
        obtain ⟨F1, d1, d2, d3⟩ := C88_draw W F g (penX font x done) (penY y done) hgy
        obtain ⟨G, h1, h2, h3⟩ := drawText_spec W font hfont x y rest (done ++ [c]) F1 h7' hy'
        have hpx := penX_snoc font x hc done
        rw [if_pos (by omega), hg] at hpx
        simp only [Option.map_some, Option.getD_some] at hpx
        rw [hpx, penY_snoc y hc] at h1
        refine ⟨G, ?_, fun X Y hX hY => ?_, fun X hX => (h3 X hX).trans (d3 X hX)⟩
        · simp only [drawText, if_neg hc, if_pos hp, hg, d1]
          exact h1
        · rw [h2 X Y hX hY, d2 X Y hX hY, text_step, Bool.or_eq_true]
          constructor
          · rintro ((h | h) | h)
            · exact .inl h
            · exact .inr (.inl ⟨hp.1, by omega, g, hg, h⟩)
            · exact .inr (.inr h)
          · rintro (h | ⟨_, _, g', hg', h⟩ | h)
            · exact .inl (.inl h)
            · rw [hg] at hg'
              injection hg' with hg'
              subst hg'
              exact .inl (.inr h)
            · exact .inr h
      · obtain ⟨G, h1, h2, h3⟩ := drawText_spec W font hfont x y rest (done ++ [c]) F h7' hy'
        have hpx := penX_snoc font x hc done
        rw [if_neg (by omega), Int.add_zero] at hpx
        rw [hpx, penY_snoc y hc] at h1
        refine ⟨G, ?_, fun X Y hX hY => ?_, h3⟩
        · simp only [drawText, if_neg hc, if_neg hp]
          exact h1
        · rw [h2 X Y hX hY, text_step]
          constructor
          · rintro (h | h)
            · exact .inl h
            · exact .inr (.inr h)
          · rintro (h | ⟨h1, h2, _⟩ | h)
            · exact .inl h
            · exact absurd ⟨h1, by omega⟩ hp
            · exact .inr h

/-- **C88**, text (partial: no DEL character, no lines below the display): printing a text sets exactly the pixels
of its printable characters, each where the widths of the characters before it in its line and the number of
lines before put it; the first line starts at the given place and the others at the left edge. -/
theorem C88_text_partial {n : Nat} (W : Nat) (font : List (Glyph n)) (hfont : font.length = 95) (t : List Nat) (x y : Int) (F : Frame n)
    (hdel : ∀ c ∈ t, c ≠ 0x7f)
    (hrows : ∀ a c b g, t = a ++ c :: b → 0x20 ≤ c → font[c - 0x20]? = some g →
      -(n : Int) < y + 16 * (a.count 10 : Nat) + g.yoffset ∧ y + 16 * (a.count 10 : Nat) + g.yoffset < n) :
    ∃ G, drawText W font t x y F = some G ∧
      (∀ X Y, X < W → Y < n → ((G X).getLsbD Y = true ↔ (F X).getLsbD Y = true ∨
        ∃ a c b g, t = a ++ c :: b ∧ 0x20 ≤ c ∧ c ≤ 0x7e ∧ font[c - 0x20]? = some g ∧
          g.pixel (X - ((if 10 ∈ a then 0 else x) + textWidth font (lastLine a) + g.xoffset))
            (Y - (y + 16 * (a.count 10 : Nat) + g.yoffset)) = true)) ∧
      ∀ X, W ≤ X → G X = F X := by
  obtain ⟨G, h1, h2, h3⟩ := drawText_spec W font hfont x y t [] F hdel (fun a c b g e h1 h2 => by
    rw [List.nil_append]; exact hrows a c b g e h1 h2)
  have e1 : penX font x [] = x := by simp [penX, lastLine, textWidth]
  have e2 : penY y [] = y := by simp [penY]
  rw [e1, e2] at h1
  refine ⟨G, h1, fun X Y hX hY => ?_, h3⟩
  rw [h2 X Y hX hY]
  simp only [TextPixel, List.nil_append, penX, penY]

/-- a DEL character reads beyond the font, which ends with `~` -/
theorem C88_del_counterexample {n : Nat} (W : Nat) (font : List (Glyph n)) (hfont : font.length = 95) (x y : Int) (F : Frame n) :
    drawText W font [0x7f] x y F = none := by
  have : font[0x7f - 0x20]? = none := List.getElem?_eq_none (by omega)
  simp only [drawText, this]
  rfl

/-! ## Pixels, lines, rectangles -/

theorem one_shift {n : Nat} (y Y : Nat) (_ : Y < n) (hy : y < n) : (1#n <<< y).getLsbD Y = decide (Y = y) := by
  rw [BitVec.getLsbD_shiftLeft, BitVec.getLsbD_one, Bool.eq_iff_iff]
  simp
  omega

/-- the pixels in the rectangle -/
abbrev InRect (x1 x2 y1 y2 X Y : Nat) : Prop := x1 ≤ X ∧ X < x2 ∧ y1 ≤ Y ∧ Y < y2

theorem rowMask_some {n y1 y2 : Nat} (h : y1 < y2) (hn : y2 ≤ n) :
    ∃ m, rowMask n y1 y2 = some m ∧ ∀ Y, Y < n → m.getLsbD Y = decide (y1 ≤ Y ∧ Y < y2) := by
  refine ⟨_, by rw [rowMask, if_pos (by omega)], fun Y hY => ?_⟩
  rw [BitVec.getLsbD_shiftLeft, BitVec.getLsbD_ushiftRight, BitVec.getLsbD_allOnes, Bool.eq_iff_iff]
  simp
  omega

theorem forCols_spec {n : Nat} (W : Nat) (f : BitVec n → BitVec n) : ∀ (count x : Nat) (F : Frame n), x + count ≤ W →
    forCols W f count x F = some fun X => if x ≤ X ∧ X < x + count then f (F X) else F X
  | 0, x, F, _ => by
    simp only [forCols]
    congr 1
    funext X
    rw [if_neg (by omega)]
  | count + 1, x, F, h => by
    simp only [forCols, if_pos (show x < W by omega)]
    rw [forCols_spec W f count (x + 1) _ (by omega)]
    congr 1
    funext X
    rw [set_apply]
    by_cases hX : X = x
    · subst hX
      rw [if_neg (by omega), if_pos rfl, if_pos (by omega)]
    · rw [if_neg hX]
      by_cases h2 : x + 1 ≤ X ∧ X < x + 1 + count
      · rw [if_pos h2, if_pos (by omega)]
      · rw [if_neg h2, if_neg (by omega)]

/-- **C88**, pixels, lines and rectangles on the display are drawn exactly, and a pixel reads back as drawn. -/
theorem C88_shapes {n : Nat} (W : Nat) (F : Frame n) :
    (∀ x y, x < W → y < n → getPixel W F x y = some ((F x).getLsbD y)) ∧
    (∀ x y, x < W → y < n → ∃ G, setPixel W F x y = some G ∧
      ∀ X Y, Y < n → (G X).getLsbD Y = ((F X).getLsbD Y || decide (X = x ∧ Y = y))) ∧
    (∀ x y1 y2, x < W → y1 < y2 → y2 ≤ n → ∃ G, drawVLine W F x y1 y2 = some G ∧
      ∀ X Y, Y < n → (G X).getLsbD Y = ((F X).getLsbD Y || decide (InRect x (x + 1) y1 y2 X Y))) ∧
    (∀ x1 x2 y, x1 ≤ x2 → x2 ≤ W → y < n → ∃ G, drawHLine W F x1 x2 y = some G ∧
      ∀ X Y, Y < n → (G X).getLsbD Y = ((F X).getLsbD Y || decide (InRect x1 x2 y (y + 1) X Y))) ∧
    (∀ x1 x2 y1 y2, x1 ≤ x2 → x2 ≤ W → y1 < y2 → y2 ≤ n → ∃ G, drawRect W F x1 x2 y1 y2 = some G ∧
      ∀ X Y, Y < n → (G X).getLsbD Y = ((F X).getLsbD Y || decide (InRect x1 x2 y1 y2 X Y))) := by
  refine ⟨fun x y hx hy => ?_, fun x y hx hy => ?_, fun x y1 y2 hx hy hn => ?_, fun x1 x2 y hx hW hy => ?_, fun x1 x2 y1 y2 hx hW hy hn => ?_⟩
  · rw [getPixel, if_pos ⟨hx, hy⟩]
    congr 1
    have key : (F x &&& 1#n <<< y) = 0#n ↔ (F x).getLsbD y = false := by
      constructor
      · intro h
        have := congrArg (fun v => BitVec.getLsbD v y) h
        simpa [one_shift y y hy hy] using this
      · intro h
        refine BitVec.eq_of_getLsbD_eq fun Y hY => ?_
        rw [BitVec.getLsbD_and, one_shift y Y hY hy, BitVec.getLsbD_zero]
        by_cases e : Y = y
        · rw [e, h]; rfl
        · rw [decide_eq_false e, Bool.and_false]
    cases hb : (F x).getLsbD y with
    | false => rw [key.mpr hb]; simp
    | true =>
      have : ¬ (F x &&& 1#n <<< y) = 0#n := fun e => by rw [key.mp e] at hb; simp at hb
      simpa using this
  · refine ⟨_, by rw [setPixel, if_pos ⟨hx, hy⟩], fun X Y hY => ?_⟩
    rw [set_apply]
    by_cases e : X = x
    · subst e
      rw [if_pos rfl, BitVec.getLsbD_or, one_shift y Y hY hy]
      simp
    · rw [if_neg e]
      simp [e]
  · obtain ⟨m, hm, hm'⟩ := rowMask_some hy hn
    refine ⟨_, by simp only [drawVLine, hm]; exact forCols_spec W _ 1 x F (by omega), fun X Y hY => ?_⟩
    simp only [InRect]
    by_cases h : x ≤ X ∧ X < x + 1
    · rw [if_pos h, BitVec.getLsbD_or, hm' Y hY]
      congr 1; rw [decide_eq_decide]; omega
    · rw [if_neg h, decide_eq_false (by omega), Bool.or_false]
  · refine ⟨_, by simp only [drawHLine, if_pos hy]; exact forCols_spec W _ (x2 - x1) x1 F (by omega), fun X Y hY => ?_⟩
    simp only [InRect]
    by_cases h : x1 ≤ X ∧ X < x1 + (x2 - x1)
    · rw [if_pos h, BitVec.getLsbD_or, one_shift y Y hY hy]
      congr 1; rw [decide_eq_decide]; omega
    · rw [if_neg h, decide_eq_false (by omega), Bool.or_false]
  · obtain ⟨m, hm, hm'⟩ := rowMask_some hy hn
    refine ⟨_, by simp only [drawRect, hm]; exact forCols_spec W _ (x2 - x1) x1 F (by omega), fun X Y hY => ?_⟩
    simp only [InRect]
    by_cases h : x1 ≤ X ∧ X < x1 + (x2 - x1)
    · rw [if_pos h, BitVec.getLsbD_or, hm' Y hY]
      congr 1; rw [decide_eq_decide]; omega
    · rw [if_neg h, decide_eq_false (by omega), Bool.or_false]

/-- Clearing a rectangle clears everything above it as well: rows 0 to `y2` instead of `y1` to `y2`. -/
theorem C88_clear_counterexample {n : Nat} (W : Nat) (F : Frame n) (x1 x2 y1 y2 : Nat) (hx : x1 ≤ x2) (hW : x2 ≤ W) (hy : y1 < y2) (hn : y2 ≤ n) :
    ∃ G, clearRect W F x1 x2 y1 y2 = some G ∧
      ∀ X Y, Y < n → (G X).getLsbD Y = ((F X).getLsbD Y && !decide (InRect x1 x2 0 y2 X Y)) := by
  refine ⟨_, by simp only [clearRect, if_pos (show y1 < y2 ∧ y2 - y1 ≤ n ∧ y1 < n by omega)]; exact forCols_spec W _ (x2 - x1) x1 F (by omega), fun X Y hY => ?_⟩
  simp only [InRect]
  by_cases h : x1 ≤ X ∧ X < x1 + (x2 - x1)
  · rw [if_pos h, BitVec.getLsbD_and, BitVec.getLsbD_shiftLeft, BitVec.getLsbD_not, BitVec.getLsbD_ushiftRight, BitVec.getLsbD_allOnes]
    congr 1
    rw [Bool.eq_iff_iff]
    simp
    omega
  · rw [if_neg h, decide_eq_false (by omega)]
    simp

/-- a glyph of two columns over the left edge of a display of four columns: only its second column shows -/
example : (draw 4 (fun _ => 0#32) ⟨3, 0, 1, [5#32, 3#32]⟩ (-1) 1).map (fun G => [G 0, G 1]) = some [12#32, 0#32] := by decide +kernel

end Verif.Display
