import Verif.Str.StyleArgsProps
import Verif.Store.PresetLemmas
import Mathlib.Algebra.Order.Field.Basic
import Mathlib.Algebra.Order.Floor.Ring
import Mathlib.Data.Rat.Floor
import Mathlib.Tactic.Linarith
import Mathlib.Tactic.Ring
import Mathlib.Tactic.Positivity
import Mathlib.Tactic.FieldSimp
/-!
# Colour menus (C121)

Model of modes/color_menues.h (the list of colours of colors.txt, the modes which edit hue, brightness and one component, and
resetting a colour) and of the colour arguments of modes/style_argument_helpers.h. `float` and `powf` are idealised: an ordered
field, and for the exponentials any pair of monotone inverse functions.
-/
namespace Verif.Menu.ColorMenu
open Verif.Str hiding Text
open Verif.Store (decimal)

/-- Texts are lists of bytes. -/
abbrev Text := List Nat

/-! ## The list of colours in colors.txt -/

/-- `FileReader::Read()`, common/file_reader.h:193-200: the byte or -1. -/
def readAt (f : List Nat) (i : Nat) : Int := match f[i]? with
  | some c => c
  | none => -1

/-- `ReadHex1`, common/file_reader.h:201-207. -/
def hex1 (c : Int) : Int :=
  if 48 ≤ c ∧ c ≤ 57 then c - 48 else if 97 ≤ c ∧ c ≤ 102 then c - 97 + 10 else if 65 ≤ c ∧ c ≤ 70 then c - 65 + 10 else -1

/-- `ReadHex2`, common/file_reader.h:208-213, stored in a `uint8_t`. -/
def hex2 (f : List Nat) (i : Nat) : Nat :=
  if hex1 (readAt f i) = -1 ∨ hex1 (readAt f (i + 1)) = -1 then 255
  else (16 * hex1 (readAt f i) + hex1 (readAt f (i + 1))).toNat % 256

/-- `mult_`, modes/color_menues.h:24-26. -/
def mult (f : List Nat) : Nat := if readAt f 8 ≤ 13 then 8 else 7

/-- `size_`, modes/color_menues.h:27, 16 bits. -/
def size (f : List Nat) : Nat := f.length / mult f % 65536

/-- `get()`, modes/color_menues.h:36-52. -/
def get (f : List Nat) (pos : Nat) : Nat × Nat × Nat :=
  (hex2 f (pos * mult f), hex2 f (pos * mult f + 2), hex2 f (pos * mult f + 4))

/-- How a colour is written: two hexadecimal digits for each component, in small or capital letters. -/
def digit (cap : Bool) (d : Nat) : Nat := if d < 10 then 48 + d else if cap then 55 + d else 87 + d
def line (cap : Bool) (c : Nat × Nat × Nat) : List Nat :=
  [digit cap (c.1 / 16), digit cap (c.1 % 16), digit cap (c.2.1 / 16), digit cap (c.2.1 % 16), digit cap (c.2.2 / 16), digit cap (c.2.2 % 16), 10]

/-- A file with one colour in each line, each line ended by a line feed. -/
def file (cap : Bool) (cs : List (Nat × Nat × Nat)) : List Nat := (cs.map (line cap)).flatten

theorem hex1_digit (cap : Bool) (d : Nat) (h : d < 16) : hex1 (digit cap d) = d := by
  unfold hex1 digit
  split
  · rw [if_pos (by omega)]; omega
  · split
    · rw [if_neg (by omega), if_neg (by omega), if_pos (by omega)]; omega
    · rw [if_neg (by omega), if_pos (by omega)]; omega

theorem file_length (cap : Bool) (cs : List (Nat × Nat × Nat)) : (file cap cs).length = 7 * cs.length := by
  induction cs with
  | nil => rfl
  | cons c t ih =>
    have : file cap (c :: t) = line cap c ++ file cap t := rfl
    rw [this, List.length_append, ih]
    simp [line]; omega

theorem file_at (cap : Bool) (cs : List (Nat × Nat × Nat)) (i k : Nat) (c : Nat × Nat × Nat) (h : cs[i]? = some c) (hk : k < 7) : (file cap cs)[7 * i + k]? = (line cap c)[k]? := by
  induction cs generalizing i with
  | nil => simp at h
  | cons x t ih =>
    have e : file cap (x :: t) = line cap x ++ file cap t := rfl
    have hl : (line cap x).length = 7 := rfl
    rw [e]
    cases i with
    | zero =>
      have : x = c := by simpa using h
      subst this
      rw [List.getElem?_append_left (by omega)]
      simp
    | succ j =>
      rw [List.getElem?_append_right (by omega), hl]
      rw [show 7 * (j + 1) + k - 7 = 7 * j + k by omega]
      exact ih j (by simpa using h)

theorem hex2_eq (f : List Nat) (cap : Bool) (i v : Nat) (hv : v < 256) (h0 : f[i]? = some (digit cap (v / 16))) (h1 : f[i + 1]? = some (digit cap (v % 16))) : hex2 f i = v := by
  have r0 : readAt f i = (digit cap (v / 16) : Nat) := by unfold readAt; rw [h0]
  have r1 : readAt f (i + 1) = (digit cap (v % 16) : Nat) := by unfold readAt; rw [h1]
  unfold hex2
  rw [r0, r1, hex1_digit _ _ (by omega), hex1_digit _ _ (by omega), if_neg (by omega)]
  omega

theorem file_mult (c d : Nat × Nat × Nat) (cap : Bool) (cs : List (Nat × Nat × Nat)) : mult (file cap (c :: d :: cs)) = 7 := by
  have h := file_at cap (c :: d :: cs) 1 1 d rfl (by omega)
  have : readAt (file cap (c :: d :: cs)) 8 = (digit cap (d.1 % 16) : Nat) := by
    unfold readAt
    rw [show (8 : Nat) = 7 * 1 + 1 by rfl, h]
    rfl
  unfold mult
  rw [this]
  have : 48 ≤ digit cap (d.1 % 16) := by unfold digit; split <;> (try split) <;> omega
  rw [if_neg (by omega)]

/-- A colors.txt with two lines or more, each ended by a line feed, gives a menu with one entry for each line, in order; digits
in small or capital letters. -/
theorem C121_file (c d : Nat × Nat × Nat) (cap : Bool) (cs : List (Nat × Nat × Nat)) (hn : cs.length + 2 < 65536)
    (h : ∀ x ∈ c :: d :: cs, x.1 < 256 ∧ x.2.1 < 256 ∧ x.2.2 < 256) :
    size (file cap (c :: d :: cs)) = cs.length + 2 ∧ ∀ i x, (c :: d :: cs)[i]? = some x → get (file cap (c :: d :: cs)) i = x := by
  have hm := file_mult c d cap cs
  constructor
  · unfold size
    rw [hm, file_length]
    simp only [List.length_cons]
    omega
  · intro i x hx
    obtain ⟨b1, b2, b3⟩ := h x (List.mem_of_getElem? hx)
    have at' : ∀ k, k < 7 → (file cap (c :: d :: cs))[i * 7 + k]? = (line cap x)[k]? := by
      intro k hk; rw [Nat.mul_comm]; exact file_at _ _ i k x hx hk
    unfold get
    rw [hm, hex2_eq _ cap (i * 7) x.1 b1 (at' 0 (by omega)) (at' 1 (by omega)),
      hex2_eq _ cap (i * 7 + 2) x.2.1 b2 (at' 2 (by omega)) (at' 3 (by omega)),
      hex2_eq _ cap (i * 7 + 4) x.2.2 b3 (at' 4 (by omega)) (at' 5 (by omega))]

/-- Lines ended by carriage return and line feed are not recognised: byte 8 is looked at, not byte 7. The second colour of this
file is 00ff00, the menu shows ff0ff0. -/
theorem C121_crlf_counterexample :
    get [102, 102, 48, 48, 48, 48, 13, 10, 48, 48, 102, 102, 48, 48, 13, 10] 1 = (255, 15, 240) := by decide

/-- A file with a single colour gives an empty menu. -/
theorem C121_single_counterexample (cap : Bool) (c : Nat × Nat × Nat) : size (file cap [c]) = 0 := by
  have h : readAt (file cap [c]) 8 = -1 := by
    unfold readAt
    rw [List.getElem?_eq_none (by rw [file_length]; simp)]
  unfold size mult
  rw [h, if_pos (by omega), file_length]
  simp

/-- If the last line has no line feed its colour is missing. -/
theorem C121_last_counterexample : size ((file false [(1, 2, 3), (4, 5, 6)]).dropLast) = 1 := by decide

/-! ## Colour arguments -/

/-- Digits in a base below 10, with the rest. -/
def digits (base acc : Nat) : Text → Nat × Text
  | [] => (acc, [])
  | c :: t => if 48 ≤ c ∧ c < 48 + base then digits base (base * acc + (c - 48)) t else (acc, c :: t)

/-- `strtol(s, &end, 0)` for texts without blanks, signs and hexadecimal numbers: a leading 0 means octal. -/
def strtol0 : Text → Nat × Text
  | 48 :: t => digits 8 0 t
  | t => digits 10 0 t

/-- The number behind the next character; `none` if the text is over, then the code reads beyond its end. -/
def next : Text → Option (Nat × Text)
  | [] => none
  | _ :: t => some (strtol0 t)

/-- The text of a colour argument read as a colour, modes/style_argument_helpers.h:33-36. -/
def parse (t : Text) : Option (Nat × Nat × Nat) :=
  (next (strtol0 t).2).bind fun g => (next g.2).map fun b => ((strtol0 t).1, g.1, b.1)

/-- The text written, modes/style_argument_helpers.h:44-51. -/
def fmt (c : Nat × Nat × Nat) : Text := decimal c.1 ++ 44 :: (decimal c.2.1 ++ 44 :: decimal c.2.2)

theorem digits_decimal (n acc : Nat) (rest : Text) (hr : ∀ c t, rest = c :: t → ¬ (48 ≤ c ∧ c < 58)) :
    digits 10 acc (decimal n ++ rest) = (acc * 10 ^ (decimal n).length + n, rest) := by
  have gen : ∀ (n acc : Nat) (rest : Text), digits 10 acc (decimal n ++ rest) = digits 10 (acc * 10 ^ (decimal n).length + n) rest := by
    intro n
    induction n using Nat.strongRecOn with
    | _ n ih =>
      intro acc rest
      rw [decimal]
      by_cases hn : n < 10
      · rw [dif_pos hn]
        simp only [List.cons_append, List.nil_append, digits, List.length_singleton, Nat.pow_one]
        rw [if_pos ⟨by omega, by omega⟩]
        congr 1
        omega
      · rw [dif_neg hn, List.append_assoc, ih (n / 10) (by omega)]
        simp only [List.cons_append, List.nil_append, digits]
        rw [if_pos ⟨by omega, by omega⟩]
        congr 1
        simp only [List.length_append, List.length_singleton, Nat.pow_succ]
        have h3 : acc * (10 ^ (decimal (n / 10)).length * 10) = 10 * (acc * 10 ^ (decimal (n / 10)).length) := by
          rw [← Nat.mul_assoc, Nat.mul_comm]
        rw [h3, Nat.add_sub_cancel_left, Nat.mul_add]
        omega
  rw [gen]
  cases rest with
  | nil => rfl
  | cons c t => simp only [digits]; rw [if_neg (hr c t rfl)]

theorem decimal_zero : decimal 0 = [48] := by rw [decimal]; rfl

theorem decimal_head_pos (n : Nat) (h : 0 < n) : ∃ c t, decimal n = c :: t ∧ c ≠ 48 := by
  induction n using Nat.strongRecOn with
  | _ n ih =>
    rw [decimal]
    by_cases hn : n < 10
    · rw [dif_pos hn]; exact ⟨48 + n, [], rfl, by omega⟩
    · rw [dif_neg hn]
      obtain ⟨c, t, e, hc⟩ := ih (n / 10) (by omega) (by omega)
      exact ⟨c, t ++ [48 + n % 10], by rw [e]; rfl, hc⟩

theorem strtol0_decimal (n : Nat) (rest : Text) (hr : ∀ c t, rest = c :: t → ¬ (48 ≤ c ∧ c < 58)) : strtol0 (decimal n ++ rest) = (n, rest) := by
  rcases Nat.eq_zero_or_pos n with h | h
  · subst h
    rw [decimal_zero]
    show digits 8 0 rest = _
    cases rest with
    | nil => rfl
    | cons c t =>
      simp only [digits]
      rw [if_neg (fun q => hr c t rfl ⟨q.1, by omega⟩)]
  · obtain ⟨c, t, e, hc⟩ := decimal_head_pos n h
    have hd := digits_decimal n 0 rest hr
    rw [e] at hd ⊢
    have : strtol0 (c :: t ++ rest) = digits 10 0 (c :: t ++ rest) := by
      simp only [List.cons_append, strtol0]
      split
      · rename_i h; injection h with h1 _; exact absurd h1 hc
      · rfl
    rw [this, hd]
    simp

/-- A colour written as an argument reads back as the same colour: also one with zeros, which might be taken for octal. -/
theorem parse_fmt (c : Nat × Nat × Nat) : parse (fmt c) = some c := by
  have h44 : ∀ (t : Text) c' t', (44 :: t : Text) = c' :: t' → ¬ (48 ≤ c' ∧ c' < 58) := by
    intro t c' t' h; injection h with h1 _; omega
  unfold parse fmt
  rw [strtol0_decimal c.1 _ (h44 _)]
  simp only [next, Option.bind_some]
  rw [strtol0_decimal c.2.1 _ (h44 _)]
  simp only [Option.map_some]
  have := strtol0_decimal c.2.2 [] (by simp)
  rw [List.append_nil] at this
  rw [this]

theorem decimal_chars (n : Nat) : ∀ c ∈ decimal n, 48 ≤ c ∧ c ≤ 57 := by
  induction n using Nat.strongRecOn with
  | _ n ih =>
    rw [decimal]
    by_cases hn : n < 10
    · rw [dif_pos hn]; simp; omega
    · rw [dif_neg hn]
      intro c hc
      rw [List.mem_append] at hc
      rcases hc with hc | hc
      · exact ih (n / 10) (by omega) c hc
      · simp at hc; omega

theorem decimal_len (n k : Nat) (hk : 0 < k) (h : n < 10 ^ k) : (decimal n).length ≤ k := by
  induction k generalizing n with
  | zero => omega
  | succ k ih =>
    rw [decimal]
    by_cases hn : n < 10
    · rw [dif_pos hn]; simp
    · rw [dif_neg hn, List.length_append]
      rcases Nat.eq_zero_or_pos k with h0 | h0
      · subst h0; simp at h; omega
      · have := ih (n / 10) h0 (by rw [Nat.pow_succ] at h; omega)
        simp; omega

theorem fmt_chars (c : Nat × Nat × Nat) : ∀ x ∈ fmt c, 44 ≤ x ∧ x ≤ 57 := by
  intro x hx
  unfold fmt at hx
  simp only [List.mem_append, List.mem_cons] at hx
  rcases hx with h | h | h | h | h
  · have := decimal_chars _ x h; omega
  · omega
  · have := decimal_chars _ x h; omega
  · omega
  · have := decimal_chars _ x h; omega

theorem fmt_word (c : Nat × Nat × Nat) : IsWord (fmt c) ∧ (fmt c).head? ≠ some 126 := by
  refine ⟨⟨by unfold fmt; simp, fun x hx => ?_⟩, fun h => ?_⟩
  · have := fmt_chars c x hx; omega
  · have := fmt_chars c 126 (List.mem_of_mem_head? (by rw [h]; rfl)); omega

/-- Saving a colour in the menu and reading it back gives the same colour; no other argument of the style changes; the text
fits in the 32 bytes the code has for it. `off` is `menu_current_style_offset`. -/
theorem C121_save {styles : List (Text × Prog)} {s : Text} {ws : List Text} {p : Prog} {arg off : Nat} {c : Nat × Nat × Nat} {s' : Text}
    (hn : ∀ e ∈ styles, IsWord e.1) (h : Words s ws) (ht : NoTrailing s) (hp : findStyle styles s = some p)
    (hd : ProperDefaults (queries (argEnv ws) p 0)) (hi : Indep (arg + off) p 0)
    (hc : c.1 < 65536 ∧ c.2.1 < 65536 ∧ c.2.2 < 65536)
    (hs : setArgument styles s (arg + off) (fmt c) = some s') :
    (∃ w, getArgument styles s' (arg + off) = .val w ∧ parse w = some c ∧ w.length < 32) ∧
    ∀ m, m ≠ arg + off → getArgument styles s' m = getArgument styles s m := by
  obtain ⟨h1, h2⟩ := C09_set_get hn h ht hp hd hi (fmt_word c).1 (fmt_word c).2 hs
  refine ⟨⟨fmt c, h1, parse_fmt c, ?_⟩, h2⟩
  have a := decimal_len c.1 5 (by omega) (by omega)
  have b := decimal_len c.2.1 5 (by omega) (by omega)
  have d := decimal_len c.2.2 5 (by omega) (by omega)
  unfold fmt
  simp only [List.length_append, List.length_cons]
  omega

/-- `ResetColorToDefaultEntry::select`, modes/color_menues.h:222-231: the text of the argument; no offset is added to the
number of the argument. -/
def resetText (styles : List (Text × Prog)) (s : Text) (arg : Nat) : GetRes := getArgument styles (resetArguments s) arg

/-- The style `builtin X Y` with one colour argument, styles/style_parser.h:15-40: its default is 0,0,65535. -/
def builtin : List (Text × Prog) :=
  [(builtinWord, .get 0 [48] fun _ => .get 1 [49] fun _ => .shift 2 (.get 0 (fmt (0, 0, 65535)) fun _ => .done))]

/-- "builtin 0 1 255,0,0" -/
def styleText : Text := builtinWord ++ [32, 48, 32, 49, 32] ++ fmt (255, 0, 0)

/-- Resetting a colour looks at the wrong argument: it gets the number of the preset, not the default colour, and reads beyond the
end of this text. The default colour would have been found with the offset. -/
theorem C121_reset_counterexample :
    resetText builtin styleText 1 = .val [48] ∧ parse [48] = none ∧
    (getArgument builtin (resetArguments styleText) (1 + 2) = .val (fmt (0, 0, 65535)) ∧ parse (fmt (0, 0, 65535)) = some (0, 0, 65535)) ∧
    getArgument builtin styleText (1 + 2) = .val (fmt (255, 0, 0)) := by
  refine ⟨by decide +kernel, by decide, ⟨?_, parse_fmt _⟩, ?_⟩
  · decide +kernel
  · decide +kernel

/-- The hypotheses of `C121_save` are met by the colour of this style; here it is changed from red to another. -/
example : setArgument builtin styleText (1 + 2) (fmt (0, 8, 65535)) = some (builtinWord ++ [32, 48, 32, 49, 32] ++ fmt (0, 8, 65535)) ∧
    (∃ p, findStyle builtin styleText = some p ∧ Indep (1 + 2) p 0) ∧ NoTrailing styleText := by
  refine ⟨by decide +kernel, ⟨(builtin.head (by decide)).2, rfl, ?_⟩, ?_⟩
  · simp only [builtin, List.head_cons, Indep]
    simp
  · intro c hc
    have : styleText.getLast? = some 48 := by decide +kernel
    rw [this] at hc
    cases hc; decide

/-! ## Editing a colour and cancelling -/

section
variable {K : Type} [Field K] [LinearOrder K] [IsStrictOrderedRing K] [FloorRing K]

/-- The colour edited: hue, saturation, lightness. -/
structure Hsl (K : Type) where
  H : K
  S : K
  L : K

/-- `ColorHueMode::get` and `set`, modes/color_menues.h:100-109. -/
def hueGet (c : Hsl K) : Int := ⌊c.H * 32767⌋
def hueSet (c : Hsl K) (x : Int) : Hsl K := { c with H := (x : K) / 32767 }

/-- The mode: entered with colour `c`, turned to `xs` one after the other, cancelled: modes/smooth_mode.h:30-39. -/
def hueCancel (c : Hsl K) (xs : List Int) : Hsl K := hueSet (xs.foldl hueSet c) (hueGet c)

/-- Cancelling the editing of the hue gives back the colour but for less than one step of 32767 of the hue, however it was turned. -/
theorem C121_hue (c : Hsl K) (xs : List Int) :
    (hueCancel c xs).S = c.S ∧ (hueCancel c xs).L = c.L ∧ (hueCancel c xs).H ≤ c.H ∧ c.H < (hueCancel c xs).H + 1 / 32767 := by
  have key : ∀ (xs : List Int) (c : Hsl K), (xs.foldl hueSet c).S = c.S ∧ (xs.foldl hueSet c).L = c.L := by
    intro xs
    induction xs with
    | nil => intro c; exact ⟨rfl, rfl⟩
    | cons x t ih => intro c; exact ih (hueSet c x)
  have f1 := Int.floor_le (c.H * 32767)
  have f2 := Int.lt_floor_add_one (c.H * 32767)
  refine ⟨(key xs c).1, (key xs c).2, ?_, ?_⟩
  · show ((⌊c.H * 32767⌋ : Int) : K) / 32767 ≤ c.H
    rw [div_le_iff₀ (by norm_num)]
    exact f1
  · show c.H < ((⌊c.H * 32767⌋ : Int) : K) / 32767 + 1 / 32767
    rw [← add_div, lt_div_iff₀ (by norm_num)]
    exact f2

/-- `ColorBrightnessMode::get`, modes/color_menues.h:142-151; `q` is `powf(x, 1/COLOR_MENU_GAMMA)`. -/
def brightGet (q : K → K) (c : Hsl K) : Int :=
  ⌊(if c.L > 1 / 2 then q ((c.L - 1 / 2) * 2) / 2 + 1 / 2 else q (c.L * 2) / 2) * 32767⌋

/-- `set`, modes/color_menues.h:153-164: from the colour at the beginning `c`; `p` is `powf(x, COLOR_MENU_GAMMA)`. -/
def brightSet (p : K → K) (c : Hsl K) (x : Int) : Hsl K :=
  if (x : K) / 32767 > 1 / 2 then ⟨c.H, 1, p (((x : K) / 32767 - 1 / 2) * 2) / 2 + 1 / 2⟩
  else ⟨c.H, p ((x : K) / 32767 * 2) / 2 * 2, p ((x : K) / 32767 * 2) / 2⟩

/-- Entering the editing of the brightness and cancelling it. -/
def brightCancel (p q : K → K) (c : Hsl K) : Hsl K := brightSet p c (brightGet q c)

omit [IsStrictOrderedRing K] in
/-- Cancelling does not give back the colour: its saturation is then 1 or twice the lightness, whatever it was before. -/
theorem C121_brightness_counterexample (p q : K → K) (c : Hsl K) :
    (brightCancel p q c).S = 1 ∨ (brightCancel p q c).S = 2 * (brightCancel p q c).L := by
  unfold brightCancel brightSet
  split
  · exact Or.inl rfl
  · right; show p _ / 2 * 2 = 2 * (p _ / 2); ring

/-- So a grey becomes a full colour. -/
theorem C121_grey_counterexample : (brightCancel (fun x => x) (fun x => x) (⟨0, 0, 1 / 2⟩ : Hsl Rat)).S = 32766 / 32767 := by
  have h : brightGet (fun x => x) (⟨0, 0, 1 / 2⟩ : Hsl Rat) = 16383 := by
    unfold brightGet
    rw [Int.floor_eq_iff]
    norm_num
  unfold brightCancel
  rw [h]
  unfold brightSet
  norm_num

/-- `ColorGammaMode::get` and `set`, modes/color_menues.h:177-183. -/
def gammaGet (q : K → K) (v : Int) : Int := ⌊q ((v : K) / 65535) * 32767⌋
def gammaSet (p : K → K) (x : Int) : Int := ⌊p ((x : K) / 32767) * 65535⌋

/-- Powers on 0..1: monotone, inverse to each other, and of slope at most `g`. -/
structure Gamma (p q : K → K) (g : K) : Prop where
  mono : ∀ x y, 0 ≤ x → x ≤ y → y ≤ 1 → p x ≤ p y
  inv : ∀ x, 0 ≤ x → x ≤ 1 → p (q x) = x
  range : ∀ x, 0 ≤ x → x ≤ 1 → 0 ≤ q x ∧ q x ≤ 1
  slope : ∀ x y, 0 ≤ x → x ≤ y → y ≤ 1 → p y - p x ≤ g * (y - x)
  pos : 0 ≤ g

/-- Cancelling the editing of a component never makes it brighter, and at most 2 g + 2 steps of 65535 darker. -/
theorem C121_gamma (p q : K → K) (g : K) (hg : Gamma p q g) (v : Int) (h0 : 0 ≤ v) (h1 : v ≤ 65535) :
    gammaSet p (gammaGet q v) ≤ v ∧ (v : K) < gammaSet p (gammaGet q v) + (65535 * g / 32767 + 1) := by
  have hv0 : (0 : K) ≤ (v : K) / 65535 := div_nonneg (by exact_mod_cast h0) (by norm_num)
  have hv1 : (v : K) / 65535 ≤ 1 := by rw [div_le_one (by norm_num)]; exact_mod_cast h1
  obtain ⟨u0, u1⟩ := hg.range _ hv0 hv1
  have hi := hg.inv _ hv0 hv1
  unfold gammaGet
  generalize q ((v : K) / 65535) = u at u0 u1 hi
  have f1 := Int.floor_le (u * 32767)
  have f2 := Int.lt_floor_add_one (u * 32767)
  have f0 : (0 : Int) ≤ ⌊u * 32767⌋ := Int.floor_nonneg.2 (by positivity)
  generalize ⌊u * 32767⌋ = x at f0 f1 f2
  have x0 : (0 : K) ≤ (x : K) / 32767 := div_nonneg (by exact_mod_cast f0) (by norm_num)
  have x1 : (x : K) / 32767 ≤ u := by rw [div_le_iff₀ (by norm_num)]; exact f1
  have x2 : u - (x : K) / 32767 ≤ 1 / 32767 := by
    have : u < ((x : K) + 1) / 32767 := by rw [lt_div_iff₀ (by norm_num)]; exact f2
    rw [add_div] at this
    linarith
  have m1 := hg.mono _ _ x0 x1 u1
  have m2 := hg.slope _ _ x0 x1 u1
  have m3 := mul_le_mul_of_nonneg_left x2 hg.pos
  rw [hi] at m1 m2
  unfold gammaSet
  have g1 := Int.floor_le (p ((x : K) / 32767) * 65535)
  have g2 := Int.lt_floor_add_one (p ((x : K) / 32767) * 65535)
  have e : (v : K) / 65535 * 65535 = v := by field_simp
  constructor
  · have : ((⌊p ((x : K) / 32767) * 65535⌋ : Int) : K) ≤ (v : K) := by
      have := mul_le_mul_of_nonneg_right m1 (by norm_num : (0 : K) ≤ 65535)
      linarith
    exact_mod_cast this
  · have a : (v : K) / 65535 - p ((x : K) / 32767) ≤ g * (1 / 32767) := le_trans m2 m3
    have b := mul_le_mul_of_nonneg_right a (by norm_num : (0 : K) ≤ 65535)
    have c : g * (1 / 32767) * 65535 = 65535 * g / 32767 := by ring
    rw [c, sub_mul, e] at b
    linarith

end

/-- It may get darker each time it is cancelled. -/
theorem C121_gamma_counterexample : gammaSet (fun x : Rat => x) (gammaGet (fun x : Rat => x) 1) = 0 := by
  have h : gammaGet (fun x : Rat => x) 1 = 0 := by unfold gammaGet; rw [Int.floor_eq_iff]; norm_num
  rw [h]; unfold gammaSet; rw [Int.floor_eq_iff]; norm_num

example : Gamma (fun x : Rat => x) (fun x => x) 1 :=
  ⟨fun _ _ _ h _ => h, fun _ _ _ => rfl, fun _ a b => ⟨a, b⟩, fun _ _ _ _ _ => by linarith, by norm_num⟩
example : get (file true [(255, 0, 16), (1, 2, 3), (171, 205, 239)]) 2 = (171, 205, 239) := by decide
example : parse (fmt (0, 65535, 8)) = some (0, 65535, 8) := parse_fmt _

end Verif.Menu.ColorMenu
