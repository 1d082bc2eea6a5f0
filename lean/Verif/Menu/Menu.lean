/-
  Menus (modes/menu_base.h, modes/menu_list.h) and the style menu
  (modes/style_option_modes.h).

  Not modelled: the twist gesture which decides *when* `next`/`prev` are called
  (floating point, modes/stepped_mode.h:38-60), spoken output.
-/
namespace Verif.Menu

/-! ## Model -/

/-- `MOD(x, m)`, common/math.h:31-34: `x >= 0 ? x % m : m + ~(~x % m)` with C's
    truncating `%`.  `none`: division by zero. `~y` is `-y-1`. -/
def MOD (x m : Int) : Option Int :=
  if m = 0 then none
  else if x ≥ 0 then some (x.tmod m)
  else some (m + (-((-x - 1).tmod m) - 1))

/-- Conversion to `uint16_t` (`pos_`, menu_base.h:37). -/
def u16 (x : Int) : Nat := (x % 65536).toNat

/-- `MenuBase::next`, menu_base.h:30-32. -/
def next (size pos : Nat) : Option Nat := (MOD ((pos : Int) + 1) size).map u16

/-- `MenuBase::prev`, menu_base.h:33-35. -/
def prev (size pos : Nat) : Option Nat := (MOD ((pos : Int) - 1) size).map u16

/-- A user stepping through a menu (buttons, twists or the serial commands
    `left`/`right`, stepped_mode.h:62-90): `true` is next, `false` previous. -/
def walk (size : Nat) : List Bool → Nat → Option Nat
  | [], p => some p
  | b :: bs, p => ((if b then next else prev) size p).bind (walk size bs)

/-- What the user sees of a menu entry: a type `MenuEntry` with its static
    `size` (menu_list.h:15-20, NullEntry 22-26, SubMenuAllBladeEntry 36-37). -/
structure Entry where
  name : Nat
  size : Nat
deriving DecidableEq, Repr

/-- The type built by `MenuListHelper` (menu_list.h:82-110). -/
inductive Tree
  | one (e : Entry)
  | cat (a b : Tree)

/-- `MenuEntry::size`, `MenuEntryConcat::size` (menu_list.h:16, 84). -/
def Tree.size : Tree → Nat
  | .one e => e.size
  | .cat a b => a.size + b.size

/-- `say(entry)` / `select(entry)` (menu_list.h:85-92): the entry which gets the
    call and the index it gets.  Nothing checks the index. -/
def Tree.call : Tree → Nat → Entry × Nat
  | .one e, i => (e, i)
  | .cat a b, i => if i < a.size then a.call i else b.call (i - a.size)

/-- `HeadTypeList` (common/typelist.h:56-66): moves `n` types from the list to the
    end of the prefix; `none` = the template does not exist. -/
def head : Nat → List Entry → List Entry → Option (List Entry)
  | 0, _, pre => some pre
  | _ + 1, [], _ => none
  | n + 1, e :: l, pre => head n l (pre ++ [e])

/-- `TailTypeList` (common/typelist.h:44-53). -/
def tail : Nat → List Entry → Option (List Entry)
  | 0, l => some l
  | _ + 1, [] => none
  | n + 1, _ :: l => tail n l

/-- `MenuListHelper` (menu_list.h:97-108): the general case splits the list in two
    halves (`SplitTypeList`, typelist.h:69-73), one and two entries are special.
    The recursion depth of template expansion is the fuel; `none` = does not
    compile (e.g. the empty list). -/
def build : Nat → List Entry → Option Tree
  | 0, _ => none
  | _ + 1, [e] => some (.one e)
  | _ + 1, [e, f] => some (.cat (.one e) (.one f))
  | n + 1, l => do
      let h ← head (l.length / 2) l []
      let t ← tail (l.length / 2) l
      let a ← build n h
      let b ← build n t
      some (.cat a b)

/-! ### The style menu (style_option_modes.h:237-264) -/

/-- `SelectStyleMenu::size` (style_option_modes.h:238-240). -/
def styleSize (blades presets : Nat) : Nat := u16 (blades * presets)

/-- `mode_activate` (style_option_modes.h:243-249): position for the current style
    `builtin <preset> <style>`. -/
def styleStart (blades preset style : Nat) : Nat := u16 (preset * blades + style)

/-- `select` (style_option_modes.h:241-242, 258-262): the style given to the
    preset is `builtin <preset()> <blade()>`. -/
def styleAt (blades pos : Nat) : Nat × Nat := (pos % blades, pos / blades)

/-! ## Lemmas -/

theorem MOD_eq (x m : Int) (hm : 0 < m) : MOD x m = some (x % m) := by
  unfold MOD
  rw [if_neg (by omega)]
  by_cases hx : x ≥ 0
  · rw [if_pos hx, Int.tmod_eq_emod_of_nonneg hx]
  · rw [if_neg hx, Int.tmod_eq_emod_of_nonneg (by omega)]
    have e : x % m = m - 1 - (-x - 1) % m := by
      have h1 := Int.mul_ediv_add_emod (-x - 1) m
      have h2 := Int.emod_nonneg (-x - 1) (by omega : m ≠ 0)
      have h3 := Int.emod_lt_of_pos (-x - 1) hm
      generalize hr : (-x - 1) % m = r at h1 h2 h3
      generalize (-x - 1) / m = q at h1
      have h4 : x = (m - 1 - r) + m * (-q - 1) := by
        rw [Int.mul_sub, Int.mul_neg]; omega
      rw [h4, Int.add_mul_emod_self_left, Int.emod_eq_of_lt (by omega) (by omega)]
    rw [e]; congr 1; omega

theorem u16_small (x : Int) (h0 : 0 ≤ x) (h1 : x < 65536) : u16 x = x.toNat := by
  unfold u16; rw [Int.emod_eq_of_lt h0 h1]

theorem next_eq (size pos : Nat) (h0 : 0 < size) (h1 : size < 65536) :
    next size pos = some ((pos + 1) % size) := by
  unfold next
  rw [MOD_eq _ _ (by omega)]
  have h2 := Int.emod_nonneg ((pos : Int) + 1) (by omega : (size : Int) ≠ 0)
  have h3 := Int.emod_lt_of_pos ((pos : Int) + 1) (by omega : (0 : Int) < size)
  rw [Option.map_some, u16_small _ h2 (by omega)]
  congr 1

theorem prev_eq (size pos : Nat) (h0 : 0 < size) (h1 : size < 65536) :
    prev size pos = some ((pos + (size - 1)) % size) := by
  unfold prev
  rw [MOD_eq _ _ (by omega)]
  have h2 := Int.emod_nonneg ((pos : Int) - 1) (by omega : (size : Int) ≠ 0)
  have h3 := Int.emod_lt_of_pos ((pos : Int) - 1) (by omega : (0 : Int) < size)
  rw [Option.map_some, u16_small _ h2 (by omega)]
  congr 1
  have : ((pos : Int) - 1) % size = (((pos + (size - 1)) % size : Nat) : Int) := by
    rw [Int.natCast_emod]
    have : ((pos + (size - 1) : Nat) : Int) = ((pos : Int) - 1) + size := by omega
    rw [this, Int.add_emod_right]
  rw [this]; rfl

theorem head_eq : ∀ (n : Nat) (l pre : List Entry), n ≤ l.length →
    head n l pre = some (pre ++ l.take n)
  | 0, l, pre, _ => by simp [head]
  | n + 1, [], pre, h => by simp at h
  | n + 1, e :: l, pre, h => by
      simp only [head]
      rw [head_eq n l _ (by simpa using h)]
      simp

theorem tail_eq : ∀ (n : Nat) (l : List Entry), n ≤ l.length → tail n l = some (l.drop n)
  | 0, l, _ => by simp [tail]
  | n + 1, [], h => by simp at h
  | n + 1, e :: l, h => by
      simp only [tail]
      rw [tail_eq n l (by simpa using h)]
      simp

/-! ## Specification -/

/-- What the documentation promises: the entries one after the other, an entry
    of size `n` taking `n` positions. -/
def expand (l : List Entry) : List (Entry × Nat) :=
  l.flatMap fun e => (List.range e.size).map fun i => (e, i)

/-- Number of positions. -/
def total (l : List Entry) : Nat := (l.map Entry.size).sum

/-- Net number of steps forward. -/
def net : List Bool → Int
  | [] => 0
  | b :: bs => (if b then 1 else -1) + net bs

theorem expand_length (l : List Entry) : (expand l).length = total l := by
  induction l with
  | nil => rfl
  | cons e l ih =>
    simp only [expand, total, List.flatMap_cons, List.length_append, List.length_map,
      List.length_range, List.map_cons, List.sum_cons] at ih ⊢
    rw [ih]

theorem expand_append (a b : List Entry) : expand (a ++ b) = expand a ++ expand b := by
  simp [expand]

/-- A tree is right for a list. -/
def Good (t : Tree) (l : List Entry) : Prop :=
  t.size = total l ∧ ∀ i, i < t.size → (expand l)[i]? = some (t.call i)

theorem good_one (e : Entry) : Good (.one e) [e] := by
  refine ⟨by simp [Tree.size, total], fun i hi => ?_⟩
  simp only [Tree.size] at hi
  simp [expand, Tree.call, hi]

theorem good_cat {a b : Tree} {l m : List Entry} (ha : Good a l) (hb : Good b m) :
    Good (.cat a b) (l ++ m) := by
  obtain ⟨ha1, ha2⟩ := ha
  obtain ⟨hb1, hb2⟩ := hb
  refine ⟨by simp [Tree.size, total, ha1, hb1], fun i hi => ?_⟩
  simp only [Tree.size] at hi
  rw [expand_append]
  simp only [Tree.call]
  by_cases h : i < a.size
  · rw [if_pos h, List.getElem?_append_left (by rw [expand_length, ← ha1]; exact h)]
    exact ha2 i h
  · rw [if_neg h, List.getElem?_append_right (by rw [expand_length, ← ha1]; omega),
      expand_length, ← ha1]
    exact hb2 _ (by omega)

theorem build_good : ∀ (n : Nat) (l : List Entry), l ≠ [] → l.length ≤ n →
    ∃ t, build n l = some t ∧ Good t l
  | 0, l, h, hn => by cases l <;> simp at h hn
  | n + 1, [], h, hn => absurd rfl h
  | n + 1, [e], h, hn => ⟨_, rfl, good_one e⟩
  | n + 1, [e, f], h, hn => ⟨_, rfl, good_cat (good_one e) (good_one f)⟩
  | n + 1, e :: f :: g :: l, h, hn => by
      obtain ⟨k, hk⟩ : ∃ k, k = (e :: f :: g :: l).length / 2 := ⟨_, rfl⟩
      have hlen : (e :: f :: g :: l).length = l.length + 3 := by simp
      have hk1 : 0 < k := by omega
      have hk2 : k < (e :: f :: g :: l).length := by omega
      have hhd : build (n + 1) (e :: f :: g :: l) = (do
          let h ← head ((e :: f :: g :: l).length / 2) (e :: f :: g :: l) []
          let t ← tail ((e :: f :: g :: l).length / 2) (e :: f :: g :: l)
          let a ← build n h
          let b ← build n t
          some (.cat a b)) := rfl
      rw [hhd, ← hk, head_eq k _ [] (by omega), tail_eq k _ (by omega)]
      generalize e :: f :: g :: l = L at *
      obtain ⟨a, ha1, ha2⟩ := build_good n (L.take k)
        (by
          intro h0
          have := congrArg List.length h0
          rw [List.length_take, List.length_nil] at this
          omega)
        (by rw [List.length_take]; omega)
      obtain ⟨b, hb1, hb2⟩ := build_good n (L.drop k)
        (by
          intro h0
          have := congrArg List.length h0
          rw [List.length_drop, List.length_nil] at this
          omega)
        (by rw [List.length_drop]; omega)
      refine ⟨.cat a b, ?_, ?_⟩
      · simp [ha1, hb1]
      · have := good_cat ha2 hb2
        rwa [List.take_append_drop] at this

/-! ## C55 -/

/-- C55: in a menu of `size` positions every sequence of next/previous steps, of
    any length, ends at the position `net` steps on, counted round the menu.  In
    particular next and previous undo each other, the position stays inside the
    menu, and no position is skipped. -/
theorem C55_walk (size : Nat) (h0 : 0 < size) (h1 : size < 65536) :
    ∀ (steps : List Bool) (pos : Nat), pos < size →
      ∃ p, walk size steps pos = some p ∧ p < size ∧
        ((p : Int) - ((pos : Int) + net steps)) % size = 0
  | [], pos, h => ⟨pos, rfl, h, by simp [net]⟩
  | b :: bs, pos, h => by
      obtain ⟨q, hq, hqs, hqe⟩ : ∃ q, (if b then next else prev) size pos = some q ∧ q < size ∧
          ∃ k : Int, (q : Int) = pos + (if b then 1 else -1) + size * k := by
        cases b with
        | true =>
          refine ⟨(pos + 1) % size, by simpa using next_eq size pos h0 h1, Nat.mod_lt _ h0, ?_⟩
          by_cases hp : pos + 1 < size
          · exact ⟨0, by rw [Nat.mod_eq_of_lt hp]; simp⟩
          · have : pos + 1 = size := by omega
            exact ⟨-1, by rw [this, Nat.mod_self]; simp; omega⟩
        | false =>
          refine ⟨(pos + (size - 1)) % size, by simpa using prev_eq size pos h0 h1,
            Nat.mod_lt _ h0, ?_⟩
          by_cases hp : pos = 0
          · subst hp
            exact ⟨1, by rw [Nat.zero_add, Nat.mod_eq_of_lt (by omega)]; simp; omega⟩
          · have : pos + (size - 1) = (pos - 1) + size := by omega
            exact ⟨0, by
              rw [this, Nat.add_mod_right, Nat.mod_eq_of_lt (by omega)]; simp; omega⟩
      obtain ⟨p, hp, hps, hpe⟩ := C55_walk size h0 h1 bs q hqs
      refine ⟨p, by simp only [walk, hq]; exact hp, hps, ?_⟩
      obtain ⟨k, hk⟩ := hqe
      have : (p : Int) - ((pos : Int) + net (b :: bs)) =
          ((p : Int) - (q + net bs)) + size * k := by
        simp only [net]; omega
      rw [this, Int.add_mul_emod_self_left]
      exact hpe

example : walk 5 [true, true, false, false, false] 0 = some 4 := by decide
example : walk 3 [true, true, true] 1 = some 1 := by decide

/-- C55: one step forward from the last position goes to the first, one step
    back from the first to the last; elsewhere to the neighbour. -/
theorem C55_step (size pos : Nat) (h1 : size < 65536) (h : pos < size) :
    next size pos = some (if pos + 1 = size then 0 else pos + 1) ∧
    prev size pos = some (if pos = 0 then size - 1 else pos - 1) := by
  rw [next_eq size pos (by omega) h1, prev_eq size pos (by omega) h1]
  constructor
  · split
    · rename_i h; rw [h, Nat.mod_self]
    · rw [Nat.mod_eq_of_lt (by omega)]
  · split
    · rename_i h; subst h; rw [Nat.mod_eq_of_lt (by omega)]; simp
    · have : pos + (size - 1) = (pos - 1) + size := by omega
      rw [this, Nat.add_mod_right, Nat.mod_eq_of_lt (by omega)]

/-- C55: a position left over from when the menu was longer (the position is
    kept while a menu is closed) is inside the menu again after one step. -/
theorem C55_stale (size pos : Nat) (b : Bool) (h0 : 0 < size) (h1 : size < 65536) :
    ∃ p, walk size [b] pos = some p ∧ p < size := by
  cases b
  · exact ⟨_, by simp only [walk]; rw [if_neg (by simp), prev_eq size pos h0 h1]; rfl,
      Nat.mod_lt _ h0⟩
  · exact ⟨_, by simp only [walk]; rw [if_pos trivial, next_eq size pos h0 h1]; rfl,
      Nat.mod_lt _ h0⟩

example : walk 3 [true] 17 = some 0 := by decide

/-- Every menu list of any length and any sizes compiles to a menu whose
    positions are, in order, the positions of the entries: the announcement and
    the action of position `i` belong to the `i`-th position of the expanded
    list. -/
theorem C55_entries (l : List Entry) (h : l ≠ []) :
    ∃ t, build l.length l = some t ∧ t.size = total l ∧
      ∀ i, i < total l → (expand l)[i]? = some (t.call i) := by
  obtain ⟨t, h1, h2, h3⟩ := build_good l.length l h (Nat.le_refl _)
  exact ⟨t, h1, h2, fun i hi => h3 i (by omega)⟩

example : ∃ t, build 4 [⟨7, 1⟩, ⟨8, 0⟩, ⟨9, 3⟩, ⟨10, 1⟩] = some t ∧
    t.size = 5 ∧ t.call 3 = (⟨9, 3⟩, 2) ∧ t.call 4 = (⟨10, 1⟩, 0) :=
  ⟨_, rfl, rfl, rfl, rfl⟩

/-- C55: walking through a list menu: after any steps, selecting acts on the
    entry `net` steps on. -/
theorem C55_select (l : List Entry) (hs : 0 < total l) (hb : total l < 65536)
    (steps : List Bool) (pos : Nat) (hp : pos < total l) :
    ∃ t p, build l.length l = some t ∧ walk t.size steps pos = some p ∧
      (expand l)[(((pos : Int) + net steps) % total l).toNat]? = some (t.call p) := by
  have hl : l ≠ [] := by intro h; subst h; simp [total] at hs
  obtain ⟨t, h1, h2, h3⟩ := C55_entries l hl
  obtain ⟨p, hp1, hp2, hp3⟩ := C55_walk (total l) hs hb steps pos hp
  refine ⟨t, p, h1, by rw [h2]; exact hp1, ?_⟩
  have e : ((pos : Int) + net steps) % total l = p := by
    have h4 := (Int.emod_eq_emod_iff_emod_sub_eq_zero (m := (p : Int)) (n := (total l : Int))
      (k := (pos : Int) + net steps)).mpr hp3
    rw [← h4, Int.emod_eq_of_lt (by omega) (by omega)]
  rw [e]
  exact h3 p hp2

/-- An empty menu (e.g. a style with no `colors.ini`, an empty font list,
    sorted_list_menues.h:43-58, color_menues.h:264-288) divides by zero at the
    first step. -/
theorem C55_empty_counterexample (b : Bool) (pos : Nat) : walk 0 [b] pos = none := by
  cases b <;> rfl

/-! ## C74: the style menu -/

/-- C74: opening the menu that selects a blade's built-in style and selecting
    without moving should leave the style as it is.  It does exactly when the
    number of the preset equals the number of the blade, or blade and preset
    count coincide in a one-blade set-up with preset 0 — the two halves of the
    position are taken apart the wrong way round. -/
theorem C74_keep_partial (blades preset style : Nat)
    (h1 : 1 ≤ style) (h2 : style ≤ blades) (h3 : preset * blades + style < 65536) :
    styleAt blades (styleStart blades preset style) = (preset, style) ↔
      (preset = style ∧ style < blades) ∨ (preset = 0 ∧ style = 1 ∧ blades = 1) := by
  have e : styleStart blades preset style = preset * blades + style := by
    unfold styleStart
    generalize hg : preset * blades = g at h3
    have : (preset : Int) * blades = (g : Int) := by rw [← hg, Int.natCast_mul]
    rw [this, u16_small _ (by omega) (by omega)]
    omega
  unfold styleAt
  rw [e, Nat.mul_comm]
  have hb : 0 < blades := by omega
  by_cases h : style < blades
  · rw [Nat.mul_add_mod, Nat.mod_eq_of_lt h, Nat.mul_add_div hb, Nat.div_eq_of_lt h]
    simp only [Prod.mk.injEq]
    omega
  · have hs : style = blades := by omega
    subst hs
    rw [Nat.mul_add_mod, Nat.mod_self, Nat.mul_add_div hb, Nat.div_self hb]
    simp only [Prod.mk.injEq]
    omega

example : styleAt 3 (styleStart 3 2 2) = (2, 2) := by decide

/-- With at least two presets more than blades, styles exist which no position of
    the menu offers, and the first positions offer `builtin n 0`, which is no
    style at all (`GetBuiltinPos` wants `blade >= 1`, style_parser.h:152-160). -/
theorem C74_counterexample (blades presets : Nat) (hb : 0 < blades) (hp : blades < presets)
    (hsz : blades * presets < 65536) :
    (∀ pos, styleAt blades pos ≠ (blades, 1)) ∧
    0 < styleSize blades presets ∧ (styleAt blades 0).2 = 0 := by
  refine ⟨fun pos h => ?_, ?_, ?_⟩
  · have := congrArg Prod.fst h
    simp only [styleAt] at this
    have := Nat.mod_lt pos hb
    omega
  · unfold styleSize
    have : 0 < blades * presets := Nat.mul_pos hb (by omega)
    generalize hg : blades * presets = g at hsz this
    have : (blades : Int) * presets = (g : Int) := by rw [← hg, Int.natCast_mul]
    rw [this, u16_small _ (by omega) (by omega)]
    omega
  · simp [styleAt]

example : styleAt 2 (styleStart 2 2 1) = (1, 2) := by decide

end Verif.Menu
