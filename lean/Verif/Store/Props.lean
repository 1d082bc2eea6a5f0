import Verif.Store.ConfigLemmas
import Verif.Store.CrashSum

/-! Properties C01 (crash-consistent saves), C02 (last save wins), C03 (string values),
C04 (integers), C05 (reading a configuration file) and C58 (settings values). -/
set_option linter.unusedSimpArgs false
namespace Verif.Store

/-! ### C01, C02 -/

/-- The file does not carry a header of this installation (an empty or missing file, or one written
by another firmware build). -/
def Foreign (inst : List Nat) (f : File) : Prop :=
  f.slice 32 inst.length ≠ inst ∨ rd32 (f.slice 16 4) ≠ 0xFF1E5AFE

/-- The contents a store may have after a history (newest event first): the last completed save, or
a save that was interrupted after it; nothing if there never was a save. -/
def Possible (cur : Option Text) : List Ev → Prop
  | [] => cur = none
  | .save t :: _ => cur = some t
  | .crash t _ _ :: h => cur = some t ∨ Possible cur h

/-- The texts of a history fit into a file. -/
def Ev.fits : Ev → Prop
  | .save t => t.length < 2^31
  | .crash t _ _ => t.length < 2^31

/-- In every interrupted save of the history, the bytes 16 to 31 of the file (the second copy of
the header) are written completely or not at all. -/
def HeaderAtomic (inst : List Nat) (s : Ram × Disk) : List Ev → Prop
  | [] => True
  | .save t :: h => HeaderAtomic inst (save inst t s) h
  | .crash t k junk :: h => Untorn (s.2.file s.1.target) t k ∧ HeaderAtomic inst (step inst s (.crash t k junk)) h

/-- In every interrupted save of the history the checksum rejects an incomplete file. -/
def ChecksumsReject (inst : List Nat) (s : Ram × Disk) : List Ev → Prop
  | [] => True
  | .save t :: h => ChecksumsReject inst (save inst t s) h
  | .crash t k junk :: h => ChecksumRejects inst t k s ∧ ChecksumsReject inst (step inst s (.crash t k junk)) h

theorem foreign_clean {inst f} (h : Foreign inst f) : Clean inst 1 f := by
  rcases h with h | h
  · exact Or.inl h
  · refine Or.inr (Or.inl ?_)
    have : (Hdr.parse (f.slice 16 16)).magic = rd32 (f.slice 16 4) := by
      unfold Hdr.parse File.slice
      simp only
      rw [← List.map_take, List.take_range]
      rfl
    rw [this]; exact h

/-- A freshly started saber with the given card. -/
def start (d : Disk) : Ram × Disk := (⟨.unknown, 0⟩, d)

theorem Inv.run {inst} (hinst : 32 + inst.length ≤ 512) (h : List Ev) :
    ∀ cur s past, Inv inst cur s → Possible cur past → HeaderAtomic inst s h → (∀ e ∈ h, e.fits) →
      s.1.iteration + h.length < 2^31 →
      ∃ cur', Inv inst cur' (run inst s h) ∧ Possible cur' (h.reverse ++ past) ∧
        (run inst s h).1.iteration ≤ s.1.iteration + h.length := by
  induction h with
  | nil => intro cur s past hi hp _ _ _; exact ⟨cur, hi, hp, by simp [Store.run]⟩
  | cons e h ih =>
    intro cur s past hi hp hu hf hl
    simp only [List.length_cons] at hl
    have hfe := hf e (by simp)
    have hfh : ∀ e ∈ h, e.fits := fun e he => hf e (by simp [he])
    have er : ∀ s', Store.run inst s' (e :: h) = Store.run inst (step inst s' e) h := fun _ => rfl
    cases e with
    | save t =>
      obtain ⟨hv, hit⟩ := hi.save hinst t hfe (by omega)
      obtain ⟨c', h1, h2, h3⟩ := ih (some t) (Store.save inst t s) (.save t :: past) hv rfl hu hfh (by rw [hit]; omega)
      refine ⟨c', h1, ?_, ?_⟩
      · simpa using h2
      · have : (Store.run inst (Store.save inst t s) h).1.iteration ≤ (Store.save inst t s).1.iteration + h.length := h3
        rw [hit] at this
        simp only [List.length_cons]
        show (Store.run inst (Store.save inst t s) h).1.iteration ≤ _
        omega
    | crash t k junk =>
      obtain ⟨c, hc, hv, hit⟩ := hi.crash hinst t k junk hfe (by omega) hu.1
      have hp' : Possible c (.crash t k junk :: past) := by
        rcases hc with rfl | rfl
        · exact Or.inr hp
        · exact Or.inl rfl
      obtain ⟨c', h1, h2, h3⟩ := ih c _ (.crash t k junk :: past) hv hp' hu.2 hfh (by omega)
      refine ⟨c', h1, ?_, ?_⟩
      · simpa using h2
      · simp only [List.length_cons]; rw [er]; omega

theorem InvH.run {inst} (hinst : 32 + inst.length ≤ 512) (h : List Ev) :
    ∀ cur s past, InvH inst cur s → Possible cur past → ChecksumsReject inst s h → (∀ e ∈ h, e.fits) →
      s.1.iteration + h.length < 2^31 →
      ∃ cur', InvH inst cur' (run inst s h) ∧ Possible cur' (h.reverse ++ past) ∧
        (run inst s h).1.iteration ≤ s.1.iteration + h.length := by
  induction h with
  | nil => intro cur s past hi hp _ _ _; exact ⟨cur, hi, hp, by simp [Store.run]⟩
  | cons e h ih =>
    intro cur s past hi hp hu hf hl
    simp only [List.length_cons] at hl
    have hfe := hf e (by simp)
    have hfh : ∀ e ∈ h, e.fits := fun e he => hf e (by simp [he])
    have er : ∀ s', Store.run inst s' (e :: h) = Store.run inst (step inst s' e) h := fun _ => rfl
    cases e with
    | save t =>
      obtain ⟨hv, hit⟩ := hi.save hinst t hfe (by omega)
      obtain ⟨c', h1, h2, h3⟩ := ih (some t) (Store.save inst t s) (.save t :: past) hv rfl hu hfh (by rw [hit]; omega)
      refine ⟨c', h1, ?_, ?_⟩
      · simpa using h2
      · have : (Store.run inst (Store.save inst t s) h).1.iteration ≤ (Store.save inst t s).1.iteration + h.length := h3
        rw [hit] at this
        simp only [List.length_cons]
        show (Store.run inst (Store.save inst t s) h).1.iteration ≤ _
        omega
    | crash t k junk =>
      obtain ⟨c, hc, hv, hit⟩ := hi.crash hinst t k junk hfe (by omega) hu.1
      have hp' : Possible c (.crash t k junk :: past) := by
        rcases hc with rfl | rfl
        · exact Or.inr hp
        · exact Or.inl rfl
      obtain ⟨c', h1, h2, h3⟩ := ih c _ (.crash t k junk :: past) hv hp' hu.2 hfh (by omega)
      refine ⟨c', h1, ?_, ?_⟩
      · simpa using h2
      · simp only [List.length_cons]; rw [er]; omega

/-- C01: after any history of saves, interrupted saves and restarts, a further save cut off after
*any* number `k` of bytes leaves the card in a state from which the next start loads either what it
would have loaded before that save (which is the last completed save of the history or an
interrupted one after it), or the new text; no assumption about the checksum. -/
theorem C01_crash (inst : List Nat) (hinst : 32 + inst.length ≤ 512) (d : Disk)
    (h1 : Foreign inst d.ini) (h2 : Foreign inst d.tmp) (h : List Ev)
    (hu : HeaderAtomic inst (start d) h) (hf : ∀ e ∈ h, e.fits) (hl : h.length + 1 < 2^31)
    (t : Text) (ht : t.length < 2^31) (k : Nat) (junk : Nat → Nat) :
    ∃ cur, Possible cur h.reverse ∧ Holds cur (loaded inst junk (run inst (start d) h).2) ∧
      (Holds cur (loaded inst junk (crash inst t k (run inst (start d) h))) ∨
       Holds (some t) (loaded inst junk (crash inst t k (run inst (start d) h)))) := by
  have h0 : Inv inst none (start d) := ⟨rfl, foreign_clean h1, foreign_clean h2⟩
  obtain ⟨c, hi, hp, hit⟩ := Inv.run hinst h none (start d) [] h0 rfl hu hf
    (by show 0 + h.length < 2^31; omega)
  have : (start d).1.iteration = 0 := rfl
  refine ⟨c, by simpa using hp, hi.loaded.1, hi.crash_any hinst t k junk ht (by omega)⟩

/-- C01: the same for histories in which every crash may tear the header anywhere, given that the
checksum rejects the incomplete files. -/
theorem C01_crash_checksum (inst : List Nat) (hinst : 32 + inst.length ≤ 512) (d : Disk)
    (h1 : Foreign inst d.ini) (h2 : Foreign inst d.tmp) (h : List Ev)
    (hu : ChecksumsReject inst (start d) h) (hf : ∀ e ∈ h, e.fits) (hl : h.length < 2^31)
    (junk : Nat → Nat) :
    ∃ cur, Possible cur h.reverse ∧ Holds cur (loaded inst junk (run inst (start d) h).2) := by
  have h0 : InvH inst none (start d) := ⟨rfl, (foreign_clean h1).harmless, (foreign_clean h2).harmless⟩
  obtain ⟨c, hi, hp, hit⟩ := InvH.run hinst h none (start d) [] h0 rfl hu hf
    (by show 0 + h.length < 2^31; omega)
  exact ⟨c, by simpa using hp, hi.loaded.1⟩

/-- C02: after any history, a completed save is what the next start loads. -/
theorem C02_last_save (inst : List Nat) (hinst : 32 + inst.length ≤ 512) (d : Disk)
    (h1 : Foreign inst d.ini) (h2 : Foreign inst d.tmp) (h : List Ev)
    (hu : HeaderAtomic inst (start d) h) (hf : ∀ e ∈ h, e.fits) (hl : h.length + 1 < 2^31)
    (t : Text) (ht : t.length < 2^31) (junk : Nat → Nat) :
    ∃ stale, loaded inst junk (save inst t (run inst (start d) h)).2 = some (t ++ stale) := by
  have h0 : Inv inst none (start d) := ⟨rfl, foreign_clean h1, foreign_clean h2⟩
  obtain ⟨c, hi, hp, hit⟩ := Inv.run hinst h none (start d) [] h0 rfl hu hf
    (by show 0 + h.length < 2^31; omega)
  have : (start d).1.iteration = 0 := rfl
  exact ((hi.save hinst t ht (by omega)).1.loaded (junk := junk)).1

/-- An empty card satisfies the hypotheses, whatever is saved first. -/
theorem fresh_foreign (inst : List Nat) : Foreign inst (⟨0, fun _ => 0⟩ : File) := by
  right; show rd32 [0, 0, 0, 0] ≠ _; decide

/-- Non-vacuity: a crash inside the very first save, two saves, a restart, another save; any texts. -/
example (inst : List Nat) (a b c : Text) (j : Nat → Nat) :
    HeaderAtomic inst fresh [.crash c 300 j, .save a, .save b, .crash a 0 j, .save c] := by
  have h0 : fresh.2.file fresh.1.target = ⟨0, fun _ => 0⟩ := rfl
  refine ⟨Or.inl ?_, Or.inl (Nat.zero_le _), trivial⟩
  rw [h0]
  unfold headAt
  have := zeros_spec 0
  unfold maxSize at this
  simp only
  omega

/-! ### C03 -/

/-- C03: what is read back after `key=` from a written line is the value without its leading blanks;
reading stops at the end of that line. -/
theorem C03_string_roundtrip (key v rest : Text) :
    ∃ line, writeKeyValue key v = key ++ 61 :: line ∧
      readString (skipspace (line ++ rest)) = (v.dropWhile (· == 32), 10 :: rest) := by
  refine ⟨escape v ++ [10], rfl, ?_⟩
  rw [List.append_assoc, List.singleton_append, skipspace_escape, readString_escape]

/-- C03: a value that does not begin with a blank survives unchanged. -/
theorem C03_string_roundtrip_exact (v rest : Text) (h : v.head? ≠ some 32) :
    readString (skipspace (escape v ++ 10 :: rest)) = (v, 10 :: rest) := by
  rw [skipspace_escape, readString_escape]
  cases v with
  | nil => rfl
  | cons c v =>
    have : (c == 32) = false := by simpa using h
    simp [List.dropWhile_cons, this]

/-- C03: a written line is one line: the only newline is at its end, so a value cannot inject
another key (keys contain no newline). -/
theorem C03_single_line (key v : Text) (h : 10 ∉ key) :
    ∃ line, writeKeyValue key v = line ++ [10] ∧ 10 ∉ line := by
  refine ⟨key ++ 61 :: escape v, by simp [writeKeyValue], ?_⟩
  have := escape_no_newline v
  simp [h, this]

/-- Non-vacuity: blank, backslash, newline and tab inside. -/
example : readString (skipspace (escape [97, 92, 10, 9, 32, 98] ++ 10 :: [99])) = ([97, 92, 10, 9, 32, 98], [10, 99]) := by
  exact C03_string_roundtrip_exact _ _ (by decide)

/-! ### C04 -/

/-- C04: the decimal text of an integer reads back as that integer, and reading stops exactly at the
first character that is not a digit. -/
theorem C04_int_roundtrip (n : Int) (rest : Text) (hn : n.natAbs < 2^63)
    (hr : ∀ c t, rest = c :: t → ¬ (48 ≤ c ∧ c ≤ 57)) :
    readIntValue (itoa n ++ rest) = some (n, rest) := by
  have key : readDigits 0 (decimal n.natAbs ++ rest) = some (n.natAbs, rest) := by
    rw [readDigits_decimal n.natAbs 0 rest _ rfl (by simpa using hn)]
    simp only [Nat.zero_mul, Nat.zero_add]
    cases rest with
    | nil => rfl
    | cons c t => unfold readDigits; rw [if_neg (hr c t rfl)]
  unfold itoa
  by_cases hneg : n < 0
  · rw [if_pos hneg]
    simp only [List.cons_append, readIntValue, key, Option.map_some]
    congr; omega
  · rw [if_neg hneg]
    have hd : ∃ c t, decimal n.natAbs ++ rest = c :: t ∧ c ≠ 45 := by
      obtain ⟨c, t, e, h⟩ := decimal_head n.natAbs
      exact ⟨c, t ++ rest, by rw [e]; rfl, by omega⟩
    obtain ⟨c, t, e, hc⟩ := hd
    unfold readIntValue
    split
    · rename_i t' he; rw [e] at he; injection he with h1; exact absurd h1 hc
    · rw [key]; simp only [Option.map_some]; congr; omega

example : readIntValue (itoa (-2147483648) ++ [32, 55]) = some (-2147483648, [32, 55]) :=
  C04_int_roundtrip _ _ (by decide) (by intro c t h; cases h; decide)

/-! ### C58 -/

theorem ofDigits_append (a b : List Nat) : ofDigits (a ++ b) = b.foldl (fun a d => 10 * a + d) (ofDigits a) := by
  simp [ofDigits, List.foldl_append]

theorem ofDigits_decimal (n : Nat) : ofDigits ((decimal n).map (· - 48)) = n := by
  fun_induction decimal n with
  | case1 n h => simp [ofDigits]
  | case2 n h ih => rw [List.map_append, ofDigits_append, ih]; simp; omega

theorem decimal_map (n : Nat) : ((decimal n).map (· - 48)).map (48 + ·) = decimal n := by
  rw [List.map_map]
  conv => rhs; rw [← List.map_id (decimal n)]
  apply List.map_congr_left
  intro c hc
  have := decimal_digits n c hc
  simp; omega

/-- how the value `h / 100` is written, as a number of the specification grammar -/
def centNum (h : Nat) : Num := ⟨false, (decimal (h / 100)).map (· - 48), some [h / 10 % 10, h % 10]⟩

theorem centNum_ok (h : Nat) : (centNum h).ok := by
  refine ⟨by simp [centNum, decimal_ne_nil], ?_, ?_⟩
  · intro d hd
    simp only [centNum, List.mem_map] at hd
    obtain ⟨c, hc, rfl⟩ := hd
    have := decimal_digits _ c hc
    omega
  · intro f hf d hd
    simp only [centNum, Option.some.injEq] at hf
    subst hf
    simp at hd
    omega

theorem centNum_value (h : Nat) : (centNum h).value = ⟨false, h, 2⟩ := by
  simp only [Num.value, centNum, Option.getD_some, ofDigits_append, ofDigits_decimal]
  simp only [List.foldl_cons, List.foldl_nil, List.length_cons, List.length_nil]
  congr; omega

theorem centNum_text (h : Nat) : floatText h = (centNum h).text := by
  have e1 : ((h : Int).fdiv 100) = ((h / 100 : Nat) : Int) := by
    rw [Int.fdiv_eq_ediv_of_nonneg _ (by omega)]; omega
  have e2 : ((h : Int).fdiv 10).tmod 10 = ((h / 10 % 10 : Nat) : Int) := by
    rw [Int.fdiv_eq_ediv_of_nonneg _ (by omega), Int.tmod_eq_emod_of_nonneg (by omega)]; omega
  have e3 : (h : Int).tmod 10 = ((h % 10 : Nat) : Int) := by
    rw [Int.tmod_eq_emod_of_nonneg (by omega)]; omega
  have i : ∀ n : Nat, itoa (n : Int) = decimal n := by
    intro n; unfold itoa; rw [if_neg (by omega)]; rfl
  have d1 : ∀ n, n < 10 → decimal n = [48 + n] := by
    intro n hn; unfold decimal; rw [dif_pos hn]
  unfold floatText
  rw [e1, e2, e3, i, i, i, d1 _ (Nat.mod_lt _ (by decide)), d1 _ (Nat.mod_lt _ (by decide))]
  have hm : ((decimal (h / 100)).map (· - 48)).map (48 + ·) = decimal (h / 100) := decimal_map _
  simp only [Num.text, centNum, hm]
  simp

theorem escape_id (v : Text) (h : ∀ c ∈ v, c ≠ 10 ∧ c ≠ 9 ∧ c ≠ 92) : escape v = v := by
  induction v with
  | nil => rfl
  | cons c v ih =>
    have := h c (by simp)
    rw [escape_cons, ih (fun c hc => h c (by simp [hc]))]
    simp [escapeChar, this.1, this.2.1, this.2.2]

theorem centNum_plain (h : Nat) : ∀ c ∈ (centNum h).text, c ≠ 10 ∧ c ≠ 9 ∧ c ≠ 92 := by
  intro c hc
  have hm : ((decimal (h / 100)).map (· - 48)).map (48 + ·) = decimal (h / 100) := decimal_map _
  simp only [Num.text, centNum, hm] at hc
  simp at hc
  rcases hc with hc | hc | hc | hc
  · have := decimal_digits _ c hc; omega
  · omega
  · omega
  · omega

/-- C58 (for values that are not negative): a settings value with two decimals, `h / 100`, is read
back exactly. -/
theorem C58_value_roundtrip_partial (key : Text) (h : Nat) (rest : Text) :
    ∃ line, writeKeyFloat key h = key ++ 61 :: line ∧
      readFloatValue (line ++ rest) = (⟨false, h, 2⟩, 10 :: rest) := by
  refine ⟨floatText h ++ [10], ?_, ?_⟩
  · unfold writeKeyFloat writeKeyValue
    rw [centNum_text, escape_id _ (centNum_plain h)]
  · rw [List.append_assoc, List.singleton_append, centNum_text, readFloat_num _ _ 10 rest (centNum_ok h) rfl (by decide), centNum_value]

example : writeKeyFloat [118] 1205 = [118, 61, 49, 50, 46, 48, 53, 10] := by
  unfold writeKeyFloat writeKeyValue
  have : floatText 1205 = _ := centNum_text 1205
  rw [this, escape_id _ (centNum_plain 1205)]
  have d12 : decimal 12 = [49, 50] := by rw [decimal, decimal]; simp
  simp [Num.text, centNum, d12]

/-- C58 is false for negative values: -1.50 is written as `-2.-50` and read back as -2. -/
theorem C58_negative_counterexample :
    readFloatValue (floatText (-150) ++ [10]) = (⟨true, 2, 0⟩, [45, 53, 48, 10]) := by
  have h : floatText (-150) = itoa (-2) ++ [46] ++ itoa (-5) ++ itoa 0 := rfl
  have d2 : decimal 2 = [50] := by rw [decimal]; simp
  have d5 : decimal 5 = [53] := by rw [decimal]; simp
  have d0 : decimal 0 = [48] := by rw [decimal]; simp
  rw [h]
  simp [itoa, d2, d5, d0, readFloatValue, readFloatLoop]

/-! ### C05 -/

/-- The value a variable has after a list of lines: its last assignment, otherwise `old`. -/
def lastAssignment (name : Text) (old : Dec) (ls : List Line) : Dec :=
  match (ls.filterMap Line.assignment).reverse.find? (fun a => sameName name a.1) with
  | some a => a.2
  | none => old

theorem effect_last (ls : List Line) (vs : Vars) :
    ls.foldl Line.effect vs = vs.map fun v => { v with value := lastAssignment v.name v.value ls } := by
  rw [effect_value]
  apply List.map_congr_left
  intro v _
  unfold lastAssignment
  split <;> rename_i he <;> rw [he] <;> rfl

/-- C05 (for files whose lines are assignments, comments, `installed` lines of this installation, or
lines with something other than white space or `=` after the name): after reading, every variable
has the value of its last assignment, or its default; an `end` line hides everything behind it.
Missing: lines consisting of a bare name, or of `name =` without a value, see
`C05_bare_name_counterexample`. -/
theorem C05_last_assignment_partial (inst : List Nat) (hi : ∃ c u, inst = c :: u ∧ isWhite c = false)
    (vs : Vars) (ls : List Line) (hl : ∀ l ∈ ls, l.ok) (hidden : Text) :
    readConfig inst true vs (linesText inst ls ++ ([101, 110, 100] ++ 61 :: hidden)) =
      (.ended, vs.map fun v => { v with value := lastAssignment v.name v.default ls }) := by
  unfold readConfig
  simp only [if_true]
  rw [readLoop_lines inst hi _ _ hl]
  have := readLoop_end inst (ls.foldl Line.effect (setDefaults vs)) [] [101, 110, 100] [] 61 hidden
    (by simp [allWhite]) (by decide) (by simp [allBlank]) (by decide) (by decide)
  simp only [List.nil_append] at this
  rw [this, effect_last]
  simp [setDefaults, List.map_map, Function.comp_def]

/-- C05: the same for a file without `end` line (possibly ending in white space). -/
theorem C05_last_assignment_noend_partial (inst : List Nat) (hi : ∃ c u, inst = c :: u ∧ isWhite c = false)
    (vs : Vars) (ls : List Line) (hl : ∀ l ∈ ls, l.ok) (ws : Text) (hw : allWhite ws) :
    readConfig inst true vs (linesText inst ls ++ ws) =
      (.ok, vs.map fun v => { v with value := lastAssignment v.name v.default ls }) := by
  unfold readConfig
  simp only [if_true]
  rw [readLoop_lines inst hi _ _ hl, readLoop_trail inst _ ws hw, effect_last]
  simp [setDefaults, List.map_map, Function.comp_def]

/-- Non-vacuity: `# hi`, `Volume = 1.5 x`, `(junk`, `volume=2`; `VOLUME` ends up as 2. -/
example : ∀ l ∈ [Line.comment [32] [104, 105],
      .assign [] [86, 111, 108, 117, 109, 101] [32] [32] ⟨false, [1], some [5]⟩ [32, 120],
      .junk [10] [] [] 40 [106],
      .assign [] [118, 111, 108, 117, 109, 101] [] [] ⟨false, [2], none⟩ []], l.ok := by
  simp [Line.ok, allWhite, allBlank, nameOk, Num.ok, isWhite, isBlank, isNameChar, toLower, kEnd, kInstalled]

/-- The full claim fails in the code: a line consisting of a bare name swallows the line after it
(`skipwhite` crosses the newline), so `foo\nbar=3\n` leaves `bar` at its default. -/
theorem C05_bare_name_counterexample (d : Dec) (inst : List Nat) :
    readConfig inst true [⟨[98, 97, 114], d, d⟩] [102, 111, 111, 10, 98, 97, 114, 61, 51, 10] =
      (.ok, [⟨[98, 97, 114], d, d⟩]) := by
  simp [readConfig, setDefaults, readLoop, readLine, skipwhite, isWhite, readVariable, readName, skipspace, isBlank,
    isNameChar, toLower, kEnd, skipline]

/-- The same for `foo=` without a value: `foo=\nbar=3\n`. -/
theorem C05_empty_value_counterexample (d : Dec) (inst : List Nat) :
    readConfig inst true [⟨[98, 97, 114], d, d⟩] [102, 111, 111, 61, 10, 98, 97, 114, 61, 51, 10] =
      (.ok, [⟨[98, 97, 114], d, d⟩]) := by
  simp [readConfig, setDefaults, readLoop, readLine, skipwhite, isWhite, readVariable, readName, skipspace, isBlank,
    isNameChar, toLower, kEnd, kInstalled, skipline, readFloatValue, readFloatLoop, setVariable, sameName]

/-- Two letters that differ at most in case, as in the ASCII table. -/
def sameLetter (c d : Nat) : Prop := c = d ∨ ∃ i, i < 26 ∧ ((c = 65 + i ∧ d = 97 + i) ∨ (c = 97 + i ∧ d = 65 + i))

/-- Two names that differ at most in case. -/
def sameLetters : Text → Text → Prop
  | [], [] => True
  | c :: a, d :: b => sameLetter c d ∧ sameLetters a b
  | _, _ => False

theorem toLower_same (c d : Nat) : toLower c = toLower d ↔ sameLetter c d := by
  unfold toLower sameLetter
  constructor
  · intro h
    split at h <;> split at h
    · left; omega
    · right; exact ⟨c - 65, by omega, Or.inl ⟨by omega, by omega⟩⟩
    · right; exact ⟨d - 65, by omega, Or.inr ⟨by omega, by omega⟩⟩
    · left; exact h
  · rintro (rfl | ⟨i, hi, ⟨rfl, rfl⟩ | ⟨rfl, rfl⟩⟩)
    · rfl
    · rw [if_pos (by omega), if_neg (by omega)]; omega
    · rw [if_neg (by omega), if_pos (by omega)]; omega

/-- C05: a line assigns to the variables whose name is that on the line up to case. -/
theorem C05_names (a b : Text) : sameName a b = true ↔ sameLetters a b := by
  unfold sameName
  rw [beq_iff_eq]
  induction a generalizing b with
  | nil => cases b <;> simp [sameLetters]
  | cons c a ih =>
    cases b with
    | nil => simp [sameLetters]
    | cons d b => simp only [List.map_cons, List.cons.injEq, sameLetters, toLower_same, ih]

/-- C05: names are made of letters, digits, `_` and `.`. -/
theorem C05_name_chars (c : Nat) : isNameChar (toLower c) = true ↔
    c ∈ "ABCDEFGHIJKLMNOPQRSTUVWXYZabcdefghijklmnopqrstuvwxyz0123456789_.".toList.map Char.toNat := by
  by_cases h : c < 128
  · revert c; decide +kernel
  · constructor
    · intro h1
      exfalso
      unfold toLower at h1
      rw [if_neg (by omega)] at h1
      simp [isNameChar] at h1
      omega
    · intro h1
      exfalso
      have : ∀ x ∈ "ABCDEFGHIJKLMNOPQRSTUVWXYZabcdefghijklmnopqrstuvwxyz0123456789_.".toList.map Char.toNat, x < 128 := by decide +kernel
      exact h (this c h1)

/-! ### C02 for settings: from variable values to variable values -/

/-- A variable name as it is declared in a `ConfigFile`. -/
def declaredName (n : Text) : Prop :=
  nameOk n ∧ n ≠ [] ∧ n.map toLower ≠ kEnd ∧ n.map toLower ≠ kInstalled

theorem lastAssignment_one (ls : List Line) (name : Text) (old x : Dec)
    (h : ∀ l ∈ ls, ∀ a, l.assignment = some a → sameName name a.1 = true → a.2 = x)
    (hex : ∃ l ∈ ls, ∃ a, l.assignment = some a ∧ sameName name a.1 = true) :
    lastAssignment name old ls = x := by
  unfold lastAssignment
  split
  · rename_i a ha
    have h1 := List.find?_some ha
    have h2 := List.mem_of_find?_eq_some ha
    simp only [List.mem_reverse, List.mem_filterMap] at h2
    obtain ⟨l, hl, hla⟩ := h2
    exact h l hl a hla h1
  · rename_i hn
    rw [List.find?_eq_none] at hn
    obtain ⟨l, hl, a, ha, hs⟩ := hex
    exact absurd hs (by simpa using hn a (by simp only [List.mem_reverse, List.mem_filterMap]; exact ⟨l, hl, ha⟩))

/-- C02 for settings: after any history of saves, crashes and restarts, the settings saved last
are the settings read at the next start: every variable with (non-negative, two-decimal) value
`vals` gets exactly that value back, although the file may contain remains of longer, older saves. -/
theorem C02_settings (inst : List Nat) (hinst : 32 + inst.length ≤ 512)
    (hi : ∃ c u, inst = c :: u ∧ isWhite c = false) (hip : ∀ c ∈ inst, c ≠ 10 ∧ c ≠ 9 ∧ c ≠ 92)
    (d : Disk) (h1 : Foreign inst d.ini) (h2 : Foreign inst d.tmp) (h : List Ev)
    (hu : HeaderAtomic inst (start d) h) (hf : ∀ e ∈ h, e.fits) (hl : h.length + 1 < 2^31)
    (junk : Nat → Nat) (vars : List (Text × Nat)) (hn : ∀ p ∈ vars, declaredName p.1)
    (hdist : ∀ p ∈ vars, ∀ q ∈ vars, sameName p.1 q.1 = true → p.2 = q.2)
    (ht : (configText inst (vars.map fun p => (p.1, (p.2 : Int)))).length < 2^31)
    (vs : Vars) (hvs : vs.map (·.name) = vars.map (·.1)) :
    ∃ t, loaded inst junk
        (save inst (configText inst (vars.map fun p => (p.1, (p.2 : Int)))) (run inst (start d) h)).2 = some t ∧
      readConfig inst true vs t =
        (.ended, List.zipWith (fun v p => { v with value := ⟨false, p.2, 2⟩ }) vs vars) := by
  obtain ⟨stale, hs⟩ := C02_last_save inst hinst d h1 h2 h hu hf hl _ ht junk
  refine ⟨_, hs, ?_⟩
  let ls : List Line := .installed [] kInstalled [] [] [] ::
    vars.map fun p => .assign [] p.1 [] [] (centNum p.2) []
  have hok : ∀ l ∈ ls, l.ok := by
    intro l hl
    simp only [ls, List.mem_cons, List.mem_map] at hl
    rcases hl with rfl | ⟨p, hp, rfl⟩
    · exact ⟨by simp [allWhite], by decide, by simp [allBlank], by simp [allBlank], by simp⟩
    · obtain ⟨a, b, c, e⟩ := hn p hp
      exact ⟨by simp [allWhite], a, b, c, e, by simp [allBlank], by simp [allBlank], centNum_ok _, by simp, by simp⟩
  have htext : configText inst (vars.map fun p => (p.1, (p.2 : Int))) =
      linesText inst ls ++ ([101, 110, 100] ++ 61 :: [49, 10]) := by
    unfold configText linesText
    have e1 : writeKeyValue kInstalled inst = (Line.installed [] kInstalled [] [] []).text inst := by
      simp [writeKeyValue, Line.text, escape_id inst hip]
    have e2 : ∀ p : Text × Nat, writeKeyFloat p.1 (p.2 : Int) = (Line.assign [] p.1 [] [] (centNum p.2) []).text inst := by
      intro p
      simp [writeKeyFloat, writeKeyValue, Line.text, centNum_text, escape_id _ (centNum_plain p.2)]
    have e3 : writeKeyValue kEnd [49] = [101, 110, 100] ++ 61 :: [49, 10] := by decide
    rw [e1, e3]
    simp only [ls, List.flatMap_cons, List.flatMap_map, e2, List.append_assoc]
  rw [htext]
  have ea : linesText inst ls ++ ([101, 110, 100] ++ 61 :: [49, 10]) ++ stale =
      linesText inst ls ++ ([101, 110, 100] ++ 61 :: (49 :: 10 :: stale)) := by simp
  rw [ea, C05_last_assignment_partial inst hi vs ls hok]
  congr 1
  apply List.ext_getElem
  · have := congrArg List.length hvs; simp at this; simp [this]
  · intro i hi1 hi2
    simp only [List.length_zipWith, List.length_map] at hi1 hi2
    have hiv : i < vars.length := by omega
    have hname : (vs[i]).name = (vars[i]).1 := by
      have : (vs.map (·.name))[i]? = (vars.map (·.1))[i]? := by rw [hvs]
      simpa [hi1, hiv] using this
    simp only [List.getElem_map, List.getElem_zipWith]
    have := lastAssignment_one ls (vs[i]).name (vs[i]).default ⟨false, (vars[i]).2, 2⟩ (by
      intro l hl a ha hsame
      simp only [ls, List.mem_cons, List.mem_map] at hl
      rcases hl with rfl | ⟨p, hp, rfl⟩
      · cases ha
      · cases ha
        rw [centNum_value]
        rw [hname] at hsame
        rw [hdist _ (List.getElem_mem hiv) p hp hsame]) (by
      refine ⟨.assign [] (vars[i]).1 [] [] (centNum (vars[i]).2) [], ?_, _, rfl, ?_⟩
      · simp only [ls, List.mem_cons, List.mem_map]
        exact Or.inr ⟨vars[i], List.getElem_mem hiv, rfl⟩
      · rw [hname]; simp [sameName])
    rw [this]

end Verif.Store
