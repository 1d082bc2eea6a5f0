import Verif.Sound.ScanLemmas
/-!
# Scanning one file of a family
-/
set_option linter.unusedSimpArgs false
namespace Verif.Sound
open Verif.Str (Text toLower startswith endswith endsLoop SameCI)
open Verif.Store (decimal digitsVal)

/-- the members stay in the range of their types -/
structure Eff.InRange (e : Eff) : Prop where
  max0 : -1 ≤ e.maxFile
  max1 : e.maxFile ≤ 32767
  min0 : 0 ≤ e.minFile
  min1 : e.minFile ≤ 127
  num0 : 0 ≤ e.numFiles
  sub : e.subFiles ≤ 255

theorem wrap16_id {x : Int} (h1 : -32768 ≤ x) (h2 : x ≤ 32767) : wrap16 x = x := by unfold wrap16; omega
theorem wrap8_id {x : Int} (h1 : -128 ≤ x) (h2 : x ≤ 127) : wrap8 x = x := by unfold wrap8; omega

/-- the effect after a file with number `n` -/
def withNumber (w n : Nat) (e : Eff) : Eff :=
  { e with maxFile := max e.maxFile n, minFile := min e.minFile n, digits := if (padded w n).head? = some 48 then ((max w 1 : Nat) : Int) else e.digits }

theorem scanNumber_num {e : Eff} (he : e.InRange) {w n : Nat} (hw : w ≤ 127) (hn : n ≤ 32767) {r : Text} (hr : ∃ c t, r = c :: t ∧ c < 48) :
    scanNumber e (padded w n ++ r) = (withNumber w n e, some r) := by
  obtain ⟨c, t, rfl, hc⟩ := hr
  obtain ⟨d, ds, hd⟩ : ∃ d ds, padded w n = d :: ds := List.exists_cons_of_ne_nil (padded_ne_nil w n)
  have hdd := padded_digits w n d (by rw [hd]; simp)
  have hst : strtolEnd (padded w n ++ c :: t) = ((n : Int), c :: t) := by
    rw [strtolEnd_digits (padded_ne_nil w n) (padded_digits w n) (fun x u e => by injection e with e _; omega) (by rw [padded_val]; omega), padded_val]
  have hh : (padded w n ++ c :: t).head? = (padded w n).head? := by rw [hd]; rfl
  have hl : (padded w n ++ c :: t).length = (padded w n).length + (c :: t).length := List.length_append
  have hpos : 0 < (padded w n).length := by rw [hd]; simp
  unfold scanNumber
  rw [if_neg (by rw [hh, hd]; simp; omega)]
  simp only [hst]
  rw [if_neg (by rw [hl]; omega), hh]
  have h1 := he.max0; have h2 := he.max1; have h3 := he.min0; have h4 := he.min1
  rw [wrap16_id (by omega) (by omega), wrap8_id (x := min _ _) (by omega) (by omega)]
  unfold withNumber
  by_cases hz : (padded w n).head? = some 48
  · rw [if_pos hz, if_pos hz, hl, Nat.add_sub_cancel, padded_zero_length hz, wrap8_id (by omega) (by omega)]
  · rw [if_neg hz, if_neg hz]

theorem scanNumber_none (e : Eff) {E : Ext} (h : E ≠ .unknown) : scanNumber e E.text = ({ e with unnumbered := true }, some E.text) := by
  unfold scanNumber
  obtain ⟨t, ht⟩ := ext_head E
  rw [if_pos ⟨by rw [ht]; rfl, ext_length E h⟩]

theorem scanSub_no (e : Eff) (p : Pattern) (E : Ext) : scanSub e p E.text = some (e, E.text) := by
  unfold scanSub
  obtain ⟨t, ht⟩ := ext_head E
  rw [if_neg (by rw [ht]; simp)]

theorem scanSub_yes {e : Eff} (he : e.InRange) {s : Nat} (hs : s < 255) {r : Text} (hr : ∃ c t, r = c :: t ∧ c < 48) :
    scanSub e .nonredundant (47 :: padded 3 s ++ r) = some ({ e with subFiles := max e.subFiles (s + 1) }, r) := by
  obtain ⟨x, y, z, hp⟩ := three _ (padded3_length (show s < 1000 by omega))
  have hd := padded_digits 3 s
  have hv := padded_val 3 s
  have hst : strtolEnd ([x, y, z] ++ r) = ((s : Int), r) := by
    rw [← hp, strtolEnd_digits (padded_ne_nil 3 s) hd (fun c u e => by obtain ⟨c', t', e', h'⟩ := hr; rw [e'] at e; injection e with e _; omega) (by rw [hv]; omega), hv]
  rw [hp] at hd hv ⊢
  have hx := hd x (by simp); have hy := hd y (by simp); have hz := hd z (by simp)
  unfold scanSub
  have c1 : charAt (47 :: [x, y, z] ++ r) 1 = some x := by simp [charAt]
  have c2 : charAt (47 :: [x, y, z] ++ r) 2 = some y := by simp [charAt]
  have c3 : charAt (47 :: [x, y, z] ++ r) 3 = some z := by simp [charAt]
  have d1 : (47 :: [x, y, z] ++ r).drop 1 = [x, y, z] ++ r := rfl
  have d4 : (47 :: [x, y, z] ++ r).drop 4 = r := rfl
  have p1 : poIsDigit x = true := by simp [poIsDigit]; omega
  have p2 : poIsDigit y = true := by simp [poIsDigit]; omega
  have p3 : poIsDigit z = true := by simp [poIsDigit]; omega
  have hl : ¬ (47 :: [x, y, z] ++ r).length < 4 := by simp
  rw [if_pos ⟨rfl, rfl⟩]
  simp only [c1, c2, c3, d1, d4, p1, p2, p3, hst, Option.bind_eq_bind, Option.bind_some, Bool.not_true, Bool.false_eq_true, if_false]
  rw [if_neg hl]
  have h5 := he.sub
  have : (max (e.subFiles : Int) ((s : Int) + 1) % 256).toNat = max e.subFiles (s + 1) := by omega
  rw [this]

/-- the text behind the name (and the directory) -/
def Family.behind (F : Family) (f : File) : Text :=
  (match f.item with
    | some n => padded F.width n
    | none => []) ++ ((if F.subs = 0 then [] else 47 :: padded 3 f.sub) ++ F.ext.text)

def Family.prefix_ (F : Family) : Text :=
  F.name ++ (match F.layout with
    | .subdirs => 47 :: F.name
    | .nonredundant => [47]
    | _ => [])

theorem fileName_eq (F : Family) (f : File) :
    F.fileName f = (if F.alts = 0 then [] else [97, 108, 116] ++ padded 3 f.alt ++ [47]) ++ (F.prefix_ ++ F.behind f) := by
  simp only [Family.fileName, Family.prefix_, Family.behind, List.append_assoc]
  cases F.layout <;> cases f.item <;> rfl

theorem mem_items {F : Family} {i : Option Nat} : i ∈ F.items ↔ (∃ n, i = some n ∧ F.lo ≤ n ∧ n < F.lo + F.count) ∨ (i = none ∧ F.unnumbered = true) := by
  unfold Family.items
  simp only [List.mem_append, List.mem_map, List.mem_range]
  constructor
  · rintro (⟨k, hk, rfl⟩ | h)
    · exact Or.inl ⟨_, rfl, by omega, by omega⟩
    · by_cases hu : F.unnumbered = true
      · rw [if_pos hu] at h; exact Or.inr ⟨by simpa using h, hu⟩
      · rw [if_neg hu] at h; simp at h
  · rintro (⟨n, rfl, h1, h2⟩ | ⟨rfl, hu⟩)
    · exact Or.inl ⟨n - F.lo, by omega, by congr 1; omega⟩
    · right; rw [if_pos hu]; simp

theorem mem_files {F : Family} {f : File} : f ∈ F.files ↔ f.alt < max 1 F.alts ∧ f.item ∈ F.items ∧ f.sub < max 1 F.subs := by
  unfold Family.files
  simp only [List.mem_flatMap, List.mem_map, List.mem_range]
  constructor
  · rintro ⟨a, ha, i, hi, s, hs, rfl⟩; exact ⟨ha, hi, hs⟩
  · rintro ⟨h1, h2, h3⟩; exact ⟨f.alt, h1, f.item, h2, f.sub, h3, rfl⟩

/-- in a family whose files are directories, every file has a number -/
theorem item_some {F : Family} (hF : F.Ok) {f : File} (hf : f ∈ F.files) (h : F.layout = .nonredundant) : ∃ n, f.item = some n := by
  rcases mem_items.mp (mem_files.mp hf).2.1 with ⟨n, h1, _⟩ | ⟨_, h2⟩
  · exact ⟨n, h1⟩
  · rw [hF.unnumbered h] at h2; cases h2

theorem tail_head (F : Family) (f : File) : ∃ c t, (if F.subs = 0 then [] else 47 :: padded 3 f.sub) ++ F.ext.text = c :: t ∧ c < 48 := by
  obtain ⟨t, ht⟩ := ext_head F.ext
  by_cases h : F.subs = 0
  · rw [if_pos h, ht]; exact ⟨46, t, rfl, by decide⟩
  · rw [if_neg h]; exact ⟨47, _, rfl, by decide⟩

/-- the first byte behind the name is a digit or the dot -/
theorem behind_head {F : Family} (hF : F.Ok) {f : File} (hf : f ∈ F.files) : ∃ c t, F.behind f = c :: t ∧ c ≤ 57 ∧ c ≠ 47 := by
  unfold Family.behind
  cases hi : f.item with
  | some n =>
    obtain ⟨d, ds, hd⟩ : ∃ d ds, padded F.width n = d :: ds := List.exists_cons_of_ne_nil (padded_ne_nil _ n)
    have := padded_digits F.width n d (by rw [hd]; simp)
    simp only [hd]
    exact ⟨d, _, rfl, by omega, by omega⟩
  | none =>
    have hl : F.subs = 0 := by
      by_cases h : F.subs = 0
      · exact h
      · obtain ⟨n, hn⟩ := item_some hF hf (hF.subDirs h)
        rw [hi] at hn; cases hn
    obtain ⟨t, ht⟩ := ext_head F.ext
    simp only [if_pos hl, ht]
    exact ⟨46, t, rfl, by decide, by decide⟩

theorem toLower_gt {c d : Nat} (hc : 57 < c) (hd : d ≤ 57) : toLower d ≠ toLower c := by
  unfold toLower
  split <;> split <;> omega

theorem scanName_file {F : Family} (hF : F.Ok) {f : File} (hf : f ∈ F.files) : scanName F.name (F.prefix_ ++ F.behind f) = some (F.layout, F.behind f) := by
  obtain ⟨c, t, hb, hc, hc'⟩ := behind_head hF hf
  unfold scanName Family.prefix_
  cases hl : F.layout with
  | unknown => exact absurd hl hF.layout
  | flat =>
    simp only [List.append_nil]
    rw [startswith_self]
    simp only
    rw [if_neg (by rw [hb]; simpa using hc')]
  | subdirs =>
    simp only
    rw [List.append_assoc, startswith_self]
    simp only [List.cons_append]
    rw [if_pos (List.head?_cons ..)]
    have : (47 :: (F.name ++ F.behind f)).drop 1 = F.name ++ F.behind f := rfl
    rw [this, startswith_self]
  | nonredundant =>
    simp only
    rw [List.append_assoc, startswith_self]
    simp only [List.cons_append, List.nil_append]
    rw [if_pos (List.head?_cons ..)]
    have : (47 :: F.behind f).drop 1 = F.behind f := rfl
    rw [this]
    obtain ⟨d, u, hn, hd⟩ := hF.name
    have : startswith F.name (F.behind f) = none := by
      rw [hn, hb]
      simp only [startswith]
      rw [if_pos (toLower_gt hd hc)]
    rw [this]

/-- the effect after the file `f` -/
def upd (F : Family) (f : File) (e : Eff) : Eff :=
  let e1 : Eff := match f.item with
    | some n => withNumber F.width n e
    | none => { e with unnumbered := true }
  { e1 with
    subFiles := if F.subs = 0 then e.subFiles else max e.subFiles (f.sub + 1)
    inAlt := e.inAlt || decide (F.alts ≠ 0)
    pattern := F.layout
    ext := F.ext
    numFiles := e.numFiles + 1
    numAlt := if F.alts = 0 then e.numAlt else max e.numAlt (f.alt + 1) }

theorem scanRest_file {F : Family} (hF : F.Ok) {f : File} (hf : f ∈ F.files) {e : Eff} (he : e.InRange) (hn : e.numFiles < 32767) (hx : e.ext = .unknown ∨ e.ext = F.ext)
    {file : Text} (hfile : identify file = F.ext) :
    scanRest F.ext.fileType e (if F.alts = 0 then -1 else f.alt) file F.layout (F.behind f) = some (upd F f e, true) := by
  have hm := mem_files.mp hf
  unfold scanRest
  rw [hfile]
  simp only
  rw [if_neg (by simp), if_neg (by intro h; rcases hx with hx | hx; exact h.1 hx; exact h.2 hx)]
  have hr0 := he
  -- the number
  obtain ⟨e2, h2a, h2b, h2c⟩ : ∃ e2, scanNumber { e with ext := F.ext } (F.behind f) = (e2, some ((if F.subs = 0 then [] else 47 :: padded 3 f.sub) ++ F.ext.text)) ∧
      e2.InRange ∧ e2 = (match f.item with
        | some n => withNumber F.width n { e with ext := F.ext }
        | none => { { e with ext := F.ext } with unnumbered := true }) := by
    unfold Family.behind
    rcases mem_items.mp hm.2.1 with ⟨n, hi, h1, h2⟩ | ⟨hi, hu⟩
    · rw [hi]
      simp only
      have := hF.hi
      refine ⟨_, scanNumber_num (e := { e with ext := F.ext }) ⟨he.max0, he.max1, he.min0, he.min1, he.num0, he.sub⟩ hF.width (by omega) (tail_head F f), ?_, rfl⟩
      have h1 := he.max0; have h2 := he.max1; have h3 := he.min0; have h4 := he.min1
      exact ⟨by simp only [withNumber]; omega, by simp only [withNumber]; omega, by simp only [withNumber]; omega, by simp only [withNumber]; omega, he.num0, he.sub⟩
    · rw [hi]
      have hs : F.subs = 0 := by
        by_cases h : F.subs = 0
        · exact h
        · have := hF.unnumbered (hF.subDirs h); rw [this] at hu; cases hu
      simp only [if_pos hs, List.nil_append]
      exact ⟨_, scanNumber_none _ hF.ext, ⟨he.max0, he.max1, he.min0, he.min1, he.num0, he.sub⟩, rfl⟩
  rw [h2a]
  simp only
  -- the sub file
  obtain ⟨hs⟩ : Nonempty (scanSub e2 F.layout ((if F.subs = 0 then [] else 47 :: padded 3 f.sub) ++ F.ext.text) =
      some ({ e2 with subFiles := if F.subs = 0 then e2.subFiles else max e2.subFiles (f.sub + 1) }, F.ext.text)) := by
    refine ⟨?_⟩
    by_cases h : F.subs = 0
    · simp only [if_pos h, List.nil_append]; exact scanSub_no _ _ _
    · simp only [if_neg h, hF.subDirs h]
      obtain ⟨t, ht⟩ := ext_head F.ext
      have := hF.subs
      exact scanSub_yes h2b (by omega) ⟨46, t, ht, by decide⟩
  rw [hs]
  simp only [Option.bind_eq_bind, Option.bind_some]
  obtain ⟨t, ht⟩ := ext_head F.ext
  have hh : F.ext.text.head? = some 46 := by rw [ht]; rfl
  rw [if_neg (by rw [hh]; simp)]
  have hn2 : e2.numFiles = e.numFiles := by rw [h2c]; cases f.item <;> rfl
  have h6 := he.num0
  rw [hn2, wrap16_id (by omega) (by omega)]
  subst h2c
  by_cases ha : F.alts = 0
  · rw [if_pos ha, if_neg (by simp)]
    simp only [upd, ha]
    cases f.item <;> simp [withNumber]
  · rw [if_neg ha, if_pos (by omega)]
    simp only [upd]
    cases f.item <;> simp [withNumber, ha]

/-- C40: scanning a file of the family counts it -/
theorem scan_file {F : Family} (hF : F.Ok) {f : File} (hf : f ∈ F.files) {e : Eff} (he : e.InRange) (hn : e.numFiles < 32767) (hx : e.ext = .unknown ∨ e.ext = F.ext) :
    scan F.name F.ext.fileType e (F.fileName f) = some (upd F f e, true) ∧ identify (F.fileName f) = F.ext := by
  have hm := mem_files.mp hf
  have hid : ∀ x : Text, identify (x ++ (F.prefix_ ++ F.behind f)) = F.ext := by
    intro x
    unfold Family.behind
    rw [← List.append_assoc, ← List.append_assoc, ← List.append_assoc]
    exact identify_ext _ _ hF.ext
  have hid0 := hid []
  rw [List.nil_append] at hid0
  rw [fileName_eq]
  refine ⟨?_, hid _⟩
  have hr := scanRest_file hF hf he hn hx hid0
  by_cases ha : F.alts = 0
  · rw [if_pos ha] at hr ⊢
    rw [List.nil_append]
    have h1 : altnum (F.prefix_ ++ F.behind f) = some (-1) := by
      unfold Family.prefix_
      rw [List.append_assoc]
      exact altnum_not (hF.notAlt ha) _
    unfold scan
    rw [h1]
    simp only [Option.bind_eq_bind, Option.bind_some, ne_eq, not_true_eq_false, if_false]
    rw [scanName_file hF hf]
    exact hr
  · rw [if_neg ha] at hr ⊢
    have h1 := hF.alts
    obtain ⟨h2, h3⟩ := altnum_alt (a := f.alt) (by omega) (F.prefix_ ++ F.behind f)
    have e1 : [97, 108, 116] ++ padded 3 f.alt ++ [47] ++ (F.prefix_ ++ F.behind f) = [97, 108, 116] ++ padded 3 f.alt ++ 47 :: (F.prefix_ ++ F.behind f) := by simp
    rw [e1]
    unfold scan
    rw [h2]
    simp only [Option.bind_eq_bind, Option.bind_some]
    rw [if_pos (by omega), h3, scanName_file hF hf]
    exact hr

end Verif.Sound
