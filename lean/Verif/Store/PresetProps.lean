import Verif.Store.PresetLemmas
import Verif.Store.Props

/-! Properties C06 (preset list editing), C07 (preset navigation) and C08 (preset round trip). -/
set_option linter.unusedSimpArgs false
namespace Verif.Store

/-! ### C08 -/

/-- C08: a written preset reads back identically, whatever preset was in memory before, and reading
consumes exactly that preset: the next preset (or the end line) starts where it should. -/
theorem C08_preset_roundtrip (nb : Nat) (old p : Preset) (next : List Preset) (tail : Text)
    (ho : old.styles.length = nb) (hp : p.ok nb) :
    readPreset old (presetText p ++ presetsText next tail) = some (true, p, presetsText next tail) :=
  readPreset_text nb old p _ ho hp (follows_presets next tail)

/-- C08: the same at the end of a file that has no `end` line, and even no newline after the last line. -/
theorem C08_preset_eof (nb : Nat) (old p : Preset) (ho : old.styles.length = nb) (hp : p.ok nb) :
    readPreset old (presetText p) = some (true, p, []) ∧ readPreset old (presetText p).dropLast = some (true, p, []) := by
  have hk : keyOk kVariation := ⟨by decide, by decide, by decide, by decide⟩
  have hv := itoa_valueOk (ofU32 p.variation)
  constructor
  · have := presetLoop_field (0 + p.styles.length) { p with variation := old.variation } kVariation (itoa (ofU32 p.variation)) [] hk (by decide) hv
      (0 + p.styles.length) p (setField_variation _ p _ hp.variation)
    rw [List.append_nil] at this
    rw [presetText_head, readPreset_head nb old p _ ho hp, this, presetLoop_nil]
  · have e : (presetText p).dropLast = presetHead p ++ (kVariation ++ 61 :: escape (itoa (ofU32 p.variation))) := by
      rw [presetText_head]
      have : writeKeyValue kVariation (itoa (ofU32 p.variation)) = (kVariation ++ 61 :: escape (itoa (ofU32 p.variation))) ++ [10] := by
        simp [writeKeyValue]
      rw [this, ← List.append_assoc, List.dropLast_concat]
    rw [e, readPreset_head nb old p _ ho hp]
    exact presetLoop_field_eof _ _ _ _ hk (by decide) hv (0 + p.styles.length) p (setField_variation _ p _ hp.variation)

/-- A preset with a newline, a tab, an equal sign and a keyword inside its values. -/
def samplePreset : Preset :=
  ⟨[102, 10, 101, 110, 100], [116, 9], [[97, 32, 98], [61, 61]], [110, 92, 110], 4294967290⟩

theorem samplePreset_ok : samplePreset.ok 2 := by
  constructor <;> simp [samplePreset, valueOk]

example (tail : Text) :
    readPreset ⟨[], [], [[], []], [], 0⟩ (presetText samplePreset ++ presetsText [samplePreset] tail) =
      some (true, samplePreset, presetsText [samplePreset] tail) :=
  C08_preset_roundtrip 2 _ _ [samplePreset] tail rfl samplePreset_ok

/-! ### C07 -/

/-- A preset file: `installed` line, presets, `end` line, and possibly the remains of an older file. -/
def presetFile (inst : List Nat) (ps : List Preset) (tail : Text) : Text :=
  writeKeyValue kInst inst ++ presetsText ps tail

theorem loadLoop_true {start preset n c t p rest} (h : readPreset c.p t = some (true, p, rest)) :
    loadLoop start preset n c t =
      if (n : Int) = preset then some (true, ⟨p, c.num + 1⟩) else loadLoop start preset (n + 1) ⟨p, c.num + 1⟩ rest := by
  conv => lhs; unfold loadLoop
  split
  · rename_i he; rw [h] at he; cases he
  · rename_i he; rw [h] at he; cases he; rfl
  · rename_i he; rw [h] at he; cases he

theorem loadLoop_false {start : Text} {preset : Int} {n : Nat} {c : Cur} {t : Text} {p : Preset} {rest : Text}
    (h : readPreset c.p t = some (false, p, rest)) :
    loadLoop start preset n c t =
      if n ≠ 0 ∧ preset = -1 then some (true, ⟨p, c.num⟩)
      else if (n : Int) = preset then
        match readPreset p start with
        | none => none
        | some (ok, p', _) => some (true, ⟨p', if ok then 0 else -1⟩)
      else some (false, ⟨p, c.num⟩) := by
  conv => lhs; unfold loadLoop
  split
  · rename_i he; rw [h] at he; cases he
  · rename_i he; rw [h] at he; cases he
  · rename_i he; rw [h] at he; cases he; rfl

/-- What `Load(preset)` answers for a stored list: the preset with that number; the first one for the
number behind the last; the last one for -1; otherwise nothing. -/
def loadSpec (ps : List Preset) (preset : Int) : Option (Preset × Nat) :=
  if preset = -1 then (ps.getLast?).map fun p => (p, ps.length - 1)
  else if preset = ps.length then ps.head?.map fun p => (p, 0)
  else if 0 ≤ preset then (ps[preset.toNat]?).map fun p => (p, preset.toNat)
  else none

theorem loadLoop_spec (nb : Nat) (start : Text) (ps : List Preset) (tail : Text) (hps : ∀ p ∈ ps, p.ok nb)
    (done : List Preset) (c : Cur) (preset : Int) (hc : c.p.styles.length = nb) (hn : c.num = (done.length : Int) - 1)
    (hlast : ∀ p, done.getLast? = some p → c.p = p) (hne : done ++ ps ≠ [])
    (hpre : preset = -1 ∨ (done.length : Int) ≤ preset)
    (hstart : ∀ p0 old, (done ++ ps).head? = some p0 → old.styles.length = nb →
      ∃ r, readPreset old start = some (true, p0, r)) :
    match loadSpec (done ++ ps) preset with
    | some (p, i) => loadLoop start preset done.length c (presetsText ps tail) = some (true, ⟨p, (i : Int)⟩)
    | none => ∃ c', loadLoop start preset done.length c (presetsText ps tail) = some (false, c') := by
  induction ps generalizing done c with
  | nil =>
    have hd : done ≠ [] := by simpa using hne
    have e : readPreset c.p (presetsText [] tail) = some (false, c.p, presetsText [] tail) := readPreset_end _ _
    rw [List.append_nil] at *
    have hlen : done.length ≠ 0 := by simpa using hd
    obtain ⟨l, hl⟩ : ∃ l, done.getLast? = some l := ⟨_, List.getLast?_eq_some_getLast hd⟩
    rw [loadLoop_false e]
    unfold loadSpec
    by_cases h1 : preset = -1
    · subst h1
      simp only [if_true, hl, Option.map_some, hlen, ne_eq, not_false_eq_true, and_self]
      rw [hlast l hl, hn]
      congr 3; omega
    · rw [if_neg h1]
      by_cases h2 : preset = (done.length : Int)
      · rw [if_pos h2]
        obtain ⟨p0, t, rfl⟩ := List.exists_cons_of_ne_nil hd
        obtain ⟨r, hr⟩ := hstart p0 c.p (by simp) hc
        simp only [List.head?_cons, Option.map_some]
        rw [if_neg (by simp [h1]), if_pos h2.symm, hr]
        simp
      · rw [if_neg h2]
        have h3 : 0 ≤ preset := by omega
        have h4 : done[preset.toNat]? = none := List.getElem?_eq_none (by omega)
        rw [if_pos h3, h4]
        simp only [Option.map_none]
        rw [if_neg (by simp [h1]), if_neg (by omega)]
        exact ⟨_, rfl⟩
  | cons p ps ih =>
    have e := C08_preset_roundtrip nb c.p p ps tail hc (hps p (by simp))
    rw [presetsText_cons, loadLoop_true e]
    by_cases h1 : (done.length : Int) = preset
    · have h2 : preset ≠ -1 := by omega
      have h3 : preset ≠ ((done ++ p :: ps).length : Int) := by simp; omega
      have h4 : preset.toNat = done.length := by omega
      rw [if_pos h1]
      unfold loadSpec
      rw [if_neg h2, if_neg h3, if_pos (by omega), h4]
      simp only [List.getElem?_append_right (Nat.le_refl _), Nat.sub_self, List.getElem?_cons_zero, Option.map_some]
      rw [hn]
      congr 3; omega
    · rw [if_neg h1]
      have := ih (fun q hq => hps q (by simp [hq])) (done ++ [p]) ⟨p, c.num + 1⟩ (hps p (by simp)).count
        (by simp [hn]) (by simp) (by simp) (by simp; omega) (by simpa using hstart)
      simpa using this

/-- C07: loading preset `n` of a stored list answers exactly `loadSpec`; after a successful load the
current number is the index of the loaded preset. -/
theorem C07_load (nb : Nat) (inst : List Nat) (ps : List Preset) (tail : Text) (old : Preset) (preset : Int)
    (hne : ps ≠ []) (hps : ∀ p ∈ ps, p.ok nb) (ho : old.styles.length = nb) (hpre : -1 ≤ preset) :
    match loadSpec ps preset with
    | some (p, i) => load (presetFile inst ps tail) preset old = some (true, ⟨p, (i : Int)⟩)
    | none => ∃ c', load (presetFile inst ps tail) preset old = some (false, c') := by
  have hl : load (presetFile inst ps tail) preset old =
      loadLoop (presetFile inst ps tail) preset 0 ⟨old, -1⟩ (presetsText ps tail) := by
    unfold load
    obtain ⟨p, qs, rfl⟩ := List.exists_cons_of_ne_nil hne
    have e := C08_preset_roundtrip nb old p qs tail ho (hps p (by simp))
    rw [← presetsText_cons] at e
    have e' : readPreset old (presetFile inst (p :: qs) tail) = some (true, p, presetsText qs tail) := by
      unfold presetFile; rw [readPreset_installed, e]
    rw [loadLoop_true (c := ⟨old, -1⟩) e', loadLoop_true (c := ⟨old, -1⟩) e]
  rw [hl]
  have := loadLoop_spec nb (presetFile inst ps tail) ps tail hps [] ⟨old, -1⟩ preset ho rfl (by simp) (by simpa using hne)
    (by simp; omega) (by
      intro p0 o hp0 hol
      obtain ⟨p, qs, rfl⟩ := List.exists_cons_of_ne_nil hne
      simp at hp0
      subst hp0
      refine ⟨presetsText qs tail, ?_⟩
      unfold presetFile
      rw [readPreset_installed, presetsText_cons]
      exact C08_preset_roundtrip nb o p qs tail hol (hps p (by simp)))
  simpa using this

/-- Selecting 'next' `k` times: `SetPreset(preset_num + 1)`. -/
def nextPreset (file : Text) (empty : Preset) (numRom : Nat) : Nat → Cur ⊕ Nat → Option (Cur ⊕ Nat)
  | 0, s => some s
  | k+1, s =>
    let num : Int := match s with | .inl c => c.num | .inr n => n
    match setPreset (some file) empty numRom (num + 1) with
    | none => none
    | some s' => nextPreset file empty numRom k s'

theorem setPreset_ok (nb : Nat) (inst : List Nat) (ps : List Preset) (tail : Text) (empty : Preset) (numRom : Nat)
    (hps : ∀ p ∈ ps, p.ok nb) (ho : empty.styles.length = nb) (n : Int) (p : Preset) (i : Nat)
    (hn : -1 ≤ n) (hne : ps ≠ []) (h : loadSpec ps n = some (p, i)) :
    setPreset (some (presetFile inst ps tail)) empty numRom n = some (.inl ⟨p, (i : Int)⟩) := by
  have := C07_load nb inst ps tail empty n hne hps ho hn
  rw [h] at this
  unfold setPreset
  simp only [this]

/-- C07: selecting 'next' `k` times from preset `i` ends at preset `(i + k) mod length`. -/
theorem C07_next (nb : Nat) (inst : List Nat) (ps : List Preset) (tail : Text) (empty : Preset) (numRom : Nat)
    (hps : ∀ p ∈ ps, p.ok nb) (ho : empty.styles.length = nb) (i : Nat) (hi : i < ps.length) (k : Nat) :
    nextPreset (presetFile inst ps tail) empty numRom k (.inl ⟨ps[i], (i : Int)⟩) =
      some (.inl ⟨ps[(i + k) % ps.length]'(Nat.mod_lt _ (by omega)), (((i + k) % ps.length : Nat) : Int)⟩) := by
  have hne : ps ≠ [] := by rintro rfl; simp at hi
  induction k generalizing i with
  | zero =>
    have : i % ps.length = i := Nat.mod_eq_of_lt hi
    simp [nextPreset, this]
  | succ k ih =>
    by_cases hlast : i + 1 = ps.length
    · have hs : loadSpec ps ((i : Int) + 1) = some (ps[0], 0) := by
        unfold loadSpec
        rw [if_neg (by omega), if_pos (by omega)]
        obtain ⟨p, qs, rfl⟩ := List.exists_cons_of_ne_nil hne
        simp
      have h1 := setPreset_ok nb inst ps tail empty numRom hps ho _ _ _ (by omega) hne hs
      unfold nextPreset
      simp only [h1]
      have h2 := ih 0 (by omega)
      have e : (0 + k) % ps.length = (i + (k + 1)) % ps.length := by
        have : i + (k + 1) = ps.length + k := by omega
        rw [this, Nat.add_mod_left, Nat.zero_add]
      simp only [e] at h2
      simpa using h2
    · have hs : loadSpec ps ((i : Int) + 1) = some (ps[i + 1]'(by omega), i + 1) := by
        unfold loadSpec
        rw [if_neg (by omega), if_neg (by omega), if_pos (by omega)]
        have : ((i : Int) + 1).toNat = i + 1 := by omega
        rw [this, List.getElem?_eq_getElem (by omega)]
        rfl
      have h1 := setPreset_ok nb inst ps tail empty numRom hps ho _ _ _ (by omega) hne hs
      unfold nextPreset
      simp only [h1]
      have h2 := ih (i + 1) (by omega)
      have e : (i + 1 + k) % ps.length = (i + (k + 1)) % ps.length := by congr 1; omega
      simp only [e] at h2
      simpa using h2

/-- C07: the preset before the first one is the last one. -/
theorem C07_previous (nb : Nat) (inst : List Nat) (ps : List Preset) (tail : Text) (empty : Preset) (numRom : Nat)
    (hps : ∀ p ∈ ps, p.ok nb) (ho : empty.styles.length = nb) (hne : ps ≠ []) (i : Nat) (hi : i < ps.length) :
    setPreset (some (presetFile inst ps tail)) empty numRom ((i : Int) - 1) =
      some (.inl ⟨ps[(i + ps.length - 1) % ps.length]'(Nat.mod_lt _ (by omega)),
        (((i + ps.length - 1) % ps.length : Nat) : Int)⟩) := by
  apply setPreset_ok nb inst ps tail empty numRom hps ho _ _ _ (by omega) hne
  unfold loadSpec
  by_cases h0 : i = 0
  · subst h0
    rw [if_pos (by omega)]
    have : (0 + ps.length - 1) % ps.length = ps.length - 1 := by
      rw [Nat.zero_add]; exact Nat.mod_eq_of_lt (by omega)
    simp only [this]
    rw [List.getLast?_eq_some_getLast hne, List.getLast_eq_getElem]
    rfl
  · rw [if_neg (by omega), if_neg (by omega), if_pos (by omega)]
    have h1 : (i + ps.length - 1) % ps.length = i - 1 := by
      have : i + ps.length - 1 = ps.length + (i - 1) := by omega
      rw [this, Nat.add_mod_left, Nat.mod_eq_of_lt (by omega)]
    have h2 : ((i : Int) - 1).toNat = i - 1 := by omega
    simp only [h1, h2]
    rw [List.getElem?_eq_getElem (by omega)]
    rfl

example : loadSpec [samplePreset, { samplePreset with variation := 7 }] 2 = some (samplePreset, 0) := by decide

/-! ### C06 -/

/-- List editing: the current preset is taken out of the list (if it is in it) and put back at
`position`; with position -1 it is deleted. -/
def edit (ps : List Preset) (num : Int) (p : Preset) (position : Int) : List Preset :=
  let others := if num < 0 then ps else ps.eraseIdx num.toNat
  if position < 0 then others else others.insertIdx position.toNat p

theorem saveLoop_true {cur : Cur} {position : Int} {tmp : Cur} {opos : Nat} {t : Text} {p : Preset} {rest : Text}
    (h : readPreset tmp.p t = some (true, p, rest)) :
    saveLoop cur position tmp opos t =
      if tmp.num + 1 ≠ cur.num then
        if position = ((opos + 1 : Nat) : Int) then
          (saveLoop cur position ⟨p, tmp.num + 1⟩ (opos + 2) rest).map fun o => presetText p ++ (presetText cur.p ++ o)
        else (saveLoop cur position ⟨p, tmp.num + 1⟩ (opos + 1) rest).map fun o => presetText p ++ o
      else saveLoop cur position ⟨p, tmp.num + 1⟩ opos rest := by
  conv => lhs; unfold saveLoop
  split
  · rename_i he; rw [h] at he; cases he
  · rename_i he; rw [h] at he; cases he
  · rename_i he; rw [h] at he; cases he; rfl

theorem saveLoop_end {cur position tmp opos u} : saveLoop cur position tmp opos (kEnd3 ++ 10 :: u) = some [] := by
  unfold saveLoop
  have h := readPreset_end tmp.p u
  split
  · rename_i he; rw [h] at he; cases he
  · rfl
  · rename_i he; rw [h] at he; cases he

/-- presets still to be copied when `tmp.num = k - 1` of them have been read -/
def keepFrom (num : Int) (k : Nat) (ps : List Preset) : List Preset :=
  if num < k then ps else ps.eraseIdx (num.toNat - k)

theorem keepFrom_cons (num : Int) (k : Nat) (p : Preset) (ps : List Preset) :
    keepFrom num k (p :: ps) = if (k : Int) = num then ps else p :: keepFrom num (k + 1) ps := by
  unfold keepFrom
  by_cases h1 : num < k
  · rw [if_pos h1, if_neg (by omega), if_pos (by omega)]
  · rw [if_neg h1]
    by_cases h2 : (k : Int) = num
    · have : num.toNat - k = 0 := by omega
      rw [if_pos h2, this]; rfl
    · have : num.toNat - k = (num.toNat - (k + 1)) + 1 := by omega
      rw [if_neg h2, if_neg (by omega), this]; rfl

/-- the copy loop before the insertion point has been reached: `opos` presets written -/
theorem saveLoop_before (nb : Nat) (cur : Cur) (position : Int) (ps : List Preset) (tail : Text)
    (hps : ∀ p ∈ ps, p.ok nb) (k opos : Nat) (tmp : Cur) (ht : tmp.p.styles.length = nb) (hk : tmp.num = (k : Int) - 1) :
    saveLoop cur position tmp opos (presetsText ps tail) =
      some ((if position ≤ opos then keepFrom cur.num k ps
        else (keepFrom cur.num k ps).insertIdx (position.toNat - opos) cur.p).flatMap presetText) := by
  induction ps generalizing k opos tmp with
  | nil =>
    have hnil : keepFrom cur.num k [] = [] := by unfold keepFrom; split <;> simp
    have : presetsText [] tail = kEnd3 ++ 10 :: tail := rfl
    rw [this, saveLoop_end, hnil]
    split
    · rfl
    · have : position.toNat - opos = (position.toNat - opos - 1) + 1 := by omega
      rw [this]; rfl
  | cons p ps ih =>
    have e := C08_preset_roundtrip nb tmp.p p ps tail ht (hps p (by simp))
    have hc := (hps p (by simp)).count
    rw [presetsText_cons, saveLoop_true e, keepFrom_cons]
    by_cases hnum : (k : Int) = cur.num
    · have h1 : ¬ (tmp.num + 1 ≠ cur.num) := by omega
      rw [if_neg h1, if_pos hnum, ih (fun q hq => hps q (by simp [hq])) (k + 1) opos ⟨p, tmp.num + 1⟩ hc (by simp [hk])]
      have : keepFrom cur.num (k + 1) ps = ps := by unfold keepFrom; rw [if_pos (by omega)]
      rw [this]
    · have h1 : tmp.num + 1 ≠ cur.num := by omega
      rw [if_pos h1, if_neg hnum]
      by_cases hpos : position = ((opos + 1 : Nat) : Int)
      · rw [if_pos hpos, ih (fun q hq => hps q (by simp [hq])) (k + 1) (opos + 2) ⟨p, tmp.num + 1⟩ hc (by simp [hk])]
        rw [if_pos (by omega), if_neg (by omega)]
        have : position.toNat - opos = 0 + 1 := by omega
        rw [this, List.insertIdx_succ_cons, List.insertIdx_zero]
        simp
      · rw [if_neg hpos, ih (fun q hq => hps q (by simp [hq])) (k + 1) (opos + 1) ⟨p, tmp.num + 1⟩ hc (by simp [hk])]
        by_cases hle : position ≤ (opos : Int)
        · rw [if_pos (by omega), if_pos hle]; simp
        · rw [if_neg (by omega), if_neg hle]
          have : position.toNat - opos = (position.toNat - (opos + 1)) + 1 := by omega
          rw [this, List.insertIdx_succ_cons]
          simp

/-- C06: `SaveAt(position)` writes exactly the edited list: the current preset (number `num`; -1 if it
is not in the list, as for a duplicate) is taken out and put back at `position`, or deleted for
position -1; all other presets keep their contents and order. Whatever an older file left behind the
end line does not matter. -/
theorem C06_edit (nb : Nat) (inst : List Nat) (junk : Preset) (cur : Cur) (position : Int) (ps : List Preset)
    (tail : Text) (hps : ∀ p ∈ ps, p.ok nb) (hj : junk.styles.length = nb) :
    saveAt inst junk cur position (presetFile inst ps tail) =
      some (presetFile inst (edit ps cur.num cur.p position) []) := by
  have hk : keepFrom cur.num 0 ps = (if cur.num < 0 then ps else ps.eraseIdx cur.num.toNat) := by
    unfold keepFrom; simp
  have hfile : ∀ opos, saveLoop cur position ⟨junk, -1⟩ opos (presetFile inst ps tail) =
      saveLoop cur position ⟨junk, -1⟩ opos (presetsText ps tail) := by
    intro opos
    cases ps with
    | nil =>
      have h1 : readPreset junk (presetFile inst [] tail) = some (false, junk, kEnd3 ++ 10 :: tail) := by
        unfold presetFile; rw [readPreset_installed]; exact readPreset_end junk tail
      have h2 : presetsText [] tail = kEnd3 ++ 10 :: tail := rfl
      rw [h2, saveLoop_end]
      unfold saveLoop
      split
      · rename_i he; rw [h1] at he; cases he
      · rfl
      · rename_i he; rw [h1] at he; cases he
    | cons p qs =>
      have e := C08_preset_roundtrip nb junk p qs tail hj (hps p (by simp))
      rw [← presetsText_cons] at e
      have e' : readPreset junk (presetFile inst (p :: qs) tail) = some (true, p, presetsText qs tail) := by
        unfold presetFile; rw [readPreset_installed, e]
      rw [saveLoop_true (tmp := ⟨junk, -1⟩) e', saveLoop_true (tmp := ⟨junk, -1⟩) e]
  unfold saveAt
  simp only
  rw [hfile, saveLoop_before nb cur position ps tail hps 0 _ ⟨junk, -1⟩ hj rfl, hk]
  simp only [Option.map_some]
  unfold presetFile presetsText edit
  by_cases h0 : position = 0
  · subst h0
    simp
  · rw [if_neg h0, if_neg h0]
    simp only
    by_cases hneg : position < 0
    · rw [if_pos (by omega), if_pos hneg]; simp
    · rw [if_neg (by omega), if_neg hneg]; simp

/-- C06: saving in place replaces the element. -/
theorem C06_save_in_place (ps : List Preset) (i : Nat) (p : Preset) (h : i < ps.length) :
    edit ps i p i = ps.set i p := by
  unfold edit
  rw [if_neg (by omega), if_neg (by omega)]
  simp only [Int.toNat_natCast]
  induction ps generalizing i with
  | nil => simp at h
  | cons q qs ih =>
    cases i with
    | zero => simp
    | succ i => simp only [List.eraseIdx_cons_succ, List.insertIdx_succ_cons, List.set_cons_succ]; rw [ih i (by simpa using h)]

/-- C06: deleting removes the element. -/
theorem C06_delete (ps : List Preset) (i : Nat) (p : Preset) : edit ps i p (-1) = ps.eraseIdx i := by
  simp [edit]; omega

/-- C06: duplicating inserts a copy and keeps everything else. -/
theorem C06_duplicate (ps : List Preset) (j : Nat) (p : Preset) : edit ps (-1) p j = ps.insertIdx j p := by
  simp [edit]; omega

theorem mem_insertIdx' {α} {l : List α} {i : Nat} {a b : α} (h : b ∈ l.insertIdx i a) : b = a ∨ b ∈ l := by
  induction l generalizing i with
  | nil =>
    cases i with
    | zero => simpa using h
    | succ i => simp [List.insertIdx] at h
  | cons c l ih =>
    cases i with
    | zero => simpa using h
    | succ i =>
      rw [List.insertIdx_succ_cons] at h
      rcases List.mem_cons.1 h with rfl | h
      · exact Or.inr (by simp)
      · rcases ih h with h | h
        · exact Or.inl h
        · exact Or.inr (by simp [h])

/-- The edited list can be stored again. -/
theorem edit_ok (nb : Nat) (ps : List Preset) (num : Int) (p : Preset) (position : Int) (hps : ∀ q ∈ ps, q.ok nb)
    (hp : p.ok nb) : ∀ q ∈ edit ps num p position, q.ok nb := by
  intro q hq
  unfold edit at hq
  simp only at hq
  have key : ∀ q ∈ (if num < 0 then ps else ps.eraseIdx num.toNat), q.ok nb := by
    intro q hq
    split at hq
    · exact hps q hq
    · exact hps q (List.mem_of_mem_eraseIdx hq)
  split at hq
  · exact key q hq
  · rcases mem_insertIdx' hq with rfl | h
    · exact hp
    · exact key q h

/-- An edit: the preset in memory, its number, and the position it is saved at. -/
structure EditOp where
  p : Preset
  num : Int
  position : Int

/-- C06 end to end: after any history of saves and crashes, when the last completed save wrote the
edited list, every later load sees exactly the edited list. -/
theorem C06_durable (nb : Nat) (inst : List Nat) (hinst : 32 + inst.length ≤ 512)
    (d : Disk) (h1 : Foreign inst d.ini) (h2 : Foreign inst d.tmp) (h : List Ev)
    (hu : HeaderAtomic inst (start d) h) (hf : ∀ e ∈ h, e.fits) (hl : h.length + 1 < 2^31)
    (junk : Nat → Nat) (ps : List Preset) (tail : Text) (op : EditOp) (tmp empty : Preset)
    (hps : ∀ p ∈ ps, p.ok nb) (hp : op.p.ok nb) (hj : tmp.styles.length = nb) (he : empty.styles.length = nb) :
    ∃ out, saveAt inst tmp ⟨op.p, op.num⟩ op.position (presetFile inst ps tail) = some out ∧
      (out.length < 2^31 → edit ps op.num op.p op.position ≠ [] →
        ∃ t, loaded inst junk (save inst out (run inst (start d) h)).2 = some t ∧
        ∀ n, -1 ≤ n → match loadSpec (edit ps op.num op.p op.position) n with
          | some (p, i) => load t n empty = some (true, ⟨p, (i : Int)⟩)
          | none => ∃ c', load t n empty = some (false, c')) := by
  refine ⟨_, C06_edit nb inst tmp ⟨op.p, op.num⟩ op.position ps tail hps hj, fun hlen hne => ?_⟩
  obtain ⟨stale, hs⟩ := C02_last_save inst hinst d h1 h2 h hu hf hl _ hlen junk
  refine ⟨_, hs, fun n hn => ?_⟩
  have e : presetFile inst (edit ps op.num op.p op.position) [] ++ stale =
      presetFile inst (edit ps op.num op.p op.position) stale := by simp [presetFile, presetsText]
  rw [e]
  exact C07_load nb inst _ stale empty n hne (edit_ok nb ps op.num op.p op.position hps hp) he hn

example : edit [samplePreset, { samplePreset with variation := 1 }, { samplePreset with variation := 2 }] 0 samplePreset 2 =
    [{ samplePreset with variation := 1 }, { samplePreset with variation := 2 }, samplePreset] := by decide

/-- A caveat the code shares with the specification: saving at a position behind the end drops the
preset. -/
theorem C06_position_beyond_end_drops (ps : List Preset) (i j : Nat) (p : Preset) (hi : i < ps.length) (h : ps.length ≤ j) :
    edit ps i p j = ps.eraseIdx i := by
  unfold edit
  rw [if_neg (by omega), if_neg (by omega)]
  simp only [Int.toNat_natCast]
  apply List.insertIdx_of_length_lt
  rw [List.length_eraseIdx_of_lt hi]; omega

/-- Selecting 'next' `k` times without a preset file: `SetPreset(preset_num + 1)` -/
def nextBuiltin (empty : Preset) (numRom : Nat) : Nat → Nat → Option Nat
  | 0, i => some i
  | k+1, i =>
    match setPreset none empty numRom ((i : Int) + 1) with
    | some (.inr j) => nextBuiltin empty numRom k j
    | _ => none

theorem builtin_step (empty : Preset) (numRom : Nat) (hn : 0 < numRom) (hb : numRom < 2147483648) (i : Nat) (hi : i < numRom) (d : Int)
    (hd : -1 ≤ d ∧ d ≤ 1) : setPreset none empty numRom ((i : Int) + d) = some (.inr ((((i : Int) + d) % numRom).toNat)) := by
  unfold setPreset romIndex toU32
  simp only [Option.some.injEq, Sum.inr.injEq]
  have h1 : ((numRom : Int) + ((i : Int) + d)) % 4294967296 = (numRom : Int) + ((i : Int) + d) := Int.emod_eq_of_lt (by omega) (by omega)
  rw [h1]
  have h2 : (((numRom : Int) + ((i : Int) + d)).toNat : Int) = (numRom : Int) + ((i : Int) + d) := by omega
  have h3 : ((((numRom : Int) + ((i : Int) + d)).toNat % numRom : Nat) : Int) = ((i : Int) + d) % numRom := by
    push_cast
    rw [h2, Int.add_emod_left]
  omega

/-- C07: without a preset file, selecting 'next' `k` times from built-in preset `i` ends at `(i + k) mod number`, and 'previous' is the one before, in the circle -/
theorem C07_builtin (empty : Preset) (numRom : Nat) (hn : 0 < numRom) (hb : numRom < 2147483648) (i : Nat) (hi : i < numRom) (k : Nat) :
    nextBuiltin empty numRom k i = some ((i + k) % numRom) ∧
      setPreset none empty numRom ((i : Int) - 1) = some (.inr ((i + numRom - 1) % numRom)) := by
  constructor
  · induction k generalizing i with
    | zero => simp [nextBuiltin, Nat.mod_eq_of_lt hi]
    | succ k ih =>
      unfold nextBuiltin
      rw [builtin_step empty numRom hn hb i hi 1 (by omega)]
      simp only
      have e : (((i : Int) + 1) % numRom).toNat = (i + 1) % numRom := by
        have : (((i + 1) % numRom : Nat) : Int) = ((i : Int) + 1) % numRom := by push_cast; rfl
        omega
      rw [e, ih _ (Nat.mod_lt _ hn)]
      congr 1
      rw [Nat.mod_add_mod]
      congr 1
      omega
  · have := builtin_step empty numRom hn hb i hi (-1) (by omega)
    rw [show (i : Int) - 1 = (i : Int) + -1 by omega, this]
    congr 2
    have e : (((i + numRom - 1) % numRom : Nat) : Int) = ((i : Int) + -1) % numRom := by
      push_cast [show 1 ≤ i + numRom by omega]
      rw [show (i : Int) + numRom - 1 = (i : Int) + -1 + numRom by omega, Int.add_emod_right]
    omega

example (e : Preset) : nextBuiltin e 3 4 1 = some 2 ∧ setPreset none e 3 ((0 : Int) - 1) = some (.inr 2) := ⟨(C07_builtin e 3 (by decide) (by decide) 1 (by decide) 4).1, rfl⟩

end Verif.Store
