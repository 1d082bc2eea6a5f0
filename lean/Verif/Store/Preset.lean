import Verif.Store.TextLemmas

/-!
# Presets

Model of `CurrentPreset` (`common/current_preset.h`): reading, writing, loading and editing the preset
file, for files with a validated header (the text starts behind the 512-byte header block).
-/
set_option linter.unusedSimpArgs false
namespace Verif.Store

/-- The saved members of `CurrentPreset`, common/current_preset.h:15-21; `styles` has one entry per
blade, `variation` is a `uint32_t`. -/
structure Preset where
  font : Text
  track : Text
  styles : List Text
  name : Text
  variation : Nat
deriving DecidableEq, Repr

def kNew : Text := [110, 101, 119, 95, 112, 114, 101, 115, 101, 116]
def kEnd3 : Text := [101, 110, 100]
def kFont : Text := [102, 111, 110, 116]
def kTrack : Text := [116, 114, 97, 99, 107]
def kStyle : Text := [115, 116, 121, 108, 101]
def kName : Text := [110, 97, 109, 101]
def kVariation : Text := [118, 97, 114, 105, 97, 116, 105, 111, 110]
def kInst : Text := [105, 110, 115, 116, 97, 108, 108, 101, 100]

/-- value of a digit string in `strtol` -/
def digitsVal (acc : Nat) : Text → Nat
  | [] => acc
  | c :: t => if 48 ≤ c ∧ c ≤ 57 then digitsVal (10 * acc + (c - 48)) t else acc

/-- `strtol(s, nullptr, 10)` for a 32-bit `long` (white space, sign, digits, saturation). -/
def strtol (t : Text) : Int :=
  let t := t.dropWhile fun c => c == 32 || (9 ≤ c && c ≤ 13)
  let r : Int := match t with
    | 45 :: t => -(digitsVal 0 t : Int)
    | 43 :: t => digitsVal 0 t
    | t => digitsVal 0 t
  max (-2147483648) (min 2147483647 r)

/-- conversion of an `int` to `uint32_t` -/
def toU32 (i : Int) : Nat := (i % 4294967296).toNat
/-- conversion of a `uint32_t` to `int` -/
def ofU32 (n : Nat) : Int := if n < 2147483648 then n else (n : Int) - 4294967296

/-- The fields stored by one `key=value` line, common/current_preset.h:159-189; the value is the C
string read.  `cs` counts the style lines.  `none` = a style line for a blade that does not exist
(out of bounds write, line 183). -/
def setField (key v : Text) (cs : Nat) (p : Preset) : Option (Nat × Preset) :=
  if key = kName then some (cs, { p with name := v })
  else if key = kFont then some (cs, { p with font := v })
  else if key = kTrack then some (cs, { p with track := v })
  else if key = kVariation then some (cs, { p with variation := toU32 (strtol v) })
  else if key = kStyle then
    if cs < p.styles.length then some (cs + 1, { p with styles := p.styles.set cs v }) else none
  else some (cs, p)

/-- Outcome of one line of `Read`. -/
inductive PLine where
  | stop (ok : Bool) (rest : Text)
  | next (cnt cs : Nat) (p : Preset) (rest : Text)
  | ub

/-- keys whose value is read with `readString` (common/current_preset.h:159-189) -/
def isField (k : Text) : Bool := k == kName || k == kFont || k == kTrack || k == kVariation || k == kStyle

/-- Body of the loop of `Read`, common/current_preset.h:123-189. -/
def presetLine (cnt cs : Nat) (p : Preset) (t : Text) : PLine :=
  let t := skipspace t
  if t.head? = some 35 then .next cnt cs p t
  else
    let lineBegin := t
    let r := readVariable t
    if r.1 = [] then .next cnt cs p r.2
    else if r.1 = kNew then
      if cnt + 1 = 2 then .stop true lineBegin else .next (cnt + 1) cs p r.2
    else if r.1 = kEnd3 then
      .stop (cnt == 1) lineBegin
    else if cnt = 0 then .next cnt cs p r.2
    else
      match r.2 with
      | [] => .next cnt cs p []
      | c :: t =>
        if c ≠ 61 then .next cnt cs p (c :: t)
        else
          let t := skipspace t
          if isField r.1 then
            let v := readString t
            match setField r.1 (cstr v.1) cs p with
            | none => .ub
            | some (cs', p') => .next cnt cs' p' v.2
          else .next cnt cs p t

theorem presetLine_le {cnt cs p t cnt' cs' p' rest} (h : presetLine cnt cs p t = .next cnt' cs' p' rest) :
    rest.length ≤ t.length := by
  unfold presetLine at h
  have h1 := skipspace_le t
  have h2 := readVariable_le (skipspace t)
  simp only at h
  split at h
  · cases h; omega
  · split at h
    · cases h; omega
    · split at h
      · split at h
        · cases h
        · cases h; omega
      · split at h
        · cases h
        · split at h
          · cases h; omega
          · split at h
            · cases h; simp
            · rename_i c u he
              rw [he] at h2
              simp at h2
              have h3 := skipspace_le u
              have h4 := readString_le (skipspace u)
              split at h
              · cases h; simp; omega
              · split at h
                · split at h
                  · cases h
                  · cases h; omega
                · cases h; omega

/-- Outcome of `Read`: `none` = undefined behaviour. -/
abbrev PRes := Option (Bool × Preset × Text)

/-- The loop of `Read`, common/current_preset.h:122-195. -/
def presetLoop (cnt cs : Nat) (p : Preset) (t : Text) : PRes :=
  if _h : t = [] then some (cnt == 1, p, [])
  else
    match _hl : presetLine cnt cs p t with
    | .ub => none
    | .stop ok rest => some (ok, p, rest)
    | .next cnt' cs' p' rest =>
      if _hr : rest = [] then some (cnt' == 1, p', []) else presetLoop cnt' cs' p' (skipline rest)
termination_by t.length
decreasing_by
  have := presetLine_le _hl
  have := skipline_lt rest _hr
  omega

/-- `Read(f)`, common/current_preset.h:116-196 (position beyond the beginning of the file): success,
fields, unread rest; `preset_num` is incremented iff it succeeds. -/
def readPreset (p : Preset) (t : Text) : PRes := presetLoop 0 0 p t

/-- `Write(f)`, common/current_preset.h:198-218. -/
def presetText (p : Preset) : Text :=
  kNew ++ 10 :: (writeKeyValue kFont p.font ++ (writeKeyValue kTrack p.track ++
    (p.styles.flatMap (fun s => writeKeyValue kStyle s) ++ (writeKeyValue kName p.name ++
      writeKeyValue kVariation (itoa (ofU32 p.variation))))))

theorem presetLine_stop_le {cnt cs p t ok rest} (h : presetLine cnt cs p t = .stop ok rest) :
    rest.length ≤ t.length ∧ (cnt = 0 → ok = false) := by
  unfold presetLine at h
  have h1 := skipspace_le t
  simp only at h
  split at h
  · cases h
  · split at h
    · cases h
    · split at h
      · split at h
        · cases h; exact ⟨h1, by omega⟩
        · cases h
      · split at h
        · cases h; exact ⟨h1, by simp +contextual⟩
        · split at h
          · cases h
          · split at h
            · cases h
            · split at h
              · cases h
              · split at h
                · split at h <;> cases h
                · cases h

/-- A successful `Read` makes progress. -/
theorem presetLoop_lt {cnt cs p t ok p' rest} (h : presetLoop cnt cs p t = some (ok, p', rest)) :
    rest.length ≤ t.length ∧ (cnt = 0 → ok = true → rest.length < t.length) := by
  fun_induction presetLoop cnt cs p t with
  | case1 cnt cs p => cases h; simp; omega
  | case2 cnt cs p t h1 h2 => cases h
  | case3 cnt cs p t h1 ok1 rest1 h2 =>
    cases h
    have := presetLine_stop_le h2
    refine ⟨this.1, fun hc ho => ?_⟩
    rw [this.2 hc] at ho; cases ho
  | case4 cnt cs p t h1 cnt' cs' p1 h2 =>
    cases h
    refine ⟨by simp, fun _ _ => ?_⟩
    cases t with
    | nil => exact absurd rfl h1
    | cons => simp
  | case5 cnt cs p t h1 cnt' cs' p1 rest1 h2 h3 ih =>
    have e1 := presetLine_le h2
    have e2 := skipline_lt rest1 h3
    have := (ih h).1
    exact ⟨by omega, fun _ _ => by omega⟩

/-- The state `Load` works on: the fields and `preset_num`. -/
structure Cur where
  p : Preset
  num : Int
deriving DecidableEq, Repr

/-- The loop of `Load(preset)`, common/current_preset.h:341-356; `start` is the text at the position
of the first preset, `n` the number of presets read. -/
def loadLoop (start : Text) (preset : Int) (n : Nat) (c : Cur) (t : Text) : Option (Bool × Cur) :=
  match _h : readPreset c.p t with
  | none => none
  | some (true, p, rest) =>
    let c' : Cur := ⟨p, c.num + 1⟩
    if (n : Int) = preset then some (true, c') else loadLoop start preset (n + 1) c' rest
  | some (false, p, _) =>
    let c' : Cur := ⟨p, c.num⟩
    if n ≠ 0 ∧ preset = -1 then some (true, c')
    else if (n : Int) = preset then
      match readPreset p start with
      | none => none
      | some (ok, p', _) => some (true, ⟨p', if ok then 0 else -1⟩)
    else some (false, c')
termination_by t.length
decreasing_by exact (presetLoop_lt _h).2 rfl rfl

/-- `Load(preset)`, common/current_preset.h:325-358, on the text of the opened preset file. -/
def load (file : Text) (preset : Int) (p : Preset) : Option (Bool × Cur) := loadLoop file preset 0 ⟨p, -1⟩ file

/-- The copy loop of `SaveAtLocked`, common/current_preset.h:400-411: text written. `cur` is the preset
being saved, `tmp` the one being copied. -/
def saveLoop (cur : Cur) (position : Int) (tmp : Cur) (opos : Nat) (t : Text) : Option Text :=
  match _h : readPreset tmp.p t with
  | none => none
  | some (false, _, _) => some []
  | some (true, p, rest) =>
    let tmp' : Cur := ⟨p, tmp.num + 1⟩
    if tmp'.num ≠ cur.num then
      if position = ((opos + 1 : Nat) : Int) then
        (saveLoop cur position tmp' (opos + 2) rest).map fun o => presetText p ++ (presetText cur.p ++ o)
      else
        (saveLoop cur position tmp' (opos + 1) rest).map fun o => presetText p ++ o
    else saveLoop cur position tmp' opos rest
termination_by t.length
decreasing_by all_goals exact (presetLoop_lt _h).2 rfl rfl

/-- `SaveAtLocked(position)`, common/current_preset.h:389-415: the text of the new file, from the text
of the opened one.  `junk` are the (empty) fields of the local `tmp`. -/
def saveAt (inst : List Nat) (junk : Preset) (cur : Cur) (position : Int) (file : Text) : Option Text :=
  let first := if position = 0 then presetText cur.p else []
  let opos := if position = 0 then 1 else 0
  (saveLoop cur position ⟨junk, -1⟩ opos file).map fun o =>
    writeKeyValue kInst inst ++ (first ++ (o ++ (kEnd3 ++ [10])))

/-- `Set(num)`, common/current_preset.h:94-114: index of the built-in preset used (`num_presets` is
unsigned, so the sum is taken modulo 2^32). -/
def romIndex (numPresets : Nat) (num : Int) : Nat := toU32 ((numPresets : Int) + num) % numPresets

/-- `SetPreset(preset)`, common/current_preset.h:431-436: disk preset, or built-in number. -/
def setPreset (file : Option Text) (empty : Preset) (numPresets : Nat) (preset : Int) : Option (Cur ⊕ Nat) :=
  match file with
  | none => some (.inr (romIndex numPresets preset))
  | some t =>
    match load t preset empty with
    | none => none
    | some (true, c) => some (.inl c)
    | some (false, _) => some (.inr (romIndex numPresets preset))

end Verif.Store
