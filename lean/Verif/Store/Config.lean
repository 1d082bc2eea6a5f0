import Verif.Store.TextLemmas

/-!
# Configuration variables

Model of `ConfigFile` (`common/config_file.h`): the declared variables with their current values,
`SetVariable`, `Read` and the text produced by `WriteToDir`.
-/
set_option linter.unusedSimpArgs false
namespace Verif.Store

/-- One declared variable: name as in the source, default, current value
(`CONFIG_VARIABLE2`, common/config_file.h:215; `Variable<T>`, lines 22-30). -/
structure Var where
  name : Text
  default : Dec
  value : Dec
deriving DecidableEq, Repr

/-- The declared variables of a `ConfigFile` and of all files linked to it, in iteration order
(`iterateVariables_internal`, common/config_file.h:157-162). -/
abbrev Vars := List Var

/-- `strcasecmp(a, b) == 0`. -/
def sameName (a b : Text) : Bool := a.map toLower == b.map toLower

/-- `SetVariable("=", ..)`: all variables to their default, common/config_file.h:36-40,127-129. -/
def setDefaults (vs : Vars) : Vars := vs.map fun v => { v with value := v.default }

/-- `SetVariable(variable, v)`, common/config_file.h:41-51,130-133. -/
def setVariable (name : Text) (x : Dec) (vs : Vars) : Vars :=
  vs.map fun v => if sameName v.name name then { v with value := x } else v

/-- `ReadStatus`, common/config_file.h:87-91. -/
inductive Status where | fail | ok | ended
deriving DecidableEq, Repr

def kEnd : Text := [101, 110, 100]
def kInstalled : Text := [105, 110, 115, 116, 97, 108, 108, 101, 100]

/-- Outcome of the body of the loop for one line, before `skipline`. -/
inductive LineRes where
  | stop (s : Status)
  | next (rest : Text) (vs : Vars)

/-- Body of the loop of `Read`, common/config_file.h:96-120 (`continue` = `next`). -/
def readLine (inst : List Nat) (vs : Vars) (t : Text) : LineRes :=
  let t := skipwhite t
  if t.head? = some 35 then .next t vs
  else
    let r := readVariable t
    if r.1 = kEnd then .stop .ended
    else
      let t := skipwhite r.2
      match t with
      | [] => .next [] vs
      | c :: t' =>
        if c ≠ 61 then .next (c :: t') vs
        else
          let t := skipwhite t'
          if r.1 = kInstalled then
            let e := expect inst t
            if e.1 then .next e.2 vs else .stop .fail
          else
            let x := readFloatValue t
            .next x.2 (setVariable r.1 x.1 vs)

theorem readLine_le {inst vs t rest vs'} (h : readLine inst vs t = .next rest vs') : rest.length ≤ t.length := by
  unfold readLine at h
  have h1 := skipwhite_le t
  have h2 := readVariable_le (skipwhite t)
  have h3 := skipwhite_le (readVariable (skipwhite t)).2
  simp only at h
  split at h
  · cases h; omega
  · split at h
    · cases h
    · split at h
      · cases h; simp
      · rename_i c t' he
        rw [he] at h3
        simp at h3
        have h4 := skipwhite_le t'
        split at h
        · cases h; simp; omega
        · split at h
          · split at h
            · cases h
              have := expect_le inst (skipwhite t')
              omega
            · cases h
          · cases h
            have := readFloatValue_le (skipwhite t')
            omega

/-- The loop of `Read`, common/config_file.h:95-122. -/
def readLoop (inst : List Nat) (vs : Vars) (t : Text) : Status × Vars :=
  if _h : t = [] then (.ok, vs)
  else
    match _hl : readLine inst vs t with
    | .stop s => (s, vs)
    | .next rest vs' =>
      if _hr : rest = [] then (.ok, vs') else readLoop inst vs' (skipline rest)
termination_by t.length
decreasing_by
  have := readLine_le _hl
  have := skipline_lt rest _hr
  omega

/-- `Read(f, reset)` on an open file, common/config_file.h:92-123. -/
def readConfig (inst : List Nat) (reset : Bool) (vs : Vars) (t : Text) : Status × Vars :=
  readLoop inst (if reset then setDefaults vs else vs) t

/-- The text `WriteToDir` writes: `installed=`, one line per variable, `end=1`
(common/config_file.h:168-171); variable values are `hundredths / 100`. -/
def configText (inst : List Nat) (vals : List (Text × Int)) : Text :=
  writeKeyValue kInstalled inst ++ (vals.flatMap fun p => writeKeyFloat p.1 p.2) ++ writeKeyValue kEnd [49]

end Verif.Store
