/-!
# Extrapolating motion

Model of common/extrapolator.h: a line is kept through the last `N` (`SIZE`) samples of a sensor and gives its
value at any time.  Floating point numbers are replaced by rationals (no rounding), and vectors by one
of their components, which the code treats all alike.  Times are 32 bit counters of microseconds.
-/
namespace Verif.Motion

/-- the difference of two 32 bit counters -/
def sub32 (a b : Nat) : Nat := (a + 4294967296 - b % 4294967296) % 4294967296

/-- `IncrementalLine`, common/extrapolator.h:11-22 and 60-63 -/
structure Line where
  start : Nat
  samples : Nat
  sumT : Rat
  tSquareSum : Rat
  sum : Rat
  dotSum : Rat
  needsUpdate : Bool
  startCopy : Nat
  avg : Rat
  slope : Rat
  avgT : Rat

/-- `Start`, common/extrapolator.h:24-34 -/
def Line.restart (l : Line) (t : Nat) : Line :=
  { l with start := t, samples := 0, sumT := 0, tSquareSum := 0, sum := 0, dotSum := 0 }

/-- `Add`, common/extrapolator.h:35-46 -/
def Line.add (l : Line) (d : Rat × Nat) : Line :=
  let t : Rat := (sub32 d.2 l.start : Nat)
  { l with needsUpdate := true, samples := l.samples + 1, sumT := l.sumT + t, tSquareSum := l.tSquareSum + t * t,
           sum := l.sum + d.1, dotSum := l.dotSum + d.1 * t }

/-- `Sub`, common/extrapolator.h:47-58 -/
def Line.sub (l : Line) (d : Rat × Nat) : Line :=
  let t : Rat := (sub32 d.2 l.start : Nat)
  { l with needsUpdate := true, samples := l.samples - 1, sumT := l.sumT - t, tSquareSum := l.tSquareSum - t * t,
           sum := l.sum - d.1, dotSum := l.dotSum - d.1 * t }

/-- `update`, common/extrapolator.h:66-83; `none`: without samples the results are not numbers -/
def Line.update (l : Line) : Option Line :=
  if l.needsUpdate = false then some l
  else if l.samples = 0 then none
  else
    let inv : Rat := 1 / (l.samples : Rat)
    let avgT := l.sumT * inv
    let avg := l.sum * inv
    let tSquareSum := l.tSquareSum + avgT * l.sumT - 2 * l.sumT * avgT
    let dotSum := l.dotSum - l.sum * avgT
    some { l with needsUpdate := false, startCopy := l.start, avg := avg, avgT := avgT,
                  slope := if tSquareSum = 0 then 0 else dotSum * (1 / tSquareSum) }

/-- `get`, common/extrapolator.h:86-90 -/
def Line.get (l : Line) (now : Nat) : Option (Line × Rat) :=
  l.update.map fun l => (l, l.avg + l.slope * ((sub32 now l.startCopy : Nat) - l.avgT))

/-- `Extrapolator`, common/extrapolator.h:178-181 -/
structure Extrap where
  data : Nat → Rat × Nat
  entry : Nat
  values : Nat
  line : Line

/-- adding `count` entries, common/extrapolator.h:150-152 -/
def addAll (data : Nat → Rat × Nat) : Nat → Line → Line
  | 0, l => l
  | count + 1, l => (addAll data count l).add (data count)

/-- `push`, common/extrapolator.h:138-154, at the 32 bit time `now` -/
def Extrap.push (N : Nat) (s : Extrap) (value : Rat) (now : Nat) : Extrap :=
  let line := if s.line.samples = 0 then s.line.restart now else s.line
  let entry := if N ≤ s.entry + 1 then 0 else s.entry + 1
  let line := if line.samples = N then line.sub (s.data entry) else line
  let data : Nat → Rat × Nat := fun i => if i = entry then (value, now) else s.data i
  let line := line.add (data entry)
  let line := if s.values % 1024 = 1023 then addAll data N (line.restart (data ((entry + 1) % N)).2) else line
  { data := data, entry := entry, values := s.values + 1, line := line }

/-- `clear`, common/extrapolator.h:158-163 -/
def Extrap.clear (N : Nat) (s : Extrap) (value : Rat) (now : Nat) : Extrap :=
  Extrap.push N { s with line := s.line.restart now, values := 0 } value now

/-- what is done with it: times are real times, of which the program sees the lowest 32 bits -/
inductive Op where
  | push (v : Rat) (t : Nat)
  | clear (v : Rat) (t : Nat)
  | get (t : Nat)

/-- one operation (a query without samples is not made) -/
def Extrap.step (N : Nat) (s : Extrap) : Op → Extrap
  | .push v t => s.push N v (t % 4294967296)
  | .clear v t => s.clear N v (t % 4294967296)
  | .get t => match s.line.get (t % 4294967296) with
    | none => s
    | some (l, _) => { s with line := l }

def Extrap.run (N : Nat) (s : Extrap) (ops : List Op) : Extrap := ops.foldl (Extrap.step N) s

/-! ## Specification -/

/-- how an operation changes the samples since the last `clear`, newest first -/
def histStep (h : List (Rat × Nat)) : Op → List (Rat × Nat)
  | .push v t => (v, t) :: h
  | .clear v t => [(v, t)]
  | .get _ => h

/-- the samples since the last `clear`, newest first -/
def history (ops : List Op) : List (Rat × Nat) := ops.foldl histStep []

/-- samples come in order and at most `G` apart -/
def Timely (G : Nat) : List (Rat × Nat) → Prop
  | [] => True
  | [_] => True
  | a :: b :: r => b.2 ≤ a.2 ∧ a.2 ≤ b.2 + G ∧ Timely G (b :: r)

/-- the sum of squared errors of the line `a + b t` -/
def sqErr (a b : Rat) : List (Rat × Nat) → Rat
  | [] => 0
  | d :: r => (d.1 - (a + b * (d.2 : Rat))) * (d.1 - (a + b * (d.2 : Rat))) + sqErr a b r

end Verif.Motion
