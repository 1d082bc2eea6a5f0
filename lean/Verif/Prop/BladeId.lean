/-
  Choosing the blade configuration: props/prop_base.h:523-525 (`blade_present`), 540-559
  (`id`), 561-578 (`FindBestConfig`), 584-617 (`ScanBladeIdNow`, `PollScanId`), 624-627,
  736-755 (`FindBlade`, `FindBladeAgain`); blades/blade_id.h:90-101 (`NO_BLADE_RangeID`).

  Resistances are integers (floats in the code: exact below 2^24 ohm).
-/
namespace Verif.Prop.BladeId

/-! ## Model -/

/-- `NO_BLADE` -/
def NO_BLADE : Int := 1000000000

/-- `fabsf` of a difference -/
def dist (a b : Int) : Int := if a - b < 0 then b - a else a - b

/-- The loop of `FindBestConfig` (prop_base.h:569-575): next index, best so far. -/
def search (r : Int) : List Int → Nat → Nat → Int → Nat
  | [], _, best, _ => best
  | ohm :: l, i, best, err =>
    if dist r ohm < err then search r l (i + 1) i (dist r ohm) else search r l (i + 1) best err

/-- `FindBestConfig` (prop_base.h:561-578); with one configuration nothing is measured. -/
def findBest (r : Int) (ohms : List Int) : Nat :=
  if ohms.length > 1 then search r ohms 0 0 100000000 else 0

/-- `NO_BLADE_RangeID` (blade_id.h:90-101) and the detect pin (prop_base.h:551-557). -/
def measured (raw : Int) (range : Option (Int × Int)) (pin : Option Bool) : Int :=
  let a := match range with
    | none => raw
    | some (lo, hi) => if lo ≤ raw ∧ raw ≤ hi then raw + NO_BLADE else raw
  if pin = some false then a + NO_BLADE else a

/-- `blade_present` (prop_base.h:523-525) -/
def present (ohm : Int) : Bool := decide (ohm < NO_BLADE)

/-- What is announced after a scan. -/
inductive Note
  | inserted
  | removed
  | newFont
  deriving DecidableEq, Repr

/-- `current_config`, `find_blade_again_pending_`, `last_scan_id_` -/
structure St where
  config : Nat
  pending : Bool
  lastScan : Nat
  deriving DecidableEq, Repr

/-- `ScanBladeIdNow` (prop_base.h:586-599); also whether a measurement was made. -/
def scan (s : St) (now millis : Nat) (r : Int) (ohms : List Int) : St × Bool :=
  if (now % 4294967296 + 4294967296 - s.lastScan) % 4294967296 > millis then
    ({ s with lastScan := now % 4294967296,
              pending := s.pending || decide (s.config ≠ findBest r ohms) }, true)
  else (s, false)

/-- `PollScanId` (prop_base.h:602-617), measuring again. -/
def poll (s : St) (r : Int) (ohms : List Int) : St × Option Note :=
  if s.pending then
    let before := (ohms.getD s.config 0).tdiv NO_BLADE
    let c := findBest r ohms
    let after := (ohms.getD c 0).tdiv NO_BLADE
    (⟨c, false, s.lastScan⟩,
      some (if before < after then .removed else if before > after then .inserted else .newFont))
  else (s, none)

/-! ## C84 -/

theorem dist_nonneg (a b : Int) : 0 ≤ dist a b := by
  unfold dist; split <;> omega

/-- The loop returns the best so far or the first strictly closest of the rest. -/
theorem search_spec (r : Int) : ∀ (l : List Int) (i best : Nat) (err : Int),
    ((search r l i best err = best ∧ ∀ j (h : j < l.length), err ≤ dist r l[j]) ∨
     (∃ k, ∃ h : k < l.length, search r l i best err = i + k ∧ dist r l[k] < err ∧
       (∀ j (h : j < l.length), dist r l[k] ≤ dist r l[j]) ∧
       (∀ j (_ : j < k), dist r l[k] < dist r l[j])))
  | [], i, best, err => Or.inl ⟨rfl, fun j h => absurd h (by simp)⟩
  | ohm :: l, i, best, err => by
      simp only [search]
      by_cases hd : dist r ohm < err
      · rw [if_pos hd]
        right
        rcases search_spec r l (i + 1) i (dist r ohm) with ⟨h1, h2⟩ | ⟨k, hk, h1, h2, h3, h4⟩
        · refine ⟨0, by simp, by rw [h1]; omega, by simpa using hd, ?_, fun j h => absurd h (by omega)⟩
          intro j hj
          cases j with
          | zero => simp
          | succ j => simpa using h2 j (by simpa using hj)
        · refine ⟨k + 1, by simpa using hk, by rw [h1]; omega, by simp only [List.getElem_cons_succ]; omega, ?_, ?_⟩
          · intro j hj
            cases j with
            | zero => simp only [List.getElem_cons_succ, List.getElem_cons_zero]; omega
            | succ j => simpa using h3 j (by simpa using hj)
          · intro j hj
            cases j with
            | zero => simpa using h2
            | succ j => simpa using h4 j (by omega)
      · rw [if_neg hd]
        rcases search_spec r l (i + 1) best err with ⟨h1, h2⟩ | ⟨k, hk, h1, h2, h3, h4⟩
        · left
          refine ⟨h1, ?_⟩
          intro j hj
          cases j with
          | zero => simp only [List.getElem_cons_zero]; omega
          | succ j => simpa using h2 j (by simpa using hj)
        · right
          refine ⟨k + 1, by simpa using hk, by rw [h1]; omega, by simpa using h2, ?_, ?_⟩
          · intro j hj
            cases j with
            | zero => simp only [List.getElem_cons_succ, List.getElem_cons_zero]; omega
            | succ j => simpa using h3 j (by simpa using hj)
          · intro j hj
            cases j with
            | zero => simp only [List.getElem_cons_succ, List.getElem_cons_zero]; omega
            | succ j => simpa using h4 j (by omega)

/-- C84 (the closest configuration): if some configuration is within 100 megohm of the
    measurement, the one chosen is at least as close as every other, and the first of
    those. -/
theorem C84_closest (r : Int) (ohms : List Int) (m : Nat) (hm : m < ohms.length)
    (hnear : dist r ohms[m] < 100000000) :
    ∃ h : findBest r ohms < ohms.length,
      (∀ j (hj : j < ohms.length), dist r ohms[findBest r ohms] ≤ dist r ohms[j]) ∧
      (∀ j (hj : j < findBest r ohms), dist r ohms[findBest r ohms] < dist r ohms[j]) := by
  unfold findBest
  by_cases h1 : ohms.length > 1
  · simp only [if_pos h1]
    rcases search_spec r ohms 0 0 100000000 with ⟨_, h2⟩ | ⟨k, hk, h2, _, h3, h4⟩
    · have := h2 m hm
      omega
    · have hk' : search r ohms 0 0 100000000 = k := by omega
      simp only [hk']
      exact ⟨hk, h3, h4⟩
  · simp only [if_neg h1]
    have hlen : ohms.length = 1 := by omega
    refine ⟨by omega, ?_, fun j hj => absurd hj (by omega)⟩
    intro j hj
    have : j = 0 := by omega
    subst this
    exact Int.le_refl _

/-- C84 (in bounds): whatever is measured, an existing configuration is chosen. -/
theorem C84_bounds (r : Int) (ohms : List Int) (h : ohms ≠ []) : findBest r ohms < ohms.length := by
  have hl : 0 < ohms.length := List.length_pos_iff.mpr h
  unfold findBest
  split
  · rcases search_spec r ohms 0 0 100000000 with ⟨h1, _⟩ | ⟨k, hk, h1, _⟩ <;> omega
  · exact hl

/-- C84 (no blade): with a detect pin, if the configurations' resistors are below 100
    megohm (plus NO_BLADE for those without blade), and there are both kinds, then the
    one chosen is a configuration with blade exactly when a blade is detected. -/
theorem C84_present (raw : Int) (detected : Bool) (ohms : List Int)
    (hraw : 0 ≤ raw ∧ raw < 100000000)
    (hohm : ∀ o ∈ ohms, (0 ≤ o ∧ o < 100000000) ∨ (NO_BLADE ≤ o ∧ o < NO_BLADE + 100000000))
    (hwith : ∃ o ∈ ohms, o < NO_BLADE) (hwithout : ∃ o ∈ ohms, NO_BLADE ≤ o) :
    ∃ o, ohms[findBest (measured raw none (some detected)) ohms]? = some o ∧ present o = detected := by
  obtain ⟨o1, ho1, h1⟩ := hwith
  obtain ⟨o2, ho2, h2⟩ := hwithout
  obtain ⟨i1, hi1, rfl⟩ := List.mem_iff_getElem.mp ho1
  obtain ⟨i2, hi2, rfl⟩ := List.mem_iff_getElem.mp ho2
  have b1 := hohm _ ho1
  have b2 := hohm _ ho2
  unfold NO_BLADE at *
  cases detected with
  | true =>
    have hr : measured raw none (some true) = raw := by simp [measured]
    rw [hr]
    have hn : dist raw ohms[i1] < 100000000 := by unfold dist; split <;> omega
    obtain ⟨hb, hmin, _⟩ := C84_closest raw ohms i1 hi1 hn
    refine ⟨_, List.getElem?_eq_getElem hb, ?_⟩
    have hm := hmin i1 hi1
    have hbo := hohm _ (List.getElem_mem hb)
    generalize ohms[findBest raw ohms] = o at *
    have key : o < 1000000000 → present o = true := fun h => decide_eq_true h
    apply key
    unfold dist at hm hn
    repeat' split at hm
    all_goals (split at hn <;> omega)
  | false =>
    have hr : measured raw none (some false) = raw + 1000000000 := by simp [measured, NO_BLADE]
    rw [hr]
    have hn : dist (raw + 1000000000) ohms[i2] < 100000000 := by unfold dist; split <;> omega
    obtain ⟨hb, hmin, _⟩ := C84_closest (raw + 1000000000) ohms i2 hi2 hn
    refine ⟨_, List.getElem?_eq_getElem hb, ?_⟩
    have hm := hmin i2 hi2
    have hbo := hohm _ (List.getElem_mem hb)
    generalize ohms[findBest (raw + 1000000000) ohms] = o at *
    have key : ¬ o < 1000000000 → present o = false := fun h => decide_eq_false h
    apply key
    unfold dist at hm hn
    repeat' split at hm
    all_goals (split at hn <;> omega)

/-- C84 (rescan): a scan which finds that another configuration fits better leads, at the
    next poll, to the configuration best for the measurement made then; inserting and
    removing a blade are announced as such. -/
theorem C84_rescan (s : St) (now millis : Nat) (r r' : Int) (ohms : List Int)
    (hdue : (scan s now millis r ohms).2 = true) (hdiff : findBest r ohms ≠ s.config)
    (hpos : ∀ o ∈ ohms, 0 ≤ o ∧ o < 2 * NO_BLADE) (hc : s.config < ohms.length) :
    (poll (scan s now millis r ohms).1 r' ohms).1.config = findBest r' ohms ∧
    (poll (scan s now millis r ohms).1 r' ohms).1.pending = false ∧
    (poll (scan s now millis r ohms).1 r' ohms).2 = some (
      if present (ohms.getD s.config 0) = present (ohms.getD (findBest r' ohms) 0) then .newFont
      else if present (ohms.getD (findBest r' ohms) 0) then .inserted else .removed) := by
  have hs : (scan s now millis r ohms).1.pending = true ∧ (scan s now millis r ohms).1.config = s.config := by
    unfold scan at hdue ⊢
    split at hdue
    · rename_i h
      rw [if_pos h]
      refine ⟨?_, rfl⟩
      simp only [Bool.or_eq_true, decide_eq_true_eq]
      exact Or.inr (fun h => hdiff h.symm)
    · simp at hdue
  obtain ⟨h1, h2⟩ := hs
  unfold poll
  rw [if_pos h1]
  refine ⟨rfl, rfl, ?_⟩
  simp only [h2]
  have hb := C84_bounds r' ohms (by intro h; subst h; simp at hc)
  have g : ∀ i, i < ohms.length → ∃ o, ohms.getD i 0 = o ∧ 0 ≤ o ∧ o < 2 * NO_BLADE := by
    intro i hi
    refine ⟨_, rfl, ?_⟩
    have : ohms.getD i 0 ∈ ohms := by
      rw [List.getD_eq_getElem?_getD, List.getElem?_eq_getElem hi]
      exact List.getElem_mem hi
    exact hpos _ this
  obtain ⟨a, ha, a1, a2⟩ := g _ hc
  obtain ⟨b, hb', b1, b2⟩ := g _ hb
  rw [ha, hb']
  have lv : ∀ o : Int, 0 ≤ o → o < 2 * NO_BLADE → o.tdiv NO_BLADE = if present o then 0 else 1 := by
    intro o h1 h2
    rw [Int.tdiv_eq_ediv_of_nonneg h1]
    unfold present NO_BLADE at *
    by_cases h : o < 1000000000
    · simp only [h, decide_true, if_true]; omega
    · simp only [h, decide_false, Bool.false_eq_true, if_false]; omega
  rw [lv a a1 a2, lv b b1 b2]
  cases present a <;> cases present b <;> simp

example : findBest 4990 [0, 5000, 1000005000, 4980] = 1 := by decide +kernel
example : findBest (measured 4990 none (some false)) [0, 5000, 1000005000, 4980] = 2 := by decide +kernel
example : (scan ⟨0, false, 500⟩ 2000 1000 4990 [0, 5000]).2 = true ∧ findBest 4990 [0, 5000] ≠ 0 := by decide +kernel

/-- A measurement farther than 100 megohm from every configuration (an open circuit
    without detect pin, or a detect pin saying "no blade" when no configuration is for
    that) chooses the first configuration, even if another is closer. -/
theorem C84_far_counterexample :
    findBest (measured 4990 none (some false)) [0, 5000] = 0 ∧
    dist (measured 4990 none (some false)) 5000 < dist (measured 4990 none (some false)) 0 := by decide +kernel

end Verif.Prop.BladeId
