import Verif.Saber.Model
import Verif.Reg.Lists
/-!
# C31: turning on and off
-/
set_option linter.unusedSimpArgs false
namespace Verif.Saber

/-! ## Specification -/

/-- does a request concern blade `i`? -/
def Req.names {w : Nat} (i : Nat) : Req w → Bool
  | .onAll => true
  | .offAll _ => true
  | .onAt b => b.getLsbD i
  | .offAt _ b => b.getLsbD i

/-- does a request turn on or off? -/
def Req.turnsOn {w : Nat} : Req w → Bool
  | .onAll => true
  | .offAll _ => false
  | .onAt _ => true
  | .offAt _ _ => false

/-- is it a request for given blades? -/
def Req.located {w : Nat} : Req w → Bool
  | .onAll => false
  | .offAll _ => false
  | .onAt _ => true
  | .offAt _ _ => true

/-- blade `i` is as the last request concerning it said -/
def wanted {w : Nat} (i : Nat) (before : Bool) : List (Req w) → Bool
  | [] => before
  | r :: rs => wanted i (if r.names i then r.turnsOn else before) rs

/-- the changes of blade `i` under a list of requests: the new states, in order -/
def changes {w : Nat} (i : Nat) (before : Bool) : List (Req w) → List Bool
  | [] => []
  | r :: rs =>
    if r.names i = true ∧ r.turnsOn ≠ before then r.turnsOn :: changes i r.turnsOn rs else changes i before rs

/-- what a component was told about blade `i` being turned on or off -/
def told {w : Nat} (i : Nat) : List (Note w) → List Bool
  | [] => []
  | .on b :: l => if b.getLsbD i then true :: told i l else told i l
  | .off _ b :: l => if b.getLsbD i then false :: told i l else told i l
  | .effect _ _ :: l => told i l

/-- the effects pushed for blade `i` -/
def effects {w : Nat} (i : Nat) : List (Note w) → List Kind
  | [] => []
  | .effect k b :: l => if b.getLsbD i then k :: effects i l else effects i l
  | _ :: l => effects i l

/-! ## Proofs -/

/-- all requests -/
def Saber.reqs {w : Nat} (s : Saber w) (l : List (Req w)) : Saber w := l.foldl Saber.req s

theorem req_on {w : Nat} (s : Saber w) (r : Req w) (i : Nat) (hi : i < w) : (s.req r).bladeIsOn i = if r.names i then r.turnsOn else s.bladeIsOn i := by
  unfold Saber.bladeIsOn
  cases r with
  | onAll => simp [Saber.req, Saber.doOn, Req.names, Req.turnsOn, hi]
  | offAll t => simp [Saber.req, Saber.doOff, Req.names, Req.turnsOn]
  | onAt b =>
    have e1 : (Req.onAt b).names i = b.getLsbD i := rfl
    have e2 : (Req.onAt b).turnsOn = true := rfl
    rw [e1, e2]
    simp only [Saber.req]
    by_cases h : b &&& ~~~s.on = 0
    · rw [if_pos h]
      have := congrArg (fun v => v.getLsbD i) h
      simp only [BitVec.getLsbD_and, BitVec.getLsbD_not, hi, decide_true, Bool.true_and, BitVec.ofNat_eq_ofNat, BitVec.getLsbD_zero] at this
      revert this
      cases b.getLsbD i <;> cases s.on.getLsbD i <;> simp
    · rw [if_neg h]
      simp only [Saber.doOn, BitVec.getLsbD_or, BitVec.getLsbD_and, BitVec.getLsbD_not, hi, decide_true, Bool.true_and]
      cases b.getLsbD i <;> cases s.on.getLsbD i <;> rfl
  | offAt t b =>
    have e1 : (Req.offAt t b).names i = b.getLsbD i := rfl
    have e2 : (Req.offAt t b).turnsOn = false := rfl
    rw [e1, e2]
    simp only [Saber.req]
    by_cases h : b &&& s.on = 0
    · rw [if_pos h]
      have := congrArg (fun v => v.getLsbD i) h
      simp only [BitVec.getLsbD_and, BitVec.ofNat_eq_ofNat, BitVec.getLsbD_zero] at this
      revert this
      cases b.getLsbD i <;> cases s.on.getLsbD i <;> simp
    · rw [if_neg h]
      simp only [Saber.doOff, BitVec.getLsbD_or, BitVec.getLsbD_and, BitVec.getLsbD_not, hi, decide_true, Bool.true_and]
      cases b.getLsbD i <;> cases s.on.getLsbD i <;> rfl

/-- C31: after any requests, each blade is on or off as the last request concerning it said. -/
theorem C31_state {w : Nat} (i : Nat) (hi : i < w) : ∀ (l : List (Req w)) (s : Saber w), (s.reqs l).bladeIsOn i = wanted i (s.bladeIsOn i) l
  | [], _ => rfl
  | r :: l, s => by
    have := C31_state i hi l (s.req r)
    rw [req_on s r i hi] at this
    exact this

/-- C31: the saber is on if and only if one of its blades is on. -/
theorem C31_isOn {w : Nat} (s : Saber w) : s.isOn = true ↔ ∃ i, i < w ∧ s.bladeIsOn i = true := by
  unfold Saber.isOn Saber.bladeIsOn
  rw [decide_eq_true_iff]
  constructor
  · intro h
    apply Classical.byContradiction
    intro hn
    apply h
    apply BitVec.eq_of_getLsbD_eq
    intro i hi
    rw [BitVec.ofNat_eq_ofNat, BitVec.getLsbD_zero]
    cases hb : s.on.getLsbD i with
    | false => rfl
    | true => exact absurd ⟨i, hi, hb⟩ hn
  · rintro ⟨i, _, h⟩ h0
    rw [h0] at h; simp at h

theorem told_append {w : Nat} (i : Nat) : ∀ (a b : List (Note w)), told i (a ++ b) = told i a ++ told i b
  | [], _ => rfl
  | .on x :: a, b => by
    simp only [List.cons_append, told, told_append i a b]
    split <;> rfl
  | .off t x :: a, b => by
    simp only [List.cons_append, told, told_append i a b]
    split <;> rfl
  | .effect k x :: a, b => by
    simp only [List.cons_append, told, told_append i a b]

/-- C31: a request for given blades that changes nothing notifies nobody and leaves the state alone. -/
theorem C31_silent {w : Nat} (s : Saber w) (r : Req w) (hl : r.located = true) (h : ∀ i, i < w → r.names i = true → s.bladeIsOn i = r.turnsOn) : s.req r = s := by
  cases r with
  | onAll => simp [Req.located] at hl
  | offAll t => simp [Req.located] at hl
  | onAt b =>
    have : b &&& ~~~s.on = 0 := by
      apply BitVec.eq_of_getLsbD_eq
      intro i hi
      have := h i hi
      simp only [Req.names, Req.turnsOn, Saber.bladeIsOn] at this
      simp [hi]
      exact this
    simp [Saber.req, this]
  | offAt t b =>
    have : b &&& s.on = 0 := by
      apply BitVec.eq_of_getLsbD_eq
      intro i hi
      have := h i hi
      simp only [Req.names, Req.turnsOn, Saber.bladeIsOn] at this
      simp
      exact this
    simp [Saber.req, this]

/-- C31: a request for given blades tells the components exactly the changes: one notification, naming just
the blades that change, followed by the effect. -/
theorem C31_exact {w : Nat} (s : Saber w) (r : Req w) (hl : r.located = true) :
    s.req r = s ∨ ∃ b : BitVec w, (∀ i, i < w → (b.getLsbD i = true ↔ r.names i = true ∧ s.bladeIsOn i ≠ r.turnsOn)) ∧ (∃ i, i < w ∧ b.getLsbD i = true) ∧
      ((r.turnsOn = true ∧ (s.req r).notes = s.notes ++ [.on b, .effect .ignition b]) ∨
       ∃ t b', r = .offAt t b' ∧ ((s.req r).notes = s.notes ++ [.off t b] ++
        (if t = .blast then [.effect .blast b] else if t = .normal ∨ t = .fast then [.effect .retraction b] else []))) := by
  have hne : ∀ b : BitVec w, b ≠ 0 → ∃ i, i < w ∧ b.getLsbD i = true := by
    intro b hb
    apply Classical.byContradiction
    intro hn
    apply hb
    apply BitVec.eq_of_getLsbD_eq
    intro i hi
    rw [BitVec.ofNat_eq_ofNat, BitVec.getLsbD_zero]
    cases hb : b.getLsbD i with
    | false => rfl
    | true => exact absurd ⟨i, hi, hb⟩ hn
  cases r with
  | onAll => simp [Req.located] at hl
  | offAll t => simp [Req.located] at hl
  | onAt b =>
    by_cases h : b &&& ~~~s.on = 0
    · left; simp [Saber.req, h]
    · right
      refine ⟨b &&& ~~~s.on, ?_, hne _ h, Or.inl ⟨rfl, ?_⟩⟩
      · intro i hi
        simp [Req.names, Req.turnsOn, Saber.bladeIsOn, hi]
      · simp only [Saber.req]; rw [if_neg h]; rfl
  | offAt t b =>
    by_cases h : b &&& s.on = 0
    · left; simp [Saber.req, h]
    · right
      refine ⟨b &&& s.on, ?_, hne _ h, Or.inr ⟨t, b, rfl, ?_⟩⟩
      · intro i hi
        simp [Req.names, Req.turnsOn, Saber.bladeIsOn, hi]
      · simp only [Saber.req]; rw [if_neg h]; cases t <;> rfl

theorem req_told {w : Nat} (s : Saber w) (r : Req w) (hl : r.located = true) (i : Nat) (hi : i < w) :
    told i (s.req r).notes = told i s.notes ++ (if r.names i = true ∧ r.turnsOn ≠ s.bladeIsOn i then [r.turnsOn] else []) := by
  rcases C31_exact s r hl with h | ⟨b, h1, ⟨j, hj, h2⟩, h3⟩
  · have h' := req_on s r i hi
    rw [h] at h' ⊢
    have : ¬ (r.names i = true ∧ r.turnsOn ≠ s.bladeIsOn i) := by
      rintro ⟨a, b⟩
      rw [if_pos a] at h'
      exact b h'.symm
    rw [if_neg this, List.append_nil]
  · have hb : (r.names i = true ∧ r.turnsOn ≠ s.bladeIsOn i) ↔ b.getLsbD i = true := by
      rw [h1 i hi]
      constructor <;> (rintro ⟨a, c⟩; exact ⟨a, Ne.symm c⟩)
    rcases h3 with ⟨h4, h5⟩ | ⟨t, b', rfl, h5⟩
    · rw [h5, told_append, h4]
      rw [h4] at hb
      simp only [told]
      by_cases hbi : b.getLsbD i = true
      · rw [if_pos hbi, if_pos (hb.mpr hbi)]
      · rw [if_neg hbi, if_neg (fun h => hbi (hb.mp h))]
    · rw [h5, List.append_assoc, told_append]
      have he : told i (if t = .blast then [.effect .blast b] else if t = .normal ∨ t = .fast then [Note.effect .retraction b] else []) = [] := by
        cases t <;> rfl
      rw [told_append, he, List.append_nil]
      have ht : (Req.offAt t b' : Req w).turnsOn = false := rfl
      rw [ht] at hb ⊢
      simp only [told]
      by_cases hbi : b.getLsbD i = true
      · rw [if_pos hbi, if_pos (hb.mpr hbi)]
      · rw [if_neg hbi, if_neg (fun h => hbi (hb.mp h))]

/-- C31: under requests for given blades, what the components are told about each blade is exactly the
sequence of its changes, each once. -/
theorem C31_notified {w : Nat} (i : Nat) (hi : i < w) : ∀ (l : List (Req w)) (s : Saber w), (∀ r ∈ l, r.located = true) →
    told i (s.reqs l).notes = told i s.notes ++ changes i (s.bladeIsOn i) l
  | [], s, _ => by simp [Saber.reqs, changes]
  | r :: l, s, hl => by
    have ih := C31_notified i hi l (s.req r) (fun x hx => hl x (List.mem_cons_of_mem _ hx))
    have h1 := req_told s r (hl r List.mem_cons_self) i hi
    have h2 := req_on s r i hi
    have h0 : s.reqs (r :: l) = (s.req r).reqs l := rfl
    rw [h0, ih, h1, h2, changes]
    by_cases hc : r.names i = true ∧ r.turnsOn ≠ s.bladeIsOn i
    · rw [if_pos hc, if_pos hc, if_pos hc.1, List.append_assoc]; rfl
    · rw [if_neg hc, if_neg hc, List.append_nil]
      by_cases hn : r.names i = true
      · rw [if_pos hn]
        have : r.turnsOn = s.bladeIsOn i := Classical.byContradiction (fun h => hc ⟨hn, h⟩)
        rw [this]
      · rw [if_neg hn]

/-- the changes of a blade alternate: a blade that is off is first turned on, then off, and so on -/
theorem changes_alternate {w : Nat} (i : Nat) : ∀ (l : List (Req w)) (b : Bool), ∃ n, changes i b l = (List.range n).map (fun k => if k % 2 = 0 then !b else b)
  | [], b => ⟨0, rfl⟩
  | r :: l, b => by
    unfold changes
    by_cases hc : r.names i = true ∧ r.turnsOn ≠ b
    · rw [if_pos hc]
      obtain ⟨n, hn⟩ := changes_alternate i l r.turnsOn
      have ht : r.turnsOn = !b := by
        have := hc.2
        revert this
        cases r.turnsOn <;> cases b <;> simp
      refine ⟨n + 1, ?_⟩
      rw [hn, ht, List.range_succ_eq_map, List.map_cons, List.map_map]
      congr 1
      apply List.map_congr_left
      intro k _
      simp only [Function.comp]
      rcases Nat.mod_two_eq_zero_or_one k with hk | hk
      · rw [if_pos hk, if_neg (by omega)]; simp
      · rw [if_neg (by omega), if_pos (by omega)]
    · rw [if_neg hc]; exact changes_alternate i l b

/-- C31: requests for the whole saber always notify, for all blades, whether or not anything changes -/
theorem C31_whole_saber {w : Nat} (s : Saber w) (t : OffType) (i : Nat) (hi : i < w) :
    told i (s.req .onAll).notes = told i s.notes ++ [true] ∧ told i (s.req (.offAll t)).notes = told i s.notes ++ [false] := by
  constructor
  · simp [Saber.req, Saber.doOn, told_append, told, hi]
  · cases t <;> simp [Saber.req, Saber.doOff, told_append, told, hi]

theorem count_filter (p : Nat → Bool) (c : Nat) : ∀ (l : List Nat), l.Nodup → c ∈ l → (l.filter p).count c = if p c then 1 else 0 := by
  intro l hl hc
  by_cases hp : p c = true
  · rw [if_pos hp, List.count_filter hp]
    exact hl.count.trans (if_pos hc)
  · rw [if_neg hp]
    rw [List.count_eq_zero]
    intro h; exact hp (List.mem_filter.mp h).2

/-- C31: after any history of components registering and unregistering, one notification calls every
registered component exactly once, and once more (`SB_...2`) if and only if the component accepts the
blades, all first calls coming before the second ones. -/
theorem C31_broadcast (junk : Nat → Option Nat) (ops : List Reg.Op) (hok : Reg.okHistory ([], []) ops) (check : Nat → Bool) :
    let S := ops.foldl Reg.Op.spec ([], [])
    ∃ h, (∀ fuel, ops.length ≤ fuel → ops.foldlM (fun h (o : Reg.Op) => o.run fuel h) (Reg.Heap.empty junk) = some h) ∧
      ∀ fuel, S.all.length ≤ fuel → ∃ first second, broadcast fuel h check = some (first, second) ∧
        (∀ c, first.count c = if c ∈ S.all then 1 else 0) ∧ (∀ c, second.count c = if c ∈ S.all ∧ check c = true then 1 else 0) := by
  intro S
  obtain ⟨h, h1, h2, h3⟩ := Reg.C22_round junk ops hok
  refine ⟨h, h1, fun fuel hf => ⟨S.all, S.all.filter check, ?_, ?_, ?_⟩⟩
  · unfold broadcast
    rw [(h3 fuel hf).1]
    show (h.doLoop fuel (fun _ _ => [])).bind _ = _
    rw [(h3 fuel hf).1]; rfl
  · intro c; exact h2.count
  · intro c
    by_cases hc : c ∈ S.all
    · rw [count_filter check c _ h2 hc]
      by_cases hp : check c = true <;> simp [hc, hp]
    · rw [if_neg (fun h => hc h.1), List.count_eq_zero]
      intro h; exact hc (List.mem_filter.mp h).1

/-- a history with overlapping requests: blade 1 is told on, off, on; nothing is told for the repeated requests -/
example : told 1 ((⟨0, []⟩ : Saber 8).reqs [.onAt 2, .onAt 3, .offAt .normal 2, .offAt .fast 2, .onAt 6]).notes = [true, false, true] ∧
    ((⟨0, []⟩ : Saber 8).reqs [.onAt 2, .onAt 3, .offAt .normal 2, .offAt .fast 2, .onAt 6]).bladeIsOn 1 = true ∧
    (∀ r ∈ ([.onAt 2, .onAt 3, .offAt .normal 2, .offAt .fast 2, .onAt 6] : List (Req 8)), r.located = true) := by
  refine ⟨by decide, by decide, by decide⟩

end Verif.Saber
