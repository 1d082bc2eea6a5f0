import Verif.I2C.Model
/-! # C87: the bus is given to one device at a time, in the order of the requests -/
namespace Verif.I2C

/-- the device behind `d` in the queue -/
def nextIn : List Nat → Nat → Option Nat
  | a :: b :: r, d => if d = a then some b else nextIn (b :: r) d
  | _, _ => none

theorem nextIn_notMem : ∀ (q : List Nat) (d : Nat), d ∉ q → nextIn q d = none
  | [], _, _ => rfl
  | [_], _, _ => rfl
  | a :: b :: r, d, h => by
    simp only [List.mem_cons, not_or] at h
    simp only [nextIn, if_neg h.1]
    exact nextIn_notMem (b :: r) d (by simp [h.2])

theorem nextIn_append : ∀ (q : List Nat) (x l d : Nat), q.getLast? = some l → q.Nodup →
    nextIn (q ++ [x]) d = if d = l then some x else nextIn q d
  | [], _, _, _, h, _ => by simp at h
  | [a], x, l, d, h, _ => by
    simp only [List.getLast?_singleton, Option.some.injEq] at h
    subst h
    simp [nextIn]
  | a :: b :: r, x, l, d, h, hn => by
    have hl : (b :: r).getLast? = some l := by simpa using h
    have ih := nextIn_append (b :: r) x l d hl (List.nodup_cons.mp hn).2
    have hal : a ≠ l := fun e => (List.nodup_cons.mp hn).1 (e ▸ List.mem_of_getLast? hl)
    simp only [List.cons_append, nextIn] at ih ⊢
    by_cases hd : d = a
    · subst hd
      simp only [if_true, if_neg hal]
    · simp only [if_neg hd]
      exact ih

theorem nextIn_last : ∀ (q : List Nat) (l : Nat), q.getLast? = some l → q.Nodup → nextIn q l = none
  | [], _, _, _ => rfl
  | [_], _, _, _ => rfl
  | a :: b :: r, l, h, hn => by
    have hl : (b :: r).getLast? = some l := by simpa using h
    have hal : l ≠ a := fun e => (List.nodup_cons.mp hn).1 (e ▸ List.mem_of_getLast? hl)
    simp only [nextIn, if_neg hal]
    exact nextIn_last (b :: r) l hl (List.nodup_cons.mp hn).2

theorem nextIn_mem : ∀ (q : List Nat) (d : Nat), d ∈ q → q.getLast? ≠ some d → (nextIn q d).isSome
  | [], _, h, _ => by simp at h
  | [a], d, h, hl => by simp at h hl; exact absurd h.symm hl
  | a :: b :: r, d, h, hl => by
    simp only [nextIn]
    by_cases hd : d = a
    · simp [hd]
    · rw [if_neg hd]
      refine nextIn_mem (b :: r) d ?_ (by simpa using hl)
      rcases List.mem_cons.mp h with h | h
      · exact absurd h hd
      · exact h

/-- the state represents the queue `q`, whose head holds the bus (or is about to get it) -/
structure Rep (q : List Nat) (s : St) : Prop where
  nodup : q.Nodup
  current : s.current = q.head?
  last : s.last = q.getLast?
  next : ∀ d, s.next d = nextIn q d

/-- the events so far and the state -/
structure Inv (t : List Ev) (s : St) (q : List Nat) : Prop where
  rep : Rep q s
  acc : accepts t = releases t ++ q
  pend : (s.pend = [] ∧ grants t = releases t ++ q.take 1) ∨
    (grants t = releases t ∧ ∃ d, q.head? = some d ∧ (s.pend = [.self d] ∨ s.pend = [.current]))

theorem accepts_append (a b : List Ev) : accepts (a ++ b) = accepts a ++ accepts b := List.filterMap_append
theorem grants_append (a b : List Ev) : grants (a ++ b) = grants a ++ grants b := List.filterMap_append
theorem releases_append (a b : List Ev) : releases (a ++ b) = releases a ++ releases b := List.filterMap_append

theorem inv_same {t s q} (h : Inv t s q) : Inv (t ++ []) s q := by rw [List.append_nil]; exact h

theorem pend_nil {t s} (h : Inv t s []) : s.pend = [] ∧ grants t = releases t := by
  rcases h.pend with ⟨h1, h2⟩ | ⟨_, d, hd, _⟩
  · exact ⟨h1, by simpa using h2⟩
  · simp at hd

/-- requests: accepted if and only if the device is not queued -/
theorem lockAndRun_inv {t s q} (h : Inv t s q) (d : Nat) :
    ∃ s' e, lockAndRun s d true = some (s', decide (d ∉ q), e) ∧ Inv (t ++ e) s' (if d ∈ q then q else q ++ [d]) := by
  obtain ⟨⟨hn, hc, hl, hx⟩, ha, hp⟩ := h
  cases q with
  | nil =>
    have hc : s.current = none := hc
    obtain ⟨p1, p2⟩ := pend_nil ⟨⟨hn, hc, hl, hx⟩, ha, hp⟩
    refine ⟨_, _, by simp only [lockAndRun, Bool.true_eq_false, if_false, hc]; rfl, ?_⟩
    simp only [List.not_mem_nil, if_false, List.nil_append]
    refine ⟨⟨by simp, rfl, rfl, fun x => by rw [hx]; rfl⟩, ?_, .inr ⟨?_, d, rfl, .inl ?_⟩⟩
    · rw [accepts_append, releases_append, ha]; simp [accepts, releases]
    · rw [grants_append, releases_append, p2]; simp [grants, releases]
    · simp [p1]
  | cons a r =>
    have hc : s.current = some a := hc
    have hmem : (a = d ∨ s.last = some d ∨ (s.next d).isSome = true) ↔ d ∈ a :: r := by
      rw [hl, hx]
      constructor
      · rintro (h | h | h)
        · simp [h]
        · exact List.mem_of_getLast? h
        · exact Decidable.byContradiction fun hno => by rw [nextIn_notMem _ _ hno] at h; simp at h
      · intro h
        by_cases h1 : (a :: r).getLast? = some d
        · exact .inr (.inl h1)
        · exact .inr (.inr (nextIn_mem _ _ h h1))
    by_cases hd : d ∈ a :: r
    · refine ⟨s, [], ?_, ?_⟩
      · simp only [lockAndRun, Bool.true_eq_false, if_false, hc, if_pos (hmem.mpr hd)]
        simp [hd]
      · rw [if_pos hd]
        exact inv_same ⟨⟨hn, hc, hl, hx⟩, ha, hp⟩
    · obtain ⟨l, hl'⟩ : ∃ l, (a :: r).getLast? = some l := ⟨_, List.getLast?_eq_some_getLast (by simp)⟩
      rw [hl'] at hl
      refine ⟨{ s with next := fun x => if x = l then some d else s.next x, last := some d }, [.accept d], ?_, ?_⟩
      · have : ¬(a = d ∨ s.last = some d ∨ (s.next d).isSome = true) := fun h => hd (hmem.mp h)
        simp only [lockAndRun, Bool.true_eq_false, if_false, hc, if_neg this]
        rw [hl]
        simp [hd]
      · rw [if_neg hd]
        refine ⟨⟨?_, hc, (List.getLast?_concat (l := a :: r)).symm, fun x => ?_⟩, ?_, ?_⟩
        · rw [List.nodup_append]
          refine ⟨hn, by simp, fun x hx y hy => ?_⟩
          simp only [List.mem_singleton] at hy
          rintro rfl
          exact hd (hy ▸ hx)
        · show (if x = l then some d else s.next x) = _
          rw [nextIn_append _ d l x hl' hn, hx]
        · rw [accepts_append, releases_append, ha]; simp [accepts, releases]
        · rcases hp with ⟨p1, p2⟩ | ⟨p1, x, p2, p3⟩
          · refine .inl ⟨p1, ?_⟩
            rw [grants_append, releases_append, p2]; simp [grants, releases]
          · refine .inr ⟨?_, x, by simpa using p2, p3⟩
            rw [grants_append, releases_append, p1]; simp [grants, releases]

theorem lock_inv {t s q} (h : Inv t s q) (d : Nat) (rc : Bool) :
    (lock s d rc true).2.1 = decide (q = [] ∨ (rc = true ∧ q.head? = some d)) ∧
    Inv (t ++ (lock s d rc true).2.2) (lock s d rc true).1 (if q = [] then [d] else q) := by
  obtain ⟨⟨hn, hc, hl, hx⟩, ha, hp⟩ := h
  cases q with
  | nil =>
    have hc : s.current = none := hc
    obtain ⟨p1, p2⟩ := pend_nil ⟨⟨hn, hc, hl, hx⟩, ha, hp⟩
    simp only [lock, Bool.true_eq_false, if_false, hc]
    refine ⟨by simp, ⟨by simp, rfl, rfl, fun x => by rw [hx]; rfl⟩, ?_, .inl ⟨p1, ?_⟩⟩
    · rw [accepts_append, releases_append, ha]; simp [accepts, releases]
    · rw [grants_append, releases_append, p2]; simp [grants, releases]
  | cons a r =>
    have hc : s.current = some a := hc
    simp only [lock, Bool.true_eq_false, if_false, hc]
    refine ⟨?_, inv_same ⟨⟨hn, hc, hl, hx⟩, ha, hp⟩⟩
    cases rc <;> simp [BEq.beq]

theorem unlock_inv {t s q} (h : Inv t s q) (d : Nat) (hlegal : (accepts t).count d = (grants t).count d) :
    Inv (t ++ (unlock s d).2) (unlock s d).1 (if q.head? = some d then q.tail else q) := by
  obtain ⟨⟨hn, hc, hl, hx⟩, ha, hp⟩ := h
  by_cases hd : q.head? = some d
  · obtain ⟨r, rfl⟩ : ∃ r, q = d :: r := by
      cases q with
      | nil => simp at hd
      | cons a r => simp only [List.head?_cons, Option.some.injEq] at hd; exact ⟨r, by rw [hd]⟩
    -- it has the bus: no `RunLocked` call is about to come
    have hp' : s.pend = [] ∧ grants t = releases t ++ [d] := by
      rcases hp with ⟨p1, p2⟩ | ⟨p1, _⟩
      · exact ⟨p1, by simpa using p2⟩
      · exfalso
        rw [ha, p1, List.count_append] at hlegal
        simp at hlegal
    rw [if_pos hd]
    simp only [unlock, if_pos (hc.trans hd), hx]
    cases r with
    | nil =>
      simp only [nextIn]
      refine ⟨⟨by simp, rfl, rfl, fun x => by rw [hx]; rfl⟩, ?_, .inl ⟨hp'.1, ?_⟩⟩
      · rw [accepts_append, releases_append, ha]; simp [accepts, releases]
      · rw [grants_append, releases_append, hp'.2]; simp [grants, releases]
    | cons b r =>
      simp only [nextIn, if_true]
      refine ⟨⟨(List.nodup_cons.mp hn).2, rfl, ?_, fun x => ?_⟩, ?_, .inr ⟨?_, b, rfl, .inr ?_⟩⟩
      · show s.last = _
        rw [hl]; simp
      · show (if x = d then none else nextIn (d :: b :: r) x) = nextIn (b :: r) x
        by_cases hxd : x = d
        · rw [if_pos hxd, hxd]
          exact (nextIn_notMem _ _ (List.nodup_cons.mp hn).1).symm
        · rw [if_neg hxd]
          simp only [nextIn, if_neg hxd]
      · rw [accepts_append, releases_append, ha]; simp [accepts, releases]
      · rw [grants_append, releases_append, hp'.2]; simp [grants, releases]
      · simp [hp'.1]
  · rw [if_neg hd]
    have : ¬ s.current = some d := fun h => hd (hc.symm.trans h)
    simp only [unlock, if_neg this]
    exact inv_same ⟨⟨hn, hc, hl, hx⟩, ha, hp⟩

theorem run_inv {t s q} (h : Inv t s q) : ∃ s' e, run s = some (s', e) ∧ s'.pend = [] ∧ Inv (t ++ e) s' q := by
  obtain ⟨⟨hn, hc, hl, hx⟩, ha, hp⟩ := h
  rcases hp with ⟨p1, p2⟩ | ⟨p1, d, p2, p3⟩
  · exact ⟨s, [], by simp only [run, p1], p1, inv_same ⟨⟨hn, hc, hl, hx⟩, ha, .inl ⟨p1, p2⟩⟩⟩
  · refine ⟨{ s with pend := [] }, [.grant d], ?_, rfl, ⟨hn, hc, hl, hx⟩, ?_, .inl ⟨rfl, ?_⟩⟩
    · rcases p3 with p3 | p3
      · simp only [run, p3]
      · simp only [run, p3, hc.trans p2, Option.map_some]
    · rw [accepts_append, releases_append, ha]; simp [accepts, releases]
    · rw [grants_append, releases_append, p1]
      cases q with
      | nil => simp at p2
      | cons a r => simp only [List.head?_cons, Option.some.injEq] at p2; subst p2; simp [grants, releases]

theorem step_inv {t s q} (h : Inv t s q) (op : Op) (hl : Legal t op) :
    ∃ s' r e q', step s op = some (s', r, e) ∧ Inv (t ++ e) s' q' := by
  cases op with
  | lock d rc i =>
    cases i with
    | false => exact ⟨s, false, [], q, rfl, inv_same h⟩
    | true => exact ⟨_, _, _, _, rfl, (lock_inv h d rc).2⟩
  | lockAndRun d i =>
    cases i with
    | false => exact ⟨s, false, [], q, rfl, inv_same h⟩
    | true =>
      obtain ⟨s', e, h1, h2⟩ := lockAndRun_inv h d
      exact ⟨s', _, e, _, h1, h2⟩
  | unlock d => exact ⟨_, _, _, _, rfl, unlock_inv h d hl⟩
  | run =>
    obtain ⟨s', e, h1, _, h2⟩ := run_inv h
    exact ⟨s', false, e, q, by simp only [step, h1, Option.map_some], h2⟩

theorem exec_inv {t s} (h : Exec t s) : ∃ q, Inv t s q := by
  induction h with
  | init => exact ⟨[], ⟨by simp, rfl, rfl, fun _ => rfl⟩, rfl, .inl ⟨rfl, rfl⟩⟩
  | step _ hl hs ih =>
    obtain ⟨q, hq⟩ := ih
    obtain ⟨s', r, e, q', h1, h2⟩ := step_inv hq _ hl
    rw [hs] at h1
    injection h1 with h1
    injection h1 with h1 h3
    injection h3 with _ h4
    subst h1 h4
    exact ⟨q', h2⟩

/-- **C87**, safety: at any time the bus has been given to the devices in the order of their requests, once for
each request, and to at most one at a time: the requests served so far are a prefix of the requests, and all
but at most the last of them have given the bus back, in the same order. -/
theorem C87_order {t : List Ev} {s : St} (h : Exec t s) :
    (∃ waiting, accepts t = grants t ++ waiting) ∧ (grants t = releases t ∨ ∃ d, grants t = releases t ++ [d]) := by
  obtain ⟨q, _, ha, hp⟩ := exec_inv h
  rcases hp with ⟨_, p2⟩ | ⟨p1, _⟩
  · refine ⟨⟨q.drop 1, by rw [ha, p2, List.append_assoc, List.take_append_drop]⟩, ?_⟩
    cases q with
    | nil => exact .inl (by simpa using p2)
    | cons a r => exact .inr ⟨a, by simpa using p2⟩
  · exact ⟨⟨q, by rw [ha, p1]⟩, .inl p1⟩

/-- **C87**, no crash and no deadlock: every operation succeeds, and after the call of `RunLocked` that is
about to happen (if any) some device holds the bus unless nobody wants it. -/
theorem C87_progress {t : List Ev} {s : St} (h : Exec t s) :
    (∀ op, Legal t op → step s op ≠ none) ∧
    ∃ s' e, step s .run = some (s', false, e) ∧ s'.pend = [] ∧
      (grants (t ++ e) = releases (t ++ e) → accepts (t ++ e) = releases (t ++ e)) := by
  obtain ⟨q, hq⟩ := exec_inv h
  refine ⟨fun op hl => ?_, ?_⟩
  · obtain ⟨s', r, e, q', h1, _⟩ := step_inv hq op hl
    rw [h1]; simp
  · obtain ⟨s', e, h1, h2, h3⟩ := run_inv hq
    refine ⟨s', e, by simp only [step, h1, Option.map_some], h2, fun hg => ?_⟩
    rcases h3.pend with ⟨_, p2⟩ | ⟨_, d, _, p3⟩
    · have : q.take 1 = [] := by
        rw [hg] at p2
        simpa using p2
      have hq0 : q = [] := by cases q <;> simp at this ⊢
      rw [h3.acc, hq0, List.append_nil]
    · rw [h2] at p3; simp at p3

/-- **C87**, answers: while the bus is up a request is accepted exactly if the device has no request that it has
not finished, and `I2CLock` succeeds exactly if nobody wants the bus, or for the first in the queue recapturing it;
`true` without recapturing means that the device has the bus now. -/
theorem C87_answers {t : List Ev} {s : St} (h : Exec t s) (d : Nat) :
    (∃ s' e, step s (.lockAndRun d true) = some (s', decide ((accepts t).count d = (releases t).count d), e)) ∧
    (∀ rc, ∃ s' r e, step s (.lock d rc true) = some (s', r, e) ∧
      (r = true ↔ accepts t = releases t ∨ (rc = true ∧ ∃ w, accepts t = releases t ++ d :: w))) ∧
    (∀ s' e, step s (.lock d false true) = some (s', true, e) → grants (t ++ e) = releases (t ++ e) ++ [d]) := by
  obtain ⟨q, hq⟩ := exec_inv h
  have hcnt : ((accepts t).count d = (releases t).count d) ↔ d ∉ q := by
    rw [hq.acc, List.count_append, ← List.count_eq_zero]
    omega
  have hemp : accepts t = releases t ↔ q = [] := by rw [hq.acc]; simp
  refine ⟨?_, fun rc => ?_, fun s' e hs => ?_⟩
  · obtain ⟨s', e, h1, _⟩ := lockAndRun_inv hq d
    refine ⟨s', e, ?_⟩
    show lockAndRun s d true = _
    rw [h1]
    congr 3
    exact decide_eq_decide.mpr hcnt.symm
  · obtain ⟨h1, h2⟩ := lock_inv hq d rc
    refine ⟨(lock s d rc true).1, (lock s d rc true).2.1, (lock s d rc true).2.2, rfl, ?_⟩
    rw [h1, decide_eq_true_iff]
    refine or_congr hemp.symm (and_congr_right fun _ => ?_)
    rw [hq.acc]
    constructor
    · intro h
      cases q with
      | nil => simp at h
      | cons a r => simp only [List.head?_cons, Option.some.injEq] at h; exact ⟨r, by rw [h]⟩
    · rintro ⟨w, hw⟩
      have := List.append_cancel_left hw
      rw [this]; rfl
  · obtain ⟨h1, h2⟩ := lock_inv hq d false
    have hs : some (lock s d false true) = some (s', true, e) := hs
    injection hs with hs
    rw [hs] at h1 h2
    have hq0 : q = [] := by simpa using h1.symm
    subst hq0
    simp only [if_true] at h2
    obtain ⟨p1, p2⟩ := pend_nil hq
    have hc : s.current = none := hq.rep.current
    simp only [lock, Bool.true_eq_false, if_false, hc] at hs
    injection hs with _ hs
    injection hs with _ hs
    subst hs
    rw [grants_append, releases_append, p2]
    simp [grants, releases]

/-- What goes wrong without the side condition: device 2 is handed the bus by device 1 but gives it back from an
interrupt before its `RunLocked()` is called; the call goes through a null pointer. -/
theorem C87_early_unlock_counterexample :
    (((((step {} (.lockAndRun 1 true)).bind fun (s, _) => step s .run).bind fun (s, _) => step s (.lockAndRun 2 true)).bind
      fun (s, _) => step s (.unlock 1)).bind fun (s, _) => step s (.unlock 2)).map (fun (s, _) => (step s .run).isNone) = some true := by
  decide +kernel

/-- Three devices; 2 and 3 queue while 1 has the bus, 1 asks again after giving it back. -/
example : ∃ s, Exec [.accept 1, .grant 1, .accept 2, .accept 3, .release 1, .accept 1, .grant 2, .release 2, .grant 3] s := by
  have e0 : Exec [] {} := .init
  have e1 := e0.step (op := .lockAndRun 1 true) trivial rfl
  have e2 := e1.step (op := .run) trivial rfl
  have e3 := e2.step (op := .lockAndRun 2 true) trivial rfl
  have e4 := e3.step (op := .lockAndRun 3 true) trivial rfl
  have e5 := e4.step (op := .unlock 1) (by simp only [Legal]; decide) rfl
  have e6 := e5.step (op := .lockAndRun 1 true) trivial rfl
  have e7 := e6.step (op := .run) trivial rfl
  have e8 := e7.step (op := .unlock 2) (by simp only [Legal]; decide) rfl
  have e9 := e8.step (op := .run) trivial rfl
  exact ⟨_, e9⟩

end Verif.I2C
