import Verif.Saber.Model
/-!
# C30, C32: recent effects and one-shot detectors
-/
set_option linter.unusedSimpArgs false
set_option linter.unusedVariables false
namespace Verif.Saber

/-! ## Specification -/

/-- an effect with its absolute time in microseconds -/
structure Entry (w : Nat) where
  kind : Kind
  time : Nat
  place : Nat
  blades : BitVec w
  sound : Nat
deriving DecidableEq

/-- an effect as the programs see it: the time is a 32-bit counter -/
def Entry.eff {w : Nat} (e : Entry w) : Eff w := ⟨e.kind, e.time % 4294967296, e.place, e.blades, e.sound⟩

/-- what happens: an effect is pushed while some lockup is active, or somebody looks at the list -/
inductive Ev (w : Nat) where
  | push (lockup : Lockup) (e : Entry w)
  | look (time : Nat)

/-- how an effect is remembered: lockups as drags if dragging, not at all for other lockups; updates of
the clash strength not at all -/
def remembered (lockup : Lockup) (k : Kind) : Option Kind :=
  if k = .clashUpdate then none
  else if k = .lockupBegin ∨ k = .lockupEnd then
    if lockup = .drag then some (if k = .lockupBegin then .dragBegin else .dragEnd)
    else if lockup = .normal then some k
    else none
  else some k

/-- the remembered effects since the last new font (which itself is remembered), newest first -/
def log {w : Nat} : List (Entry w) → List (Ev w) → List (Entry w)
  | l, [] => l
  | l, .look _ :: evs => log l evs
  | l, .push lockup e :: evs =>
    match remembered lockup e.kind with
    | none => log l evs
    | some k => log ({ e with kind := k } :: (if k = .newfont then [] else l)) evs

/-- time does not run backwards, and the list is looked at at least every 4287 seconds -/
def Timely {w : Nat} (now lastLook : Nat) : List (Ev w) → Prop
  | [] => True
  | .push _ e :: evs => now ≤ e.time ∧ Timely e.time lastLook evs
  | .look t :: evs => now ≤ t ∧ t ≤ lastLook + 4287967295 ∧ Timely t t evs

/-- the effects that are not older than seven seconds at time `t`, at most ten of them -/
def recent {w : Nat} (t : Nat) (l : List (Entry w)) : List (Entry w) :=
  (l.filter fun e => t ≤ e.time + 7000000).take 10

/-! ## The array -/

/-- one event on the object -/
def Hist.ev {w : Nat} (h : Hist w) : Ev w → Hist w
  | .push lockup e => h.push lockup e.eff
  | .look t => (h.get (t % 4294967296)).1

/-- all events -/
def Hist.evs {w : Nat} (h : Hist w) (l : List (Ev w)) : Hist w := l.foldl Hist.ev h

theorem shift_eq {w : Nat} : ∀ (i : Nat) (arr : List (Eff w)), i < arr.length → shift arr i = arr.take 1 ++ arr.take i ++ arr.drop (i + 1)
  | 0, arr, h => by
    unfold shift
    rw [List.take_zero, List.append_nil, Nat.zero_add, List.take_append_drop]
  | i + 1, arr, h => by
    unfold shift
    have hi : i < arr.length := by omega
    rw [List.getElem?_eq_getElem hi]
    show shift (arr.set (i + 1) arr[i]) i = _
    rw [shift_eq i _ (by simpa using hi)]
    have e1 : (arr.set (i + 1) arr[i]).take 1 = arr.take 1 := by
      rw [List.take_set_of_le (by omega)]
    have e2 : (arr.set (i + 1) arr[i]).take i = arr.take i := by
      rw [List.take_set_of_le (by omega)]
    have e3 : (arr.set (i + 1) arr[i]).drop (i + 1) = arr[i] :: arr.drop (i + 2) := by
      rw [List.drop_set]; simp
      rw [List.drop_eq_getElem_cons (by omega : i + 1 < arr.length)]; rfl
    rw [e1, e2, e3, List.take_succ_eq_append_getElem hi]
    simp only [List.append_assoc, List.singleton_append]

theorem store_eq {w : Nat} (h : Hist w) (e : Eff w) (hl : h.arr.length = 10) (hn : h.num ≤ 10) :
    (h.store e).arr.length = 10 ∧ (h.store e).num ≤ 10 ∧ (h.store e).arr.take (h.store e).num = (e :: h.arr.take h.num).take 10 := by
  unfold Hist.store
  have hs := shift_eq (min h.num 9) h.arr (by omega)
  have hlen : (shift h.arr (min h.num 9)).length = 10 := by
    rw [hs]; simp; omega
  refine ⟨by simpa using hlen, by simp; omega, ?_⟩
  simp only [hs]
  obtain ⟨x, rest, hx⟩ : ∃ x rest, h.arr.take 1 = [x] ∧ h.arr = x :: rest := by
    cases ha : h.arr with
    | nil => rw [ha] at hl; simp at hl
    | cons x rest => exact ⟨x, rest, rfl, rfl⟩
  rw [hx.1]
  simp only [List.singleton_append, List.cons_append, List.set_cons_zero]
  by_cases h9 : h.num ≤ 9
  · have e1 : min (h.num + 1) 10 = h.num + 1 := by omega
    have e2 : min h.num 9 = h.num := by omega
    have e3 : (h.arr.take h.num).length = h.num := by rw [List.length_take]; omega
    rw [e1, e2, List.take_succ_cons, List.nil_append, List.take_append_of_le_length (by omega), List.take_take,
      List.take_of_length_le (l := e :: h.arr.take h.num) (by simp only [List.length_cons]; omega), Nat.min_self]
  · have e0 : h.num = 10 := by omega
    have e2 : min h.num 9 = 9 := by omega
    rw [e2, e0]
    simp only [Nat.reduceAdd, Nat.min_def]
    simp only [List.take_succ_cons, Nat.reduceLeDiff, if_false]
    rw [List.nil_append, List.take_append_of_le_length (by simp; omega), List.take_take, List.take_take]; rfl

theorem expire_eq {w : Nat} (now : Nat) (arr : List (Eff w)) : ∀ n, n ≤ arr.length →
    (∀ i j a b, i < j → j < n → arr[i]? = some a → arr[j]? = some b → since now a.start > 7000000 → since now b.start > 7000000) →
    Hist.expire now arr n ≤ n ∧
    arr.take (Hist.expire now arr n) = (arr.take n).filter (fun e => decide (¬ since now e.start > 7000000))
  | 0, _, _ => by simp [Hist.expire]
  | n + 1, hn, hs => by
    have hlt : n < arr.length := by omega
    unfold Hist.expire
    rw [List.getElem?_eq_getElem hlt]
    simp only
    by_cases hb : since now arr[n].start > 7000000
    · rw [if_pos hb]
      have ih := expire_eq now arr n (by omega) (fun i j a b hij hj => hs i j a b hij (by omega))
      refine ⟨by omega, ?_⟩
      rw [ih.2, List.take_succ_eq_append_getElem hlt, List.filter_append]
      simp [hb]
    · rw [if_neg hb]
      refine ⟨Nat.le_refl _, ?_⟩
      symm
      rw [List.filter_eq_self]
      intro a ha
      obtain ⟨i, hi, rfl⟩ := List.mem_iff_getElem.mp ha
      simp only [List.length_take] at hi
      rw [List.getElem_take]
      by_cases hin : i = n
      · subst hin; simpa using hb
      · have := hs i n arr[i] arr[n] (by omega) (by omega) (List.getElem?_eq_getElem _) (List.getElem?_eq_getElem _)
        simp only [decide_eq_true_eq]
        intro h; exact hb (this h)

/-! ## The invariant -/

/-- newest first -/
def Sorted {w : Nat} (l : List (Entry w)) : Prop := l.Pairwise fun a b => b.time ≤ a.time

structure Inv {w : Nat} (now lastLook : Nat) (l : List (Entry w)) (h : Hist w) : Prop where
  len : h.arr.length = 10
  num : h.num ≤ 10
  view : h.arr.take h.num = (recent lastLook l).map Entry.eff
  sorted : Sorted l
  past : ∀ e ∈ l, e.time ≤ now

theorem filter_sorted {w : Nat} (t : Nat) (l : List (Entry w)) (h : Sorted l) :
    (l.filter fun e => decide (t ≤ e.time + 7000000)) = l.takeWhile fun e => decide (t ≤ e.time + 7000000) := by
  induction l with
  | nil => rfl
  | cons a l ih =>
    rw [Sorted, List.pairwise_cons] at h
    by_cases ha : t ≤ a.time + 7000000
    · rw [List.filter_cons, List.takeWhile_cons]; simp only [ha, decide_true, if_true, ih h.2]
    · rw [List.filter_cons, List.takeWhile_cons]
      simp only [ha, decide_false]
      simp only [Bool.false_eq_true, if_false, List.filter_eq_nil_iff]
      intro b hb
      have := h.1 b hb
      simp; omega

theorem recent_prefix {w : Nat} (t : Nat) (l : List (Entry w)) (h : Sorted l) : recent t l <+: l := by
  unfold recent
  rw [filter_sorted t l h]
  exact (List.take_prefix _ _).trans (List.takeWhile_prefix _)

/-- looking again later -/
theorem recent_later {w : Nat} (s t : Nat) (hst : s ≤ t) (l : List (Entry w)) (h : Sorted l) :
    (recent s l).filter (fun e => decide (t ≤ e.time + 7000000)) = recent t l := by
  unfold recent
  have h1 := filter_sorted s l h
  have hp : Sorted ((l.filter fun e => decide (s ≤ e.time + 7000000)).take 10) := h.sublist ((List.take_sublist _ _).trans List.filter_sublist)
  rw [filter_sorted t _ hp]
  have hp2 : Sorted (l.filter fun e => decide (s ≤ e.time + 7000000)) := h.sublist List.filter_sublist
  rw [← List.take_takeWhile, ← filter_sorted t _ hp2, List.filter_filter]
  congr 1
  apply List.filter_congr
  intro e _
  simp only [Bool.and_eq_left_iff_imp, decide_eq_true_eq]
  omega

theorem since_abs (t s : Nat) (h : s ≤ t) (h2 : t < s + 4294967296) : since (t % 4294967296) (s % 4294967296) = t - s := by
  unfold since; omega

theorem get_eq {w : Nat} (m : Nat) (h : Hist w) : h.get m = (⟨h.arr, Hist.expire m h.arr h.num⟩, h.arr.take (Hist.expire m h.arr h.num)) := rfl

theorem start_abs {w : Nat} (t : Nat) (e : Entry w) (h : e.time ≤ t) (h2 : t < e.time + 4294967296) : since (t % 4294967296) e.eff.start = t - e.time := by
  have : e.eff.start = e.time % 4294967296 := rfl
  rw [this]; exact since_abs t e.time h h2

theorem filter_map_congr {α β : Type} (f : α → β) (p : β → Bool) (q : α → Bool) : ∀ (l : List α), (∀ a ∈ l, p (f a) = q a) →
    (l.map f).filter p = (l.filter q).map f
  | [], _ => rfl
  | a :: l, h => by
    have ih := filter_map_congr f p q l (fun x hx => h x (List.mem_cons_of_mem _ hx))
    have ha := h a List.mem_cons_self
    rw [List.map_cons, List.filter_cons, List.filter_cons, ha, ih]
    cases q a <;> rfl

theorem age_iff (n t s k : Nat) (h : s ≤ t) (hn : n = t - s) : ¬ n > k ↔ t ≤ s + k := by omega

/-- looking at the list -/
theorem look_inv {w : Nat} (now last t : Nat) (l : List (Entry w)) (h : Hist w) (hi : Inv now last l h) (hln : last ≤ now) (hnt : now ≤ t)
    (ht : t ≤ last + 4287967295) :
    Inv t t l (h.get (t % 4294967296)).1 ∧ (h.get (t % 4294967296)).2 = (recent t l).map Entry.eff := by
  obtain ⟨hlen, hnum, hview, hsort, hpast⟩ := hi
  have hrs : Sorted (recent last l) := hsort.sublist (recent_prefix last l hsort).sublist
  -- ages of the entries in view
  have hage : ∀ e ∈ recent last l, since (t % 4294967296) (e.eff.start) = t - e.time := by
    intro e he
    have h1 := hpast e ((recent_prefix last l hsort).subset he)
    have h2 : last ≤ e.time + 7000000 := by
      unfold recent at he
      have := List.mem_of_mem_take he
      simpa using (List.mem_filter.mp this).2
    exact start_abs t e (by omega) (by omega)
  have hget : ∀ i a, i < h.num → h.arr[i]? = some a → ∃ e ∈ recent last l, (recent last l)[i]? = some e ∧ a = e.eff := by
    intro i a hi ha
    have : (h.arr.take h.num)[i]? = some a := by rw [List.getElem?_take_of_lt hi, ha]
    rw [hview, List.getElem?_map] at this
    cases hr : (recent last l)[i]? with
    | none => rw [hr] at this; simp at this
    | some e => rw [hr] at this; simp at this; exact ⟨e, List.mem_of_getElem? hr, rfl, this.symm⟩
  have hex := expire_eq (t % 4294967296) h.arr h.num (by omega) (by
    intro i j a b hij hj ha hb hold
    obtain ⟨e, he, hei, rfl⟩ := hget i a (by omega) ha
    obtain ⟨f, hf, hfj, rfl⟩ := hget j b hj hb
    rw [hage e he] at hold
    rw [hage f hf]
    have : f.time ≤ e.time := by
      have := List.pairwise_iff_getElem.mp hrs
      obtain ⟨hi', hei⟩ := List.getElem?_eq_some_iff.mp hei
      obtain ⟨hj', hfj⟩ := List.getElem?_eq_some_iff.mp hfj
      have := this i j hi' hj' hij
      rw [hei, hfj] at this; exact this
    omega)
  have hv : h.arr.take (Hist.expire (t % 4294967296) h.arr h.num) = (recent t l).map Entry.eff := by
    rw [hex.2, hview, ← recent_later last t (by omega) l hsort]
    apply filter_map_congr
    intro e he
    have h1 := hpast e ((recent_prefix last l hsort).subset he)
    rw [decide_eq_decide]
    exact age_iff _ t e.time _ (by omega) (hage e he)
  have hle : Hist.expire (t % 4294967296) h.arr h.num ≤ 10 := Nat.le_trans hex.1 hnum
  rw [get_eq]
  generalize Hist.expire (t % 4294967296) h.arr h.num = n at hle hv
  exact ⟨⟨hlen, hle, hv, hsort, fun e he => by have := hpast e he; omega⟩, hv⟩

/-- storing an effect -/
theorem store_inv {w : Nat} (now last : Nat) (l : List (Entry w)) (h : Hist w) (e : Entry w) (hi : Inv now last l h) (hln : last ≤ now) (hnt : now ≤ e.time) :
    Inv e.time last (e :: l) (h.store e.eff) := by
  obtain ⟨hlen, hnum, hview, hsort, hpast⟩ := hi
  obtain ⟨h1, h2, h3⟩ := store_eq h e.eff hlen hnum
  refine ⟨h1, h2, ?_, ?_, ?_⟩
  · rw [h3, hview]
    have ha : last ≤ e.time + 7000000 := by omega
    unfold recent
    rw [List.filter_cons]
    simp only [ha, decide_true, if_true]
    rw [List.take_succ_cons, List.take_succ_cons, List.map_cons, List.map_take, List.map_take, List.take_take]; rfl
  · rw [Sorted, List.pairwise_cons]
    exact ⟨fun a ha => by have := hpast a ha; omega, hsort⟩
  · intro a ha
    rcases List.mem_cons.mp ha with rfl | ha
    · exact Nat.le_refl _
    · have := hpast a ha; omega

theorem inv_later {w : Nat} {now last : Nat} {l : List (Entry w)} {h : Hist w} (hi : Inv now last l h) (t : Nat) (ht : now ≤ t) : Inv t last l h :=
  ⟨hi.len, hi.num, hi.view, hi.sorted, fun e he => by have := hi.past e he; omega⟩

/-- pushing an effect -/
theorem push_inv {w : Nat} (now last : Nat) (l : List (Entry w)) (h : Hist w) (lk : Lockup) (e : Entry w) (hi : Inv now last l h) (hln : last ≤ now) (hnt : now ≤ e.time) :
    Inv e.time last (log l [.push lk e]) (h.push lk e.eff) := by
  have hclear : Inv now last ([] : List (Entry w)) { h with num := 0 } := ⟨hi.len, by simp, by simp [recent], by simp [Sorted], by simp⟩
  obtain ⟨k, time, place, blades, sound⟩ := e
  have hs : ∀ k', Inv time last (⟨k', time, place, blades, sound⟩ :: l) (h.store ⟨k', time % 4294967296, place, blades, sound⟩) :=
    fun k' => store_inv now last l h ⟨k', time, place, blades, sound⟩ hi hln hnt
  have hn : Inv time last [⟨.newfont, time, place, blades, sound⟩] (Hist.store { h with num := 0 } ⟨.newfont, time % 4294967296, place, blades, sound⟩) :=
    store_inv now last [] _ ⟨.newfont, time, place, blades, sound⟩ hclear hln hnt
  have hk := inv_later hi time hnt
  simp only [log, Hist.push, Entry.eff]
  cases k with
  | newfont => simpa [remembered, log] using hn
  | clashUpdate => simpa [remembered, log] using hk
  | lockupBegin =>
    cases lk with
    | drag => simpa [remembered, log] using hs .dragBegin
    | normal => simpa [remembered, log] using hs .lockupBegin
    | none => simpa [remembered, log] using hk
    | other n => simpa [remembered, log] using hk
  | lockupEnd =>
    cases lk with
    | drag => simpa [remembered, log] using hs .dragEnd
    | normal => simpa [remembered, log] using hs .lockupEnd
    | none => simpa [remembered, log] using hk
    | other n => simpa [remembered, log] using hk
  | dragBegin => simpa [remembered, log] using hs .dragBegin
  | dragEnd => simpa [remembered, log] using hs .dragEnd
  | clash => simpa [remembered, log] using hs .clash
  | stab => simpa [remembered, log] using hs .stab
  | ignition => simpa [remembered, log] using hs .ignition
  | retraction => simpa [remembered, log] using hs .retraction
  | blast => simpa [remembered, log] using hs .blast
  | other n => simpa [remembered, log] using hs (.other n)

theorem log_cons {w : Nat} (l : List (Entry w)) (ev : Ev w) (evs : List (Ev w)) : log l (ev :: evs) = log (log l [ev]) evs := by
  cases ev with
  | look t => rfl
  | push lk e =>
    simp only [log]
    cases remembered lk e.kind <;> rfl

/-- any events, followed by a look at time `t` -/
theorem evs_inv {w : Nat} : ∀ (evs : List (Ev w)) (now last t : Nat) (l : List (Entry w)) (h : Hist w), Inv now last l h → last ≤ now →
    Timely now last (evs ++ [.look t]) → ∃ now' last', Inv now' last' (log l evs) (h.evs evs) ∧ last' ≤ now' ∧ now' ≤ t ∧ t ≤ last' + 4287967295
  | [], now, last, t, l, h, hi, hln, ht => ⟨now, last, hi, hln, ht.1, ht.2.1⟩
  | .look s :: evs, now, last, t, l, h, hi, hln, ht => by
    have := look_inv now last s l h hi hln ht.1 ht.2.1
    exact evs_inv evs s s t l _ this.1 (Nat.le_refl _) ht.2.2
  | .push lk e :: evs, now, last, t, l, h, hi, hln, ht => by
    have := push_inv now last l h lk e hi hln ht.1
    rw [log_cons]
    exact evs_inv evs e.time last t _ _ this (by have := ht.1; omega) ht.2

theorem init_inv (w : Nat) : Inv 0 0 ([] : List (Entry w)) (Hist.init w) := ⟨by simp [Hist.init], by simp [Hist.init], by simp [Hist.init, recent], by simp [Sorted], by simp⟩

/-- C30: for every history of effects, lockups and looks at the list (at least every 4287 seconds), a look
at time `t` sees the remembered effects since the last new font that are not older than seven seconds,
newest first, at most the ten newest, each with its kind, place, blades, sound and 32-bit start time. -/
theorem C30_recent {w : Nat} (evs : List (Ev w)) (t : Nat) (ht : Timely 0 0 (evs ++ [.look t])) :
    (((Hist.init w).evs evs).get (t % 4294967296)).2 = (recent t (log [] evs)).map Entry.eff := by
  obtain ⟨now, last, hi, h1, h2, h3⟩ := evs_inv evs 0 0 t [] (Hist.init w) (init_inv w) (Nat.le_refl _) ht
  exact (look_inv now last t _ _ hi h1 h2 h3).2

/-- C30 in elementary terms: the list is a beginning of the remembered effects, newest first; it has at
most ten; all are at most seven seconds old; and if one more could be shown, it is too old or there are
already ten. -/
theorem C30_bounds {w : Nat} (evs : List (Ev w)) (t : Nat) (ht : Timely 0 0 (evs ++ [.look t])) :
    recent t (log [] evs) <+: log [] evs ∧ (recent t (log [] evs)).length ≤ 10 ∧ (∀ e ∈ recent t (log [] evs), t ≤ e.time + 7000000) ∧
      (∀ e ∈ log [] evs, t ≤ e.time + 7000000 → (recent t (log [] evs)).length < 10 → e ∈ recent t (log [] evs)) ∧
      (log [] evs).Pairwise (fun a b => b.time ≤ a.time) := by
  obtain ⟨now, last, hi, h1, h2, h3⟩ := evs_inv evs 0 0 t [] (Hist.init w) (init_inv w) (Nat.le_refl _) ht
  refine ⟨recent_prefix t _ hi.sorted, by simp [recent]; omega, ?_, ?_, hi.sorted⟩
  · intro e he
    have := List.mem_of_mem_take he
    simpa using (List.mem_filter.mp this).2
  · intro e he ha hl
    unfold recent at hl ⊢
    rw [List.take_of_length_le]
    · exact List.mem_filter.mpr ⟨he, by simpa using ha⟩
    · rw [List.length_take] at hl; omega

/-- a history that meets the hypotheses: two effects before a new font, an update that is not stored, a
lockup while dragging, and a clash that is too old at the second look -/
def sample : List (Ev 8) := [.push .none ⟨.clash, 5, 0, 1, 0⟩, .push .none ⟨.newfont, 10, 0, 1, 0⟩, .push .none ⟨.clash, 20, 0, 2, 0⟩,
  .push .none ⟨.clashUpdate, 30, 0, 2, 0⟩, .look 40, .push .drag ⟨.lockupBegin, 6000000, 0, 2, 0⟩]

example : Timely 0 0 (sample ++ [.look 7000021]) ∧ (((Hist.init 8).evs sample).get 7000021).2.map (fun e => e.kind) = [.dragBegin] ∧
    (((Hist.init 8).evs sample).get 7000020).2.map (fun e => e.kind) = [.dragBegin, .clash] := by
  refine ⟨by simp [sample, Timely], by decide +kernel, by decide +kernel⟩

/-! ## C32 -/

/-- what happens around one detector: as above, and the detector is asked at some time -/
inductive DEv (w : Nat) where
  | other (e : Ev w)
  | ask (time : Nat)

/-- as far as the list of effects is concerned, asking a detector is a look at the list -/
def DEv.ev {w : Nat} : DEv w → Ev w
  | .other e => e
  | .ask t => .look t

/-- one event on the list of effects and a detector for `kind` on `blade`; the results of the detector,
oldest first -/
def dstep {w : Nat} (kind : Kind) (blade : Nat) (stab : Bool) (s : Hist w × Nat × List (Eff w)) : DEv w → Hist w × Nat × List (Eff w)
  | .other e => (s.1.ev e, s.2)
  | .ask t =>
    let g := s.1.get (t % 4294967296)
    let d := detect kind blade stab s.2.1 g.2
    (g.1, d.1, s.2.2 ++ d.2.toList)

/-- the effects a detector for `kind` on `blade` is responsible for: its own kind; the clash detector of
the main blade also takes stabs when the style does not handle them -/
def responsible {w : Nat} (kind : Kind) (blade : Nat) (stab : Bool) (e : Entry w) : Prop :=
  e.blades.getLsbD blade = true ∧ (e.kind = kind ∨ kind = .clash ∧ e.kind = .stab ∧ stab = false ∧ blade = 1)

/-- the specification: when asked, the detector reports the newest remembered effect it is responsible
for, if it is not too old (nor behind ten newer ones), unless its start time is the one it reported last -/
inductive Reports {w : Nat} (kind : Kind) (blade : Nat) (stab : Bool) : List (Entry w) → Nat → List (DEv w) → List (Entry w) → Prop
  | nil (l : List (Entry w)) (last : Nat) : Reports kind blade stab l last [] []
  | other {l : List (Entry w)} {last : Nat} {e : Ev w} {evs : List (DEv w)} {out : List (Entry w)} (h : Reports kind blade stab (log l [e]) last evs out) :
      Reports kind blade stab l last (.other e :: evs) out
  | silent {l : List (Entry w)} {last t : Nat} {evs : List (DEv w)} {out : List (Entry w)}
      (hno : ∀ a e b, recent t l = a ++ e :: b → responsible kind blade stab e → (∀ x ∈ a, ¬ responsible kind blade stab x) → e.time % 4294967296 = last)
      (h : Reports kind blade stab l last evs out) : Reports kind blade stab l last (.ask t :: evs) out
  | fire {l : List (Entry w)} {last t : Nat} {evs : List (DEv w)} {out : List (Entry w)} {a b : List (Entry w)} {e : Entry w}
      (hr : recent t l = a ++ e :: b) (he : responsible kind blade stab e) (ha : ∀ x ∈ a, ¬ responsible kind blade stab x)
      (hnew : e.time % 4294967296 ≠ last) (h : Reports kind blade stab l (e.time % 4294967296) evs out) :
      Reports kind blade stab l last (.ask t :: evs) (e :: out)

theorem find_spec {w : Nat} (kind : Kind) (blade : Nat) (stab : Bool) (l : List (Entry w)) :
    (find kind blade stab (l.map Entry.eff) = none ∧ ∀ x ∈ l, ¬ responsible kind blade stab x) ∨
    ∃ a e b, find kind blade stab (l.map Entry.eff) = some e.eff ∧ l = a ++ e :: b ∧ responsible kind blade stab e ∧ ∀ x ∈ a, ¬ responsible kind blade stab x := by
  have hiff : ∀ x : Entry w, (x.eff.blades.getLsbD blade && (decide (x.eff.kind = kind) || ((decide (kind = .clash) && !stab && decide (blade = 1)) && decide (x.eff.kind = .stab)))) = true ↔
      responsible kind blade stab x := by
    intro x
    simp only [Bool.and_eq_true, Bool.or_eq_true, Bool.not_eq_true', responsible]
    constructor
    · rintro ⟨h1, h2 | ⟨⟨⟨h2, h3⟩, h4⟩, h5⟩⟩
      · exact ⟨h1, Or.inl (of_decide_eq_true h2)⟩
      · exact ⟨h1, Or.inr ⟨of_decide_eq_true h2, of_decide_eq_true h5, h3, of_decide_eq_true h4⟩⟩
    · rintro ⟨h1, h2 | ⟨h2, h3, h4, h5⟩⟩
      · exact ⟨h1, Or.inl (decide_eq_true h2)⟩
      · exact ⟨h1, Or.inr ⟨⟨⟨decide_eq_true h2, h4⟩, decide_eq_true h5⟩, decide_eq_true h3⟩⟩
  induction l with
  | nil => left; exact ⟨rfl, by simp⟩
  | cons x l ih =>
    by_cases hx : responsible kind blade stab x
    · right
      refine ⟨[], x, l, ?_, rfl, hx, by simp⟩
      rw [List.map_cons, find, List.find?_cons_of_pos]
      exact (hiff x).mpr hx
    · have hf : find kind blade stab ((x :: l).map Entry.eff) = find kind blade stab (l.map Entry.eff) := by
        rw [List.map_cons]
        unfold find
        rw [List.find?_cons_of_neg]
        intro h; exact hx ((hiff x).mp h)
      rw [hf]
      rcases ih with ⟨h1, h2⟩ | ⟨a, e, b, h1, h2, h3, h4⟩
      · left; exact ⟨h1, fun y hy => (List.mem_cons.mp hy).elim (fun h => h ▸ hx) (h2 y)⟩
      · right
        refine ⟨x :: a, e, b, h1, by rw [h2]; rfl, h3, ?_⟩
        exact fun y hy => (List.mem_cons.mp hy).elim (fun h => h ▸ hx) (h4 y)

theorem reports_of_inv {w : Nat} (kind : Kind) (blade : Nat) (stab : Bool) : ∀ (evs : List (DEv w)) (now lk last : Nat) (l : List (Entry w)) (h : Hist w) (acc : List (Eff w)),
    Inv now lk l h → lk ≤ now → Timely now lk (evs.map DEv.ev) →
    ∃ out, Reports kind blade stab l last evs out ∧ (evs.foldl (dstep kind blade stab) (h, last, acc)).2.2 = acc ++ out.map Entry.eff
  | [], _, _, last, l, _, acc, _, _, _ => ⟨[], .nil l last, by simp⟩
  | .other (.look t) :: evs, now, lk, last, l, h, acc, hi, hln, ht => by
    obtain ⟨out, h1, h2⟩ := reports_of_inv kind blade stab evs t t last l _ acc (look_inv now lk t l h hi hln ht.1 ht.2.1).1 (Nat.le_refl _) ht.2.2
    exact ⟨out, .other h1, h2⟩
  | .other (.push k e) :: evs, now, lk, last, l, h, acc, hi, hln, ht => by
    obtain ⟨out, h1, h2⟩ := reports_of_inv kind blade stab evs e.time lk last _ _ acc (push_inv now lk l h k e hi hln ht.1) (Nat.le_trans hln ht.1) ht.2
    exact ⟨out, .other h1, h2⟩
  | .ask t :: evs, now, lk, last, l, h, acc, hi, hln, ht => by
    obtain ⟨hi', hv⟩ := look_inv now lk t l h hi hln ht.1 ht.2.1
    rw [List.foldl_cons]
    have hd : dstep kind blade stab (h, last, acc) (.ask t) =
        ((h.get (t % 4294967296)).1, (detect kind blade stab last (h.get (t % 4294967296)).2).1, acc ++ (detect kind blade stab last (h.get (t % 4294967296)).2).2.toList) := rfl
    rw [hd, hv]
    generalize (h.get (t % 4294967296)).1 = h' at hi'
    unfold detect
    rcases find_spec kind blade stab (recent t l) with ⟨h1, h2⟩ | ⟨a, e, b, h1, h2, h3, h4⟩
    · rw [h1]
      obtain ⟨out, h5, h6⟩ := reports_of_inv kind blade stab evs t t last l h' (acc ++ []) hi' (Nat.le_refl _) ht.2.2
      refine ⟨out, .silent ?_ h5, by simpa using h6⟩
      intro a e b hab he
      exact absurd he (h2 e (by rw [hab]; simp))
    · rw [h1]
      simp only
      have hst : e.eff.start = e.time % 4294967296 := rfl
      rw [hst]
      by_cases hl : e.time % 4294967296 = last
      · rw [if_pos hl]
        obtain ⟨out, h5, h6⟩ := reports_of_inv kind blade stab evs t t last l h' (acc ++ []) hi' (Nat.le_refl _) ht.2.2
        refine ⟨out, .silent ?_ h5, by simpa using h6⟩
        intro a' e' b' hab he' ha'
        have : e' = e := by
          rw [h2] at hab
          rcases List.append_eq_append_iff.mp hab with ⟨c, hc1, hc2⟩ | ⟨c, hc1, hc2⟩
          · cases c with
            | nil => simp at hc2; exact hc2.1.symm
            | cons y c =>
              simp at hc2
              exact absurd h3 (ha' e (by rw [hc1, hc2.1]; simp))
          · cases c with
            | nil => simp at hc2; exact hc2.1
            | cons y c =>
              simp at hc2
              exact absurd he' (h4 e' (by rw [hc1, hc2.1]; simp))
        rw [this]; exact hl
      · rw [if_neg hl]
        obtain ⟨out, h5, h6⟩ := reports_of_inv kind blade stab evs t t (e.time % 4294967296) l h' (acc ++ [e.eff]) hi' (Nat.le_refl _) ht.2.2
        exact ⟨e :: out, .fire h2 h3 h4 hl h5, by simpa using h6⟩

/-- the state after some events, `last` being the (uninitialised) `last_detected_` -/
def drun {w : Nat} (kind : Kind) (blade : Nat) (stab : Bool) (last : Nat) (evs : List (DEv w)) : Hist w × Nat × List (Eff w) :=
  evs.foldl (dstep kind blade stab) (Hist.init w, last, [])

/-- C32: a detector reports exactly what the specification `Reports` says: each time it is asked, the newest
recent effect it is responsible for, unless that was reported last -/
theorem C32_reports {w : Nat} (kind : Kind) (blade : Nat) (stab : Bool) (last : Nat) (evs : List (DEv w)) (ht : Timely 0 0 (evs.map DEv.ev)) :
    ∃ out, Reports kind blade stab [] last evs out ∧ (drun kind blade stab last evs).2.2 = out.map Entry.eff := by
  obtain ⟨out, h1, h2⟩ := reports_of_inv kind blade stab evs 0 0 last [] (Hist.init w) [] (init_inv w) (Nat.le_refl _) ht
  exact ⟨out, h1, by unfold drun; simpa using h2⟩

/-- the first effect in the list the detector is responsible for is not older than `b` -/
def NotBefore {w : Nat} (kind : Kind) (blade : Nat) (stab : Bool) (l : List (Entry w)) (b : Nat) : Prop :=
  ∀ a e c, l = a ++ e :: c → responsible kind blade stab e → (∀ x ∈ a, ¬ responsible kind blade stab x) → b ≤ e.time

theorem log_shape {w : Nat} (l : List (Entry w)) (ev : Ev w) :
    log l [ev] = l ∨ ∃ lk e k, ev = .push lk e ∧ remembered lk e.kind = some k ∧ (log l [ev] = { e with kind := k } :: l ∨ log l [ev] = [{ e with kind := k }]) := by
  cases ev with
  | look t => left; rfl
  | push lk e =>
    simp only [log]
    cases h : remembered lk e.kind with
    | none => left; rfl
    | some k =>
      right
      refine ⟨lk, e, k, rfl, h, ?_⟩
      by_cases hn : k = .newfont
      · right; simp [hn]
      · left; simp [hn]

theorem notBefore_cons {w : Nat} (kind : Kind) (blade : Nat) (stab : Bool) (l : List (Entry w)) (b : Nat) (e : Entry w) (h : NotBefore kind blade stab l b) (he : b ≤ e.time) :
    NotBefore kind blade stab (e :: l) b := by
  intro a x c hl hx ha
  cases a with
  | nil => simp at hl; rw [← hl.1]; exact he
  | cons y a =>
    simp at hl
    exact h a x c hl.2 hx (fun z hz => ha z (List.mem_cons_of_mem _ hz))

theorem sorted_of_log {w : Nat} (l : List (Entry w)) (ev : Ev w) (now lk : Nat) (hs : Sorted l) (hp : ∀ x ∈ l, x.time ≤ now) (ht : Timely now lk [ev]) :
    ∃ now', now ≤ now' ∧ Sorted (log l [ev]) ∧ (∀ x ∈ log l [ev], x.time ≤ now') ∧ (∀ evs, Timely now lk (ev :: evs) → ∃ lk', Timely now' lk' evs) ∧
      (∀ kind blade stab b, b ≤ now → NotBefore kind blade stab l b → NotBefore kind blade stab (log l [ev]) b) := by
  cases ev with
  | look t => exact ⟨t, ht.1, hs, fun x hx => Nat.le_trans (hp x hx) ht.1, fun evs h => ⟨t, h.2.2⟩, fun _ _ _ _ _ h => h⟩
  | push k e =>
    refine ⟨e.time, ht.1, ?_, ?_, fun evs h => ⟨lk, h.2⟩, ?_⟩ <;> rcases log_shape l (.push k e) with h | ⟨_, e', k', h1, _, h | h⟩
    · rw [h]; exact hs
    · cases h1
      rw [h, Sorted, List.pairwise_cons]
      exact ⟨fun x hx => Nat.le_trans (hp x hx) ht.1, hs⟩
    · rw [h]; simp [Sorted]
    · rw [h]; intro x hx; exact Nat.le_trans (hp x hx) ht.1
    · cases h1
      rw [h]; intro x hx
      rcases List.mem_cons.mp hx with rfl | hx
      · exact Nat.le_refl _
      · exact Nat.le_trans (hp x hx) ht.1
    · cases h1
      rw [h]; intro x hx
      rw [List.mem_singleton] at hx; subst hx; exact Nat.le_refl _
    · rw [h]; intro _ _ _ _ _ h; exact h
    · cases h1
      rw [h]; intro kind blade stab b hb hn
      exact notBefore_cons kind blade stab l b _ hn (Nat.le_trans hb ht.1)
    · cases h1
      rw [h]; intro kind blade stab b hb hn
      apply notBefore_cons
      · intro a x c hl; simp at hl
      · exact Nat.le_trans hb ht.1

theorem timely_head {w : Nat} {now lk : Nat} {ev : Ev w} {evs : List (Ev w)} (h : Timely now lk (ev :: evs)) : Timely now lk [ev] := by
  cases ev with
  | look t => exact ⟨h.1, h.2.1, trivial⟩
  | push k e => exact ⟨h.1, trivial⟩

/-- reports come in strictly increasing order of time -/
theorem reports_increasing {w : Nat} {kind : Kind} {blade : Nat} {stab : Bool} {l : List (Entry w)} {last : Nat} {evs : List (DEv w)} {out : List (Entry w)}
    (hr : Reports kind blade stab l last evs out) : ∀ (now lk : Nat) (prev : Option Nat), Sorted l → (∀ x ∈ l, x.time ≤ now) → Timely now lk (evs.map DEv.ev) →
      (∀ b, prev = some b → b ≤ now ∧ last = b % 4294967296 ∧ NotBefore kind blade stab l b) →
      out.Pairwise (fun a b => a.time < b.time) ∧ (∀ b, prev = some b → ∀ x ∈ out, b < x.time) := by
  induction hr with
  | nil => intros; simp
  | other h ih =>
    intro now lk prev hs hp ht hb
    obtain ⟨now', h1, h2, h3, h4, h5⟩ := sorted_of_log _ _ now lk hs hp (timely_head ht)
    obtain ⟨lk', h6⟩ := h4 _ ht
    apply ih now' lk' prev h2 h3 h6
    intro b hbp
    obtain ⟨g1, g2, g3⟩ := hb b hbp
    exact ⟨by omega, g2, h5 _ _ _ _ g1 g3⟩
  | silent hno h ih =>
    intro now lk prev hs hp ht hb
    apply ih _ _ prev hs (fun x hx => Nat.le_trans (hp x hx) ht.1) ht.2.2
    intro b hbp
    obtain ⟨g1, g2, g3⟩ := hb b hbp
    exact ⟨Nat.le_trans g1 ht.1, g2, g3⟩
  | @fire l last t evs out a b e hr he ha hnew h ih =>
    intro now lk prev hs hp ht hb
    obtain ⟨c, hc⟩ := recent_prefix t l hs
    have hle : l = a ++ e :: (b ++ c) := by rw [← hc, hr]; simp
    have hel : e ∈ l := by rw [hle]; simp
    have := ih t t (some e.time) hs (fun x hx => Nat.le_trans (hp x hx) ht.1) ht.2.2 (by
      intro b' hb'; cases hb'
      refine ⟨Nat.le_trans (hp e hel) ht.1, rfl, ?_⟩
      intro a' e' c' hl' he' ha'
      -- the first one is unique
      rw [hle] at hl'
      rcases List.append_eq_append_iff.mp hl' with ⟨d, hc1, hc2⟩ | ⟨d, hc1, hc2⟩
      · cases d with
        | nil => simp at hc2; rw [hc2.1]; exact Nat.le_refl _
        | cons y d =>
          simp at hc2
          exact absurd he (ha' e (by rw [hc1, hc2.1]; simp))
      · cases d with
        | nil => simp at hc2; rw [hc2.1]; exact Nat.le_refl _
        | cons y d =>
          simp at hc2
          exact absurd he' (ha e' (by rw [hc1, hc2.1]; simp)))
    have hgt : ∀ b', prev = some b' → b' < e.time := by
      intro b' hb'
      obtain ⟨g1, g2, g3⟩ := hb b' hb'
      have h1 := g3 a e (b ++ c) hle he ha
      have : b' ≠ e.time := by
        intro h; apply hnew; rw [g2, h]
      omega
    refine ⟨List.pairwise_cons.mpr ⟨this.2 e.time rfl, this.1⟩, ?_⟩
    intro b' hb' x hx
    rcases List.mem_cons.mp hx with rfl | hx
    · exact hgt b' hb'
    · exact Nat.lt_trans (hgt b' hb') (this.2 e.time rfl x hx)

/-- everything reported was remembered before, and the detector was responsible for it -/
theorem reports_genuine {w : Nat} {kind : Kind} {blade : Nat} {stab : Bool} {l : List (Entry w)} {last : Nat} {evs : List (DEv w)} {out : List (Entry w)}
    (hr : Reports kind blade stab l last evs out) : ∀ (now lk : Nat), Sorted l → (∀ x ∈ l, x.time ≤ now) → Timely now lk (evs.map DEv.ev) →
      ∀ x ∈ out, responsible kind blade stab x ∧ (x ∈ l ∨ ∃ lk e k, DEv.other (.push lk e) ∈ evs ∧ remembered lk e.kind = some k ∧ x = { e with kind := k }) := by
  induction hr with
  | nil => intro _ _ _ _ _ x hx; simp at hx
  | @other l last e evs out h ih =>
    intro now lk hs hp ht x hx
    obtain ⟨now', h1, h2, h3, h4, h5⟩ := sorted_of_log _ _ now lk hs hp (timely_head ht)
    obtain ⟨lk', h6⟩ := h4 _ ht
    obtain ⟨g1, g2⟩ := ih now' lk' h2 h3 h6 x hx
    refine ⟨g1, ?_⟩
    rcases g2 with g2 | ⟨k, e', k', g3, g4⟩
    · rcases log_shape l e with hh | ⟨k, e', k', rfl, hk, hh | hh⟩
      · rw [hh] at g2; exact Or.inl g2
      · rw [hh] at g2
        rcases List.mem_cons.mp g2 with g2 | g2
        · exact Or.inr ⟨k, e', k', List.mem_cons_self, hk, g2⟩
        · exact Or.inl g2
      · rw [hh, List.mem_singleton] at g2
        exact Or.inr ⟨k, e', k', List.mem_cons_self, hk, g2⟩
    · exact Or.inr ⟨k, e', k', List.mem_cons_of_mem _ g3, g4⟩
  | silent hno h ih =>
    intro now lk hs hp ht x hx
    obtain ⟨g1, g2⟩ := ih _ _ hs (fun x hx => Nat.le_trans (hp x hx) ht.1) ht.2.2 x hx
    exact ⟨g1, g2.imp id (fun ⟨a, b, c, d, e⟩ => ⟨a, b, c, List.mem_cons_of_mem _ d, e⟩)⟩
  | @fire l last t evs out a b e hr he ha hnew h ih =>
    intro now lk hs hp ht x hx
    rcases List.mem_cons.mp hx with rfl | hx
    · refine ⟨he, Or.inl ?_⟩
      obtain ⟨c, hc⟩ := recent_prefix t l hs
      rw [← hc, hr]; simp
    · obtain ⟨g1, g2⟩ := ih _ _ hs (fun x hx => Nat.le_trans (hp x hx) ht.1) ht.2.2 x hx
      exact ⟨g1, g2.imp id (fun ⟨a, b, c, d, e⟩ => ⟨a, b, c, List.mem_cons_of_mem _ d, e⟩)⟩

/-- C32: whatever happens, the effects a detector reports are effects that were pushed, of its kind and on
its blade; it never reports the same effect twice and never goes back in time. -/
theorem C32_once {w : Nat} (kind : Kind) (blade : Nat) (stab : Bool) (last : Nat) (evs : List (DEv w)) (ht : Timely 0 0 (evs.map DEv.ev)) :
    ∃ out : List (Entry w), (drun kind blade stab last evs).2.2 = out.map Entry.eff ∧ out.Pairwise (fun a b => a.time < b.time) ∧
      ∀ x ∈ out, responsible kind blade stab x ∧ ∃ lk e k, DEv.other (.push lk e) ∈ evs ∧ remembered lk e.kind = some k ∧ x = { e with kind := k } := by
  obtain ⟨out, h1, h2⟩ := C32_reports kind blade stab last evs ht
  refine ⟨out, h2, (reports_increasing h1 0 0 none (by simp [Sorted]) (by simp) ht (by simp)).1, ?_⟩
  intro x hx
  obtain ⟨g1, g2⟩ := reports_genuine h1 0 0 (by simp [Sorted]) (by simp) ht x hx
  exact ⟨g1, g2.resolve_left (by simp)⟩

theorem timely_append {w : Nat} : ∀ (evs : List (Ev w)) (now lk : Nat) (more : List (Ev w)), Timely now lk (evs ++ more) → Timely now lk evs
  | [], _, _, _, _ => trivial
  | .look _ :: evs, _, _, more, h => ⟨h.1, h.2.1, timely_append evs _ _ more h.2.2⟩
  | .push _ _ :: evs, _, _, more, h => ⟨h.1, timely_append evs _ _ more h.2⟩

theorem drun_ev {w : Nat} (kind : Kind) (blade : Nat) (stab : Bool) : ∀ (evs : List (DEv w)) (h : Hist w) (last : Nat) (acc : List (Eff w)),
    (evs.foldl (dstep kind blade stab) (h, last, acc)).1 = h.evs (evs.map DEv.ev)
  | [], _, _, _ => rfl
  | .other e :: evs, h, last, acc => by
    rw [List.foldl_cons]
    exact drun_ev kind blade stab evs _ _ _
  | .ask t :: evs, h, last, acc => by
    rw [List.foldl_cons]
    have hd : dstep kind blade stab (h, last, acc) (.ask t) =
        ((h.get (t % 4294967296)).1, (detect kind blade stab last (h.get (t % 4294967296)).2).1, acc ++ (detect kind blade stab last (h.get (t % 4294967296)).2).2.toList) := rfl
    rw [hd, drun_ev kind blade stab evs]
    rfl

/-- C32: after any history, an effect the detector is responsible for is reported when the detector is asked
within seven seconds and before the next effect, unless its time stamp is the one reported last (`last_detected_`). -/
theorem C32_sees_new {w : Nat} (kind : Kind) (blade : Nat) (stab : Bool) (last : Nat) (evs : List (DEv w)) (lk : Lockup) (e : Entry w) (t : Nat)
    (ht : Timely 0 0 ((evs ++ [DEv.other (.push lk e), DEv.ask t]).map DEv.ev)) (hrem : remembered lk e.kind = some e.kind) (hresp : responsible kind blade stab e)
    (hage : t ≤ e.time + 7000000) (hnew : (drun kind blade stab last evs).2.1 ≠ e.time % 4294967296) :
    (drun kind blade stab last (evs ++ [.other (.push lk e), .ask t])).2.2 = (drun kind blade stab last evs).2.2 ++ [e.eff] := by
  have e1 : (evs ++ [DEv.other (.push lk e), .ask t]).map DEv.ev = (evs.map DEv.ev ++ [.push lk e]) ++ [.look t] := by simp [DEv.ev]
  rw [e1] at ht
  have hc := C30_recent _ t ht
  have hh : (Hist.init w).evs (evs.map DEv.ev ++ [.push lk e]) = (drun kind blade stab last evs).1.push lk e.eff := by
    unfold drun
    rw [drun_ev]
    simp only [Hist.evs, List.foldl_append, List.foldl_cons, List.foldl_nil]
    rfl
  rw [hh] at hc
  have hlog : ∃ r, recent t (log [] (evs.map DEv.ev ++ [.push lk e])) = e :: r := by
    have : ∃ r, log [] (evs.map DEv.ev ++ [.push lk e]) = e :: r := by
      have hl : ∀ (a : List (Ev w)) (l : List (Entry w)), ∃ r, log l (a ++ [.push lk e]) = e :: r := by
        intro a
        induction a with
        | nil =>
          intro l
          simp only [List.nil_append, log, hrem]
          exact ⟨_, rfl⟩
        | cons x a ih => intro l; rw [List.cons_append, log_cons]; exact ih _
      exact hl _ _
    obtain ⟨r, hr⟩ := this
    rw [hr]
    unfold recent
    rw [List.filter_cons]
    simp only [hage, decide_true, if_true]
    exact ⟨_, by rw [List.take_succ_cons]⟩
  obtain ⟨r, hr⟩ := hlog
  rw [hr] at hc
  have e2 : drun kind blade stab last (evs ++ [.other (.push lk e), .ask t]) =
      dstep kind blade stab ((drun kind blade stab last evs).1.push lk e.eff, (drun kind blade stab last evs).2) (.ask t) := by
    unfold drun; rw [List.foldl_append]; rfl
  rw [e2]
  generalize drun kind blade stab last evs = s at hc hnew
  obtain ⟨h, ls, acc⟩ := s
  have hd : ∀ h, dstep kind blade stab (h, ls, acc) (.ask t) =
        ((h.get (t % 4294967296)).1, (detect kind blade stab ls (h.get (t % 4294967296)).2).1, acc ++ (detect kind blade stab ls (h.get (t % 4294967296)).2).2.toList) := fun _ => rfl
  simp only at hc hnew ⊢
  rw [hd, hc]
  have hf : find kind blade stab ((e :: r).map Entry.eff) = some e.eff := by
    rcases find_spec kind blade stab (e :: r) with ⟨_, h2⟩ | ⟨a, x, b, h1, h2, h3, h4⟩
    · exact absurd hresp (h2 e List.mem_cons_self)
    · cases a with
      | nil => simp at h2; rw [h1, h2.1]
      | cons y a =>
        simp at h2
        exact absurd hresp (h4 e (by rw [h2.1]; simp))
  unfold detect
  rw [hf]
  have hst : e.eff.start = e.time % 4294967296 := rfl
  simp only [hst]
  rw [if_neg (fun h => hnew h.symm)]
  rfl

/-- a history for C32: a stab (reported as a clash on the main blade, once), a clash on another blade only, a clash -/
def dsample : List (DEv 8) := [.other (.push .none ⟨.stab, 7, 0, 2, 0⟩), .ask 8, .ask 9, .other (.push .none ⟨.clash, 10, 0, 4, 0⟩), .ask 11]

example : Timely 0 0 ((dsample ++ [DEv.other (.push .none ⟨.clash, 12, 0, 2, 5⟩), DEv.ask 13]).map DEv.ev) ∧
    responsible (w := 8) .clash 1 false ⟨.clash, 12, 0, 2, 5⟩ ∧ remembered .none .clash = some .clash ∧
    (drun .clash 1 false 99 dsample).2.1 = 7 ∧ (drun .clash 1 false 99 dsample).2.2.map (fun e => e.start) = [7] ∧
    (drun .clash 1 false 99 (dsample ++ [DEv.other (.push .none ⟨.clash, 12, 0, 2, 5⟩), DEv.ask 13])).2.2.map (fun e => e.start) = [7, 12] := by
  refine ⟨by simp [dsample, Timely, DEv.ev], ⟨by decide, Or.inl rfl⟩, by decide, by decide +kernel, by decide +kernel, by decide +kernel⟩

end Verif.Saber
