import Verif.Input.Model
/-!
# C33, C64: debouncing, latching switches, floating pins
-/
namespace Verif.Input

theorem run_append (T : Nat) (d : Deb) (a b : List (Nat × Bool)) : d.run T (a ++ b) = (d.run T a).run T b := by
  simp [Deb.run]

theorem run_one (T : Nat) (d : Deb) (s : Nat × Bool) : d.run T [s] = d.update T s.1 s.2 := rfl

/-- a released sample puts the button in the waiting state -/
theorem update_off (T : Nat) (d : Deb) (t : Nat) : d.update T t false = ⟨.off, false, t⟩ := by
  unfold Deb.update; cases d.st <;> rfl

/-- samples that are all pressed, from the waiting state -/
theorem run_pressed (T t0 : Nat) : ∀ (run : List (Nat × Bool)), (∀ s ∈ run, s.2 = true) →
    (Deb.run T ⟨.off, false, t0⟩ run).pushed = (decide (2 ≤ run.length) && decide (since ((run.getLast?.map (·.1)).getD 0) t0 > T)) ∧
    (run ≠ [] → (Deb.run T ⟨.off, false, t0⟩ run).st = .on) ∧ (Deb.run T ⟨.off, false, t0⟩ run).lastOff = t0 := by
  intro run h
  rcases List.eq_nil_or_concat run with rfl | ⟨r, s, rfl⟩
  · simp [Deb.run]
  · rw [List.concat_eq_append] at h ⊢
    have ih := run_pressed T t0 r (fun s hs => h s (by simp [hs]))
    have hs := h s (by simp)
    rw [run_append, run_one]
    rcases List.eq_nil_or_concat r with rfl | ⟨r', s', rfl⟩
    · simp [Deb.run, Deb.update, hs]
    · rw [List.concat_eq_append] at ih ⊢
      have h2 := ih.2.1 (by simp)
      refine ⟨?_, ?_, ?_⟩
      · simp [Deb.update, h2, hs, ih.2.2]
      · intro; simp [Deb.update, h2, hs]
      · simp [Deb.update, h2, hs, ih.2.2]
termination_by run => run.length
decreasing_by all_goals simp_all

/-- C33: what `DebouncedRead` answers, for every history of samples.  The history is split at the last
sample that was not pressed (or at the very first call, which does not look at the pin): the answer is
"pressed" exactly when there were at least two samples since then, and the last of them is more than the
time limit after it.  With the standard limit of 10 ms a contact that bounces is therefore reported as
released until it has read pressed at every call for more than 10 ms. -/
theorem C33_debounce (T l0 : Nat) (pre run : List (Nat × Bool)) (t0 : Nat) (r0 : Bool)
    (hr0 : r0 = false ∨ pre = []) (hrun : ∀ s ∈ run, s.2 = true) :
    ((Deb.init l0).run T (pre ++ (t0, r0) :: run)).pushed = true ↔
      2 ≤ run.length ∧ since ((run.getLast?.map (·.1)).getD 0) t0 > T := by
  have e : (Deb.init l0).run T (pre ++ (t0, r0) :: run) = Deb.run T ⟨.off, false, t0⟩ run := by
    rw [run_append]
    show Deb.run T (Deb.update T _ t0 r0) run = _
    rcases hr0 with rfl | rfl
    · rw [update_off]
    · rfl
  rw [e, (run_pressed T t0 run hrun).1]
  simp

/-- every history that is not empty can be split in that way -/
theorem C33_split (h : List (Nat × Bool)) (hne : h ≠ []) :
    ∃ pre t0 r0 run, h = pre ++ (t0, r0) :: run ∧ (r0 = false ∨ pre = []) ∧ ∀ s ∈ run, s.2 = true := by
  rcases List.eq_nil_or_concat h with rfl | ⟨r, s, rfl⟩
  · exact absurd rfl hne
  · obtain ⟨t, b⟩ := s
    cases b
    · exact ⟨r, t, false, [], by simp, Or.inl rfl, by simp⟩
    · by_cases hr : r = []
      · subst hr; exact ⟨[], t, true, [], by simp, Or.inr rfl, by simp⟩
      · obtain ⟨pre, t0, r0, run, e, h1, h2⟩ := C33_split r hr
        refine ⟨pre, t0, r0, run ++ [(t, true)], by simp [e], h1, ?_⟩
        intro s hs
        rcases List.mem_append.mp hs with hs | hs
        · exact h2 s hs
        · simp at hs; subst hs; rfl
termination_by h.length
decreasing_by all_goals simp_all

/-- C33: a released contact is reported at once -/
theorem C33_release (T l0 : Nat) (pre : List (Nat × Bool)) (t : Nat) :
    ((Deb.init l0).run T (pre ++ [(t, false)])).pushed = false := by
  have := C33_debounce T l0 pre [] t false (Or.inl rfl) (by simp)
  simpa using this

example : ((Deb.init 0).run 10 [(0, false), (5, true), (6, false), (7, true), (12, true), (16, true)]).pushed = false ∧
    ((Deb.init 0).run 10 [(0, false), (5, true), (6, false), (7, true), (12, true), (16, true), (17, true)]).pushed = true ∧
    ((Deb.init 0).run 10 [(4294967290, false), (4294967295, true), (5, true)]).pushed = true := by decide +kernel

theorem reads_length (T : Nat) : ∀ (h : List (Nat × Bool)) (d : Deb), (d.reads T h).length = h.length
  | [], _ => rfl
  | s :: h, d => by simp [Deb.reads, reads_length T h]

/-- the `i`-th answer is that of the history up to and including sample `i` -/
theorem reads_get (T : Nat) : ∀ (h : List (Nat × Bool)) (d : Deb) (i : Nat), i < h.length →
    (d.reads T h)[i]? = some (d.run T (h.take (i + 1))).pushed
  | s :: h, d, 0, _ => by simp [Deb.reads, Deb.run]
  | s :: h, d, i + 1, hi => by
    rw [Deb.reads, List.getElem?_cons_succ, reads_get T h _ i (by simpa using hi)]
    simp [Deb.run]

/-- after a released sample at time `t0`, the answers stay "released" for samples within the limit -/
theorem run_recent (T t0 : Nat) : ∀ (h : List (Nat × Bool)) (d : Deb),
    d.lastOff = t0 → d.pushed = false → d.st ≠ .start →
    (∀ s ∈ h, ∀ s' ∈ h, since s.1 t0 ≤ T) → (∀ a b, h = a ++ b → ∀ s ∈ a, ∀ s' ∈ b, since s'.1 s.1 ≤ T) →
    ∀ i, i ≤ h.length → (d.run T (h.take i)).pushed = false
  | [], d, _, hp, _, _, _, i, hi => by simpa [Deb.run] using hp
  | s :: h, d, hl, hp, hs, h1, h2, 0, _ => by simpa [Deb.run] using hp
  | s :: h, d, hl, hp, hs, h1, h2, i + 1, hi => by
    show (Deb.run T (d.update T s.1 s.2) (h.take i)).pushed = false
    have hi' : i ≤ h.length := by simpa using hi
    cases hb : s.2
    · rw [update_off]
      apply run_recent T s.1 h _ rfl rfl (by simp) ?_ ?_ i hi'
      · intro a ha _ _
        exact h2 [s] h rfl s (by simp) a ha
      · intro a b e x hx y hy
        exact h2 (s :: a) b (by rw [e]; rfl) x (by simp [hx]) y hy
    · have e1 : (d.update T s.1 true).lastOff = t0 := by
        unfold Deb.update; cases h : d.st <;> simp_all
      have e2 : (d.update T s.1 true).pushed = false := by
        have := h1 s (by simp) s (by simp)
        unfold Deb.update
        cases hst : d.st <;> simp_all
      have e3 : (d.update T s.1 true).st ≠ .start := by
        unfold Deb.update; cases h : d.st <;> simp_all
      apply run_recent T t0 h _ e1 e2 e3 ?_ ?_ i hi'
      · intro a ha b hb; exact h1 a (by simp [ha]) b (by simp [hb])
      · intro a b e x hx y hy
        exact h2 (s :: a) b (by rw [e]; rfl) x (by simp [hx]) y hy

/-- C33: a release cannot be shorter than the limit.  After a released sample at time `t`, all answers
are "released" as long as the calls are at most the limit apart from each other. -/
theorem C33_min_release (T l0 : Nat) (pre rest : List (Nat × Bool)) (t : Nat)
    (hpre : ∀ s ∈ rest, since s.1 t ≤ T) (hpair : ∀ a b, rest = a ++ b → ∀ s ∈ a, ∀ s' ∈ b, since s'.1 s.1 ≤ T)
    (i : Nat) (hi : i ≤ rest.length) :
    ((Deb.init l0).run T (pre ++ (t, false) :: rest.take i)).pushed = false := by
  rw [run_append]
  show (Deb.run T (Deb.update T _ t false) (rest.take i)).pushed = false
  rw [update_off]
  exact run_recent T t rest _ rfl rfl (by simp) (fun s hs _ _ => hpre s hs) hpair i hi

example : (∀ s ∈ [(101, true), (103, false), (105, true), (109, true)], since s.1 100 ≤ 10) ∧
    ((Deb.init 0).reads 10 [(0, false), (50, true), (51, true), (100, false), (101, true), (103, false), (105, true), (109, true)]) =
      [false, false, true, false, false, false, false, false] := by decide +kernel

/-- C33: the answer goes from "pressed" to "released" only at a released sample, or when the
millisecond counter has gone all the way round since the button was last released -/
theorem C33_no_dropout (T l0 : Nat) (pre : List (Nat × Bool)) (t : Nat) (r : Bool)
    (hp : ((Deb.init l0).run T pre).pushed = true) (hr : ((Deb.init l0).run T (pre ++ [(t, r)])).pushed = false) :
    r = false ∨ ∃ p t0 r0 run, pre = p ++ (t0, r0) :: run ∧ (r0 = false ∨ p = []) ∧ (∀ s ∈ run, s.2 = true) ∧ since t t0 ≤ T := by
  cases r
  · exact Or.inl rfl
  right
  have hne : pre ≠ [] := by
    intro h0; subst h0; simp [Deb.run, Deb.init] at hp
  obtain ⟨p, t0, r0, run, e, h1, h2⟩ := C33_split pre hne
  refine ⟨p, t0, r0, run, e, h1, h2, ?_⟩
  rw [e, C33_debounce T l0 p run t0 r0 h1 h2] at hp
  have h3 : ∀ s ∈ run ++ [(t, true)], s.2 = true := by
    intro s hs
    rcases List.mem_append.mp hs with hs | hs
    · exact h2 s hs
    · simp at hs; subst hs; rfl
  have := C33_debounce T l0 p (run ++ [(t, true)]) t0 r0 h1 h3
  rw [e, List.append_assoc, List.cons_append, ] at hr
  rw [hr] at this
  simp at this
  omega

/-! ## Latching switches and floating pins -/

/-- the changes of a signal: the new value wherever it differs from the previous one -/
def changes (last : Bool) : List Bool → List Bool
  | [] => []
  | d :: ds => if d = last then changes last ds else d :: changes d ds

/-- C64: a latching switch reports every change of its debounced signal, once, in order, and nothing
else; the last report is the current position. -/
theorem C64_latch (ds : List Bool) : (latchRun false ds).2 = changes false ds ∧ (latchRun false ds).1 = (ds.getLast?).getD false := by
  suffices H : ∀ (ds : List Bool) (on : Bool), (latchRun on ds).2 = changes on ds ∧ (latchRun on ds).1 = (ds.getLast?).getD on from H ds false
  intro ds
  induction ds with
  | nil => intro on; simp [latchRun, changes]
  | cons d ds ih =>
    intro on
    obtain ⟨h1, h2⟩ := ih d
    have e : latchStep on d = (d, if d = on then [] else [d]) := by cases on <;> cases d <;> rfl
    simp only [latchRun, e, h1, h2, changes]
    constructor
    · by_cases hd : d = on
      · simp [hd]
      · simp [hd]
    · rw [List.getLast?_cons]; cases ds.getLast? <;> rfl

/-- C64: reports alternate -/
theorem C64_alternate (ds : List Bool) : ∀ i (x y : Bool), (latchRun false ds).2[i]? = some x → (latchRun false ds).2[i + 1]? = some y → y = !x := by
  rw [(C64_latch ds).1]
  suffices H : ∀ (ds : List Bool) (on : Bool), (∀ x, (changes on ds)[0]? = some x → x = !on) ∧
      ∀ i (x y : Bool), (changes on ds)[i]? = some x → (changes on ds)[i + 1]? = some y → y = !x from (H ds false).2
  intro ds
  induction ds with
  | nil => intro on; simp [changes]
  | cons d ds ih =>
    intro on
    by_cases hd : d = on
    · simpa [changes, hd] using ih on
    · simp only [changes, hd, if_false]
      refine ⟨?_, ?_⟩
      · intro x hx; simp at hx; subst hx; cases d <;> cases on <;> simp_all
      · intro i x y hx hy
        cases i with
        | zero =>
          simp at hx; subst hx
          exact (ih d).1 y (by simpa using hy)
        | succ i =>
          simp only [List.getElem?_cons_succ] at hx hy
          exact (ih d).2 i x y hx hy

example : latchRun false [false, true, true, false, true] = (true, [true, false, true]) := by decide

/-- a sequence of votes on an initial pin, which counts as floating -/
def votes (vs : List Bool) : Vote := vs.foldl Vote.vote ⟨true, 0⟩

/-- the specification of a floating pin: the state changes at the eleventh vote in a row against it -/
def floatSpec (state : Bool) (against : Nat) : List Bool → Bool
  | [] => state
  | v :: vs =>
    if v = state then floatSpec state 0 vs
    else if against = 10 then floatSpec v 0 vs
    else floatSpec state (against + 1) vs

/-- C64: the position of a switch on a pin that floats when open changes exactly at the eleventh
measurement in a row that contradicts it -/
theorem C64_votes (vs : List Bool) : (votes vs).floating = floatSpec true 0 vs := by
  suffices H : ∀ (vs : List Bool) (v : Vote), v.votes ≤ 10 → (vs.foldl Vote.vote v).floating = floatSpec v.floating v.votes vs from
    H vs ⟨true, 0⟩ (by simp)
  intro vs
  induction vs with
  | nil => intro v _; rfl
  | cons x vs ih =>
    intro v hv
    rw [List.foldl_cons]
    conv => lhs; arg 1; arg 2; unfold Vote.vote
    unfold floatSpec
    by_cases h : x = v.floating
    · subst h
      simpa using ih { v with votes := 0 } (by simp)
    · by_cases h10 : v.votes = 10
      · simp only [h, ne_eq, not_false_iff, if_true, if_false, h10]
        exact ih ⟨x, 0⟩ (by simp)
      · have e : (v.votes + 1) % 256 = v.votes + 1 := Nat.mod_eq_of_lt (by omega)
        have e2 : v.votes + 1 ≤ 10 := by omega
        simp only [h, ne_eq, not_false_iff, if_true, if_false, h10, e, e2]
        exact ih { v with votes := v.votes + 1 } (by simpa using e2)

/-- C64: ten contradicting measurements are not enough, eleven are -/
theorem C64_eleven (vs : List Bool) (state : Bool) (n : Nat) (h : (votes vs).floating = state) (h0 : vs.getLast? = some state) :
    (votes (vs ++ List.replicate n !state)).floating = (if n ≤ 10 then state else !state) := by
  have hz : (votes vs) = ⟨state, 0⟩ := by
    rcases List.eq_nil_or_concat vs with rfl | ⟨r, x, rfl⟩
    · simp at h0
    · rw [List.concat_eq_append] at *
      simp at h0; subst h0
      have e : votes (r ++ [x]) = (votes r).vote x := by simp [votes]
      rw [e] at h ⊢
      unfold Vote.vote at h ⊢
      by_cases hx : x = (votes r).floating
      · simp [hx]
      · simp only [ne_eq, hx, not_false_iff, if_true] at h ⊢
        split at h
        · exact absurd h.symm hx
        · rename_i h10; simp [h10]
  have e : votes (vs ++ List.replicate n !state) = (List.replicate n !state).foldl Vote.vote ⟨state, 0⟩ := by
    unfold votes at hz ⊢; rw [List.foldl_append, hz]
  rw [e]
  clear e hz h h0
  have low : ∀ n m, n + m ≤ 10 → (List.replicate n !state).foldl Vote.vote ⟨state, m⟩ = ⟨state, m + n⟩ := by
    intro n
    induction n with
    | zero => intro m _; rfl
    | succ n ih =>
      intro m hm
      rw [List.replicate_succ, List.foldl_cons]
      have e1 : Vote.vote ⟨state, m⟩ (!state) = ⟨state, m + 1⟩ := by
        have e : (m + 1) % 256 = m + 1 := Nat.mod_eq_of_lt (by omega)
        have e2 : m + 1 ≤ 10 := by omega
        cases state <;> simp [Vote.vote, e, e2]
      rw [e1, ih (m + 1) (by omega)]
      congr 1; omega
  by_cases hn : n ≤ 10
  · rw [low n 0 (by omega)]; simp [hn]
  · have : n = 10 + (1 + (n - 11)) := by omega
    rw [this, ← List.replicate_append_replicate, ← List.replicate_append_replicate, List.foldl_append, low 10 0 (by omega), List.foldl_append]
    have e1 : List.foldl Vote.vote ⟨state, 0 + 10⟩ (List.replicate 1 !state) = ⟨!state, 0⟩ := by cases state <;> rfl
    rw [e1]
    have st : ∀ k, List.foldl Vote.vote ⟨!state, 0⟩ (List.replicate k !state) = ⟨!state, 0⟩ := by
      intro k
      induction k with
      | zero => rfl
      | succ k ih => rw [List.replicate_succ, List.foldl_cons]; simpa [Vote.vote] using ih
    rw [st]
    have : ¬ (10 + (1 + (n - 11)) ≤ 10) := by omega
    simp [this]

example : (votes (List.replicate 10 false ++ [true] ++ List.replicate 10 false)).floating = true ∧
    (votes ([true] ++ List.replicate 11 false)).floating = false := by decide

end Verif.Input
