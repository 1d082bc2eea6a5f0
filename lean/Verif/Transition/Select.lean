import Verif.Transition.Progress
/-!
# C68, C69: selecting transitions; layers that run a transition
-/
set_option linter.unusedSimpArgs false
namespace Verif.Transition
open Verif.Color

/-! ## Selecting -/

/-- `TrHelper2`, transitions/random.h:11-57: the list of transitions, split in two again and again -/
inductive H where
  | one (t : Tr)
  | two (a b : H)

/-- transitions/random.h:18, 34 -/
def H.size : H → Nat
  | .one _ => 1
  | .two a b => a.size + b.size

/-- transitions/random.h:19, 36-39 -/
def H.done : H → Nat → Bool
  | .one t, _ => t.done
  | .two a b, n => if n < a.size then a.done n else b.done (n - a.size)

/-- transitions/random.h:20, 40-43 -/
def H.begin : H → Nat → H
  | .one t, _ => .one t.begin
  | .two a b, n => if n < a.size then .two (a.begin n) b else .two a (b.begin (n - a.size))

/-- transitions/random.h:21, 44-47 -/
def H.run : H → Nat → Env → H
  | .one t, _, e => .one (t.run e)
  | .two a b, n, e => if n < a.size then .two (a.run n e) b else .two a (b.run (n - a.size) e)

/-- transitions/random.h:22-25, 48-52 -/
def H.color : H → Nat → OD → OD → Nat → Option OD
  | .one t, _, c, d, led => t.color c d led
  | .two a b, n, c, d, led => if n < a.size then a.color n c d led else b.color (n - a.size) c d led

/-- the list the user wrote -/
def H.list : H → List Tr
  | .one t => [t]
  | .two a b => a.list ++ b.list

theorem H.length (h : H) : h.list.length = h.size := by
  induction h with
  | one t => rfl
  | two a b iha ihb => simp [H.list, H.size, iha, ihb]

theorem H.pos (h : H) : 0 < h.size := by
  induction h with
  | one t => exact Nat.one_pos
  | two a b iha ihb => simp only [H.size]; omega

theorem H.done_eq {h : H} {n : Nat} {t : Tr} (ht : h.list[n]? = some t) : h.done n = t.done := by
  induction h generalizing n with
  | one x =>
    cases n with
    | zero => simp [H.list] at ht; rw [H.done, ht]
    | succ n => simp [H.list] at ht
  | two a b iha ihb =>
    unfold H.done
    unfold H.list at ht
    split
    · rename_i hn
      rw [List.getElem?_append_left (by rw [H.length]; exact hn)] at ht
      exact iha ht
    · rename_i hn
      rw [List.getElem?_append_right (by rw [H.length]; omega), H.length] at ht
      exact ihb ht

theorem H.color_eq {h : H} {n : Nat} {t : Tr} (ht : h.list[n]? = some t) (c d : OD) (led : Nat) : h.color n c d led = t.color c d led := by
  induction h generalizing n with
  | one x =>
    cases n with
    | zero => simp [H.list] at ht; rw [H.color, ht]
    | succ n => simp [H.list] at ht
  | two a b iha ihb =>
    unfold H.color
    unfold H.list at ht
    split
    · rename_i hn
      rw [List.getElem?_append_left (by rw [H.length]; exact hn)] at ht
      exact iha ht
    · rename_i hn
      rw [List.getElem?_append_right (by rw [H.length]; omega), H.length] at ht
      exact ihb ht

theorem H.begin_list {h : H} {n : Nat} {t : Tr} (ht : h.list[n]? = some t) : (h.begin n).list = h.list.set n t.begin := by
  induction h generalizing n with
  | one x =>
    cases n with
    | zero => simp [H.list] at ht; simp [H.begin, H.list, ht]
    | succ n => simp [H.list] at ht
  | two a b iha ihb =>
    unfold H.begin
    simp only [H.list] at ht ⊢
    split
    · rename_i hn
      rw [List.getElem?_append_left (by rw [H.length]; exact hn)] at ht
      rw [H.list, iha ht, List.set_append_left _ _ (by rw [H.length]; exact hn)]
    · rename_i hn
      rw [List.getElem?_append_right (by rw [H.length]; omega), H.length] at ht
      rw [H.list, ihb ht, List.set_append_right _ _ (by rw [H.length]; omega), H.length]

theorem H.run_list {h : H} {n : Nat} {t : Tr} (ht : h.list[n]? = some t) (e : Env) : (h.run n e).list = h.list.set n (t.run e) := by
  induction h generalizing n with
  | one x =>
    cases n with
    | zero => simp [H.list] at ht; simp [H.run, H.list, ht]
    | succ n => simp [H.list] at ht
  | two a b iha ihb =>
    unfold H.run
    simp only [H.list] at ht ⊢
    split
    · rename_i hn
      rw [List.getElem?_append_left (by rw [H.length]; exact hn)] at ht
      rw [H.list, iha ht, List.set_append_left _ _ (by rw [H.length]; exact hn)]
    · rename_i hn
      rw [List.getElem?_append_right (by rw [H.length]; omega), H.length] at ht
      rw [H.list, ihb ht, List.set_append_right _ _ (by rw [H.length]; omega), H.length]

/-- `MOD`, common/math.h:31-34 -/
def mod32 (x : Int) (m : Nat) : Int := if x ≥ 0 then x.tmod m else m + (-((-x - 1).tmod m) - 1)

/-- how the next transition is selected -/
inductive How where
  /-- `TrSelect`, transitions/select.h:16-41 -/
  | select (f : Env → Int)
  /-- `TrSequence`, transitions/sequence.h:14-38 -/
  | sequence
  /-- `TrRandom`, transitions/random.h:74-88; `r` is what `random()` returns -/
  | random (r : Env → Nat)

/-- `TrHelper3` and its subclasses, transitions/random.h:59-72; `selected_` is `uint32_t` here -/
structure Sel where
  how : How
  h : H
  selected : Nat
  pending : Bool

/-- the next transition: transitions/select.h:25, sequence.h:22, random.h:80 -/
def Sel.next (s : Sel) (e : Env) : Nat :=
  match s.how with
  | .select f => (mod32 (f e) s.h.size).toNat
  | .sequence => (s.selected + 1) % s.h.size
  | .random r => r e % s.h.size

def Sel.begin (s : Sel) : Sel := { s with pending := true }

/-- `run` -/
def Sel.run (s : Sel) (e : Env) : Sel :=
  if s.pending then { s with selected := s.next e, h := (s.h.begin (s.next e)).run (s.next e) e, pending := false }
  else { s with h := s.h.run s.selected e }

/-- `done` (`TrRandom` has no `done` of its own) -/
def Sel.done (s : Sel) : Bool :=
  match s.how with
  | .random _ => s.h.done s.selected
  | _ => if s.pending then false else s.h.done s.selected

def Sel.color (s : Sel) (c d : OD) (led : Nat) : Option OD := s.h.color s.selected c d led

def Sel.frames (s : Sel) (fs : List Env) : Sel := fs.foldl Sel.run s

theorem mod32_eq (x : Int) {m : Nat} (hm : 0 < m) : mod32 x m = x % m := by
  unfold mod32
  split
  · rename_i h; exact Int.tmod_eq_emod_of_nonneg h
  · rename_i h
    rw [Int.tmod_eq_emod_of_nonneg (by omega)]
    have h1 := Int.emod_nonneg (-x - 1) (show (m : Int) ≠ 0 by omega)
    have h2 := Int.emod_lt_of_pos (-x - 1) (show (0 : Int) < m by omega)
    have h3 := Int.mul_ediv_add_emod (-x - 1) m
    generalize (-x - 1) % (m : Int) = r at *
    generalize (-x - 1) / (m : Int) = q at *
    have h4 : x = (m + (-r - 1)) + m * (-q - 1) := by
      rw [Int.mul_sub, Int.mul_neg, Int.mul_one]; omega
    rw [h4, Int.add_mul_emod_self_left, Int.emod_eq_of_lt (by omega) (by omega)]

theorem next_lt (s : Sel) (e : Env) : s.next e < s.h.size := by
  have hp := s.h.pos
  unfold Sel.next
  split
  · rw [mod32_eq _ hp]
    rename_i f _
    have h1 := Int.emod_nonneg (f e) (show (s.h.size : Int) ≠ 0 by omega)
    have h2 := Int.emod_lt_of_pos (f e) (show (0 : Int) < s.h.size by omega)
    omega
  · exact Nat.mod_lt _ hp
  · exact Nat.mod_lt _ hp

theorem sel_frames {t : Tr} : ∀ {fs : List Env} {s : Sel}, s.pending = false → s.h.list[s.selected]? = some t →
    (s.frames fs).pending = false ∧ (s.frames fs).selected = s.selected ∧ (s.frames fs).how = s.how ∧ (s.frames fs).h.list = s.h.list.set s.selected (t.frames fs)
  | [], s, hp, ht => by
    refine ⟨hp, rfl, rfl, ?_⟩
    show s.h.list = s.h.list.set s.selected t
    obtain ⟨h1, h2⟩ := List.getElem?_eq_some_iff.mp ht
    rw [← h2, List.set_getElem_self]
  | e :: fs, s, hp, ht => by
    have h1 : s.run e = { s with h := s.h.run s.selected e } := by unfold Sel.run; rw [hp]; rfl
    have h2 := H.run_list ht e
    have hlt : s.selected < s.h.list.length := (List.getElem?_eq_some_iff.mp ht).1
    have h3 : (s.run e).h.list[(s.run e).selected]? = some (t.run e) := by
      rw [h1]
      show (s.h.run s.selected e).list[s.selected]? = _
      rw [h2, List.getElem?_set_self hlt]
    obtain ⟨q1, q2, q3, q4⟩ := sel_frames (fs := fs) (s := s.run e) (by rw [h1]; exact hp) h3
    refine ⟨q1, q2.trans (by rw [h1]), q3.trans (by rw [h1]), ?_⟩
    show ((s.run e).frames fs).h.list = _
    rw [q4, h1]
    show (s.h.run s.selected e).list.set s.selected _ = _
    rw [h2, List.set_set]
    rfl

/-- **C68** (selection).  From the frame after `begin` on, exactly one transition of the list is begun and run, and its
colour and its end are the ones shown; all others are left alone.  `TrSelect` takes the one whose number is the function's
value at that frame modulo the number of transitions (also for negative values), `TrSequence` the one after the previous
one, wrapping around. -/
theorem C68_select (s : Sel) (e : Env) (fs : List Env) :
    ∃ j t, j < s.h.list.length ∧ s.h.list[j]? = some t ∧
      (∀ f, s.how = .select f → (j : Int) = f e % s.h.list.length) ∧
      (s.how = .sequence → j = (s.selected + 1) % s.h.list.length) ∧
      let s' := s.begin.frames (e :: fs)
      s'.selected = j ∧ s'.how = s.how ∧ s'.h.list = s.h.list.set j (t.begin.frames (e :: fs)) ∧
      s'.done = (t.begin.frames (e :: fs)).done ∧ ∀ c d led, s'.color c d led = (t.begin.frames (e :: fs)).color c d led := by
  have hj := next_lt s e
  have hp := s.h.pos
  rw [← H.length] at hj
  obtain ⟨t, ht⟩ : ∃ t, s.h.list[s.next e]? = some t := ⟨_, List.getElem?_eq_getElem hj⟩
  have h1 : s.begin.run e = { s with selected := s.next e, h := (s.h.begin (s.next e)).run (s.next e) e, pending := false } := by
    unfold Sel.begin Sel.run; rfl
  have h2 : (s.h.begin (s.next e)).list[s.next e]? = some t.begin := by
    rw [H.begin_list ht, List.getElem?_set_self hj]
  have h3 : ((s.h.begin (s.next e)).run (s.next e) e).list = s.h.list.set (s.next e) (t.begin.run e) := by
    rw [H.run_list h2 e, H.begin_list ht, List.set_set]
  have h4 : (s.begin.run e).h.list[(s.begin.run e).selected]? = some (t.begin.run e) := by
    rw [h1]
    show ((s.h.begin (s.next e)).run (s.next e) e).list[s.next e]? = _
    rw [h3, List.getElem?_set_self hj]
  obtain ⟨q1, q2, q3, q4⟩ := sel_frames (fs := fs) (s := s.begin.run e) (by rw [h1]) h4
  have q5 : (s.begin.frames (e :: fs)).h.list = s.h.list.set (s.next e) (t.begin.frames (e :: fs)) := by
    show ((s.begin.run e).frames fs).h.list = _
    rw [q4, h1]
    show ((s.h.begin (s.next e)).run (s.next e) e).list.set (s.next e) _ = _
    rw [h3, List.set_set]
    rfl
  have q2 : (s.begin.frames (e :: fs)).selected = s.next e := by
    show ((s.begin.run e).frames fs).selected = _
    rw [q2, h1]
  have q6 : (s.begin.frames (e :: fs)).h.list[(s.begin.frames (e :: fs)).selected]? = some (t.begin.frames (e :: fs)) := by
    rw [q2, q5, List.getElem?_set_self hj]
  refine ⟨s.next e, t, hj, ht, ?_, ?_, q2, ?_, q5, ?_, fun c d led => H.color_eq q6 c d led⟩
  · intro f hf
    unfold Sel.next
    rw [hf]
    show (((mod32 (f e) s.h.size).toNat : Nat) : Int) = _
    rw [mod32_eq _ hp, H.length]
    have h1 := Int.emod_nonneg (f e) (show (s.h.size : Int) ≠ 0 by omega)
    omega
  · intro hf
    unfold Sel.next
    rw [hf, H.length]
  · show ((s.begin.run e).frames fs).how = _
    rw [q3, h1]
  · have hd : (s.begin.frames (e :: fs)).h.done (s.begin.frames (e :: fs)).selected = (t.begin.frames (e :: fs)).done := H.done_eq q6
    have q1 : (s.begin.frames (e :: fs)).pending = false := q1
    rw [← hd]
    unfold Sel.done
    split
    · rfl
    · rw [q1]; rfl

/-- `TrSequence`: begun again and again, each time for one or more frames -/
def Sel.rounds (s : Sel) (rs : List (Env × List Env)) : Sel := rs.foldl (fun s r => s.begin.frames (r.1 :: r.2)) s

/-- **C68** (`TrSequence`).  The transitions are taken in turn: with `n` transitions in the list, the `k`-th time the one `k` places
after the first one is used, counted around. -/
theorem C68_sequence (s : Sel) (hs : s.how = .sequence) (rs : List (Env × List Env)) (h : rs ≠ []) :
    (s.rounds rs).selected = (s.selected + rs.length) % s.h.list.length ∧ (s.rounds rs).how = .sequence ∧ (s.rounds rs).h.list.length = s.h.list.length := by
  induction rs generalizing s with
  | nil => exact absurd rfl h
  | cons r rs ih =>
    obtain ⟨j, t, h1, h2, _, h3, h4, h5, h6, _⟩ := C68_select s r.1 r.2
    have hj := h3 hs
    have hlen : (s.begin.frames (r.1 :: r.2)).h.list.length = s.h.list.length := by rw [h6, List.length_set]
    by_cases hz : rs = []
    · subst hz
      refine ⟨?_, by show (s.begin.frames (r.1 :: r.2)).how = _; rw [h5, hs], hlen⟩
      show (s.begin.frames (r.1 :: r.2)).selected = _
      rw [h4, hj]; rfl
    · obtain ⟨q1, q2, q3⟩ := ih (s.begin.frames (r.1 :: r.2)) (by rw [h5, hs]) hz
      rw [hlen, h4, hj] at q1
      refine ⟨?_, q2, by rw [← hlen]; exact q3⟩
      show ((s.begin.frames (r.1 :: r.2)).rounds rs).selected = _
      rw [q1, Nat.mod_add_mod, List.length_cons]
      congr 1; omega

/-- A `TrSequence` starts with its second transition (its number starts at 0 at best, it is not initialised). -/
theorem C68_counterexample : (Sel.begin ⟨.sequence, .two (.one (ofMs .fade 10)) (.one (ofMs .wipe 10)), 0, false⟩ |>.run (at_ 0)).selected = 1 := by decide +kernel

example : (Sel.rounds ⟨.sequence, .two (.one (ofMs .fade 10)) (.two (.one (ofMs .wipe 10)) (.one (ofMs .delay 5))), 0, false⟩ [(at_ 0, [at_ 4]), (at_ 50, []), (at_ 70, []), (at_ 80, [])]).selected = 1 := by decide +kernel

/-! ## Layers -/

/-- `TransitionEffectL`, styles/transition_effect.h:17-51, `TransitionPulseL`, styles/transition_pulse.h:15-48, and
`TransitionHelper`, transitions/base.h:106-130: a transition that runs from time to time -/
structure Lay where
  on : Bool
  tr : Tr

/-- `run`, styles/transition_effect.h:20-36; `hit` is true if the effect was detected (the pulse fired, `begin` was called) -/
def Lay.run (s : Lay) (e : Env) (hit : Bool) : Lay :=
  let s := if hit then ⟨true, s.tr.begin⟩ else s
  if s.on then ⟨!(s.tr.run e).done, s.tr.run e⟩ else s

/-- `getColor`, styles/transition_effect.h:43-50; `c` is the transparent colour -/
def Lay.color (s : Lay) (c : OD) (led : Nat) : Option OD := if s.on then s.tr.color c c led else some c

def Lay.frames (s : Lay) (fs : List (Env × Bool)) : Lay := fs.foldl (fun s f => s.run f.1 f.2) s

theorem lay_quiet : ∀ {fs : List Env} {s : Lay}, s.on = true → (s.tr.done = false) →
    let s' := s.frames (fs.map (fun e => (e, false)))
    (s'.on = true ∧ s'.tr = s.tr.frames fs ∧ ∀ p q, fs = p ++ q → (s.tr.frames p).done = false) ∨
    (s'.on = false ∧ ∃ p q, fs = p ++ q ∧ (s.tr.frames p).done = true)
  | [], s, h1, h2 => Or.inl ⟨h1, rfl, fun p q h => by
      have := List.append_eq_nil_iff.mp h.symm
      rw [this.1]; exact h2⟩
  | e :: fs, s, h1, h2 => by
    have hr : s.run e false = ⟨!(s.tr.run e).done, s.tr.run e⟩ := by unfold Lay.run; simp [h1]
    cases hd : (s.tr.run e).done with
    | true =>
      right
      refine ⟨?_, [e], fs, rfl, hd⟩
      show ((s.run e false).frames _).on = false
      rw [hr, hd]
      have : ∀ (gs : List Env) (t : Tr), (Lay.frames ⟨!true, t⟩ (gs.map (fun e => (e, false)))).on = false := by
        intro gs
        induction gs with
        | nil => intro t; rfl
        | cons g gs ih => intro t; exact ih t
      exact this fs _
    | false =>
      rcases lay_quiet (fs := fs) (s := s.run e false) (by rw [hr, hd]; rfl) (by rw [hr]; exact hd) with ⟨q1, q2, q3⟩ | ⟨q1, p, q, q2, q3⟩
      · left
        refine ⟨q1, q2.trans (by rw [hr]; rfl), ?_⟩
        intro p q hpq
        cases p with
        | nil => exact h2
        | cons y p =>
          simp only [List.cons_append, List.cons.injEq] at hpq
          obtain ⟨rfl, hpq⟩ := hpq
          have := q3 p q hpq
          rw [hr] at this; exact this
      · right
        exact ⟨q1, e :: p, q, by rw [q2]; rfl, by rw [hr] at q3; exact q3⟩

/-- **C69** (layers).  After an effect (and no other one since) a layer shows what its transition, begun at the frame of the effect,
shows at this frame, unless the transition has been done at a frame since; then it is transparent, until the next effect.
What happened before the effect does not matter, even if a transition was under way. -/
theorem C69_layer (s : Lay) (e : Env) (fs : List Env) (c : OD) (led : Nat) :
    let s' := (s.run e true).frames (fs.map (fun e => (e, false)))
    ((∀ p q, e :: fs = p ++ q → p ≠ [] → (s.tr.begin.frames p).done = false) → s'.color c led = (s.tr.begin.frames (e :: fs)).color c c led) ∧
    ((∃ p q, e :: fs = p ++ q ∧ p ≠ [] ∧ (s.tr.begin.frames p).done = true) → s'.color c led = some c) := by
  have hr : s.run e true = ⟨!(s.tr.begin.run e).done, s.tr.begin.run e⟩ := by unfold Lay.run; simp
  simp only []
  cases hd : (s.tr.begin.run e).done with
  | true =>
    have hoff : ((s.run e true).frames (fs.map (fun e => (e, false)))).on = false := by
      rw [hr, hd]
      have : ∀ (gs : List Env) (t : Tr), (Lay.frames ⟨!true, t⟩ (gs.map (fun e => (e, false)))).on = false := by
        intro gs
        induction gs with
        | nil => intro t; rfl
        | cons g gs ih => intro t; exact ih t
      exact this fs _
    refine ⟨fun h => ?_, fun _ => by unfold Lay.color; rw [hoff]; rfl⟩
    have := h [e] fs rfl (by simp)
    exact absurd (hd.symm.trans this) (by simp)
  | false =>
    rcases lay_quiet (fs := fs) (s := s.run e true) (by rw [hr, hd]; rfl) (by rw [hr]; exact hd) with ⟨q1, q2, q3⟩ | ⟨q1, p, q, q2, q3⟩
    · refine ⟨fun _ => ?_, fun ⟨p, q, h1, h2, h3⟩ => ?_⟩
      · unfold Lay.color
        rw [q1, q2, hr]; rfl
      · cases p with
        | nil => exact absurd rfl h2
        | cons y p =>
          simp only [List.cons_append, List.cons.injEq] at h1
          obtain ⟨rfl, h1⟩ := h1
          have := q3 p q h1
          rw [hr] at this
          exact absurd (h3.symm.trans this) (by simp)
    · refine ⟨fun h => ?_, fun _ => by unfold Lay.color; rw [q1]; rfl⟩
      have := h (e :: p) q (by rw [q2]; rfl) (by simp)
      rw [hr] at q3
      exact absurd (q3.symm.trans this) (by simp)

/-- **C69** (no effect): without an effect a layer that is transparent stays transparent -/
theorem C69_idle (s : Lay) (hs : s.on = false) (fs : List Env) (c : OD) (led : Nat) : (s.frames (fs.map (fun e => (e, false)))).color c led = some c := by
  have : ∀ (gs : List Env) (t : Tr), (Lay.frames ⟨false, t⟩ (gs.map (fun e => (e, false)))).on = false := by
    intro gs
    induction gs with
    | nil => intro t; rfl
    | cons g gs ih => intro t; exact ih t
  unfold Lay.color
  obtain ⟨o, t⟩ := s
  have hs : o = false := hs
  subst hs
  rw [this]; rfl

example : ((Lay.run ⟨false, ofMs (.blink 2 (fun _ => 16384)) 100⟩ (at_ 5) true).frames ([at_ 20].map (fun e => (e, false)))).on = true ∧
    ((Lay.run ⟨false, ofMs (.blink 2 (fun _ => 16384)) 100⟩ (at_ 5) true).frames ([at_ 20, at_ 110].map (fun e => (e, false)))).on = false := by decide +kernel

end Verif.Transition
