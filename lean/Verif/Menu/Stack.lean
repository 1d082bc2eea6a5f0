/-
  The mode stack: which mode (prop, menu, sub-menu, setting) gets the buttons
  (modes/mode.h, props/prop_base.h:74, 1121, 1155-1172, 1238, 1747-1751).

  Modes are statically allocated objects (`getPtr<MODE>()`), here named by
  numbers.  `mode_activate` may itself push or pop (color_change_modes.h:45-66,
  preset_modes.h:29-45, style_option_modes.h:88-94); the activation is the last
  action of `pushMode`/`popMode`, and the code pops last too, so nested calls are
  the same as calls one after the other: a history is a flat list.
-/
namespace Verif.Menu.Stack

/-! ## Model -/

/-- Callbacks received by a mode: `mode_activate(false)`, `mode_activate(true)`,
    `mode_deactivate()` (mode.h:7-8). -/
inductive Ev
  | enter (m : Nat) | back (m : Nat) | leave (m : Nat)
deriving DecidableEq, Repr

/-- `current_mode` (mode.h:19) and `previous_` of every mode (mode.h:16); `none` =
    never set. -/
structure St where
  cur : Nat
  prev : Nat → Option Nat
  log : List Ev

inductive Op
  /-- `pushMode<m>()` -/
  | push (m : Nat)
  /-- `popMode()` -/
  | pop
  /-- `current_mode = previous_` at the start of `ColorChangeMode::mode_activate`
      (color_change_modes.h:46) -/
  | pass
deriving DecidableEq, Repr

/-- `pushMode` (mode.h:21-28). -/
def push (m : Nat) (s : St) : St :=
  { cur := m
    prev := fun x => if x = m then some s.cur else s.prev x
    log := s.log ++ [.enter m] }

/-- `popMode` (mode.h:30-35); `none`: calls through a pointer never set. -/
def pop (s : St) : Option St :=
  match s.prev s.cur with
  | none => none
  | some p => some { s with cur := p, log := s.log ++ [.leave s.cur, .back p] }

/-- color_change_modes.h:46. -/
def pass (s : St) : Option St :=
  match s.prev s.cur with
  | none => none
  | some p => some { s with cur := p }

def step (s : St) : Op → Option St
  | .push m => some (push m s)
  | .pop => pop s
  | .pass => pass s

def run : St → List Op → Option St
  | s, [] => some s
  | s, o :: os => (step s o).bind fun t => run t os

/-- The prop becomes the current mode (prop_base.h:74); its `previous_` is never
    set.  The other modes' pointers hold whatever earlier visits left there. -/
def boot (base : Nat) (old : Nat → Option Nat) : St :=
  { cur := base, prev := fun x => if x = base then none else old x, log := [] }

/-! ## Specification: a stack -/

/-- The stack of modes, innermost first. -/
def aStep : List Nat → Op → Option (List Nat)
  | st, .push m => some (m :: st)
  | _ :: b :: st, .pop => some (b :: st)
  | _ :: b :: st, .pass => some (b :: st)
  | _, _ => none

def aRun : List Nat → List Op → Option (List Nat)
  | st, [] => some st
  | st, o :: os => (aStep st o).bind fun t => aRun t os

/-- No mode is entered while it is already open. -/
def Fresh : List Nat → List Op → Prop
  | _, [] => True
  | st, .push m :: os => m ∉ st ∧ Fresh (m :: st) os
  | _ :: b :: st, _ :: os => Fresh (b :: st) os
  | _, _ :: _ => True

/-- Modes only open modes further down the menu hierarchy. -/
def Hier (rank : Nat → Nat) : List Nat → List Op → Prop
  | _, [] => True
  | a :: st, .push m :: os => rank m < rank a ∧ Hier rank (m :: a :: st) os
  | _ :: b :: st, _ :: os => Hier rank (b :: st) os
  | _, _ :: _ => True

/-- Histories that leave everything they enter. -/
inductive Balanced : List Op → Prop
  | nil : Balanced []
  | visit {m : Nat} {w v : List Op} : Balanced w → Balanced v →
      Balanced (.push m :: (w ++ .pop :: v))

/-- The machine's pointers are the stack. -/
def Chain (s : St) : List Nat → Prop
  | [] => False
  | [a] => s.prev a = none
  | a :: b :: st => s.prev a = some b ∧ Chain s (b :: st)

def Rep (s : St) (st : List Nat) : Prop :=
  st.head? = some s.cur ∧ st.Nodup ∧ Chain s st

/-! ## Lemmas -/

theorem chain_congr {s t : St} : ∀ {st : List Nat}, (∀ x ∈ st, t.prev x = s.prev x) →
    Chain s st → Chain t st
  | [], _, h => h
  | [a], hp, h => by
      simp only [Chain] at h ⊢
      rw [hp a (by simp)]; exact h
  | a :: b :: st, hp, h => by
      simp only [Chain] at h ⊢
      exact ⟨by rw [hp a (by simp)]; exact h.1,
        chain_congr (fun x hx => hp x (List.mem_cons_of_mem _ hx)) h.2⟩

theorem rep_push {s : St} {st : List Nat} (m : Nat) (hm : m ∉ st) (h : Rep s st) :
    Rep (push m s) (m :: st) := by
  obtain ⟨h1, h2, h3⟩ := h
  refine ⟨rfl, List.nodup_cons.mpr ⟨hm, h2⟩, ?_⟩
  cases st with
  | nil => simp at h1
  | cons a st =>
    simp at h1
    subst h1
    refine ⟨by simp [push], ?_⟩
    apply chain_congr (s := s) _ h3
    intro x hx
    have : x ≠ m := by intro e; subst e; exact hm hx
    simp [push, this]

theorem rep_cur {s : St} {a : Nat} {st : List Nat} (h : Rep s (a :: st)) : s.cur = a := by
  have := h.1; simp at this; exact this.symm

theorem rep_prev {s : St} {a b : Nat} {st : List Nat} (h : Rep s (a :: b :: st)) :
    s.prev s.cur = some b := by
  rw [rep_cur h]; exact h.2.2.1

theorem rep_pop {s : St} {a b : Nat} {st : List Nat} (h : Rep s (a :: b :: st)) :
    ∃ t, pop s = some t ∧ Rep t (b :: st) ∧ t.log = s.log ++ [.leave a, .back b] := by
  have hp := rep_prev h
  have hc := rep_cur h
  refine ⟨{ s with cur := b, log := s.log ++ [.leave s.cur, .back b] },
    by unfold pop; rw [hp], ?_, by simp [hc]⟩
  exact ⟨rfl, (List.nodup_cons.mp h.2.1).2, chain_congr (s := s) (fun _ _ => rfl) h.2.2.2⟩

theorem rep_pass {s : St} {a b : Nat} {st : List Nat} (h : Rep s (a :: b :: st)) :
    ∃ t, pass s = some t ∧ Rep t (b :: st) ∧ t.log = s.log := by
  have hp := rep_prev h
  refine ⟨{ s with cur := b }, by unfold pass; rw [hp], ?_, rfl⟩
  exact ⟨rfl, (List.nodup_cons.mp h.2.1).2, chain_congr (s := s) (fun _ _ => rfl) h.2.2.2⟩

theorem rep_step_none {s : St} {a : Nat} (h : Rep s [a]) : pop s = none ∧ pass s = none := by
  have hp : s.prev s.cur = none := by rw [rep_cur h]; exact h.2.2
  constructor
  · unfold pop; rw [hp]
  · unfold pass; rw [hp]

theorem rep_boot (base : Nat) (old : Nat → Option Nat) : Rep (boot base old) [base] := by
  refine ⟨rfl, by simp, ?_⟩
  simp [Chain, boot]

/-- Both machines do the same. -/
theorem sim : ∀ (ops : List Op) (s : St) (st : List Nat), Rep s st → Fresh st ops →
    (∀ st', aRun st ops = some st' → ∃ t, run s ops = some t ∧ Rep t st') ∧
    (aRun st ops = none → run s ops = none)
  | [], s, st, h, _ => ⟨fun st' e => by simp [aRun] at e; subst e; exact ⟨s, rfl, h⟩,
      fun e => by simp [aRun] at e⟩
  | .push m :: os, s, st, h, hf => by
      have hf' : m ∉ st ∧ Fresh (m :: st) os := by
        match st, hf with
        | [], hf => exact hf
        | [a], hf => exact hf
        | _ :: _ :: _, hf => exact hf
      have hr := rep_push m hf'.1 h
      have := sim os (push m s) (m :: st) hr hf'.2
      exact this
  | .pop :: os, s, [], h, _ => by simp [Rep] at h
  | .pop :: os, s, [a], h, _ => by
      constructor
      · intro st' e; simp [aRun, aStep] at e
      · intro _; simp only [run, step]; rw [(rep_step_none h).1]; rfl
  | .pop :: os, s, a :: b :: st, h, hf => by
      obtain ⟨t, ht, hr, _⟩ := rep_pop h
      have := sim os t (b :: st) hr hf
      simp only [run, step, ht, aRun, aStep, Option.bind_some]
      exact this
  | .pass :: os, s, [], h, _ => by simp [Rep] at h
  | .pass :: os, s, [a], h, _ => by
      constructor
      · intro st' e; simp [aRun, aStep] at e
      · intro _; simp only [run, step]; rw [(rep_step_none h).2]; rfl
  | .pass :: os, s, a :: b :: st, h, hf => by
      obtain ⟨t, ht, hr, _⟩ := rep_pass h
      have := sim os t (b :: st) hr hf
      simp only [run, step, ht, aRun, aStep, Option.bind_some]
      exact this

/-- Ranks increase towards the outside. -/
def Sorted (rank : Nat → Nat) : List Nat → Prop
  | [] => True
  | [_] => True
  | a :: b :: st => rank a < rank b ∧ Sorted rank (b :: st)

theorem sorted_lt {rank : Nat → Nat} : ∀ {st : List Nat} {a : Nat}, Sorted rank (a :: st) →
    ∀ x ∈ st, rank a < rank x
  | [], _, _, x, hx => by simp at hx
  | b :: st, a, h, x, hx => by
      simp only [Sorted] at h
      rcases List.mem_cons.mp hx with e | e
      · subst e; exact h.1
      · have := sorted_lt h.2 x e; omega

theorem hier_fresh (rank : Nat → Nat) : ∀ (ops : List Op) (st : List Nat), st ≠ [] →
    Sorted rank st → Hier rank st ops → Fresh st ops
  | [], _, _, _, _ => by simp [Fresh]
  | _, [], h, _, _ => absurd rfl h
  | .push m :: os, a :: st, _, hs, hh => by
      simp only [Hier] at hh
      have hs' : Sorted rank (m :: a :: st) := ⟨hh.1, hs⟩
      have hm : m ∉ a :: st := fun hm => by
        have := sorted_lt hs' m hm; omega
      have := hier_fresh rank os (m :: a :: st) (by simp) hs' hh.2
      cases st <;> exact ⟨hm, this⟩
  | .pop :: os, [a], _, _, _ => by simp [Fresh]
  | .pop :: os, a :: b :: st, _, hs, hh =>
      hier_fresh rank os (b :: st) (by simp) hs.2 hh
  | .pass :: os, [a], _, _, _ => by simp [Fresh]
  | .pass :: os, a :: b :: st, _, hs, hh =>
      hier_fresh rank os (b :: st) (by simp) hs.2 hh

theorem aRun_append (a b : List Op) : ∀ st, aRun st (a ++ b) = (aRun st a).bind fun t => aRun t b := by
  induction a with
  | nil => intro st; rfl
  | cons o os ih =>
    intro st
    simp only [List.cons_append, aRun]
    cases aStep st o with
    | none => rfl
    | some t => simpa using ih t

theorem aRun_balanced {w : List Op} (h : Balanced w) : ∀ st, st ≠ [] → aRun st w = some st := by
  induction h with
  | nil => intro st _; rfl
  | @visit m w v _ _ ih1 ih2 =>
    intro st hst
    simp only [aRun, aStep, Option.bind_some]
    rw [aRun_append, ih1 (m :: st) (by simp), Option.bind_some]
    cases st with
    | nil => exact absurd rfl hst
    | cons b st =>
      simp only [aRun, aStep, Option.bind_some]
      exact ih2 _ (by simp)

/-! ## C56 -/

/-- C56: whatever the history of entering and leaving modes, of any length and
    depth, as long as no mode is entered while open, the mode that gets the
    buttons is the innermost of the modes entered and not yet left, and leaving
    it gives control back to the one below.  Leaving the outermost mode is the
    only way to go wrong. -/
theorem C56_stack (base : Nat) (old : Nat → Option Nat) (ops : List Op)
    (hf : Fresh [base] ops) :
    (run (boot base old) ops).map St.cur = (aRun [base] ops).bind List.head? := by
  obtain ⟨h1, h2⟩ := sim ops (boot base old) [base] (rep_boot base old) hf
  cases h : aRun [base] ops with
  | none => rw [h2 h]; rfl
  | some st =>
    obtain ⟨t, ht, hr⟩ := h1 st h
    rw [ht]
    exact hr.1.symm

/-- C56: the same for any menu structure without cycles, where modes only open
    modes further down. -/
theorem C56_hierarchy (rank : Nat → Nat) (base : Nat) (old : Nat → Option Nat) (ops : List Op)
    (hh : Hier rank [base] ops) :
    (run (boot base old) ops).map St.cur = (aRun [base] ops).bind List.head? :=
  C56_stack base old ops (hier_fresh rank ops [base] (by simp) (by simp [Sorted]) hh)

/-- C56: a visit to any nest of sub-menus ends in the mode where it started,
    wherever that was. -/
theorem C56_return (base : Nat) (old : Nat → Option Nat) (before visit : List Op)
    (hb : Balanced visit) (hf : Fresh [base] (before ++ visit)) (s : St)
    (hs : run (boot base old) before = some s) :
    (run (boot base old) (before ++ visit)).map St.cur = some s.cur := by
  have hpre : ∀ (a b : List Op) (st : List Nat), Fresh st (a ++ b) → Fresh st a := by
    intro a b
    induction a with
    | nil => intro st _; simp [Fresh]
    | cons o os ih =>
      intro st h
      cases o with
      | push m =>
        match st, h with
        | [], h => exact ⟨h.1, ih _ h.2⟩
        | [a], h => exact ⟨h.1, ih _ h.2⟩
        | _ :: _ :: _, h => exact ⟨h.1, ih _ h.2⟩
      | pop =>
        match st, h with
        | [], _ => simp [Fresh]
        | [a], _ => simp [Fresh]
        | _ :: _ :: _, h => exact ih _ h
      | pass =>
        match st, h with
        | [], _ => simp [Fresh]
        | [a], _ => simp [Fresh]
        | _ :: _ :: _, h => exact ih _ h
  have h1 := C56_stack base old before (hpre _ _ _ hf)
  rw [C56_stack base old _ hf, aRun_append]
  rw [hs] at h1
  cases h : aRun [base] before with
  | none => rw [h] at h1; simp at h1
  | some st =>
    rw [h] at h1
    simp only [Option.map_some, Option.bind_some] at h1 ⊢
    rw [aRun_balanced hb st (by intro e; subst e; simp at h1), h1]
    rfl

-- A top menu (5) with a settings menu (3) with a volume setting (1): visited and
-- left.
example : Balanced [.push 5, .push 3, .push 1, .pop, .pop, .push 3, .pop, .pop] :=
  .visit (w := [.push 3, .push 1, .pop, .pop, .push 3, .pop])
    (.visit (w := [.push 1, .pop]) (.visit .nil .nil) (.visit .nil .nil)) .nil
example : Hier id [9] [.push 5, .push 3, .push 1, .pop, .pop, .push 3, .pop, .pop] := by
  simp [Hier]
example : (run (boot 9 fun _ => some 77) [.push 5, .push 3, .push 1, .pop]).map St.cur = some 3 := by
  decide

/-! ### Callbacks -/

/-- The callbacks concerning mode `m`. -/
def only (m : Nat) (l : List Ev) : List Ev :=
  l.filter fun e => e = .enter m ∨ e = .back m ∨ e = .leave m

/-- `mode_activate(false)`, then any number of `mode_activate(true)`, then
    `mode_deactivate()`, and so on; the Boolean tells whether the mode is open at
    the end (`some true` also at the start for the outermost mode). -/
def Proper (opened : Bool) : List Ev → Option Bool
  | [] => some opened
  | .enter _ :: l => if opened then none else Proper true l
  | .back _ :: l => if opened then Proper true l else none
  | .leave _ :: l => if opened then Proper false l else none

theorem proper_append (a b : List Ev) : ∀ o, Proper o (a ++ b) = (Proper o a).bind fun p => Proper p b := by
  induction a with
  | nil => intro o; rfl
  | cons e l ih =>
    intro o
    cases e <;> cases o <;> simp [Proper, ih]

theorem callbacks_inv (base : Nat) : ∀ (ops : List Op) (s t : St) (st : List Nat), Rep s st →
    Fresh st ops → Op.pass ∉ ops → run s ops = some t →
    (∀ m, Proper (m == base) (only m s.log) = some (decide (m ∈ st))) →
    ∃ st', Rep t st' ∧ ∀ m, Proper (m == base) (only m t.log) = some (decide (m ∈ st'))
  | [], s, t, st, h, _, _, hr, hl => by
      simp [run] at hr; subst hr; exact ⟨st, h, hl⟩
  | .push m :: os, s, t, st, h, hf, hp, hr, hl => by
      have hf' : m ∉ st ∧ Fresh (m :: st) os := by
        match st, hf with
        | [], hf => exact hf
        | [a], hf => exact hf
        | _ :: _ :: _, hf => exact hf
      refine callbacks_inv base os (push m s) t (m :: st) (rep_push m hf'.1 h) hf'.2
        (fun hx => hp (List.mem_cons_of_mem _ hx)) hr (fun x => ?_)
      have e : only x (push m s).log = only x s.log ++ only x [.enter m] := by
        simp [only, push]
      rw [e, proper_append, hl x, Option.bind_some]
      by_cases hx : x = m
      · subst hx
        simp [only, Proper, hf'.1]
      · have h2 : only x [Ev.enter m] = [] := by
          have : ¬ m = x := fun h => hx h.symm
          simp [only, this]
        rw [h2]
        simp [Proper, hx]
  | .pop :: os, s, t, [], h, _, _, _, _ => by simp [Rep] at h
  | .pop :: os, s, t, [a], h, _, _, hr, _ => by
      simp only [run, step] at hr
      rw [(rep_step_none h).1] at hr
      simp at hr
  | .pop :: os, s, t, a :: b :: st, h, hf, hp, hr, hl => by
      obtain ⟨u, hu, hru, hul⟩ := rep_pop h
      simp only [run, step, hu, Option.bind_some] at hr
      refine callbacks_inv base os u t (b :: st) hru hf
        (fun hx => hp (List.mem_cons_of_mem _ hx)) hr (fun x => ?_)
      have hab : a ≠ b := by
        have := (List.nodup_cons.mp h.2.1).1
        intro e; subst e; simp at this
      have has : a ∉ st := fun hx => (List.nodup_cons.mp h.2.1).1 (List.mem_cons_of_mem _ hx)
      have e : only x u.log = only x s.log ++ only x [.leave a, .back b] := by
        rw [hul]; simp [only]
      rw [e, proper_append, hl x, Option.bind_some]
      by_cases hx : x = a
      · subst hx
        have h2 : only x [Ev.leave x, Ev.back b] = [.leave x] := by
          have : ¬ b = x := fun h => hab h.symm
          simp [only, this]
        rw [h2]
        simp [Proper, has, hab]
      · by_cases hxb : x = b
        · subst hxb
          have h2 : only x [Ev.leave a, Ev.back x] = [.back x] := by
            simp [only, hab]
          rw [h2]
          simp [Proper]
        · have h2 : only x [Ev.leave a, Ev.back b] = [] := by
            have h3 : ¬ a = x := fun h => hx h.symm
            have h4 : ¬ b = x := fun h => hxb h.symm
            simp [only, h3, h4]
          rw [h2]
          simp [Proper, hx]
  | .pass :: os, s, t, st, h, hf, hp, hr, hl => absurd (List.mem_cons_self) hp

/-- C56: every mode sees its callbacks in order — entered, any number of times
    returned to, left — and it has been entered and not left exactly when it is
    on the stack.  (Passing on, as the colour change mode does, is left out: that
    mode is entered and never told that it is left.) -/
theorem C56_callbacks (base : Nat) (old : Nat → Option Nat) (ops : List Op) (s : St)
    (hf : Fresh [base] ops) (hp : Op.pass ∉ ops) (hs : run (boot base old) ops = some s) (m : Nat) :
    Proper (m == base) (only m s.log) =
      some (decide (m ∈ (aRun [base] ops).getD [])) := by
  obtain ⟨st', hr, hl⟩ := callbacks_inv base ops (boot base old) s [base] (rep_boot base old)
    hf hp hs (fun x => by
      by_cases hx : x = base <;> simp [boot, only, Proper, hx])
  have hst : aRun [base] ops = some st' := by
    obtain ⟨h1, h2⟩ := sim ops (boot base old) [base] (rep_boot base old) hf
    cases h : aRun [base] ops with
    | none => rw [h2 h] at hs; simp at hs
    | some st'' =>
      obtain ⟨t, ht, hrt⟩ := h1 st'' h
      have : t = s := by rw [ht] at hs; simpa using hs
      subst this
      -- both stacks are read off the same pointers
      have uniq : ∀ (a b : List Nat), a.head? = b.head? → Chain t a → Chain t b → a = b := by
        intro a
        induction a with
        | nil => intro b _ h; simp [Chain] at h
        | cons x xs ih =>
          intro b hh ha hb
          cases b with
          | nil => simp [Chain] at hb
          | cons y ys =>
            simp at hh
            subst hh
            cases xs with
            | nil =>
              cases ys with
              | nil => rfl
              | cons z zs =>
                simp only [Chain] at ha hb
                rw [ha] at hb; simp at hb
            | cons x2 xs2 =>
              cases ys with
              | nil =>
                simp only [Chain] at ha hb
                rw [hb] at ha; simp at ha
              | cons z zs =>
                simp only [Chain] at ha hb
                have : x2 = z := by
                  have := ha.1.symm.trans hb.1; simpa using this
                subst this
                rw [ih (x2 :: zs) rfl ha.2 hb.2]
      rw [uniq st'' st' (by rw [hrt.1, hr.1]) hrt.2.2 hr.2.2]
  rw [hl m, hst]
  rfl

example : ((run (boot 9 fun _ => none) [.push 5, .push 3, .pop, .pop]).map fun s => only 5 s.log) =
    some [.enter 5, .back 5, .leave 5] := by decide

/-- A mode entered while it is the current one can never be left: leaving it, any
    number of times, ends in the mode itself.  (`EnterMenu` pushes without looking
    at the current mode, prop_base.h:1155-1157; `ToggleColorChangeMode` does look,
    1166-1172.) -/
theorem C56_twice_counterexample (s : St) (m : Nat) (h : s.cur = m) : ∀ n : Nat,
    (run s (.push m :: List.replicate n .pop)).map St.cur = some m := by
  have key : ∀ (n : Nat) (t : St), t.cur = m → t.prev m = some m →
      (run t (List.replicate n .pop)).map St.cur = some m := by
    intro n
    induction n with
    | zero => intro t hc _; simp [run, hc]
    | succ n ih =>
      intro t hc hp
      simp only [List.replicate_succ, run, step]
      have : pop t = some { t with cur := m, log := t.log ++ [.leave m, .back m] } := by
        unfold pop; rw [hc, hp]
      rw [this]
      exact ih _ rfl hp
  intro n
  simp only [run, step, Option.bind_some]
  exact key n (push m s) rfl (by simp [push, h])

example : ∃ s : St, s.cur = 5 ∧ s.prev 5 = some 9 :=
  ⟨push 5 (boot 9 fun _ => none), rfl, rfl⟩

end Verif.Menu.Stack
