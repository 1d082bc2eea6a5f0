/-!
# Time spent in each part (C149)

Model of common/scoped_cycle_counter.h: every scope counts the cycles that passed within it, less those counted by scopes within it, interrupts
included, in 32 bits that wrap.  Simplified: entering and leaving a scope takes no time, and the 64-bit totals are a list of what was added to them.
-/
namespace Verif.Common.Cycles

/-- what wraps, common/scoped_cycle_counter.h:6,35 -/
def M : Int := 4294967296

/-- what happens: cycles pass, a scope with total `d` is entered, the innermost is left -/
inductive Op
  | tick (n : Nat)
  | enter (d : Nat)
  | leave

/-- the cycle counter, `counted_cycles_`, the scopes entered with `dest_` and `cycles_`, innermost first, and what was added to totals;
common/scoped_cycle_counter.h:34-38 -/
structure S where
  clock : Int
  counted : Int
  stack : List (Nat × Int)
  log : List (Nat × Int)

/-- `getCycles`, common/scoped_cycle_counter.h:6-16; `esp` does not take away what was counted -/
def getCycles (esp : Bool) (s : S) : Int := if esp then s.clock else (s.clock - s.counted) % M

/-- the constructor, common/scoped_cycle_counter.h:17-24, and the destructor, :25-34 -/
def step (esp : Bool) (s : S) : Op → S
  | .tick n => { s with clock := (s.clock + n) % M }
  | .enter d => { s with stack := (d, getCycles esp s) :: s.stack }
  | .leave => match s.stack with
    | [] => s
    | (d, c) :: l =>
      let cycles := (getCycles esp s - c) % M
      { s with counted := (s.counted + cycles) % M, stack := l, log := (d, cycles) :: s.log }

/-- one after another -/
def run (esp : Bool) (ops : List Op) (s : S) : S := ops.foldl (step esp) s

/-! ## Specification: each cycle belongs to the innermost scope -/

/-- the scopes entered with the cycles that belong to each so far, what was added to totals, and the cycles that passed within any scope -/
structure A where
  stack : List (Nat × Nat)
  log : List (Nat × Int)
  inside : Int

/-- A cycle belongs to the innermost scope it passes in. No scope may have more of its own than 32 bits hold. -/
def astep (a : A) : Op → Option A
  | .tick n => match a.stack with
    | [] => some a
    | (d, o) :: l => some { a with stack := (d, o + n) :: l, inside := a.inside + n }
  | .enter d => some { a with stack := (d, 0) :: a.stack }
  | .leave => match a.stack with
    | [] => none
    | (d, o) :: l => if (o : Int) < M then some { a with stack := l, log := (d, o) :: a.log } else none

/-- one after another -/
def arun : List Op → A → Option A
  | [], a => some a
  | o :: l, a => (astep a o).bind (arun l)

/-- the sum of all added to totals -/
def total (l : List (Nat × Int)) : Int := (l.map (·.2)).sum

/-! ## Lemmas -/

/-- the start of each scope against the cycles that belong to it and those within -/
def Rel : Int → List (Nat × Int) → List (Nat × Nat) → Prop
  | _, [], [] => True
  | x, (d, c) :: l, (e, o) :: m => d = e ∧ (x - c - o) % M = 0 ∧ Rel (x - o) l m
  | _, _, _ => False

theorem rel_mod (x y : Int) (l : List (Nat × Int)) (m : List (Nat × Nat)) (h : Rel x l m) (hxy : (x - y) % M = 0) : Rel y l m := by
  induction l generalizing x y m with
  | nil => cases m with
    | nil => trivial
    | cons b m => exact h.elim
  | cons a l ih => cases m with
    | nil => exact h.elim
    | cons b m =>
      obtain ⟨d, c⟩ := a
      obtain ⟨e, o⟩ := b
      obtain ⟨h1, h2, h3⟩ := h
      refine ⟨h1, ?_, ih (x - o) (y - o) m h3 ?_⟩ <;> unfold M at * <;> omega

theorem step_rel (s : S) (a a' : A) (o : Op) (hr : Rel (s.clock - s.counted) s.stack a.stack) (hl : s.log = a.log) (h : astep a o = some a') :
    Rel ((step false s o).clock - (step false s o).counted) (step false s o).stack a'.stack ∧ (step false s o).log = a'.log := by
  obtain ⟨clock, counted, stack, log⟩ := s
  obtain ⟨astack, alog, inside⟩ := a
  dsimp only at hr hl
  subst hl
  cases o with
  | tick n =>
    cases astack with
    | nil =>
      cases h
      cases stack with
      | nil => exact ⟨trivial, rfl⟩
      | cons b l => exact hr.elim
    | cons b m =>
      obtain ⟨e, o⟩ := b
      cases h
      cases stack with
      | nil => exact hr.elim
      | cons b l =>
        obtain ⟨d, c⟩ := b
        obtain ⟨h1, h2, h3⟩ := hr
        refine ⟨⟨h1, ?_, rel_mod _ _ l m h3 ?_⟩, rfl⟩ <;> dsimp only [step] <;> unfold M at * <;> omega
  | enter d =>
    cases h
    refine ⟨⟨rfl, ?_, rel_mod _ _ stack astack hr ?_⟩, rfl⟩ <;> simp only [step, getCycles, Bool.false_eq_true, if_false] <;> unfold M at * <;> omega
  | leave =>
    cases astack with
    | nil => cases h
    | cons b m =>
      obtain ⟨e, o⟩ := b
      simp only [astep] at h
      by_cases ho : (o : Int) < M
      · rw [if_pos ho] at h
        cases h
        cases stack with
        | nil => exact hr.elim
        | cons b l =>
          obtain ⟨d, c⟩ := b
          obtain ⟨h1, h2, h3⟩ := hr
          subst h1
          have hc : ((clock - counted) % M - c) % M = o := by unfold M at *; omega
          simp only [step, getCycles, Bool.false_eq_true, if_false]
          rw [hc]
          refine ⟨rel_mod _ _ l m h3 ?_, rfl⟩
          unfold M at *; omega
      · rw [if_neg ho] at h; cases h

theorem run_rel (ops : List Op) (s : S) (a a' : A) (hr : Rel (s.clock - s.counted) s.stack a.stack) (hl : s.log = a.log) (h : arun ops a = some a') :
    Rel ((run false ops s).clock - (run false ops s).counted) (run false ops s).stack a'.stack ∧ (run false ops s).log = a'.log := by
  induction ops generalizing s a with
  | nil => cases h; exact ⟨hr, hl⟩
  | cons o ops ih =>
    simp only [arun] at h
    cases h1 : astep a o with
    | none => rw [h1] at h; cases h
    | some a1 =>
      rw [h1] at h
      obtain ⟨hr1, hl1⟩ := step_rel s a a1 o hr hl h1
      exact ih (step false s o) a1 hr1 hl1 h

/-- the cycles of the scopes not yet left -/
def pending (l : List (Nat × Nat)) : Int := (l.map fun p => (p.2 : Int)).sum

theorem astep_sum (a a' : A) (o : Op) (hs : total a.log + pending a.stack = a.inside) (h : astep a o = some a') :
    total a'.log + pending a'.stack = a'.inside := by
  obtain ⟨stack, log, inside⟩ := a
  cases o with
  | tick n =>
    cases stack with
    | nil => cases h; exact hs
    | cons b l =>
      obtain ⟨d, o⟩ := b
      cases h
      simp only [pending, List.map_cons, List.sum_cons] at hs ⊢
      omega
  | enter d =>
    cases h
    simp only [pending, List.map_cons, List.sum_cons] at hs ⊢
    omega
  | leave =>
    cases stack with
    | nil => cases h
    | cons b l =>
      obtain ⟨d, o⟩ := b
      simp only [astep] at h
      split at h
      · cases h
        simp only [pending, total, List.map_cons, List.sum_cons] at hs ⊢
        omega
      · cases h

theorem arun_sum (ops : List Op) (a a' : A) (hs : total a.log + pending a.stack = a.inside) (h : arun ops a = some a') :
    total a'.log + pending a'.stack = a'.inside := by
  induction ops generalizing a with
  | nil => cases h; exact hs
  | cons o ops ih =>
    simp only [arun] at h
    cases h1 : astep a o with
    | none => rw [h1] at h; cases h
    | some a1 => rw [h1] at h; exact ih a1 (astep_sum a a1 o hs h1) h

/-! ## Claims -/

/-- **C149.** However scopes are nested, whatever the counter stands at and however often it wraps, each scope adds to its total exactly the cycles that
passed in it and in no scope within it. -/
theorem C149_own (clock counted : Int) (ops : List Op) (a : A) (h : arun ops ⟨[], [], 0⟩ = some a) :
    (run false ops ⟨clock, counted, [], []⟩).log = a.log :=
  (run_rel ops ⟨clock, counted, [], []⟩ ⟨[], [], 0⟩ a trivial rfl h).2

/-- **C149.** No cycle is counted twice or lost: once all scopes are left, all that was added makes up the cycles that passed within any scope. -/
theorem C149_sum (clock counted : Int) (ops : List Op) (a : A) (h : arun ops ⟨[], [], 0⟩ = some a) (he : a.stack = []) :
    total (run false ops ⟨clock, counted, [], []⟩).log = a.inside := by
  rw [C149_own clock counted ops a h]
  have := arun_sum ops ⟨[], [], 0⟩ a (by simp [total, pending]) h
  rw [he] at this
  simpa [pending] using this

/-- **C149.** Counterexample: a scope with 2^32 cycles or more of its own loses them in lots of 2^32. -/
theorem C149_long_counterexample (clock counted : Int) (d n : Nat) :
    (run false [.enter d, .tick n, .leave] ⟨clock, counted, [], []⟩).log = [(d, (n : Int) % M)] := by
  simp only [run, List.foldl, step, getCycles, Bool.false_eq_true, if_false]
  congr 2
  unfold M; omega

/-- **C149.** Counterexample: on the ESP32 the cycles of a scope within another are counted for both. -/
theorem C149_esp_counterexample (clock counted : Int) (d e n : Nat) (hn : (n : Int) < M) :
    (run true [.enter d, .enter e, .tick n, .leave, .leave] ⟨clock, counted, [], []⟩).log = [(d, (n : Int)), (e, (n : Int))] := by
  simp only [run, List.foldl, step, getCycles, if_true]
  have : ((clock + n) % M - clock) % M = n := by unfold M at *; omega
  rw [this]

/-- The claims apply: a scope within a scope, with time before, within and after. -/
example : ∃ a, arun [.tick 9, .enter 0, .tick 5, .enter 1, .tick 7, .leave, .tick 3, .leave] ⟨[], [], 0⟩ = some a ∧ a.stack = [] ∧ a.log = [(0, 8), (1, 7)] :=
  ⟨⟨[], [(0, 8), (1, 7)], 15⟩, rfl, rfl, rfl⟩

end Verif.Common.Cycles
