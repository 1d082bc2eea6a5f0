/-!
# The FastLED blade (C145)

Model of the power and the refreshing of blades/fastled_blade.h.  Simplified: what the style draws is left out, except whether it allows the blade to be
disabled (all dark); the delays after power comes on are left out.
-/
namespace Verif.Blade.FastLed

/-- The members, blades/fastled_blade.h:155-161; `linked`: between `Activate` and `Deactivate`; `shows`: the times at which the pixels were sent, the
last first; `dim`: the number of times pixels were sent without power. -/
structure S where
  linked : Bool
  on : Bool
  powered : Bool
  allow : Bool
  last : Nat
  shows : List Nat
  dim : Nat

/-- What happens: the blade is plugged in or taken out, turned on or off, an effect comes, or the loop runs at time `m`, with a style that is or is not
all dark. -/
inductive Ev
  | activate
  | deactivate
  | turnOn
  | turnOff
  | effect
  | loop (m : Nat) (dark : Bool)

/-- `Power`, blades/fastled_blade.h:26-30 -/
def power (s : S) (b : Bool) : S := { s with powered := b, allow := false }

/-- `run` of the style with `allow_disable`, blades/fastled_blade.h:89-91 -/
def runStyle (s : S) (dark : Bool) : S := if dark && !s.on then { s with allow := true } else s

/-- `Loop`, blades/fastled_blade.h:137-153 -/
def loop (s : S) (m : Nat) (dark : Bool) : S :=
  if !s.powered then s
  else if m = s.last then s
  else
    let s1 := runStyle { s with last := m } dark
    let s2 := { s1 with shows := m :: s1.shows, dim := if s1.powered then s1.dim else s1.dim + 1 }
    if s2.allow then power s2 s2.on else s2

/-- `Activate` :51-65, `Deactivate` :67-73, `SB_On2` :97-102, `SB_Off2` :111-114, `SB_Effect2` :103-109; without `Link` no events come. -/
def step (s : S) : Ev → S
  | .activate => { power s true with linked := true }
  | .deactivate => { power s false with linked := false }
  | .turnOn => if s.linked then { power s true with on := true } else s
  | .turnOff => if s.linked then { s with on := false } else s
  | .effect => if s.linked && !s.powered then power s true else s
  | .loop m dark => if s.linked then loop s m dark else s

/-- The state after these events. -/
def run (s : S) (evs : List Ev) : S := evs.foldl step s

/-- as constructed, with `last_millis_` not initialised -/
def init (last : Nat) : S := ⟨false, false, false, false, last, [], 0⟩

/-- what holds at every point -/
def Inv (s : S) : Prop := (s.linked = true → s.on = true → s.powered = true) ∧ s.allow = false ∧ s.dim = 0 ∧ (s.linked = false → s.powered = false)

theorem loop_inv (s : S) (m : Nat) (dark : Bool) (h : Inv s) : Inv (loop s m dark) := by
  obtain ⟨l, o, p, a, t, sh, d⟩ := s
  obtain ⟨h1, h2, h3, h4⟩ := h
  dsimp only at h1 h2 h3 h4
  subst h2 h3
  unfold loop
  cases p with
  | false => exact ⟨h1, rfl, rfl, h4⟩
  | true =>
    by_cases hm : m = t
    · simp only [hm, Bool.not_true, Bool.false_eq_true, if_false, if_true]
      exact ⟨h1, rfl, rfl, h4⟩
    · simp only [hm, Bool.not_true, Bool.false_eq_true, if_false]
      cases o <;> cases dark <;> cases l <;> simp_all [runStyle, power, Inv]

theorem step_inv (s : S) (ev : Ev) (h : Inv s) : Inv (step s ev) := by
  cases ev with
  | loop m dark =>
    dsimp only [step]
    split
    · exact loop_inv s m dark h
    · exact h
  | activate => obtain ⟨h1, h2, h3, h4⟩ := h; exact ⟨fun _ _ => rfl, rfl, h3, (fun h => by (cases h))⟩
  | deactivate => obtain ⟨h1, h2, h3, h4⟩ := h; exact ⟨(fun h => by (cases h)), rfl, h3, fun _ => rfl⟩
  | turnOn =>
    dsimp only [step]
    split
    next hl => obtain ⟨h1, h2, h3, h4⟩ := h; exact ⟨fun _ _ => rfl, rfl, h3, fun h => absurd (hl.symm.trans h) (by simp)⟩
    · exact h
  | turnOff =>
    dsimp only [step]
    split
    · obtain ⟨h1, h2, h3, h4⟩ := h; exact ⟨(fun _ h => by (cases h)), h2, h3, h4⟩
    · exact h
  | effect =>
    dsimp only [step]
    split
    next hl =>
      obtain ⟨h1, h2, h3, h4⟩ := h
      simp at hl
      exact ⟨fun _ _ => rfl, rfl, h3, fun h => absurd (hl.1.symm.trans h) (by simp)⟩
    · exact h

theorem run_inv (evs : List Ev) (s : S) (h : Inv s) : Inv (run s evs) := by
  induction evs generalizing s with
  | nil => exact h
  | cons a evs ih => exact ih _ (step_inv s a h)

theorem init_inv (last : Nat) : Inv (init last) := ⟨(fun h => by (cases h)), rfl, rfl, fun _ => rfl⟩

/-! ## Claims -/

/-- **C145.** Whatever happened, a blade that is in and on has power, one that was taken out has none, and pixels were never sent without power. -/
theorem C145_power (last : Nat) (evs : List Ev) :
    ((run (init last) evs).linked = true → (run (init last) evs).on = true → (run (init last) evs).powered = true) ∧
      ((run (init last) evs).linked = false → (run (init last) evs).powered = false) ∧ (run (init last) evs).dim = 0 := by
  obtain ⟨h1, _, h3, h4⟩ := run_inv evs _ (init_inv last)
  exact ⟨h1, h4, h3⟩

/-- **C145.** After any history, once the blade is off and its style all dark, the first refresh sends the pixels and takes the power away, and it stays away
as long as only the loop runs; an effect brings it back. -/
theorem C145_disable (last : Nat) (evs : List Ev) (m : Nat) (later : List (Nat × Bool)) (hl : (run (init last) evs).linked = true)
    (ho : (run (init last) evs).on = false) (hp : (run (init last) evs).powered = true) (hm : m ≠ (run (init last) evs).last) :
    (step (run (init last) evs) (.loop m true)).shows = m :: (run (init last) evs).shows ∧
      (run (step (run (init last) evs) (.loop m true)) (later.map fun p => .loop p.1 p.2)).powered = false ∧
      (step (run (step (run (init last) evs) (.loop m true)) (later.map fun p => .loop p.1 p.2)) .effect).powered = true := by
  generalize run (init last) evs = s at *
  obtain ⟨l, o, p, a, t, sh, d⟩ := s
  dsimp only at hl ho hp hm
  subst hl ho hp
  have h1 : step ⟨true, false, true, a, t, sh, d⟩ (.loop m true) = ⟨true, false, false, false, m, m :: sh, d⟩ := by
    simp [step, loop, runStyle, power, hm]
  rw [h1]
  have h2 : ∀ (later : List (Nat × Bool)), run ⟨true, false, false, false, m, m :: sh, d⟩ (later.map fun p => .loop p.1 p.2) = ⟨true, false, false, false, m, m :: sh, d⟩ := by
    intro later
    induction later with
    | nil => rfl
    | cons x xs ih => exact ih
  rw [h2]
  exact ⟨rfl, rfl, rfl⟩

/-- **C145.** While on, or while something is lit, the power is not taken away. -/
theorem C145_keep (s : S) (hi : Inv s) (m : Nat) (dark : Bool) (hp : s.powered = true) (h : s.on = true ∨ dark = false) :
    (step s (.loop m dark)).powered = true := by
  obtain ⟨l, o, p, a, t, sh, d⟩ := s
  obtain ⟨_, h2, _, _⟩ := hi
  dsimp only at hp h h2
  subst hp h2
  dsimp only [step]
  split
  · unfold loop
    by_cases hm : m = t
    · simp [hm]
    · rcases h with h | h <;> subst h <;> simp [hm, runStyle]
  · rfl

/-- the loop times among the events -/
def times : List Ev → List Nat
  | [] => []
  | .loop m _ :: evs => m :: times evs
  | _ :: evs => times evs

theorem shows_mono (evs : List Ev) (s : S) (hs : s.shows.Pairwise (· > ·)) (hl : s.shows ≠ [] → s.shows.head? = some s.last)
    (ht : (times evs).Pairwise (· ≤ ·)) (hb : ∀ x ∈ times evs, s.shows ≠ [] → s.last ≤ x) : (run s evs).shows.Pairwise (· > ·) := by
  induction evs generalizing s with
  | nil => exact hs
  | cons ev evs ih =>
    cases ev with
    | loop m dark =>
      simp only [times, List.pairwise_cons] at ht
      show (run (step s (.loop m dark)) evs).shows.Pairwise (· > ·)
      have hb1 : ∀ x ∈ times evs, s.shows ≠ [] → s.last ≤ x := fun x hx => hb x (by simp [times, hx])
      have hm : s.shows ≠ [] → s.last ≤ m := hb m (by simp [times])
      have hcase : (step s (.loop m dark)).shows = s.shows ∧ (step s (.loop m dark)).last = s.last ∨
          (step s (.loop m dark)).shows = m :: s.shows ∧ (step s (.loop m dark)).last = m ∧ m ≠ s.last := by
        dsimp only [step, loop]
        split
        · split
          · exact Or.inl ⟨rfl, rfl⟩
          · split
            · exact Or.inl ⟨rfl, rfl⟩
            next hne => unfold runStyle power; right; repeat' split
                        all_goals exact ⟨rfl, rfl, hne⟩
        · exact Or.inl ⟨rfl, rfl⟩
      rcases hcase with ⟨e1, e2⟩ | ⟨e1, e2, hne⟩
      · exact ih _ (by rw [e1]; exact hs) (by rw [e1, e2]; exact hl) ht.2 (by rw [e1, e2]; exact hb1)
      · refine ih _ ?_ (by rw [e1, e2]; exact fun _ => rfl) ht.2 (by rw [e2]; exact fun x hx _ => ht.1 x hx)
        rw [e1]
        refine List.pairwise_cons.mpr ⟨?_, hs⟩
        intro y hy
        cases hsh : s.shows with
        | nil => rw [hsh] at hy; cases hy
        | cons z zs =>
          have hn : s.shows ≠ [] := by rw [hsh]; simp
          have h1 := hm hn
          have h2 := hl hn
          rw [hsh] at h2 hy hs
          simp at h2
          subst h2
          rcases List.mem_cons.mp hy with rfl | hy
          · omega
          · have := (List.pairwise_cons.mp hs).1 y hy
            omega
    | activate => exact ih _ hs hl ht hb
    | deactivate => exact ih _ hs hl ht hb
    | turnOn =>
      refine ih (step s .turnOn) ?_ ?_ ht ?_ <;> dsimp only [step] <;> split <;> assumption
    | turnOff =>
      refine ih (step s .turnOff) ?_ ?_ ht ?_ <;> dsimp only [step] <;> split <;> assumption
    | effect =>
      refine ih (step s .effect) ?_ ?_ ht ?_ <;> dsimp only [step] <;> split <;> assumption

/-- **C145.** As the clock goes on, the blade is refreshed at most once in a millisecond, whatever happens. -/
theorem C145_rate (last : Nat) (evs : List Ev) (ht : (times evs).Pairwise (· ≤ ·)) : (run (init last) evs).shows.Pairwise (· > ·) :=
  shows_mono evs (init last) List.Pairwise.nil (fun h => absurd rfl h) ht (fun _ _ h => absurd rfl h)

/-- The claims apply: on, off, two refreshes, the second dark. -/
example : (run (init 0) [.activate, .turnOn, .loop 5 false, .loop 5 false, .turnOff, .loop 6 false]).powered = true ∧
    (run (init 0) [.activate, .turnOn, .loop 5 false, .loop 5 false, .turnOff, .loop 6 false]).on = false ∧
    (run (init 0) [.activate, .turnOn, .loop 5 false, .loop 5 false, .turnOff, .loop 6 false, .loop 7 true]).shows = [7, 6, 5] ∧
    (times [.activate, .turnOn, .loop 5 false, .loop 5 false, .turnOff, .loop 6 false, .loop 7 true]).Pairwise (· ≤ ·) := by decide

end Verif.Blade.FastLed
