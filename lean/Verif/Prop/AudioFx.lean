import Mathlib.Data.List.Basic
/-!
# The sound effect board

Model of props/audiofx.h: triggers which play a sound each.  All triggers share `current_player_` (props/audiofx.h:6).  Players are numbered
as they are got from `GetFreeWavPlayer`, which may find none free.  Not modelled: the player going on by itself, and which file of several
is played.
-/
namespace Verif.Prop.AudioFx

/-- the kinds of sound files of a trigger, props/audiofx.h:45-49 -/
inductive Kind
  | base
  | hold
  | latch
  | next
  | rand
  deriving DecidableEq, Repr

/-- What is told to the players: a player starts a sound of a trigger once or in a loop, a player fades away. -/
inductive Out
  | once (p trigger : Nat) (k : Kind)
  | loop (p trigger : Nat) (k : Kind)
  | fade (p : Nat)
  deriving DecidableEq, Repr

/-- `current_player_`, `playing_` of each trigger (props/audiofx.h:51), the next player to get, and what was told to the players, latest first. -/
structure A where
  cur : Option Nat
  playing : Nat → Bool
  fresh : Nat
  log : List Out

/-- `Stop`, props/audiofx.h:23-28 -/
def stop (s : A) : A := match s.cur with
  | none => s
  | some p => { s with cur := none, log := .fade p :: s.log }

/-- `Play`, props/audiofx.h:29-34; `free`: whether a player is found -/
def play (free : Bool) (g : Nat) (k : Kind) (s : A) : A :=
  if free then { stop s with cur := some (stop s).fresh, fresh := (stop s).fresh + 1, log := .once (stop s).fresh g k :: (stop s).log } else stop s

/-- `PlayLoop`, props/audiofx.h:35-39 -/
def playLoop (free : Bool) (g : Nat) (k : Kind) (s : A) : A := match (play free g k s).cur with
  | none => play free g k s
  | some p => { play free g k s with log := .loop p g k :: (play free g k s).log }

/-- The events of a trigger. -/
inductive Ev
  | pressed
  | released
  | other
  deriving DecidableEq

/-- `TriggerEffectGroup::Event`, props/audiofx.h:53-82; `has g k`: there are files of that kind for trigger `g`. -/
def event (has : Nat → Kind → Bool) (free : Bool) (s : A) (g : Nat) : Ev → A × Bool
  | .pressed =>
    (if has g .base then play free g .base s
     else if has g .rand then play free g .rand s
     else if has g .next then play free g .next s
     else if has g .latch then
       if s.playing g then { playLoop free g .latch s with playing := fun h => if h = g then true else s.playing h }
       else stop { s with playing := fun h => if h = g then false else s.playing h }
     else if has g .hold then playLoop free g .hold s
     else s, true)
  | .released => if has g .hold then (stop s, true) else (s, false)
  | .other => (s, false)

/-- any history: trigger, event, and whether a player is free -/
def run (has : Nat → Kind → Bool) (s : A) : List (Nat × Ev × Bool) → A
  | [] => s
  | (g, e, f) :: l => run has (event has f s g e).1 l

/-- at first -/
def a0 : A := ⟨none, fun _ => false, 0, []⟩

/-! ### specification -/

/-- the player was told to start something -/
def Started (log : List Out) (p : Nat) : Prop := ∃ g k, .once p g k ∈ log ∨ .loop p g k ∈ log

/-- the player was told to fade after all it was told to start -/
def Silenced : List Out → Nat → Prop
  | [], _ => False
  | .fade q :: l, p => p = q ∨ Silenced l p
  | .once q _ _ :: l, p => p ≠ q ∧ Silenced l p
  | .loop q _ _ :: l, p => p ≠ q ∧ Silenced l p

/-- The invariant. -/
def Inv (s : A) : Prop :=
  (∀ p, Started s.log p → p < s.fresh) ∧ (∀ p, s.cur = some p → p < s.fresh) ∧
  ∀ p, Started s.log p → s.cur ≠ some p → Silenced s.log p

theorem started_fade (l : List Out) (p q : Nat) : Started (.fade q :: l) p ↔ Started l p := by
  unfold Started; simp

theorem started_once (l : List Out) (p q g : Nat) (k : Kind) : Started (.once q g k :: l) p ↔ p = q ∨ Started l p := by
  unfold Started
  constructor
  · rintro ⟨g', k', h | h⟩
    · rcases List.mem_cons.1 h with h | h
      · cases h; exact .inl rfl
      · exact .inr ⟨g', k', .inl h⟩
    · rcases List.mem_cons.1 h with h | h
      · cases h
      · exact .inr ⟨g', k', .inr h⟩
  · rintro (rfl | ⟨g', k', h⟩)
    · exact ⟨g, k, .inl (by simp)⟩
    · exact ⟨g', k', h.imp (List.mem_cons_of_mem _) (List.mem_cons_of_mem _)⟩

theorem started_loop (l : List Out) (p q g : Nat) (k : Kind) : Started (.loop q g k :: l) p ↔ p = q ∨ Started l p := by
  unfold Started
  constructor
  · rintro ⟨g', k', h | h⟩
    · rcases List.mem_cons.1 h with h | h
      · cases h
      · exact .inr ⟨g', k', .inl h⟩
    · rcases List.mem_cons.1 h with h | h
      · cases h; exact .inl rfl
      · exact .inr ⟨g', k', .inr h⟩
  · rintro (rfl | ⟨g', k', h⟩)
    · exact ⟨g, k, .inr (by simp)⟩
    · exact ⟨g', k', h.imp (List.mem_cons_of_mem _) (List.mem_cons_of_mem _)⟩

theorem stop_cur (s : A) : (stop s).cur = none := by
  unfold stop; split
  · assumption
  · rfl

theorem inv_stop (s : A) (h : Inv s) : Inv (stop s) := by
  obtain ⟨h1, h2, h3⟩ := h
  unfold stop
  split
  · exact ⟨h1, h2, h3⟩
  · rename_i q hq
    refine ⟨fun p hp => h1 p ((started_fade _ _ _).1 hp), fun p hp => by (cases hp), fun p hp _ => ?_⟩
    by_cases hpq : p = q
    · exact .inl hpq
    · exact .inr (h3 p ((started_fade _ _ _).1 hp) (by rw [hq]; exact fun e => hpq (by cases e; rfl)))

theorem inv_play (free : Bool) (g : Nat) (k : Kind) (s : A) (h : Inv s) : Inv (play free g k s) := by
  have hs := inv_stop s h
  have hc := stop_cur s
  unfold play
  split
  · obtain ⟨h1, h2, h3⟩ := hs
    refine ⟨fun p hp => ?_, fun p hp => ?_, fun p hp hn => ?_⟩
    · rcases (started_once _ _ _ _ _).1 hp with rfl | hp
      · exact Nat.lt_succ_self _
      · exact Nat.lt_succ_of_lt (h1 p hp)
    · cases hp; exact Nat.lt_succ_self _
    · rcases (started_once _ _ _ _ _).1 hp with rfl | hp
      · exact absurd rfl hn
      · have := h1 p hp
        exact ⟨by omega, h3 p hp (by rw [hc]; exact fun e => by cases e)⟩
  · exact hs

theorem inv_playLoop (free : Bool) (g : Nat) (k : Kind) (s : A) (h : Inv s) : Inv (playLoop free g k s) := by
  have hp := inv_play free g k s h
  unfold playLoop
  split
  · exact hp
  · rename_i q hq
    obtain ⟨h1, h2, h3⟩ := hp
    refine ⟨fun p hp => ?_, h2, fun p hp hn => ?_⟩
    · rcases (started_loop _ _ _ _ _).1 hp with rfl | hp
      · exact h2 _ hq
      · exact h1 p hp
    · have hpq : p ≠ q := fun e => hn (by rw [e]; exact hq)
      rcases (started_loop _ _ _ _ _).1 hp with rfl | hp
      · exact absurd rfl hpq
      · exact ⟨hpq, h3 p hp hn⟩

theorem inv_event (has : Nat → Kind → Bool) (free : Bool) (s : A) (g : Nat) (e : Ev) (h : Inv s) : Inv (event has free s g e).1 := by
  cases e with
  | pressed =>
    simp only [event]
    split
    · exact inv_play _ _ _ _ h
    split
    · exact inv_play _ _ _ _ h
    split
    · exact inv_play _ _ _ _ h
    split
    · split
      · exact inv_playLoop _ _ _ _ h
      · exact inv_stop _ h
    split
    · exact inv_playLoop _ _ _ _ h
    · exact h
  | released =>
    simp only [event]
    split
    · exact inv_stop _ h
    · exact h
  | other => exact h

theorem inv_run (has : Nat → Kind → Bool) (l : List (Nat × Ev × Bool)) (s : A) (h : Inv s) : Inv (run has s l) := by
  induction l generalizing s with
  | nil => exact h
  | cons a l ih => exact ih _ (inv_event has a.2.2 s a.1 a.2.1 h)

/-- Whatever is pressed and released in whatever order, at most one sound goes on: each player that was started was told to fade since, but for
the current one. -/
theorem C134_one (has : Nat → Kind → Bool) (l : List (Nat × Ev × Bool)) (p q : Nat) (hp : Started (run has a0 l).log p)
    (hq : Started (run has a0 l).log q) (hp2 : ¬ Silenced (run has a0 l).log p) (hq2 : ¬ Silenced (run has a0 l).log q) : p = q := by
  have h := (inv_run has l a0 ⟨fun p ⟨g, k, h⟩ => by (cases h with | inl h => cases h | inr h => cases h), fun p hp => by (cases hp),
    fun p ⟨g, k, h⟩ => by (cases h with | inl h => cases h | inr h => cases h)⟩).2.2
  have h1 : (run has a0 l).cur = some p := Classical.byContradiction fun hn => hp2 (h p hp hn)
  have h2 : (run has a0 l).cur = some q := Classical.byContradiction fun hn => hq2 (h q hq hn)
  rw [h1] at h2; cases h2; rfl

/-- Pressing a trigger with plain, random or successive sounds plays one of its own, the plain one if there is one, whatever went on before,
if a player is free; one with sounds for holding plays it in a loop until let go. -/
theorem C134_press (has : Nat → Kind → Bool) (s : A) (g : Nat) :
    (∀ k, k = .base ∨ (has g .base = false ∧ k = .rand) ∨ (has g .base = false ∧ has g .rand = false ∧ k = .next) → has g k = true →
      ∃ p, (event has true s g .pressed).1.cur = some p ∧ (event has true s g .pressed).1.log.head? = some (.once p g k)) ∧
    ((∀ k, k ≠ .hold → has g k = false) → has g .hold = true →
      (∃ p, (event has true s g .pressed).1.cur = some p ∧ (event has true s g .pressed).1.log.head? = some (.loop p g .hold)) ∧
      (event has true (event has true s g .pressed).1 g .released).1.cur = none) := by
  refine ⟨fun k hk hh => ?_, fun hn hh => ?_⟩
  · rcases hk with rfl | ⟨h1, rfl⟩ | ⟨h1, h2, rfl⟩
    · simp only [event, hh, if_true, play]; exact ⟨_, rfl, rfl⟩
    · simp only [event, hh, h1, if_true, play]; exact ⟨_, rfl, rfl⟩
    · simp only [event, hh, h1, h2, if_true, play]; exact ⟨_, rfl, rfl⟩
  · refine ⟨?_, ?_⟩
    · simp only [event, hh, hn .base (by decide), hn .rand (by decide), hn .next (by decide), hn .latch (by decide), playLoop, play, if_true]
      exact ⟨_, rfl, rfl⟩
    · simp only [event, hh, if_true, stop_cur]

/-- Trigger 0 has a sound for holding, trigger 1 a plain one, trigger 2 one that is to go on until the trigger is pressed again. -/
def demo (g : Nat) (k : Kind) : Bool := match g, k with
  | 0, .hold => true
  | 1, .base => true
  | 2, .latch => true
  | _, _ => false

example : (run demo a0 [(0, .pressed, true), (0, .released, true), (1, .pressed, true)]).log =
    [.once 1 1 .base, .fade 0, .loop 0 0 .hold, .once 0 0 .hold] := by decide

/-- Letting go of a held trigger stops also the sound of another trigger, pressed since. -/
theorem C134_release_counterexample :
    ∃ p, (run demo a0 [(0, .pressed, true), (1, .pressed, true)]).log.head? = some (.once p 1 .base) ∧
      (run demo a0 [(0, .pressed, true), (1, .pressed, true), (0, .released, true)]).log.head? = some (.fade p) := ⟨1, by decide, by decide⟩

theorem playing_run (has : Nat → Kind → Bool) (l : List (Nat × Ev × Bool)) (s : A) (h : ∀ g, s.playing g = false) :
    ∀ g, (run has s l).playing g = false := by
  have hstop : ∀ s : A, (stop s).playing = s.playing := by intro s; unfold stop; split <;> rfl
  have hplay : ∀ f g k s, (play f g k s).playing = s.playing := by intro f g k s; unfold play; split <;> simp [hstop]
  have hloop : ∀ f g k s, (playLoop f g k s).playing = s.playing := by intro f g k s; unfold playLoop; split <;> simp [hplay]
  induction l generalizing s with
  | nil => exact h
  | cons a l ih =>
    refine ih _ fun g => ?_
    obtain ⟨b, e, f⟩ := a
    cases e with
    | pressed =>
      simp only [event]
      split
      · rw [hplay]; exact h g
      split
      · rw [hplay]; exact h g
      split
      · rw [hplay]; exact h g
      split
      · split
        · rename_i hb; rw [h b] at hb; cases hb
        · rw [hstop]; simp only; split
          · rfl
          · exact h g
      split
      · rw [hloop]; exact h g
      · exact h g
    | released =>
      simp only [event]
      split
      · rw [hstop]; exact h g
      · exact h g
    | other => exact h g

/-- A latching sound is never heard: the test whether it plays is the wrong way around, so that pressing the trigger only stops what plays. -/
theorem C134_latch_counterexample (has : Nat → Kind → Bool) (g : Nat) (hl : ∀ k, has g k = true ↔ k = .latch) (l : List (Nat × Ev × Bool))
    (free : Bool) : (event has free (run has a0 l) g .pressed).1.cur = none := by
  have h := playing_run has l a0 (fun _ => rfl) g
  have hb : ∀ k, k ≠ .latch → has g k = false := fun k hk => by
    cases hh : has g k with
    | false => rfl
    | true => exact absurd ((hl k).1 hh) hk
  simp only [event, hb .base (by decide), hb .rand (by decide), hb .next (by decide), (hl .latch).2 rfl, h, if_true]
  exact stop_cur _

example : ∀ k, demo 2 k = true ↔ k = .latch := by intro k; cases k <;> decide

end Verif.Prop.AudioFx
