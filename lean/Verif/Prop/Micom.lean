/-!
# The question and answer board (C142)

Model of props/micom.h: eight triggers, each with a sound (or loop) for a click, a double click and for holding; after a sound to which there are answers,
clicking a trigger plays the answer.  Turning on for a hum, presets and the music track are not modelled, and there is always a free player.
-/
namespace Verif.Prop.Micom

/-- the ways of pressing a trigger, props/micom.h:171-182 -/
inductive Press
  | click
  | double
  | hold
  deriving DecidableEq

/-- A group of sounds (`AnswerEffectGroup`): trigger and way of pressing. -/
abbrev Group := Nat × Press

/-- its sounds, props/micom.h:18-38 -/
inductive Kind
  | base
  | loop
  | answer (k : Nat)
  deriving DecidableEq

/-- `current_player_` with `now_playing_`, the groups whose loop plays, `current_question_`, and all sounds started, the last first. -/
structure S where
  playing : Option (Group × Kind)
  loops : Group → Bool
  question : Option Group
  log : List (Group × Kind)

/-- `Play`, props/micom.h:46-58 -/
def play (s : S) (e : Group × Kind) : S := if s.playing.isSome then s else { s with playing := some e, log := e :: s.log }

/-- `Activate`, props/micom.h:70-91 -/
def activate (has : Group → Kind → Bool) (g : Group) (s : S) : S :=
  if has g .loop then { s with loops := fun h => if h = g then !s.loops g else s.loops h }
  else if has g .base then
    if has g (.answer 1) || has g (.answer 2) || has g (.answer 3) || has g (.answer 4) then { play s (g, .base) with question := some g } else play s (g, .base)
  else s

/-- `Answer`, props/micom.h:92-154: the new state, none if the trigger is no answer. -/
def answer (has : Group → Kind → Bool) (g : Group) (b : Nat) (s : S) : Option S :=
  if b = 8 then some { (if has g (.answer 8) then play s (g, .answer 8) else s) with question := none }
  else if has g (.answer b) then
    if b = 1 then some (play s (g, .answer 1)) else some { play s (g, .answer b) with question := none }
  else none

/-- What happens: trigger `b`, from 1 to 8, is pressed, or the sound ends. -/
inductive Ev
  | press (b : Nat) (p : Press)
  | ends

/-- a click while a question is open, props/micom.h:236-247 -/
def asked (has : Group → Kind → Bool) (s : S) (b : Nat) : Press → Option S
  | .click => s.question.bind fun g => answer has g b s
  | _ => none

/-- `Event2`, props/micom.h:233-277 -/
def event (has : Group → Kind → Bool) (s : S) : Ev → S
  | .press b p => (asked has s b p).getD (activate has (b, p) s)
  | .ends => { s with playing := none }

/-- any history -/
def run (has : Group → Kind → Bool) (s : S) (l : List Ev) : S := l.foldl (event has) s

/-- at first -/
def s0 : S := ⟨none, fun _ => false, none, []⟩

/-- is a press -/
def Ev.isPress : Ev → Bool
  | .press _ _ => true
  | .ends => false

theorem play_busy (s : S) (e x : Group × Kind) (h : s.playing = some x) : play s e = s := by simp [play, h]

theorem activate_busy (has : Group → Kind → Bool) (g : Group) (s : S) (x : Group × Kind) (h : s.playing = some x) :
    (activate has g s).playing = some x ∧ (activate has g s).log = s.log := by
  unfold activate
  split
  · exact ⟨h, rfl⟩
  · split
    · split <;> simp [play_busy s _ x h, h]
    · exact ⟨h, rfl⟩

theorem answer_busy (has : Group → Kind → Bool) (g : Group) (b : Nat) (s t : S) (x : Group × Kind) (h : s.playing = some x) (ht : answer has g b s = some t) :
    t.playing = some x ∧ t.log = s.log := by
  unfold answer at ht
  split at ht
  · simp only [play_busy s _ x h, ite_self, Option.some.injEq] at ht; subst ht; exact ⟨h, rfl⟩
  · split at ht
    · split at ht
      · simp only [play_busy s _ x h, Option.some.injEq] at ht; subst ht; exact ⟨h, rfl⟩
      · simp only [play_busy s _ x h, Option.some.injEq] at ht; subst ht; exact ⟨h, rfl⟩
    · cases ht

/-- A sound is never cut off, nor is another one started with it: until it ends, whatever is pressed, it goes on and no other is started. -/
theorem C142_uncut (has : Group → Kind → Bool) (l : List Ev) (hl : ∀ e ∈ l, e.isPress = true) (s : S) (x : Group × Kind) (h : s.playing = some x) :
    (run has s l).playing = some x ∧ (run has s l).log = s.log := by
  induction l generalizing s with
  | nil => exact ⟨h, rfl⟩
  | cons e l ih =>
    have key : (event has s e).playing = some x ∧ (event has s e).log = s.log := by
      cases e with
      | ends => exact absurd (hl _ (List.mem_cons_self ..)) (by simp [Ev.isPress])
      | press b p =>
        show ((asked has s b p).getD (activate has (b, p) s)).playing = some x ∧ ((asked has s b p).getD (activate has (b, p) s)).log = s.log
        cases ha : asked has s b p with
        | none => exact activate_busy has (b, p) s x h
        | some t =>
          cases p with
          | click =>
            simp only [asked, Option.bind_eq_some_iff] at ha
            obtain ⟨g, _, ha⟩ := ha
            exact answer_busy has g b s t x h ha
          | double => cases ha
          | hold => cases ha
    obtain ⟨h1, h2⟩ := ih (fun e he => hl e (List.mem_cons_of_mem _ he)) (event has s e) key.1
    exact ⟨h1, h2.trans key.2⟩

/-- With silence and no question open, a trigger with a sound and no loop plays it, and the question is open just if one of the answers one to four exists. -/
theorem C142_ask (has : Group → Kind → Bool) (s : S) (b : Nat) (p : Press) (hq : s.question = none) (hp : s.playing = none) (hl : has (b, p) .loop = false)
    (hb : has (b, p) .base = true) :
    (event has s (.press b p)).log = ((b, p), .base) :: s.log ∧ (event has s (.press b p)).playing = some ((b, p), .base) ∧
    ((event has s (.press b p)).question = some (b, p) ↔ ∃ k, 1 ≤ k ∧ k ≤ 4 ∧ has (b, p) (.answer k) = true) := by
  have ha : asked has s b p = none := by cases p <;> simp [asked, hq]
  have he : event has s (.press b p) = activate has (b, p) s := by simp only [event, ha, Option.getD_none]
  have hpl : play s ((b, p), .base) = { s with playing := some ((b, p), .base), log := ((b, p), .base) :: s.log } := by simp [play, hp]
  rw [he]
  unfold activate
  rw [if_neg (by simp [hl]), if_pos hb, hpl]
  have hk : (has (b, p) (.answer 1) || has (b, p) (.answer 2) || has (b, p) (.answer 3) || has (b, p) (.answer 4)) = true ↔
      ∃ k, 1 ≤ k ∧ k ≤ 4 ∧ has (b, p) (.answer k) = true := by
    simp only [Bool.or_eq_true]
    constructor
    · rintro (((h | h) | h) | h)
      · exact ⟨1, by omega, by omega, h⟩
      · exact ⟨2, by omega, by omega, h⟩
      · exact ⟨3, by omega, by omega, h⟩
      · exact ⟨4, by omega, by omega, h⟩
    · rintro ⟨k, h1, h2, h⟩
      have : k = 1 ∨ k = 2 ∨ k = 3 ∨ k = 4 := by omega
      rcases this with rfl | rfl | rfl | rfl <;> simp [h]
  by_cases hc : (has (b, p) (.answer 1) || has (b, p) (.answer 2) || has (b, p) (.answer 3) || has (b, p) (.answer 4)) = true
  · rw [if_pos hc]; exact ⟨rfl, rfl, iff_of_true rfl (hk.1 hc)⟩
  · rw [if_neg hc]
    refine ⟨rfl, rfl, iff_of_false ?_ fun h => hc (hk.2 h)⟩
    show s.question ≠ _
    rw [hq]; exact fun e => by cases e

/-- With silence and a question open, clicking a trigger for which there is an answer plays it, and closes the question unless it is trigger one, which
repeats; trigger eight closes it in any case; and any other does what it does without a question. -/
theorem C142_answer (has : Group → Kind → Bool) (s : S) (g : Group) (b : Nat) (hq : s.question = some g) (hp : s.playing = none) :
    (has g (.answer b) = true → (event has s (.press b .click)).log = (g, .answer b) :: s.log ∧
      (event has s (.press b .click)).question = if b = 1 then some g else none) ∧
    (b = 8 → (event has s (.press b .click)).question = none) ∧
    (has g (.answer b) = false → b ≠ 8 → event has s (.press b .click) = activate has (b, .click) s) := by
  have hpl : ∀ e, play s e = { s with playing := some e, log := e :: s.log } := fun e => by simp [play, hp]
  have he : event has s (.press b .click) = (answer has g b s).getD (activate has (b, .click) s) := by
    simp only [event, asked, hq, Option.bind_some]
  refine ⟨fun ha => ?_, fun h8 => ?_, fun ha h8 => ?_⟩
  · rw [he]
    unfold answer
    by_cases h8 : b = 8
    · subst h8
      simp [ha, hpl]
    · rw [if_neg h8, if_pos ha]
      by_cases h1 : b = 1
      · subst h1; simp [hpl, hq]
      · simp [h1, hpl]
  · subst h8
    rw [he]; simp [answer]
  · rw [he, answer, if_neg h8, if_neg (by simp [ha])]; rfl

/-- Trigger 1 asks something, with answers by triggers 1, 2 and 8; trigger 3 has its own sound; a double click on trigger 4 is a loop. -/
def demo (g : Group) (k : Kind) : Bool := match g, k with
  | (1, .click), .base => true
  | (1, .click), .answer 1 => true
  | (1, .click), .answer 2 => true
  | (1, .click), .answer 8 => true
  | (3, .click), .base => true
  | (4, .double), .loop => true
  | _, _ => false

/-- asked, repeated, answered -/
example : (run demo s0 [.press 1 .click, .ends, .press 1 .click, .ends, .press 2 .click, .ends, .press 3 .click]).log =
    [((3, .click), .base), ((1, .click), .answer 2), ((1, .click), .answer 1), ((1, .click), .base)] := by decide

/-- Answering before the question was said to its end closes it, and the answer is not heard, then or later. -/
theorem C142_early_counterexample (has : Group → Kind → Bool) (s : S) (g : Group) (b : Nat) (x : Group × Kind) (hq : s.question = some g)
    (hp : s.playing = some x) (ha : has g (.answer b) = true) (hb : b ≠ 1) :
    event has s (.press b .click) = { s with question := none } := by
  have he : event has s (.press b .click) = (answer has g b s).getD (activate has (b, .click) s) := by
    simp only [event, asked, hq, Option.bind_some]
  rw [he]
  unfold answer
  by_cases h8 : b = 8
  · subst h8; simp [play_busy s _ x hp]
  · rw [if_neg h8, if_pos ha, if_neg hb, play_busy s _ x hp]; rfl

/-- A question to which there are only the answers five to eight is never open, so that they are never played. -/
theorem C142_five_counterexample (has : Group → Kind → Bool) (g : Group) (hg : ∀ k, k ≤ 4 → has g (.answer k) = false) (l : List Ev) :
    (run has s0 l).question ≠ some g ∧ ∀ k, (g, Kind.answer k) ∉ (run has s0 l).log := by
  have hplay : ∀ s : S, ∀ e : Group × Kind, (∀ k, e ≠ (g, .answer k)) → (s.question ≠ some g ∧ ∀ k, (g, Kind.answer k) ∉ s.log) →
      (play s e).question ≠ some g ∧ ∀ k, (g, Kind.answer k) ∉ (play s e).log := by
    intro s e he h
    unfold play
    split
    · exact h
    · exact ⟨h.1, fun k hk => by
        rcases List.mem_cons.1 hk with hk | hk
        · exact he k hk.symm
        · exact h.2 k hk⟩
  have key : ∀ (l : List Ev) (s : S), (s.question ≠ some g ∧ ∀ k, (g, Kind.answer k) ∉ s.log) →
      (run has s l).question ≠ some g ∧ ∀ k, (g, Kind.answer k) ∉ (run has s l).log := by
    intro l
    induction l with
    | nil => intro s h; exact h
    | cons e l ih =>
      intro s h
      refine ih (event has s e) ?_
      cases e with
      | ends => exact h
      | press b p =>
        show ((asked has s b p).getD (activate has (b, p) s)).question ≠ some g ∧ ∀ k, (g, Kind.answer k) ∉ ((asked has s b p).getD (activate has (b, p) s)).log
        have hb := hplay s ((b, p), .base) (fun k e => by cases e) h
        cases ha : asked has s b p with
        | none =>
          show (activate has (b, p) s).question ≠ some g ∧ ∀ k, (g, Kind.answer k) ∉ (activate has (b, p) s).log
          unfold activate
          split
          · exact h
          · split
            · split
              · rename_i hc
                refine ⟨fun e => ?_, hb.2⟩
                have e : some (b, p) = some g := e
                have e := Option.some.inj e
                rw [e, hg 1 (by omega), hg 2 (by omega), hg 3 (by omega), hg 4 (by omega)] at hc
                cases hc
              · exact hb
            · exact h
        | some t =>
          cases p with
          | click =>
            simp only [asked, Option.bind_eq_some_iff] at ha
            obtain ⟨g', hq, ha⟩ := ha
            have hne : g' ≠ g := fun e => h.1 (e ▸ hq)
            have hp := fun k => hplay s (g', .answer k) (fun k' e => by cases e; exact hne rfl) h
            show t.question ≠ some g ∧ ∀ k, (g, Kind.answer k) ∉ t.log
            unfold answer at ha
            split at ha
            · cases ha
              refine ⟨fun e => by (cases e), ?_⟩
              dsimp only
              split
              · exact (hp 8).2
              · exact h.2
            · split at ha
              · split at ha
                · cases ha; exact hp 1
                · cases ha; exact ⟨fun e => by (cases e), (hp b).2⟩
              · cases ha
          | double => cases ha
          | hold => cases ha
  exact key l s0 ⟨fun e => by (cases e), fun k hk => by (cases hk)⟩

end Verif.Prop.Micom
