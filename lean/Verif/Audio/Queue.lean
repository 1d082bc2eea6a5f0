/-!
# C39: the sound queue

Model of `SoundQueue` in sound/sound_queue.h.  The object has static storage, so the members without
initialiser (`sounds_`, `fadeout_`) start as zero.  The environment decides, at every poll, whether the
player in use (if any) is still playing and whether `GetFreeWavPlayer` finds a player.
-/
set_option linter.unusedSimpArgs false
namespace Verif.Audio.Queue

/-! ## Model -/

/-- `SoundQueue<QueueLength>`, sound/sound_queue.h:89-93; `arr` has `QueueLength` entries.  `hasPlayer`: the
`RefPtr` argument of `PollSoundQueue` is not null. -/
structure Q (α : Type) where
  arr : List α
  sounds : Nat
  busy : Bool
  fadeout : Bool
  hasPlayer : Bool

/-- what a poll does to the outside: start a sound, start to fade out the current one -/
inductive Ev (α : Type) where
  | start (s : α)
  | fade
deriving DecidableEq

/-- `Play`, sound/sound_queue.h:42-48 -/
def Q.play {α} (q : Q α) (p : α) : Q α × Bool :=
  if q.sounds < q.arr.length then ({ q with arr := q.arr.set q.sounds p, sounds := q.sounds + 1 }, true)
  else (q, false)

/-- line 76: `for (i = 0; i < sounds_; i++) queue_[i] = queue_[i+1]`, `none` if that reads or writes beyond the array -/
def shiftDown {α} : Nat → Nat → List α → Option (List α)
  | 0, _, a => some a
  | n + 1, i, a => do
    let x ← a[i + 1]?
    if i < a.length then shiftDown n (i + 1) (a.set i x) else none

/-- `PollSoundQueue`, sound/sound_queue.h:54-81.  `playing`: the player (if there is one) is playing.
`free`: `GetFreeWavPlayer` finds one.  `none` is an access outside the array. -/
def Q.poll {α} (q : Q α) (playing free : Bool) : Option (Q α × List (Ev α)) :=
  let busy := q.hasPlayer && playing
  let ev : List (Ev α) := if q.fadeout && busy then [.fade] else []
  if busy then some ({ q with busy := true, fadeout := false }, ev)
  else if q.sounds ≠ 0 then
    if !q.hasPlayer && !free then some ({ q with busy := true, fadeout := false }, ev)
    else do
      let s ← q.arr[0]?
      let a ← shiftDown (q.sounds - 1) 0 q.arr
      some ({ arr := a, sounds := q.sounds - 1, busy := true, fadeout := false, hasPlayer := true }, ev ++ [.start s])
  else some ({ q with busy := false, fadeout := false, hasPlayer := false }, ev)

/-- `fadeout`, sound/sound_queue.h:83-87 -/
def Q.fade {α} (q : Q α) : Q α := { q with sounds := 0, fadeout := true }

inductive Op (α : Type) where
  | play (s : α)
  | fadeout
  | poll (playing free : Bool)

/-- one call, with what it started and (for `Play`) what it returned -/
def Q.step {α} (q : Q α) : Op α → Option (Q α × List (Ev α) × Option Bool)
  | .play s => some ((q.play s).1, [], some (q.play s).2)
  | .fadeout => some (q.fade, [], none)
  | .poll p f => do
    let r ← q.poll p f
    some (r.1, r.2, none)

def Q.run {α} (q : Q α) : List (Op α) → Option (Q α × List (Ev α) × List Bool)
  | [] => some (q, [], [])
  | o :: os => do
    let r ← q.step o
    let t ← r.1.run os
    some (t.1, r.2.1 ++ t.2.1, r.2.2.toList ++ t.2.2)

/-! ## Specification: a first-in first-out queue -/

/-- sounds waiting; a player in use; a fade has been asked for since the last poll -/
structure Spec (α : Type) where
  waiting : List α
  player : Bool
  fade : Bool

def Spec.step {α} (n : Nat) (s : Spec α) : Op α → Spec α × List (Ev α) × Option Bool
  | .play x => if s.waiting.length < n then ({ s with waiting := s.waiting ++ [x] }, [], some true) else (s, [], some false)
  | .fadeout => ({ s with waiting := [], fade := true }, [], none)
  | .poll playing free =>
    if s.player ∧ playing then ({ s with fade := false }, if s.fade then [.fade] else [], none)
    else match s.waiting with
      | [] => (⟨[], false, false⟩, [], none)
      | x :: xs => if s.player ∨ free then (⟨xs, true, false⟩, [.start x], none) else ({ s with fade := false }, [], none)

def Spec.run {α} (n : Nat) (s : Spec α) : List (Op α) → Spec α × List (Ev α) × List Bool
  | [] => (s, [], [])
  | o :: os =>
    let r := s.step n o
    let t := r.1.run n os
    (t.1, r.2.1 ++ t.2.1, r.2.2.toList ++ t.2.2)

/-! ## Refinement -/

/-- the array represents the waiting sounds -/
structure Rep {α} (n : Nat) (q : Q α) (s : Spec α) : Prop where
  len : q.arr.length = n
  le : q.sounds ≤ n
  wait : s.waiting = q.arr.take q.sounds
  player : s.player = q.hasPlayer
  fade : s.fade = q.fadeout

theorem shiftDown_spec {α} : ∀ (k i : Nat) (a : List α), i + k < a.length →
    ∃ b, shiftDown k i a = some b ∧ b.length = a.length ∧ (∀ j, j < i → b[j]? = a[j]?) ∧ (∀ j, i ≤ j → j < i + k → b[j]? = a[j + 1]?)
  | 0, i, a, _ => ⟨a, rfl, rfl, fun _ _ => rfl, fun j h1 h2 => by omega⟩
  | k + 1, i, a, h => by
    have h1 : i + 1 < a.length := by omega
    obtain ⟨b, e, l, u1, u2⟩ := shiftDown_spec k (i + 1) (a.set i a[i + 1]) (by simp; omega)
    refine ⟨b, ?_, by simpa using l, ?_, ?_⟩
    · rw [shiftDown, List.getElem?_eq_getElem h1]
      simp only [Option.bind_eq_bind, Option.bind_some]
      rw [if_pos (by omega)]; exact e
    · intro j hj
      rw [u1 j (by omega), List.getElem?_set_ne (by omega)]
    · intro j h2 h3
      by_cases hj : j = i
      · subst hj
        rw [u1 j (by omega), List.getElem?_set_self (by omega), List.getElem?_eq_getElem h1]
      · rw [u2 j (by omega) (by omega), List.getElem?_set_ne (by omega)]

theorem take_getElem? {α} (l : List α) (n i : Nat) : (l.take n)[i]? = if i < n then l[i]? else none := by
  by_cases h : i < n
  · rw [if_pos h, List.getElem?_take_of_lt h]
  · rw [if_neg h, List.getElem?_eq_none]; simp; omega

/-- one call behaves like the specification, and `busy()` then tells whether something is playing, was
started, or is waiting for a player -/
theorem step_rep {α} {n : Nat} {q : Q α} {s : Spec α} (h : Rep n q s) (o : Op α) :
    ∃ q', q.step o = some (q', (s.step n o).2) ∧ Rep n q' (s.step n o).1 := by
  obtain ⟨hlen, hle, hw, hp, hf⟩ := h
  have hwl : s.waiting.length = q.sounds := by rw [hw, List.length_take]; omega
  cases o with
  | play x =>
    simp only [Q.step, Q.play, Spec.step, hwl, hlen]
    by_cases hc : q.sounds < n
    · rw [if_pos hc, if_pos hc]
      refine ⟨_, rfl, by simp [hlen], by simp only; omega, ?_, hp, hf⟩
      simp only [hw]
      apply List.ext_getElem?
      intro i
      rw [take_getElem?]
      by_cases h1 : i < q.sounds
      · rw [List.getElem?_append_left (by simp; omega), if_pos (by omega), List.getElem?_set_ne (by omega), take_getElem?, if_pos h1]
      · rw [List.getElem?_append_right (by simp; omega)]
        have : (q.arr.take q.sounds).length = q.sounds := by simp; omega
        rw [this]
        by_cases h2 : i = q.sounds
        · subst h2
          rw [if_pos (by omega), List.getElem?_set_self (by omega)]; simp
        · rw [if_neg (by omega)]
          rw [List.getElem?_eq_none]; simp; omega
    · rw [if_neg hc, if_neg hc]
      exact ⟨_, rfl, hlen, hle, hw, hp, hf⟩
  | fadeout =>
    exact ⟨_, rfl, hlen, Nat.zero_le _, by simp [Spec.step, Q.fade], hp, rfl⟩
  | poll playing free =>
    simp only [Q.step, Q.poll, Spec.step, hp, hf]
    by_cases hb : q.hasPlayer = true ∧ playing = true
    · simp only [hb.1, hb.2, Bool.and_self, Bool.and_true, if_true, and_self]
      exact ⟨_, rfl, hlen, hle, hw, by simp [hp, hb.1], rfl⟩
    · have hb' : (q.hasPlayer && playing) = false := by
        cases h1 : q.hasPlayer <;> cases h2 : playing <;> simp_all
      simp only [hb', Bool.and_false, Bool.false_eq_true, if_false, if_neg hb]
      by_cases hs : q.sounds ≠ 0
      · rw [if_pos hs]
        cases hwc : s.waiting with
        | nil => rw [hwc] at hwl; simp at hwl; omega
        | cons x xs =>
          simp only
          by_cases hfr : q.hasPlayer = true ∨ free = true
          · rw [if_pos hfr]
            have : (!q.hasPlayer && !free) = false := by
              rcases hfr with h | h <;> simp [h]
            simp only [this, Bool.false_eq_true, if_false]
            have h0 : q.arr[0]? = some x := by
              have h1 := congrArg (fun l => l[0]?) (hwc.symm.trans hw)
              simp only [List.getElem?_cons_zero] at h1
              rw [take_getElem?, if_pos (by omega)] at h1
              exact h1.symm
            obtain ⟨b, e, l, _, u⟩ := shiftDown_spec (q.sounds - 1) 0 q.arr (by omega)
            rw [h0, e]
            refine ⟨_, rfl, by simp only; omega, by simp only; omega, ?_, rfl, rfl⟩
            simp only
            have hxs : xs = (q.arr.take q.sounds).drop 1 := by rw [← hw, hwc]; rfl
            rw [hxs]
            apply List.ext_getElem?
            intro i
            rw [List.getElem?_drop, take_getElem?, take_getElem?]
            by_cases hi : i < q.sounds - 1
            · rw [if_pos (by omega), if_pos hi, u i (by omega) (by omega), Nat.add_comm 1 i]
            · rw [if_neg (by omega), if_neg hi]
          · rw [if_neg hfr]
            have : (!q.hasPlayer && !free) = true := by
              cases h1 : q.hasPlayer <;> cases h2 : free <;> simp_all
            simp only [this, if_true]
            exact ⟨_, rfl, hlen, hle, by simp only; rw [← hwc, hw], rfl, rfl⟩
      · rw [if_neg hs]
        have : s.waiting = [] := List.eq_nil_of_length_eq_zero (by omega)
        rw [this]
        exact ⟨_, rfl, hlen, hle, by simp only; rw [← this, hw], rfl, rfl⟩

/-- the object when the program starts -/
def Q.init {α} (arr : List α) : Q α := ⟨arr, 0, false, false, false⟩

/-- C39: for every history of queueing, fading and polling, with whatever the players do: no access outside
the array; the sounds are started, and the calls of `Play` are answered, exactly as by a first-in
first-out queue of that capacity. -/
theorem C39_queue {α} (arr : List α) (ops : List (Op α)) :
    ∃ q, (Q.init arr).run ops = some (q, ((⟨[], false, false⟩ : Spec α).run arr.length ops).2) := by
  suffices H : ∀ (ops : List (Op α)) (q : Q α) (s : Spec α), Rep arr.length q s → ∃ q', q.run ops = some (q', (s.run arr.length ops).2) from
    H ops _ _ ⟨rfl, Nat.zero_le _, by simp [Q.init], rfl, rfl⟩
  intro ops
  induction ops with
  | nil => intro q s _; exact ⟨q, rfl⟩
  | cons o os ih =>
    intro q s h
    obtain ⟨q1, e1, h1⟩ := step_rep h o
    obtain ⟨q2, e2⟩ := ih q1 _ h1
    refine ⟨q2, ?_⟩
    rw [Q.run, e1]
    simp only [Option.bind_eq_bind, Option.bind_some, e2]
    rfl

/-! ### What the specification means -/

/-- the sounds started -/
def started {α} (evs : List (Ev α)) : List α := evs.filterMap fun | .start s => some s | .fade => none

/-- the sounds `Play` accepted -/
def accepted {α} (n : Nat) (s : Spec α) : List (Op α) → List α
  | [] => []
  | o :: os => (match o with
    | .play x => if s.waiting.length < n then [x] else []
    | _ => []) ++ accepted n (s.step n o).1 os

theorem started_append {α} (a b : List (Ev α)) : started (a ++ b) = started a ++ started b := List.filterMap_append ..

/-- C39: what is started is what was accepted, in that order and each once, except for what a fade
discarded (which shows as missing elements); without a fade, what was accepted is exactly what was started
followed by what is still waiting. -/
theorem C39_order {α} (n : Nat) : ∀ (ops : List (Op α)) (s : Spec α),
    (started (s.run n ops).2.1 ++ (s.run n ops).1.waiting).Sublist (s.waiting ++ accepted n s ops) ∧
    ((∀ o ∈ ops, o ≠ .fadeout) → started (s.run n ops).2.1 ++ (s.run n ops).1.waiting = s.waiting ++ accepted n s ops)
  | [], s => by simp [Spec.run, started, accepted]
  | o :: os, s => by
    obtain ⟨h1, h2⟩ := C39_order n os (s.step n o).1
    simp only [Spec.run, started_append, List.append_assoc]
    -- the first step
    have key : (started (s.step n o).2.1 ++ (s.step n o).1.waiting ++ accepted n (s.step n o).1 os).Sublist (s.waiting ++ accepted n s (o :: os)) ∧
        (o ≠ .fadeout → started (s.step n o).2.1 ++ (s.step n o).1.waiting ++ accepted n (s.step n o).1 os = s.waiting ++ accepted n s (o :: os)) := by
      cases o with
      | play x =>
        simp only [accepted, Spec.step]
        split <;> simp [started]
      | fadeout =>
        refine ⟨?_, fun h => absurd rfl h⟩
        simp only [accepted, Spec.step, started, List.filterMap_nil, List.nil_append]
        exact List.sublist_append_right _ _
      | poll p f =>
        simp only [accepted, Spec.step, List.nil_append]
        by_cases hb : s.player = true ∧ p = true
        · simp only [if_pos hb]
          split <;> simp [started]
        · simp only [if_neg hb]
          split
          · rename_i hw; simp [started, hw]
          · rename_i x xs hw
            split <;> simp [started, hw]
    constructor
    · refine List.Sublist.trans ?_ key.1
      rw [List.append_assoc]
      exact List.Sublist.append (List.Sublist.refl _) h1
    · intro hn
      rw [← key.2 (hn o List.mem_cons_self), h2 (fun o ho => hn o (List.mem_cons_of_mem _ ho)), List.append_assoc]

/-- C39: a sound is never started while another is playing; a waiting sound is started, the oldest first,
at the first poll that finds the player idle (or a free one). -/
theorem C39_starts {α} (n : Nat) (s : Spec α) (playing free : Bool) :
    started (s.step n (.poll playing free)).2.1 = if (s.player && playing) = false ∧ (s.player || free) = true then s.waiting.take 1 else [] := by
  simp only [Spec.step]
  by_cases hb : s.player = true ∧ playing = true
  · rw [if_pos hb]
    simp only [hb.1, hb.2]
    split <;> simp [started]
  · rw [if_neg hb]
    have hb' : (s.player && playing) = false := by
      cases h1 : s.player <;> cases h2 : playing <;> simp_all
    split
    · rename_i hw; simp [started, hw]
    · rename_i x xs hw
      by_cases hc : s.player = true ∨ free = true
      · rw [if_pos hc, if_pos ⟨hb', by simpa using hc⟩]; simp [started, hw]
      · rw [if_neg hc, if_neg (by intro h; exact hc (by simpa using h.2))]; simp [started]

/-- C39: `busy()` after a poll: something is playing, or there was a waiting sound -/
theorem C39_busy {α} {n : Nat} {q q' : Q α} {s : Spec α} {ev : List (Ev α)} (h : Rep n q s) {playing free : Bool} (hp : q.poll playing free = some (q', ev)) :
    q'.busy = true ↔ (s.player = true ∧ playing = true) ∨ s.waiting ≠ [] := by
  have hwl : s.waiting = [] ↔ q.sounds = 0 := by
    rw [h.wait, ← List.length_eq_zero_iff, List.length_take, h.len]
    have := h.le
    omega
  rw [h.player, Ne, hwl]
  unfold Q.poll at hp
  simp only at hp
  split at hp
  · rename_i hb
    injection hp with hp; injection hp with hp _; subst hp
    simp at hb; simp [hb]
  · rename_i hb
    split at hp
    · rename_i hs
      split at hp
      · injection hp with hp; injection hp with hp _; subst hp
        simp [hs]
      · cases h0 : q.arr[0]? with
        | none => rw [h0] at hp; simp at hp
        | some x =>
          rw [h0] at hp
          cases hd : shiftDown (q.sounds - 1) 0 q.arr with
          | none => rw [hd] at hp; simp at hp
          | some b =>
            rw [hd] at hp
            simp only [Option.bind_eq_bind, Option.bind_some] at hp
            injection hp with hp; injection hp with hp _; subst hp
            simp [hs]
    · rename_i hs
      injection hp with hp; injection hp with hp _; subst hp
      have hs : q.sounds = 0 := by omega
      simp at hb; simp [hs]; exact hb

/-- three sounds into a queue of two; polled while no player is free, then with one, then while it plays,
then when it has stopped -/
example : (Q.init [0, 0]).run [.play 1, .play 2, .play 3, .poll false false, .poll false true, .poll true true, .play 4, .poll false true, .fadeout, .poll true false, .poll false false] =
    some (⟨[4, 4], 0, false, false, false⟩, [.start 1, .start 2, .fade], [true, true, false, true]) := by rfl

end Verif.Audio.Queue
