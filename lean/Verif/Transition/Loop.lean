import Verif.Transition.Progress
/-!
# C67: repeated transitions
-/
set_option linter.unusedSimpArgs false
namespace Verif.Transition
open Verif.Color

/-- one complete play of `a`, from the frame it begins at to the first frame at which it is done -/
def Play (a : Tr) (seg : List Env) : Prop :=
  seg ≠ [] ∧ (a.begin.frames seg).done = true ∧ ∀ p q, seg = p ++ q → p ≠ [] → q ≠ [] → (a.begin.frames p).done = false

/-- complete plays one after the other, and the state the transition is left in -/
inductive Plays : Tr → List (List Env) → Tr → Prop
  | nil {a} : Plays a [] a
  | snoc {a segs x s} : Plays a segs x → Play x s → Plays a (segs ++ [s]) (x.begin.frames s)

/-- a play that has begun but was not done before the last frame -/
def Begun (a : Tr) (cur : List Env) : Prop := cur ≠ [] ∧ ∀ p q, cur = p ++ q → p ≠ [] → q ≠ [] → (a.begin.frames p).done = false

theorem begun_one (a : Tr) (e : Env) : Begun a [e] := by
  refine ⟨by simp, fun p q h hp hq => ?_⟩
  cases p with
  | nil => exact absurd rfl hp
  | cons y p =>
    simp only [List.cons_append, List.cons.injEq] at h
    have := List.append_eq_nil_iff.mp h.2.symm
    exact absurd this.2 hq

theorem begun_snoc {a : Tr} {cur : List Env} (h : Begun a cur) (hd : (a.begin.frames cur).done = false) (e : Env) : Begun a (cur ++ [e]) := by
  refine ⟨by simp, fun p q hpq hp hq => ?_⟩
  obtain ⟨q', z, rfl⟩ : ∃ q' z, q = q' ++ [z] := ⟨q.dropLast, q.getLast hq, (List.dropLast_concat_getLast hq).symm⟩
  rw [← List.append_assoc] at hpq
  obtain ⟨h1, h2⟩ := List.append_inj' hpq rfl
  by_cases hz : q' = []
  · subst hz
    simp only [List.append_nil] at h1
    rw [← h1]; exact hd
  · exact h.2 p q' h1 hp hz

/-- the plays so far: `l` of `k` are left, counting the one that is going on -/
def Repeats (a : Tr) (n : Env → Int) (k : Nat) (fs : List Env) (s : Tr) : Prop :=
  ∃ segs cur x, fs = segs.flatten ++ cur ∧ Plays a segs x ∧ cur ≠ [] ∧
    ((∃ l : Nat, 1 ≤ l ∧ l + segs.length = k ∧ Begun x cur ∧ s = .loopN l n (x.begin.frames cur)) ∨
     (segs.length = k ∧ s = .loopN 0 n (x.frames cur)))

theorem frames_snoc (t : Tr) (fs : List Env) (e : Env) : t.frames (fs ++ [e]) = (t.frames fs).run e := by
  rw [frames_append]; rfl

theorem repeats_step {a : Tr} {n : Env → Int} {k : Nat} {fs : List Env} {s : Tr} (h : Repeats a n k fs s) (e : Env) : Repeats a n k (fs ++ [e]) (s.run e) := by
  obtain ⟨segs, cur, x, h1, h2, h3, h4⟩ := h
  rcases h4 with ⟨l, hl, hk, hb, hs⟩ | ⟨hk, hs⟩
  · rw [hs, run_loopN]
    rw [if_neg (show ¬ (l : Int) < 0 by omega)]
    simp only []
    cases hd : (x.begin.frames cur).done with
    | true =>
      rw [if_pos ⟨by omega, rfl⟩]
      have hp : Plays a (segs ++ [cur]) (x.begin.frames cur) := .snoc h2 ⟨h3, hd, hb.2⟩
      refine ⟨segs ++ [cur], [e], x.begin.frames cur, by rw [h1]; simp, hp, by simp, ?_⟩
      by_cases h5 : 1 < l
      · left
        rw [if_pos (show (l : Int) > 1 by omega)]
        refine ⟨l - 1, by omega, by simp; omega, begun_one _ _, ?_⟩
        have : ((l - 1 : Nat) : Int) = (l : Int) - 1 := by omega
        rw [this]; rfl
      · right
        rw [if_neg (show ¬ (l : Int) > 1 by omega)]
        have : (l : Int) - 1 = 0 := by omega
        rw [this]
        exact ⟨by simp; omega, rfl⟩
    | false =>
      rw [if_neg (by simp)]
      refine ⟨segs, cur ++ [e], x, by rw [h1]; simp, h2, by simp, Or.inl ⟨l, hl, hk, begun_snoc hb hd e, ?_⟩⟩
      rw [frames_snoc]
  · rw [hs, run_loopN]
    rw [if_neg (show ¬ (0 : Int) < 0 by omega)]
    simp only []
    rw [if_neg (by omega)]
    exact ⟨segs, cur ++ [e], x, by rw [h1]; simp, h2, by simp, Or.inr ⟨hk, by rw [frames_snoc]⟩⟩

/-- **C67** (`TrLoopN`, everything it does).  After `begin`, a transition repeated `n` times plays its transition
completely `k` times, each play beginning at the frame after the one at which the previous play was done, and is done
itself after the last one; where `k = n` if the inner transition reports that it is done right after `begin`, and
`k = n + 1` otherwise. -/
theorem C67_plays (l : Int) (n : Env → Int) (a : Tr) {e : Env} {m : Nat} (hn : n e = m) (hm : 1 ≤ m) (fs : List Env) :
    ∃ segs cur x, e :: fs = segs.flatten ++ cur ∧ Plays a segs x ∧ cur ≠ [] ∧
      (let k := if a.begin.done then m else m + 1
       let s := (Tr.loopN l n a).begin.frames (e :: fs)
       (s.done = false ∧ segs.length < k ∧ Begun x cur ∧ ∀ c d led, s.color c d led = (x.begin.frames cur).color c d led) ∨
       (s.done = true ∧ segs.length = k ∧ ∀ c d led, s.color c d led = (x.frames cur).color c d led)) := by
  have h0 : Repeats a n (if a.begin.done then m else m + 1) [e] ((Tr.loopN l n a).begin.run e) := by
    refine ⟨[], [e], a, rfl, .nil, by simp, Or.inl ?_⟩
    show ∃ l', 1 ≤ l' ∧ l' + 0 = _ ∧ Begun a [e] ∧ (Tr.loopN (-1) n a.begin).run e = _
    rw [run_loopN]
    simp only [show (-1 : Int) < 0 by omega, if_true, hn]
    cases hd : a.begin.done with
    | true =>
      refine ⟨m, hm, by simp, begun_one _ _, ?_⟩
      rw [if_pos ⟨by omega, rfl⟩, if_pos (by omega), begin_begin]
      have : (m : Int) + 1 - 1 = m := by omega
      rw [this]; rfl
    | false =>
      refine ⟨m + 1, by omega, by simp, begun_one _ _, ?_⟩
      rw [if_neg (by simp)]
      rfl
  have h1 : Repeats a n (if a.begin.done then m else m + 1) ([e] ++ fs) (((Tr.loopN l n a).begin.run e).frames fs) := by
    have : ∀ (fs pre : List Env) (s : Tr), Repeats a n (if a.begin.done then m else m + 1) pre s → Repeats a n (if a.begin.done then m else m + 1) (pre ++ fs) (s.frames fs) := by
      intro fs
      induction fs with
      | nil => intro pre s h; rw [List.append_nil]; exact h
      | cons y fs ih =>
        intro pre s h
        have := ih (pre ++ [y]) (s.run y) (repeats_step h y)
        rw [List.append_assoc] at this
        exact this
    exact this fs [e] _ h0
  obtain ⟨segs, cur, x, h2, h3, h4, h5⟩ := h1
  refine ⟨segs, cur, x, h2, h3, h4, ?_⟩
  have hs : (Tr.loopN l n a).begin.frames (e :: fs) = ((Tr.loopN l n a).begin.run e).frames fs := rfl
  simp only [hs]
  rcases h5 with ⟨l', h6, h7, h8, h9⟩ | ⟨h6, h7⟩
  · left
    rw [h9]
    refine ⟨?_, by omega, h8, fun c d led => rfl⟩
    show ((l' : Int) == 0) = false
    simp; omega
  · right
    rw [h7]
    exact ⟨rfl, h6, fun c d led => rfl⟩

/-- **C67** (`_partial`).  A timed transition that is not interrupted is repeated exactly `n` times. -/
theorem C67_timed_partial (l : Int) (n : Env → Int) (k : Kind) (f : Leaf) (hf : f.timer.done = true) {e : Env} {m : Nat} (hn : n e = m) (hm : 1 ≤ m) (fs : List Env)
    (hd : ((Tr.loopN l n (.timed k f)).begin.frames (e :: fs)).done = true) :
    ∃ segs cur x, e :: fs = segs.flatten ++ cur ∧ Plays (.timed k f) segs x ∧ cur ≠ [] ∧ segs.length = m := by
  obtain ⟨segs, cur, x, h1, h2, h3, h4⟩ := C67_plays l n (.timed k f) hn hm fs
  refine ⟨segs, cur, x, h1, h2, h3, ?_⟩
  simp only [show (Tr.timed k f).begin.done = true from hf, if_true, hd] at h4
  rcases h4 with h4 | h4
  · exact absurd h4.1 (by simp)
  · exact h4.2.1

/-- a sequence of two fades of 10 ms, to be played twice -/
def twice : Tr := .loopN 0 (fun _ => 2) (.concat2 false (ofMs .fade 10) (ofMs .fade 10))

/-- A sequence repeated twice is played three times: it is not done when it has been played twice ... -/
theorem C67_counterexample :
    (twice.begin.frames [at_ 0, at_ 11, at_ 22, at_ 30, at_ 41, at_ 52, at_ 60]).done = false ∧
    (twice.begin.frames [at_ 0, at_ 11, at_ 22, at_ 30, at_ 41, at_ 52, at_ 60, at_ 71, at_ 82, at_ 90]).done = true := by
  constructor <;> decide +kernel

/-- ... and so is a fade that was begun again before its first play had ended. -/
theorem C67_interrupted_counterexample :
    let t := ((Tr.loopN 0 (fun _ => 2) (ofMs .fade 10)).begin.frames [at_ 0, at_ 5]).begin
    (t.frames [at_ 100, at_ 111, at_ 120, at_ 131, at_ 140]).done = false ∧
    (t.frames [at_ 100, at_ 111, at_ 120, at_ 131, at_ 140, at_ 151, at_ 160]).done = true := by
  constructor <;> decide +kernel

example : ((Tr.loopN 0 (fun _ => 2) (ofMs .fade 10)).begin.frames [at_ 100, at_ 111, at_ 120, at_ 131, at_ 140]).done = true := by decide +kernel

end Verif.Transition
