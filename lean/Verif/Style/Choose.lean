import Verif.Style.Lockup
/-!
# Choosing colours (C111)

Model of `MixHelper` and `Mix` of several colours (styles/mix.h:48-105 with common/typelist.h:66-70),
`EffectSequence` (styles/effect_sequence.h:7-26), `ColorSelect` (styles/color_select.h:18-60),
`MOD` (common/math.h:31-34) and `SyncAltToVarianceSVF` (functions/alt.h:26-56) with the handling of
`EFFECT_ALT_SOUND` (sound/hybrid_font.h:568-583).  Transitions are as in Verif/Style/Lockup.lean.
-/
namespace Verif.Style.Choose
open Verif.Transition (Env Sched lastTime)
open Verif.Style.Lockup (Trans EndsBy StartsAt)

/-! ## `MixHelper` -/

/-- `MixHelper2::getColor(x, led)`, styles/mix.h:57-84; the list is split as in common/typelist.h:66-70. -/
def pick {C : Type} (cs : List C) (x : Int) : Option C :=
  match cs with
  | [] => none
  | [c] => some c
  | a :: b :: r =>
    if x < ((r.length + 2) / 2 : Nat) then pick ((a :: b :: r).take ((r.length + 2) / 2)) x
    else pick ((a :: b :: r).drop ((r.length + 2) / 2)) (x - ((r.length + 2) / 2 : Nat))
termination_by cs.length
decreasing_by
  · simp only [List.length_take, List.length_cons]; omega
  · simp only [List.length_drop, List.length_cons]; omega

/-- The halving search finds the colour with the number given, the first for numbers too small and the
last for numbers too large. -/
theorem C111_pick {C : Type} (cs : List C) (h : cs ≠ []) (x : Int) :
    pick cs x = cs[(min (max x 0) (cs.length - 1)).toNat]? := by
  fun_induction pick cs x with
  | case1 => exact absurd rfl h
  | case2 x c =>
    have : (min (max x 0) (([c] : List C).length - 1)).toNat = 0 := by simp only [List.length_cons, List.length_nil]; omega
    rw [this]; rfl
  | case3 x a b r hx ih =>
    rw [ih (by simp only [ne_eq, List.take_eq_nil_iff]; intro hh; rcases hh with hh | hh; omega; cases hh)]
    rw [List.getElem?_take]
    simp only [List.length_take, List.length_cons] at *
    have e : (min (max x 0) ((min ((r.length + 2) / 2) (r.length + 1 + 1) : Nat) - 1 : Int)).toNat =
        (min (max x 0) ((r.length + 1 + 1 : Nat) - 1 : Int)).toNat := by omega
    rw [e]
    rw [if_pos (by omega)]
  | case4 x a b r hx ih =>
    rw [ih (by
      intro hh
      have := congrArg List.length hh
      simp only [List.length_drop, List.length_cons, List.length_nil] at this
      omega)]
    rw [List.getElem?_drop]
    simp only [List.length_drop, List.length_cons] at *
    congr 1
    omega

example : pick ["a", "b", "c", "d", "e"] 3 = some "d" ∧ pick ["a", "b", "c", "d", "e"] (-7) = some "a" ∧
    pick ["a", "b", "c", "d", "e"] 9 = some "e" := by
  refine ⟨?_, ?_, ?_⟩ <;> rw [C111_pick _ (by simp)] <;> rfl

/-! ## `Mix` of several colours -/

/-- To `int`. -/
def wrap (x : Int) : Int := (x + 2147483648) % 4294967296 - 2147483648

/-- `Mix<F, A, B, COLORS...>::getColor`, styles/mix.h:98-104: the two colours and the part of the second
in 32768.  The product with a `size_t` wraps around. -/
def mix {C : Type} (cs : List C) (f : Int) : Option (C × C × Int) :=
  match pick cs (wrap (f * ((cs.length : Int) - 1)) / 32768), pick cs (wrap (f * ((cs.length : Int) - 1)) / 32768 + 1) with
  | some a, some b => some (a, b, wrap (f * ((cs.length : Int) - 1)) % 32768)
  | _, _ => none

theorem wrap_small (x : Int) (h1 : -2147483648 ≤ x) (h2 : x < 2147483648) : wrap x = x := by
  unfold wrap; omega

theorem getElem?_some {C : Type} (cs : List C) (k : Nat) (h : k < cs.length) : cs[k]? = some cs[k] := List.getElem?_eq_getElem h

/-- The value runs through the colours at equal distances: at `k * 32768 + w` of `(n - 1) * 32768` it is
colour `k` with `w` parts of the next one. -/
theorem C111_mix {C : Type} (cs : List C) (h2 : 2 ≤ cs.length) (hn : cs.length ≤ 65536) (f : Int) (h0 : 0 ≤ f) (h1 : f < 32768)
    (k w : Nat) (hw : w < 32768) (he : f * ((cs.length : Int) - 1) = k * 32768 + w) :
    ∃ (hk : k + 1 < cs.length), mix cs f = some (cs[k], cs[k + 1], (w : Int)) := by
  have hne : cs ≠ [] := by intro hh; rw [hh] at h2; simp at h2
  have hle : f * ((cs.length : Int) - 1) ≤ 32767 * ((cs.length : Int) - 1) := Int.mul_le_mul_of_nonneg_right (by omega) (by omega)
  have hk : k + 1 < cs.length := by omega
  refine ⟨hk, ?_⟩
  unfold mix
  rw [wrap_small _ (by omega) (by omega), he]
  have d : ((k : Int) * 32768 + w) / 32768 = k := by omega
  have m : ((k : Int) * 32768 + w) % 32768 = w := by omega
  rw [d, m, C111_pick cs hne, C111_pick cs hne]
  have e1 : (min (max (k : Int) 0) ((cs.length : Int) - 1)).toNat = k := by omega
  have e2 : (min (max ((k : Int) + 1) 0) ((cs.length : Int) - 1)).toNat = k + 1 := by omega
  rw [e1, e2, getElem?_some cs k (by omega), getElem?_some cs (k + 1) hk]

/-- At 0 and below it is the first colour, at 32768 and above the last one. -/
theorem C111_mix_ends {C : Type} (cs : List C) (h2 : 2 ≤ cs.length) (f : Int)
    (hl : -2147483648 ≤ f * ((cs.length : Int) - 1)) (hu : f * ((cs.length : Int) - 1) < 2147483648) :
    (f = 0 → ∃ b, mix cs f = some (cs[0], b, 0)) ∧
    (f < 0 → ∃ w, mix cs f = some (cs[0], cs[0], w)) ∧
    (32768 ≤ f → ∃ w, mix cs f = some (cs[cs.length - 1], cs[cs.length - 1], w)) := by
  have hne : cs ≠ [] := by intro hh; rw [hh] at h2; simp at h2
  unfold mix
  rw [wrap_small _ hl hu, C111_pick cs hne, C111_pick cs hne]
  refine ⟨fun hf => ?_, fun hf => ?_, fun hf => ?_⟩
  · subst hf
    rw [Int.zero_mul]
    have e1 : (min (max ((0 : Int) / 32768) 0) ((cs.length : Int) - 1)).toNat = 0 := by omega
    have e2 : (min (max ((0 : Int) / 32768 + 1) 0) ((cs.length : Int) - 1)).toNat = 1 := by omega
    rw [e1, e2, getElem?_some cs 0 (by omega), getElem?_some cs 1 (by omega)]
    exact ⟨_, rfl⟩
  · have hneg : f * ((cs.length : Int) - 1) ≤ -1 * ((cs.length : Int) - 1) := Int.mul_le_mul_of_nonneg_right (by omega) (by omega)
    generalize f * ((cs.length : Int) - 1) = x at *
    have e1 : (min (max (x / 32768) 0) ((cs.length : Int) - 1)).toNat = 0 := by omega
    have e2 : (min (max (x / 32768 + 1) 0) ((cs.length : Int) - 1)).toNat = 0 := by omega
    rw [e1, e2, getElem?_some cs 0 (by omega)]
    exact ⟨_, rfl⟩
  · have hbig : 32768 * ((cs.length : Int) - 1) ≤ f * ((cs.length : Int) - 1) := Int.mul_le_mul_of_nonneg_right hf (by omega)
    generalize f * ((cs.length : Int) - 1) = x at *
    have e1 : (min (max (x / 32768) 0) ((cs.length : Int) - 1)).toNat = cs.length - 1 := by omega
    have e2 : (min (max (x / 32768 + 1) 0) ((cs.length : Int) - 1)).toNat = cs.length - 1 := by omega
    rw [e1, e2, getElem?_some cs (cs.length - 1) (by omega)]
    exact ⟨_, rfl⟩

/-- Three colours at a quarter: half of the second. -/
example : ∃ (_ : 1 < 3), mix ["a", "b", "c"] 8192 = some ("a", "b", 16384) := C111_mix ["a", "b", "c"] (by decide) (by decide) 8192 (by decide) (by decide) 0 16384 (by decide) (by decide)

/-! ## `EffectSequence` -/

/-- `run` with or without a new effect, styles/effect_sequence.h:10-16. -/
def seqRun (n : Nat) (s : Int) (hit : Bool) : Int := if hit then (s + 1) % n else s

/-- After `k` effects, one at least, colour `(k - 1) mod n` is shown, over any history. -/
theorem C111_sequence_partial {C : Type} (cs : List C) (hs : List Bool) (h : 1 ≤ hs.count true) (hn : 0 < cs.length) :
    pick cs (hs.foldl (seqRun cs.length) (-1)) = cs[(hs.count true - 1) % cs.length]? := by
  have key : ∀ hs : List Bool, ∀ k : Nat,
      hs.foldl (seqRun cs.length) (if k = 0 then -1 else ((k - 1 : Nat) : Int) % cs.length) =
        if k + hs.count true = 0 then -1 else ((k + hs.count true - 1 : Nat) : Int) % cs.length := by
    intro hs
    induction hs with
    | nil => intro k; simp
    | cons b hs ih =>
      intro k
      rw [List.foldl_cons]
      cases b with
      | false =>
        rw [show seqRun cs.length (if k = 0 then -1 else ((k - 1 : Nat) : Int) % cs.length) false =
          if k = 0 then -1 else ((k - 1 : Nat) : Int) % cs.length from rfl, ih k]
        simp
      | true =>
        have e : seqRun cs.length (if k = 0 then -1 else ((k - 1 : Nat) : Int) % cs.length) true =
            if k + 1 = 0 then -1 else ((k + 1 - 1 : Nat) : Int) % cs.length := by
          simp only [seqRun, if_true]
          rw [if_neg (show ¬ k + 1 = 0 by omega)]
          by_cases hk : k = 0
          · subst hk; simp
          · rw [if_neg hk, Int.emod_add_emod]
            congr 1
            omega
        rw [e, ih (k + 1), List.count_cons_self]
        rw [show k + 1 + hs.count true = k + (hs.count true + 1) by omega]
  have hk := key hs 0
  simp only [if_true, Nat.zero_add] at hk
  rw [if_neg (show ¬ hs.count true = 0 by omega)] at hk
  rw [hk, C111_pick cs (by intro hh; rw [hh] at hn; simp at hn)]
  congr 1
  have hm : (hs.count true - 1) % cs.length < cs.length := Nat.mod_lt _ hn
  have hc : ((hs.count true - 1 : Nat) : Int) % cs.length = (((hs.count true - 1) % cs.length : Nat) : Int) := by simp
  rw [hc]
  generalize (hs.count true - 1) % cs.length = m at *
  omega

/-- The first effect changes nothing: the first colour is shown before it and after it. -/
theorem C111_sequence_counterexample {C : Type} (c : C) (cs : List C) :
    pick (c :: cs) (([] : List Bool).foldl (seqRun (c :: cs).length) (-1)) = some c ∧
    pick (c :: cs) ([true].foldl (seqRun (c :: cs).length) (-1)) = some c := by
  rw [C111_pick _ (by simp), C111_pick _ (by simp)]
  constructor
  · have : (min (max (([] : List Bool).foldl (seqRun (c :: cs).length) (-1)) 0) (((c :: cs).length : Int) - 1)).toNat = 0 := by
      simp only [List.foldl_nil, List.length_cons]; omega
    rw [this]; rfl
  · have : (min (max ([true].foldl (seqRun (c :: cs).length) (-1)) 0) (((c :: cs).length : Int) - 1)).toNat = 0 := by
      simp only [List.foldl_cons, List.foldl_nil, seqRun, if_true, List.length_cons]
      simp
    rw [this]; rfl

/-! ## `ColorSelect` -/

/-- `while(f < 0) f += sizeof...(COLORS) << 8;`, styles/color_select.h:29. -/
def addUp (n : Nat) (hn : 0 < n) (f : Int) : Int := if f < 0 then addUp n hn (f + n * 256) else f
termination_by (-f).toNat
decreasing_by omega

theorem addUp_mod (n : Nat) (hn : 0 < n) (f : Int) : 0 ≤ addUp n hn f ∧ addUp n hn f % n = f % n := by
  fun_induction addUp n hn f with
  | case1 f h ih =>
    refine ⟨ih.1, ?_⟩
    rw [ih.2, Int.mul_comm, Int.add_mul_emod_self_right]
  | case2 f h => exact ⟨by omega, rfl⟩

/-- `selection_`, `old_selection_` (one byte each) and the transition. -/
structure Sel {C : Type} (T : Trans C) where
  sel : Nat
  old : Nat
  tr : T.S

/-- A new selection, styles/color_select.h:30-36. -/
def selChange {C : Type} {T : Trans C} (s : Sel T) (q : Nat) : Sel T :=
  if q ≠ s.sel then ⟨q, s.sel, T.begin s.tr⟩ else s

/-- The transition, styles/color_select.h:37-41. -/
def selGo {C : Type} {T : Trans C} (s : Sel T) (e : Env) : Sel T :=
  if s.sel ≠ s.old then
    if T.done (T.run s.tr e) = false then ⟨s.sel, s.old, T.run s.tr e⟩ else ⟨s.sel, s.sel, T.run s.tr e⟩
  else s

/-- `run`, styles/color_select.h:25-42; `f` is the value of the selecting function, `n` the number of colours. -/
def selRun {C : Type} {T : Trans C} (n : Nat) (hn : 0 < n) (s : Sel T) (e : Env) (f : Int) : Sel T :=
  selGo (selChange s ((addUp n hn f % n).toNat % 256)) e

/-- `getColor`, styles/color_select.h:51-59. -/
def selColor {C : Type} {T : Trans C} (cs : List C) (s : Sel T) (led : Nat) : Option C :=
  match pick cs s.sel, pick cs s.old with
  | some new, some old => some (if s.sel ≠ s.old then T.color s.tr old new led else new)
  | _, _ => none

theorem selNum (n : Nat) (hn : 0 < n) (h256 : n ≤ 256) (f : Int) : (addUp n hn f % n).toNat % 256 = (f % n).toNat := by
  rw [(addUp_mod n hn f).2]
  have := Int.emod_nonneg f (show (n : Int) ≠ 0 by omega)
  have := Int.emod_lt_of_pos f (show (0 : Int) < n by omega)
  exact Nat.mod_eq_of_lt (by omega)

theorem selChange_sel {C : Type} {T : Trans C} (s : Sel T) (q : Nat) : (selChange s q).sel = q := by
  unfold selChange
  by_cases h : q = s.sel
  · rw [if_neg (by simpa using h), h]
  · rw [if_pos h]

theorem selGo_sel {C : Type} {T : Trans C} (s : Sel T) (e : Env) : (selGo s e).sel = s.sel := by
  unfold selGo
  split
  · split <;> rfl
  · rfl

theorem selRun_sel {C : Type} {T : Trans C} (n : Nat) (hn : 0 < n) (h256 : n ≤ 256) (s : Sel T) (e : Env) (f : Int) :
    (selRun n hn s e f).sel = (f % n).toNat := by
  unfold selRun
  rw [selGo_sel, selChange_sel, selNum n hn h256]

/-- The transition under way was begun in some frame and has run in all frames since. -/
def Under {C : Type} {T : Trans C} (g t : Nat) (s : Sel T) : Prop :=
  s.sel ≠ s.old → ∃ (s0 : T.S) (e : Env) (es : List Env), Sched g e.time es ∧ lastTime e.time es = t ∧
    s.tr = (e :: es).foldl T.run (T.begin s0) ∧ T.done s.tr = false

theorem under_run {C : Type} {T : Trans C} {g t : Nat} (n : Nat) (hn : 0 < n) (s : Sel T) (e : Env) (f : Int)
    (h : Under g t s) (h1 : t ≤ e.time) (h2 : e.time ≤ t + g) : Under g e.time (selRun n hn s e f) := by
  unfold selRun
  generalize (addUp n hn f % n).toNat % 256 = q
  by_cases hq : q = s.sel
  · rw [show selChange s q = s from if_neg (by simpa using hq)]
    by_cases ho : s.sel = s.old
    · rw [show selGo s e = s from if_neg (by simpa using ho)]
      intro hh; exact absurd ho hh
    · obtain ⟨s0, a, es, b1, b2, b3, _⟩ := h ho
      unfold selGo
      rw [if_pos ho]
      by_cases hd : T.done (T.run s.tr e) = false
      · rw [if_pos hd]
        intro _
        refine ⟨s0, a, es ++ [e], Verif.Style.Lockup.sched_snoc b1 (by omega) (by omega), ?_, ?_, hd⟩
        · rw [Verif.Transition.lastTime_append]; rfl
        · simp only
          rw [b3, ← List.cons_append, List.foldl_append]; rfl
      · rw [if_neg hd]
        intro hh; exact absurd rfl hh
  · rw [show selChange s q = ⟨q, s.sel, T.begin s.tr⟩ from if_pos hq]
    unfold selGo
    simp only
    rw [if_pos hq]
    by_cases hd : T.done (T.run (T.begin s.tr) e) = false
    · rw [if_pos hd]
      intro _
      exact ⟨s.tr, e, [], trivial, rfl, rfl, hd⟩
    · rw [if_neg hd]
      intro hh; exact absurd rfl hh

/-- Frames: time and selection. -/
def selRuns {C : Type} {T : Trans C} (n : Nat) (hn : 0 < n) (s : Sel T) (fs : List (Env × Int)) : Sel T :=
  fs.foldl (fun s f => selRun n hn s f.1 f.2) s

theorem under_runs {C : Type} {T : Trans C} {g : Nat} (n : Nat) (hn : 0 < n) (fs : List (Env × Int)) (t : Nat) (s : Sel T)
    (h : Under g t s) (hs : Sched g t (fs.map (·.1))) : Under g (lastTime t (fs.map (·.1))) (selRuns n hn s fs) := by
  induction fs generalizing t s with
  | nil => exact h
  | cons f fs ih => exact ih f.1.time _ (under_run n hn s f.1 f.2 h hs.1 hs.2.1) hs.2.2

/-- With a selection that stays, the transition just runs. -/
theorem runs_steady {C : Type} {T : Trans C} {g hi : Nat} (hT : EndsBy T g hi) (n : Nat) (hn : 0 < n) (h256 : n ≤ 256) (q : Nat)
    (fs : List (Env × Int)) (hf : ∀ f ∈ fs, (f.2 % n).toNat = q) (t : Nat) (s : Sel T) (hq : s.sel = q) (h : Under g t s)
    (hs : Sched g t (fs.map (·.1))) (ht : t + hi ≤ lastTime t (fs.map (·.1))) :
    (selRuns n hn s fs).sel = q ∧ (selRuns n hn s fs).old = q := by
  have hst : ∀ (fs : List (Env × Int)) (s : Sel T), (∀ f ∈ fs, (f.2 % n).toNat = q) → s.sel = q → (selRuns n hn s fs).sel = q := by
    intro fs
    induction fs with
    | nil => intro s _ h; exact h
    | cons f fs ih =>
      intro s hf _
      exact ih _ (fun f' hf' => hf f' (by simp [hf'])) (by rw [selRun_sel n hn h256]; exact hf f (by simp))
  refine ⟨hst fs s hf hq, ?_⟩
  -- once settled it stays so
  have hstep : ∀ (s : Sel T) (f : Env × Int), s.sel = q → (f.2 % n).toNat = q → selRun n hn s f.1 f.2 = selGo s f.1 := by
    intro s f h1 h2
    unfold selRun
    rw [selNum n hn h256, h2, show selChange s q = s from if_neg (by simp [h1])]
  have hrest : ∀ (fs : List (Env × Int)) (s : Sel T), (∀ f ∈ fs, (f.2 % n).toNat = q) → s.sel = q → s.old = q → selRuns n hn s fs = s := by
    intro fs
    induction fs with
    | nil => intro s _ _ _; rfl
    | cons f fs ih =>
      intro s hf h1 h2
      have : selRun n hn s f.1 f.2 = s := by rw [hstep s f h1 (hf f (by simp))]; exact if_neg (by simp [h1, h2])
      unfold selRuns
      rw [List.foldl_cons, this]
      exact ih s (fun f' hf' => hf f' (by simp [hf'])) h1 h2
  have hrun : ∀ (fs : List (Env × Int)) (s : Sel T), (∀ f ∈ fs, (f.2 % n).toNat = q) → s.sel = q → (selRuns n hn s fs).old ≠ q →
      (selRuns n hn s fs).tr = (fs.map (·.1)).foldl T.run s.tr ∧ s.old ≠ q := by
    intro fs
    induction fs with
    | nil => intro s _ _ h; exact ⟨rfl, h⟩
    | cons f fs ih =>
      intro s hf h1 h2
      by_cases ho : s.old = q
      · rw [hrest (f :: fs) s hf h1 ho] at h2
        exact absurd ho h2
      · have e := hstep s f h1 (hf f (by simp))
        unfold selGo at e
        rw [if_pos (by rw [h1]; exact fun h => ho h.symm)] at e
        unfold selRuns at h2 ⊢
        rw [List.foldl_cons, e] at h2 ⊢
        by_cases hd : T.done (T.run s.tr f.1) = false
        · rw [if_pos hd] at h2 ⊢
          obtain ⟨a, _⟩ := ih ⟨s.sel, s.old, T.run s.tr f.1⟩ (fun f' hf' => hf f' (by simp [hf'])) h1 h2
          exact ⟨a, ho⟩
        · rw [if_neg hd] at h2
          have := hrest fs ⟨s.sel, s.sel, T.run s.tr f.1⟩ (fun f' hf' => hf f' (by simp [hf'])) h1 h1
          unfold selRuns at this
          rw [this] at h2
          exact absurd h1 h2
  by_cases hfin : (selRuns n hn s fs).old = q
  · exact hfin
  · exfalso
    obtain ⟨h1, h2⟩ := hrun fs s hf hq hfin
    obtain ⟨s0, e, es, b1, b2, b3, _⟩ := h (by rw [hq]; exact fun h => h2 h.symm)
    have hu := under_runs n hn fs t s h hs
    obtain ⟨_, _, _, _, _, _, hnd⟩ := hu (by rw [hst fs s hf hq]; exact fun h => hfin h.symm)
    rw [h1, b3, ← List.foldl_append, List.cons_append] at hnd
    have hle := Verif.Style.Lockup.sched_le b1
    have := hT s0 e (es ++ fs.map (·.1)) (Verif.Style.Lockup.sched_join b1 (by rw [b2]; exact hs))
      (by rw [Verif.Transition.lastTime_append, b2]; omega)
    rw [this] at hnd
    cases hnd

/-- Whatever was selected before: when the selection has stayed the same for the time of the transition,
the colour shown is the one with the number `f mod n`, also for negative selections. -/
theorem C111_select {C : Type} {T : Trans C} {g hi t0 : Nat} (hT : EndsBy T g hi) (cs : List C) (hn : 0 < cs.length)
    (h256 : cs.length ≤ 256) (tr : T.S) (before : List (Env × Int)) (f : Env × Int) (after : List (Env × Int))
    (hf : ∀ f' ∈ after, f'.2 % cs.length = f.2 % cs.length) (hs : Sched g t0 ((before ++ f :: after).map (·.1)))
    (ht : f.1.time + hi ≤ lastTime f.1.time (after.map (·.1))) (led : Nat) :
    selColor cs (selRuns cs.length hn (⟨0, 0, tr⟩ : Sel T) (before ++ f :: after)) led = cs[(f.2 % cs.length).toNat]? := by
  have hsplit : before ++ f :: after = (before ++ [f]) ++ after := by simp
  rw [hsplit] at hs ⊢
  rw [List.map_append] at hs
  obtain ⟨s1, s2⟩ := Verif.Transition.sched_append hs
  have hlt : lastTime t0 ((before ++ [f]).map (·.1)) = f.1.time := by
    rw [List.map_append, Verif.Transition.lastTime_append]; rfl
  rw [hlt] at s2
  have hu := under_runs (T := T) cs.length hn (before ++ [f]) t0 ⟨0, 0, tr⟩ (fun h => absurd rfl h) s1
  rw [hlt] at hu
  have hsel : (selRuns cs.length hn (⟨0, 0, tr⟩ : Sel T) (before ++ [f])).sel = (f.2 % cs.length).toNat := by
    unfold selRuns
    rw [List.foldl_append]
    exact selRun_sel cs.length hn h256 _ f.1 f.2
  obtain ⟨e1, e2⟩ := runs_steady hT cs.length hn h256 (f.2 % cs.length).toNat after (fun f' hf' => by rw [hf f' hf']) f.1.time _ hsel hu s2 ht
  have happ : selRuns cs.length hn (⟨0, 0, tr⟩ : Sel T) (before ++ [f] ++ after) =
      selRuns cs.length hn (selRuns cs.length hn (⟨0, 0, tr⟩ : Sel T) (before ++ [f])) after := by
    unfold selRuns; rw [List.foldl_append]
  rw [happ]
  unfold selColor
  rw [e1, e2]
  have hb1 := Int.emod_nonneg f.2 (show (cs.length : Int) ≠ 0 by omega)
  have hb2 := Int.emod_lt_of_pos f.2 (show (0 : Int) < cs.length by omega)
  have hp : pick cs ((f.2 % cs.length).toNat : Int) = cs[(f.2 % cs.length).toNat]? := by
    rw [C111_pick cs (by intro hh; rw [hh] at hn; simp at hn)]
    congr 1
    omega
  rw [hp, getElem?_some cs _ (by omega)]
  simp

/-- A change begins with the colour selected before. -/
theorem C111_select_begin {C : Type} {T : Trans C} (cs : List C) (hn : 0 < cs.length) (h256 : cs.length ≤ 256) (s : Sel T)
    (hb : s.sel < cs.length) (e : Env) (f : Int) (hc : (f % cs.length).toNat ≠ s.sel) (hT : StartsAt T e) (led : Nat) :
    selColor cs (selRun cs.length hn s e f) led = cs[s.sel]? := by
  have hb1 := Int.emod_nonneg f (show (cs.length : Int) ≠ 0 by omega)
  have hb2 := Int.emod_lt_of_pos f (show (0 : Int) < cs.length by omega)
  have er : selRun cs.length hn s e f = ⟨(f % cs.length).toNat, s.sel, T.run (T.begin s.tr) e⟩ := by
    unfold selRun
    rw [selNum cs.length hn h256, show selChange s (f % cs.length).toNat = ⟨(f % cs.length).toNat, s.sel, T.begin s.tr⟩ from if_pos hc]
    unfold selGo
    simp only
    rw [if_pos hc, if_pos (hT s.tr).1]
  rw [er]
  unfold selColor
  simp only
  rw [C111_pick cs (by intro hh; rw [hh] at hn; simp at hn), C111_pick cs (by intro hh; rw [hh] at hn; simp at hn)]
  have e1 : (min (max ((f % cs.length).toNat : Int) 0) (cs.length - 1)).toNat = (f % cs.length).toNat := by omega
  have e2 : (min (max (s.sel : Int) 0) (cs.length - 1)).toNat = s.sel := by omega
  rw [e1, e2, getElem?_some cs (f % cs.length).toNat (by omega), getElem?_some cs s.sel hb]
  simp only
  rw [if_pos hc, (hT s.tr).2]

/-- Frame at time `t`. -/
def at_ (t : Nat) : Env := ⟨t, 10, 0⟩

/-- Three colours with fades of a tenth of a second; selection 1, then -1, that is the third colour. -/
example : selColor [(10 : Rat), 20, 40] (selRuns (T := Lockup.fade 100) 3 (by decide) ⟨0, 0, (false, 0, 0, 0)⟩
    [(at_ 0, 1), (at_ 90, -1), (at_ 150, -1), (at_ 200, -1)]) 5 = some 40 :=
  C111_select (T := Lockup.fade 100) (g := 100) (t0 := 0) (Lockup.fade_ends 100 100) [(10 : Rat), 20, 40] (by decide) (by decide) (false, 0, 0, 0)
    [(at_ 0, 1)] (at_ 90, -1) [(at_ 150, -1), (at_ 200, -1)] (by decide)
    (by simp [Sched, at_]) (by decide) 5

example : StartsAt (Lockup.fade 100) (at_ 90) := Lockup.fade_starts 100 (by decide) _

/-- The middle of a fade. -/
theorem selColor_two {T : Trans Rat} (a b c : Rat) (s : Sel T) (led : Nat) (x y : Rat)
    (hx : pick [a, b, c] s.sel = some x) (hy : pick [a, b, c] s.old = some y) (h : s.sel ≠ s.old) :
    selColor [a, b, c] s led = some (T.color s.tr y x led) := by
  unfold selColor
  rw [hx, hy]
  simp only
  rw [if_pos h]

/-- "The transition will be used to change from the old color": a third colour selected in the middle of
a fade makes the blade jump, here from near the first colour to all of the second.  And a style
whose selection is not the first at the start fades in from the first colour, which was never selected. -/
theorem C111_select_counterexample :
    selColor [(0 : Rat), 1000, 0] (selRuns (T := Lockup.fade 1000) 3 (by decide) ⟨0, 0, (false, 0, 0, 0)⟩ [(at_ 0, 1), (at_ 10, 1)]) 5 = some 10 ∧
    selColor [(0 : Rat), 1000, 0] (selRuns (T := Lockup.fade 1000) 3 (by decide) ⟨0, 0, (false, 0, 0, 0)⟩ [(at_ 0, 1), (at_ 10, 1), (at_ 10, 2)]) 5 = some 1000 := by
  have a1 : addUp 3 (by decide) 1 = 1 := by rw [addUp]; rfl
  have a2 : addUp 3 (by decide) 2 = 2 := by rw [addUp]; rfl
  have p : ∀ k : Nat, pick [(0 : Rat), 1000, 0] k = [(0 : Rat), 1000, 0][(min (max (k : Int) 0) 2).toNat]? := fun k => C111_pick _ (by simp) _
  constructor
  · simp only [selRuns, List.foldl_cons, List.foldl_nil, selRun, a1]
    rw [selColor_two 0 1000 0 _ 5 1000 0 (by rw [p]; decide +kernel) (by rw [p]; decide +kernel) (by decide +kernel)]
    decide +kernel
  · simp only [selRuns, List.foldl_cons, List.foldl_nil, selRun, a1, a2]
    rw [selColor_two 0 1000 0 _ 5 0 1000 (by rw [p]; decide +kernel) (by rw [p]; decide +kernel) (by decide +kernel)]
    decide +kernel

/-! ## `MOD` and `SyncAltToVariance` -/

/-- `~x`. -/
def inv (x : Int) : Int := -x - 1

/-- `MOD`, common/math.h:31-34; `%` of C++ is `Int.tmod`. -/
def mod (x m : Int) : Int := if x ≥ 0 then x.tmod m else m + inv ((inv x).tmod m)

/-- `MOD` is the remainder between 0 and `m - 1`, for negative numbers too. -/
theorem C111_mod (x m : Int) (hm : 0 < m) : mod x m = x % m ∧ 0 ≤ mod x m ∧ mod x m < m := by
  have key : mod x m = x % m := by
    unfold mod
    by_cases h : x ≥ 0
    · rw [if_pos h, Int.tmod_eq_emod_of_nonneg h]
    · rw [if_neg h]
      unfold inv
      rw [Int.tmod_eq_emod_of_nonneg (by omega)]
      have h1 := Int.emod_nonneg (-x - 1) (show m ≠ 0 by omega)
      have h2 := Int.emod_lt_of_pos (-x - 1) hm
      have h3 := Int.emod_add_mul_ediv (-x - 1) m
      generalize hq : (-x - 1) / m = q at h3
      generalize hr : (-x - 1) % m = r at *
      have : x = (m + (-r - 1)) + m * (-q - 1) := by
        rw [Int.mul_sub, Int.mul_neg]; omega
      rw [this, Int.add_mul_emod_self_left, Int.emod_eq_of_lt (by omega) (by omega)]
  refine ⟨key, ?_⟩
  rw [key]
  exact ⟨Int.emod_nonneg _ (by omega), Int.emod_lt_of_pos _ hm⟩

example : mod (-1) 3 = 2 ∧ mod (-3) 3 = 0 ∧ mod 7 3 = 1 := by decide

/-- The variation, `current_alternative`, `last_` and the number of alternative-sound effects issued. -/
structure Sync where
  var : Int
  alt : Int
  last : Int
  sounds : Nat
  deriving DecidableEq

/-- Handling of `EFFECT_ALT_SOUND` with a number, sound/hybrid_font.h:568-583. -/
def altSound (num : Int) (s : Sync) (v : Int) : Sync := { s with alt := min v (num - 1), sounds := s.sounds + 1 }

/-- `Loop`, functions/alt.h:37-50. -/
def loop (num : Int) (s : Sync) : Sync :=
  if num = 0 then s
  else if mod s.var num = s.last ∧ s.alt = s.last then s
  else if s.last = 0x7fffffff then { s with alt := mod s.var num, last := mod s.var num }
  else if mod s.var num ≠ s.last then { altSound num s (mod s.var num) with last := mod s.var num }
  else { s with var := s.alt, last := s.alt }

/-- What the user and the saber do: turn the variation, choose an alternative, or let time pass. -/
inductive Op
  | setVar (v : Int)
  | setAlt (a : Int)
  | loop

/-- One operation. -/
def op (num : Int) (s : Sync) : Op → Sync
  | .setVar v => { s with var := v }
  | .setAlt a => { s with alt := a }
  | .loop => loop num s

/-- Alternatives chosen exist. -/
def Op.Ok (num : Int) : Op → Prop
  | .setAlt a => 0 ≤ a ∧ a < num
  | _ => True

/-- The alternative exists. -/
def Good (num : Int) (s : Sync) : Prop := 0 ≤ s.alt ∧ s.alt < num

theorem loop_synced {num : Int} (h : 0 < num) (hb : num < 0x7fffffff) (s : Sync) (hg : Good num s) :
    Good num (loop num s) ∧ (loop num s).alt = (loop num s).var % num ∧ (loop num s).last = (loop num s).alt := by
  obtain ⟨m1, m2, m3⟩ := C111_mod s.var num h
  obtain ⟨g1, g2⟩ := hg
  unfold loop Good
  rw [if_neg (by omega)]
  split
  · rename_i hh
    exact ⟨⟨g1, g2⟩, by rw [hh.2, ← hh.1, m1], hh.2.symm⟩
  split
  · exact ⟨⟨m2, m3⟩, m1, rfl⟩
  split
  · simp only [altSound]
    have : min (mod s.var num) (num - 1) = mod s.var num := by omega
    rw [this]
    exact ⟨⟨m2, m3⟩, m1, rfl⟩
  · exact ⟨⟨g1, g2⟩, (Int.emod_eq_of_lt g1 g2).symm, rfl⟩

theorem ops_good {num : Int} (h : 0 < num) (hb : num < 0x7fffffff) (ops : List Op) (ho : ∀ o ∈ ops, o.Ok num) (s : Sync) (hg : Good num s) :
    Good num (ops.foldl (op num) s) := by
  induction ops generalizing s with
  | nil => exact hg
  | cons o ops ih =>
    refine ih (fun o' h' => ho o' (by simp [h'])) _ ?_
    cases o with
    | setVar v => exact hg
    | setAlt a => exact ho (.setAlt a) (by simp)
    | loop => exact (loop_synced h hb s hg).1

/-- After any history, when the loop has run the alternative is the variation modulo the number of
alternatives. -/
theorem C111_sync {num : Int} (h : 0 < num) (hb : num < 0x7fffffff) (ops : List Op) (ho : ∀ o ∈ ops, o.Ok num) (s : Sync) (hg : Good num s) :
    ((ops ++ [Op.loop]).foldl (op num) s).alt = ((ops ++ [Op.loop]).foldl (op num) s).var % num := by
  rw [List.foldl_append]
  exact (loop_synced h hb _ (ops_good h hb ops ho s hg)).2.1

/-- Whoever changed something wins: a variation set since the last loop stays and decides the
alternative, with a sound exactly when the alternative is another one; an alternative chosen since
the last loop stays and decides the variation; nothing changed: nothing happens. -/
theorem C111_sync_winner {num : Int} (h : 0 < num) (hb : num < 0x7fffffff) (ops : List Op) (ho : ∀ o ∈ ops, o.Ok num) (s : Sync) (hg : Good num s) :
    let t := (ops ++ [Op.loop]).foldl (op num) s
    (∀ v, ((([.setVar v, .loop] : List Op).foldl (op num) t).var = v) ∧ ((([.setVar v, .loop] : List Op).foldl (op num) t).alt = v % num) ∧
      ((([.setVar v, .loop] : List Op).foldl (op num) t).sounds = t.sounds + if v % num = t.alt then 0 else 1)) ∧
    (∀ a, 0 ≤ a → a < num → ((([.setAlt a, .loop] : List Op).foldl (op num) t).alt = a) ∧
      ((([.setAlt a, .loop] : List Op).foldl (op num) t).var % num = a) ∧ (([.setAlt a, .loop] : List Op).foldl (op num) t).sounds = t.sounds) ∧
    op num t .loop = t := by
  intro t
  obtain ⟨hg', hs', hl'⟩ : Good num t ∧ t.alt = t.var % num ∧ t.last = t.alt := by
    show Good num ((ops ++ [Op.loop]).foldl (op num) s) ∧ _
    simp only [t, List.foldl_append]
    exact loop_synced h hb _ (ops_good h hb ops ho s hg)
  generalize t = t at *
  obtain ⟨g1, g2⟩ := hg'
  refine ⟨fun v => ?_, fun a ha1 ha2 => ?_, ?_⟩
  · obtain ⟨m1, m2, m3⟩ := C111_mod v num h
    simp only [List.foldl_cons, List.foldl_nil, op]
    unfold loop
    rw [if_neg (by omega)]
    by_cases hv : v % num = t.alt
    · rw [if_pos (show mod v num = t.last ∧ t.alt = t.last from ⟨by rw [m1, hl']; exact hv, hl'.symm⟩)]
      exact ⟨rfl, hv.symm, by rw [if_pos hv]; rfl⟩
    · rw [if_neg (show ¬ (mod v num = t.last ∧ t.alt = t.last) from fun hh => hv (by rw [← m1, hh.1, hl']))]
      simp only
      rw [if_neg (by omega), if_pos (by rw [m1, hl']; exact hv), if_neg hv]
      simp only [altSound]
      refine ⟨trivial, by omega, trivial⟩
  · obtain ⟨m1, m2, m3⟩ := C111_mod t.var num h
    simp only [List.foldl_cons, List.foldl_nil, op]
    unfold loop
    rw [if_neg (by omega)]
    simp only
    have hm : mod t.var num = t.last := by rw [m1, hl', hs']
    by_cases ha : a = t.last
    · rw [if_pos ⟨hm, ha⟩]
      exact ⟨rfl, by rw [← hs', ← hl', ha], rfl⟩
    · rw [if_neg (fun hh => ha hh.2), if_neg (by omega), if_neg (fun hh => hh hm)]
      exact ⟨rfl, Int.emod_eq_of_lt ha1 ha2, rfl⟩
  · obtain ⟨m1, m2, m3⟩ := C111_mod t.var num h
    simp only [op]
    unfold loop
    rw [if_neg (by omega), if_pos ⟨by rw [m1, hl', hs'], hl'.symm⟩]

/-- Variation 7 of five alternatives from the preset, quietly; then alternative 4, then variation -1. -/
example : (([.loop] : List Op).foldl (op 5) ⟨7, 0, 0x7fffffff, 0⟩ : Sync) = ⟨7, 2, 2, 0⟩ ∧
    (([.loop, .setAlt 4, .loop] : List Op).foldl (op 5) ⟨7, 0, 0x7fffffff, 0⟩ : Sync) = ⟨4, 4, 4, 0⟩ ∧
    (([.loop, .setAlt 3, .loop, .setVar (-1), .loop] : List Op).foldl (op 5) ⟨7, 0, 0x7fffffff, 0⟩ : Sync) = ⟨-1, 4, 4, 1⟩ := by decide

end Verif.Style.Choose
