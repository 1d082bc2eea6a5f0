import Verif.Style.Lockup
/-!
# Effects within transitions, several effects at once, loops (C112)

Model of `TrDoEffectX` and `TrDoEffectAlwaysX` (transitions/doeffect.h:24-96), `EffectLocation` made from
a number or at random (common/saber_base.h:206-231), `MultiTransitionEffectL`
(styles/transition_effect.h:56-112) and `TransitionLoopL` (styles/transition_loop.h:13-34).  Transitions
are as in Verif/Style/Lockup.lean.
-/
namespace Verif.Style.MultiEffect
open Verif.Transition (Env Sched lastTime)
open Verif.Style.Lockup (Trans Helper)

/-! ## `TrDoEffectX` and `TrDoEffectAlwaysX` -/

/-- What a frame sees: time, `is_on()`, `is_powered()`. -/
structure Frame where
  env : Env
  on : Bool
  powered : Bool

/-- The inner transition, `begin_`, `done_`, and the number of effects issued. -/
structure DoSt {C : Type} (T : Trans C) where
  tr : T.S
  begin : Bool
  done : Bool
  issued : Nat

/-- `begin`, transitions/doeffect.h:27-31 (and 75-78, which has no `done_`). -/
def doBegin {C : Type} {T : Trans C} (s : DoSt T) : DoSt T := ⟨T.begin s.tr, true, false, s.issued⟩

/-- `run`, transitions/doeffect.h:32-49; with `always`, 79-89. -/
def doRun {C : Type} {T : Trans C} (always : Bool) (s : DoSt T) (f : Frame) : DoSt T :=
  ⟨T.run s.tr f.env, false,
   if always then s.done else s.done || (!f.on && !f.powered),
   if s.begin && (always || f.on) then s.issued + 1 else s.issued⟩

/-- `done`, transitions/doeffect.h:51. -/
def doDone {C : Type} {T : Trans C} (s : DoSt T) : Bool := s.done || T.done s.tr

/-- `getColor`, transitions/doeffect.h:53-57. -/
def doColor {C : Type} {T : Trans C} (s : DoSt T) (a b : C) (led : Nat) : C := if s.done then b else T.color s.tr a b led

/-- What the style does with the transition: begin it or run it in a frame. -/
inductive Use
  | begin
  | run (f : Frame)

/-- One use. -/
def use {C : Type} {T : Trans C} (always : Bool) (s : DoSt T) : Use → DoSt T
  | .begin => doBegin s
  | .run f => doRun always s f

/-- The number of times a begin is followed at once by a frame, with the blade on unless `always`. -/
def fired (always : Bool) : List Use → Nat
  | .begin :: .run f :: us => (if always || f.on then 1 else 0) + fired always us
  | _ :: us => fired always us
  | [] => 0

theorem fired_run (always : Bool) (f : Frame) (us : List Use) : fired always (.run f :: us) = fired always us := by
  rw [fired]; intro f' us' h; cases h

theorem fired_begin (always : Bool) (us : List Use) : fired always (.begin :: .begin :: us) = fired always (.begin :: us) := by
  rw [fired]; intro f' us' _ h; simp at h

theorem issued_gen {C : Type} {T : Trans C} (always : Bool) (us : List Use) (s : DoSt T) :
    (us.foldl (use always) s).issued = s.issued + if s.begin then fired always (.begin :: us) else fired always us := by
  induction us generalizing s with
  | nil => cases s.begin <;> simp [fired]
  | cons u us ih =>
    rw [List.foldl_cons, ih]
    cases u with
    | begin =>
      simp only [use, doBegin, if_true]
      cases s.begin
      · simp
      · simp only [if_true]; rw [fired_begin]
    | run f =>
      simp only [use, doRun]
      cases hb : s.begin
      · simp [fired_run]
      · simp only [Bool.true_and, if_true, Bool.false_eq_true, if_false]
        have : fired always (.begin :: .run f :: us) = (if always || f.on then 1 else 0) + fired always us := rfl
        rw [this]
        split <;> omega

/-- However a transition is begun and run, every begin which is followed by a frame issues the effect
once, in that frame, and only if the blade is on (`TrDoEffectAlways`: in any case). -/
theorem C112_once {C : Type} {T : Trans C} (always : Bool) (us : List Use) (tr : T.S) (d : Bool) :
    (us.foldl (use always) (⟨tr, false, d, 0⟩ : DoSt T)).issued = fired always us := by
  rw [issued_gen]; simp

/-- A transition begun and run over frames: it is over as soon as the inner one is or the blade was off and
without power in some frame, and then shows the second colour; until then it shows the inner one. -/
theorem C112_inner {C : Type} {T : Trans C} (s : DoSt T) (fs : List Frame) (a b : C) (led : Nat) :
    let t := (fs.map Use.run).foldl (use false) (use false s .begin)
    (doDone t = true ↔ T.done ((fs.map (·.env)).foldl T.run (T.begin s.tr)) = true ∨ ∃ f ∈ fs, f.on = false ∧ f.powered = false) ∧
    doColor t a b led = if (∃ f ∈ fs, f.on = false ∧ f.powered = false) then b else T.color ((fs.map (·.env)).foldl T.run (T.begin s.tr)) a b led := by
  have key : ∀ (fs : List Frame) (s : DoSt T), ((fs.map Use.run).foldl (use false) s).tr = (fs.map (·.env)).foldl T.run s.tr ∧
      (((fs.map Use.run).foldl (use false) s).done = true ↔ s.done = true ∨ ∃ f ∈ fs, f.on = false ∧ f.powered = false) := by
    intro fs
    induction fs with
    | nil => intro s; exact ⟨rfl, by simp⟩
    | cons f fs ih =>
      intro s
      obtain ⟨h1, h2⟩ := ih (use false s (.run f))
      refine ⟨h1, ?_⟩
      have e : ((f :: fs).map Use.run).foldl (use false) s = (fs.map Use.run).foldl (use false) (use false s (.run f)) := rfl
      rw [e, h2]
      simp only [use, doRun, Bool.false_eq_true, if_false, Bool.or_eq_true, Bool.and_eq_true, Bool.not_eq_true', List.mem_cons]
      constructor
      · rintro ((h | h) | ⟨f', h', h''⟩)
        · exact Or.inl h
        · exact Or.inr ⟨f, Or.inl rfl, h⟩
        · exact Or.inr ⟨f', Or.inr h', h''⟩
      · rintro (h | ⟨f', rfl | h', h''⟩)
        · exact Or.inl (Or.inl h)
        · exact Or.inl (Or.inr h'')
        · exact Or.inr ⟨f', h', h''⟩
  intro t
  obtain ⟨h1, h2⟩ := key fs (use false s .begin)
  have h2' : t.done = true ↔ ∃ f ∈ fs, f.on = false ∧ f.powered = false := by
    rw [show t = (fs.map Use.run).foldl (use false) (use false s .begin) from rfl, h2]; simp [use, doBegin]
  have h1' : t.tr = (fs.map (·.env)).foldl T.run (T.begin s.tr) := h1
  constructor
  · unfold doDone
    rw [Bool.or_eq_true, h1', h2']
    exact Or.comm
  · unfold doColor
    rw [h1']
    by_cases h : ∃ f ∈ fs, f.on = false ∧ f.powered = false
    · rw [if_pos h, if_pos (h2'.2 h)]
    · rw [if_neg h, if_neg (fun hh => h (h2'.1 hh))]

/-- Frame at time `t`. -/
def fr (t : Nat) (on : Bool) : Frame := ⟨⟨t, 10, 0⟩, on, on⟩

example : fired false [.begin, .run (fr 0 true), .run (fr 1 true), .begin, .begin, .run (fr 2 false), .run (fr 3 true), .begin, .run (fr 4 true)] = 2 ∧
    fired true [.begin, .run (fr 0 true), .run (fr 1 true), .begin, .begin, .run (fr 2 false), .run (fr 3 true), .begin, .run (fr 4 true)] = 3 := by decide

/-! ## Locations -/

/-- `EffectLocation(float f)`, common/saber_base.h:216: a conversion to `uint16_t` of a value outside
its range is undefined. -/
def ofFloat (f : Rat) : Option Nat := if -1 < f * 32768 ∧ f * 32768 < 65536 then some (f * 32768).floor.toNat else none

/-- The location of the effect, transitions/doeffect.h:36-37 with the value of LOCATION and the random
number drawn. -/
def doLocation (l : Int) (r : Nat) : Option Nat := if l = -1 then ofFloat ((r : Rat) / 32768) else ofFloat l

/-- The locations that work are 0 (the hilt), 1 (the tip) and -1 (anywhere on the blade). -/
theorem C112_location_partial (l : Int) (r : Nat) (hr : r < 32768) :
    (l = 0 → doLocation l r = some 0) ∧ (l = 1 → doLocation l r = some 32768) ∧ (l = -1 → doLocation l r = some r) := by
  refine ⟨fun h => ?_, fun h => ?_, fun h => ?_⟩
  · subst h
    have : doLocation 0 r = ofFloat 0 := if_neg (by decide)
    rw [this]; decide +kernel
  · subst h
    have : doLocation 1 r = ofFloat 1 := if_neg (by decide)
    rw [this]; decide +kernel
  · subst h
    unfold doLocation ofFloat
    have e : (r : Rat) / 32768 * 32768 = r := by
      rw [Rat.div_mul_cancel]; decide +kernel
    rw [if_pos rfl, e]
    have h1 : (-1 : Rat) < r := by
      have : (0 : Rat) ≤ (r : Rat) := by exact_mod_cast Nat.zero_le r
      have h0 : (-1 : Rat) < 0 := by decide +kernel
      exact lt_of_lt_of_le h0 this
    have h2 : (r : Rat) < 65536 := by
      have : r < 65536 := by omega
      exact_mod_cast this
    rw [if_pos ⟨h1, h2⟩]
    have h3 : (r : Rat).floor = r := by exact_mod_cast Rat.floor_intCast (r : Int)
    rw [h3]; rfl

/-- Every other location is undefined, although locations and integers count to 32768 everywhere else:
`TrDoEffect<..., 16384>` is not the middle of the blade. -/
theorem C112_location_counterexample (l : Int) (h : 2 ≤ l ∨ l ≤ -2) (r : Nat) : doLocation l r = none := by
  unfold doLocation ofFloat
  rw [if_neg (by omega), if_neg]
  rintro ⟨h1, h2⟩
  have e1 : (-1 : Int) < l * 32768 := by exact_mod_cast h1
  have e2 : l * 32768 < (65536 : Int) := by exact_mod_cast h2
  omega

/-- `EffectLocation::rnd`, common/saber_base.h:217-222: `random(22937)` is below 22937, the sum is cut to 16 bits. -/
def rnd (r : Nat) : Nat := (65535 + r) % 65536

/-- A random location is in the lower seven tenths of the blade, or, once in 22937 times, at twice its
length. -/
theorem C112_random (r : Nat) (h : r < 22937) : (r = 0 ∧ rnd r = 65535) ∨ (0 < r ∧ rnd r < 22936 ∧ rnd r * 10 < 32768 * 7) := by
  unfold rnd; omega

/-- So it is not "between two and nine tenths": the hilt itself is hit, and beyond the tip. -/
theorem C112_random_counterexample : ∃ r < 22937, rnd r = 0 ∧ ∃ r' < 22937, rnd r' > 32768 := ⟨1, by decide, rfl, 0, by decide, by decide⟩

/-! ## `MultiTransitionEffectL` -/

/-- A frame: time, and whether the detector reports an effect.  It reports the newest one only, and a
second call in the frame finds it seen already (blades/blade_base.h:111-147), so one per frame. -/
structure Hit where
  env : Env
  hit : Bool

/-- `pos_`, and `run_` with `transitions_`; a slot is like a `TransitionHelper`. -/
structure Multi {C : Type} (T : Trans C) where
  pos : Nat
  slot : Nat → Helper T

/-- `pos_++; if (pos_ >= N) pos_ = 0;`, styles/transition_effect.h:69-70. -/
def next (n pos : Nat) : Nat := if (pos + 1) % 256 ≥ n then 0 else (pos + 1) % 256

/-- A new effect, styles/transition_effect.h:65-71. -/
def Multi.start {C : Type} {T : Trans C} (n : Nat) (s : Multi T) : Multi T :=
  ⟨next n s.pos, fun i => if i = s.pos then (s.slot i).begin else s.slot i⟩

/-- `run`, styles/transition_effect.h:60-85. -/
def Multi.run {C : Type} {T : Trans C} (n : Nat) (s : Multi T) (f : Hit) : Multi T :=
  let s' := if f.hit then s.start n else s
  ⟨s'.pos, fun i => (s'.slot i).run f.env⟩

/-- `getColor`, styles/transition_effect.h:95-107, as layers from the bottom to the top. -/
def Multi.layers {C : Type} {T : Trans C} (n : Nat) (s : Multi T) (clear : C) (led : Nat) : List C :=
  (List.range n).reverse.filterMap (fun i =>
    if (s.slot ((i + s.pos) % n)).active then some (T.color (s.slot ((i + s.pos) % n)).tr clear clear led) else none)

/-- The frames since each effect, the newest effect first. -/
def since : List Hit → List (List Hit)
  | [] => []
  | f :: fs => since fs ++ if f.hit then [f :: fs] else []

theorem since_snoc (fs : List Hit) (f : Hit) :
    since (fs ++ [f]) = (if f.hit then [[f]] else []) ++ (since fs).map (· ++ [f]) := by
  induction fs with
  | nil => simp [since]
  | cons a fs ih =>
    simp only [List.cons_append, since, ih]
    cases a.hit <;> simp

theorem next_eq {n pos : Nat} (hn : n ≤ 256) (hp : pos < n) : next n pos = (pos + 1) % n := by
  unfold next
  by_cases h : pos + 1 = n
  · rw [h, Nat.mod_self]
    by_cases h2 : n = 256
    · subst h2; rfl
    · rw [Nat.mod_eq_of_lt (show n < 256 by omega)]; simp
  · rw [Nat.mod_eq_of_lt (show pos + 1 < 256 by omega), Nat.mod_eq_of_lt (show pos + 1 < n by omega), if_neg (by omega)]

/-- The slot of the `i`-th newest effect. -/
def idx (n pos i : Nat) : Nat := (n - 1 - i + pos) % n

theorem idx_next {n pos i : Nat} (hn : n ≤ 256) (hp : pos < n) (hi : i + 1 < n) : idx n (next n pos) (i + 1) = idx n pos i := by
  unfold idx
  rw [next_eq hn hp, Nat.add_mod, Nat.mod_mod, ← Nat.add_mod]
  congr 1
  omega

theorem idx_zero {n pos : Nat} (hn : n ≤ 256) (hp : pos < n) : idx n (next n pos) 0 = pos := by
  unfold idx
  rw [next_eq hn hp, Nat.add_mod, Nat.mod_mod, ← Nat.add_mod]
  have : n - 1 - 0 + (pos + 1) = pos + n := by omega
  rw [this, Nat.add_mod_right, Nat.mod_eq_of_lt hp]

theorem idx_inj {n pos i : Nat} (hp : pos < n) (hi : i < n) (h : idx n pos i = pos) : i + 1 = n := by
  unfold idx at h
  by_cases hh : n - 1 - i + pos < n
  · rw [Nat.mod_eq_of_lt hh] at h; omega
  · rw [Nat.mod_eq_sub_mod (by omega), Nat.mod_eq_of_lt (by omega)] at h; omega

theorem next_lt {n pos : Nat} (hn : n ≤ 256) (hp : pos < n) : next n pos < n := by
  rw [next_eq hn hp]; exact Nat.mod_lt _ (by omega)

/-- Each slot holds one of the newest effects, run since it came. -/
def Inv {C : Type} {T : Trans C} (n : Nat) (fs : List Hit) (s : Multi T) : Prop :=
  s.pos < n ∧ ∀ i < n, match (since fs)[i]? with
    | some gs => ∃ h0 : Helper T, s.slot (idx n s.pos i) = (gs.map (·.env)).foldl Helper.run h0.begin
    | none => (s.slot (idx n s.pos i)).active = false

theorem inv_run {C : Type} {T : Trans C} {n : Nat} (hn : n ≤ 256) (fs : List Hit) (f : Hit) (s : Multi T) (h : Inv n fs s) :
    Inv n (fs ++ [f]) (s.run n f) := by
  obtain ⟨hp, hi⟩ := h
  have rest : ∀ h : Helper T, h.active = false → (h.run f.env).active = false := by
    intro h hh; unfold Helper.run; rw [hh]; simpa using hh
  cases hf : f.hit with
  | false =>
    refine ⟨by simpa [Multi.run, hf] using hp, fun i hin => ?_⟩
    have h1 := hi i hin
    simp only [Multi.run, hf, Bool.false_eq_true, if_false, since_snoc, List.nil_append, List.getElem?_map]
    cases hs : (since fs)[i]? with
    | none =>
      rw [hs] at h1
      exact rest _ h1
    | some gs =>
      rw [hs] at h1
      obtain ⟨h0, e⟩ := h1
      refine ⟨h0, ?_⟩
      rw [e, List.map_append, List.foldl_append]; rfl
  | true =>
    refine ⟨by simpa [Multi.run, hf, Multi.start] using next_lt hn hp, fun i hin => ?_⟩
    simp only [Multi.run, hf, if_true, Multi.start, since_snoc, List.singleton_append]
    cases i with
    | zero =>
      simp only [List.getElem?_cons_zero]
      rw [idx_zero hn hp, if_pos rfl]
      exact ⟨s.slot s.pos, rfl⟩
    | succ i =>
      simp only [List.getElem?_cons_succ, List.getElem?_map]
      rw [idx_next hn hp hin]
      have hne : idx n s.pos i ≠ s.pos := fun hh => by have := idx_inj hp (by omega) hh; omega
      rw [if_neg hne]
      have h1 := hi i (by omega)
      cases hs : (since fs)[i]? with
      | none =>
        rw [hs] at h1
        exact rest _ h1
      | some gs =>
        rw [hs] at h1
        obtain ⟨h0, e⟩ := h1
        refine ⟨h0, ?_⟩
        rw [e, List.map_append, List.foldl_append]; rfl

theorem inv_all {C : Type} {T : Trans C} {n : Nat} (h0 : 0 < n) (hn : n ≤ 256) (fs : List Hit) (slots : Nat → T.S) :
    Inv n fs (fs.foldl (Multi.run n) (⟨0, fun i => ⟨slots i, false⟩⟩ : Multi T)) := by
  have key : ∀ fs : List Hit, Inv n fs.reverse (fs.reverse.foldl (Multi.run n) (⟨0, fun i => ⟨slots i, false⟩⟩ : Multi T)) := by
    intro fs
    induction fs with
    | nil => exact ⟨h0, fun i _ => by simp [since]⟩
    | cons f fs ih =>
      rw [List.reverse_cons, List.foldl_append]
      exact inv_run hn _ f _ ih
  simpa using key fs.reverse

/-- How a transition looks and when it ends depends on the frames since it began only. -/
def Fresh {C : Type} (T : Trans C) : Prop :=
  ∀ (s s' : T.S) (e : Env) (es : List Env), T.done ((e :: es).foldl T.run (T.begin s)) = T.done ((e :: es).foldl T.run (T.begin s')) ∧
    ∀ a b led, T.color ((e :: es).foldl T.run (T.begin s)) a b led = T.color ((e :: es).foldl T.run (T.begin s')) a b led

/-- What an effect alone shows: the transition in the frames since it came, nothing once it was over
in one of them. -/
def alone {C : Type} (T : Trans C) (s : T.S) (gs : List Env) (clear : C) (led : Nat) : Option C :=
  if (List.range gs.length).any (fun k => T.done ((gs.take (k + 1)).foldl T.run (T.begin s))) then none
  else some (T.color (gs.foldl T.run (T.begin s)) clear clear led)

theorem any_iff {C : Type} (T : Trans C) (s : T.S) (gs : List Env) :
    (List.range gs.length).any (fun k => T.done ((gs.take (k + 1)).foldl T.run s)) = true ↔
      ∃ k, 0 < k ∧ k ≤ gs.length ∧ T.done ((gs.take k).foldl T.run s) = true := by
  rw [List.any_eq_true]
  constructor
  · rintro ⟨k, k1, k2⟩
    rw [List.mem_range] at k1
    exact ⟨k + 1, by omega, by omega, k2⟩
  · rintro ⟨k, k1, k2, k3⟩
    refine ⟨k - 1, by rw [List.mem_range]; omega, ?_⟩
    rw [show k - 1 + 1 = k by omega]; exact k3

theorem filterMap_same {α β : Type} (f g : α → Option β) (l : List α) (h : ∀ x ∈ l, f x = g x) : l.filterMap f = l.filterMap g := by
  induction l with
  | nil => rfl
  | cons a l ih =>
    rw [List.filterMap_cons, List.filterMap_cons, h a (by simp), ih (fun x hx => h x (by simp [hx]))]

/-- A helper after frames: active as long as the transition was not over in any of them. -/
theorem helper_frames {C : Type} {T : Trans C} (h : Helper T) (hact : h.active = true) (gs : List Env) :
    ((gs.foldl Helper.run h).active = true → (gs.foldl Helper.run h).tr = gs.foldl T.run h.tr) ∧
    ((gs.foldl Helper.run h).active = false ↔ ∃ k, 0 < k ∧ k ≤ gs.length ∧ T.done ((gs.take k).foldl T.run h.tr) = true) := by
  induction gs generalizing h with
  | nil =>
    refine ⟨fun _ => rfl, ?_⟩
    constructor
    · intro hh; rw [List.foldl_nil, hact] at hh; cases hh
    · rintro ⟨k, k1, k2, _⟩; simp only [List.length_nil] at k2; omega
  | cons e gs ih =>
    have hr : h.run e = ⟨T.run h.tr e, !T.done (T.run h.tr e)⟩ := by unfold Helper.run; rw [if_pos hact]
    have e1 : (e :: gs).foldl Helper.run h = gs.foldl Helper.run (h.run e) := rfl
    have e2 : (e :: gs).foldl T.run h.tr = gs.foldl T.run (T.run h.tr e) := rfl
    cases hd : T.done (T.run h.tr e) with
    | true =>
      rw [hd] at hr
      rw [e1, hr, Verif.Style.Lockup.helper_rest _ rfl]
      refine ⟨fun hh => (by simp at hh), fun _ => ⟨1, by omega, by simp, ?_⟩, fun _ => rfl⟩
      exact hd
    | false =>
      rw [hd] at hr
      obtain ⟨i1, i2⟩ := ih ⟨T.run h.tr e, !false⟩ rfl
      rw [e1, hr, e2]
      refine ⟨i1, i2.trans ⟨?_, ?_⟩⟩
      · rintro ⟨k, k1, k2, k3⟩
        exact ⟨k + 1, by omega, by simp; omega, k3⟩
      · rintro ⟨k, k1, k2, k3⟩
        cases k with
        | zero => omega
        | succ k =>
          cases k with
          | zero =>
            have : T.done (T.run h.tr e) = true := k3
            rw [hd] at this; cases this
          | succ k => exact ⟨k + 1, by omega, by simp at k2; omega, k3⟩

theorem alone_fresh {C : Type} {T : Trans C} (hT : Fresh T) (s s' : T.S) (e : Env) (es : List Env) (clear : C) (led : Nat) :
    alone T s (e :: es) clear led = alone T s' (e :: es) clear led := by
  unfold alone
  have h1 : (∃ k, 0 < k ∧ k ≤ (e :: es).length ∧ T.done (((e :: es).take k).foldl T.run (T.begin s)) = true) ↔
      (∃ k, 0 < k ∧ k ≤ (e :: es).length ∧ T.done (((e :: es).take k).foldl T.run (T.begin s')) = true) := by
    constructor <;> rintro ⟨k, k1, k2, k3⟩ <;> refine ⟨k, k1, k2, ?_⟩ <;> (cases k with
      | zero => omega
      | succ k =>
        rw [List.take_succ_cons] at k3 ⊢
        first
        | rw [← (hT s s' e (es.take k)).1]; exact k3
        | rw [(hT s s' e (es.take k)).1]; exact k3)
  by_cases h : (∃ k, 0 < k ∧ k ≤ (e :: es).length ∧ T.done (((e :: es).take k).foldl T.run (T.begin s)) = true)
  · rw [if_pos ((any_iff T _ _).2 h), if_pos ((any_iff T _ _).2 (h1.1 h))]
  · rw [if_neg (fun hh => h ((any_iff T _ _).1 hh)), if_neg (fun hh => h (h1.2 ((any_iff T _ _).1 hh))), (hT s s' e es).2]

theorem since_ne (fs : List Hit) : ∀ gs ∈ since fs, gs ≠ [] := by
  induction fs with
  | nil => intro gs h; simp [since] at h
  | cons f fs ih =>
    intro gs h
    simp only [since, List.mem_append] at h
    rcases h with h | h
    · exact ih gs h
    · cases hf : f.hit <;> rw [hf] at h <;> simp at h
      rw [h]; simp

theorem range_reverse (n : Nat) : (List.range n).reverse = (List.range n).map (fun i => n - 1 - i) := by
  apply List.ext_getElem
  · simp
  · intro i h1 h2; simp

/-- The blade shows the newest `n` effects, each as if it were alone, the newest at the bottom and the
oldest on top; an effect is dropped before its end only when `n` newer ones have come. -/
theorem C112_multi {C : Type} {T : Trans C} (hT : Fresh T) {n : Nat} (h0 : 0 < n) (hn : n ≤ 256) (fs : List Hit) (slots : Nat → T.S)
    (s0 : T.S) (clear : C) (led : Nat) :
    (fs.foldl (Multi.run n) (⟨0, fun i => ⟨slots i, false⟩⟩ : Multi T)).layers n clear led =
      ((since fs).take n).filterMap (fun gs => alone T s0 (gs.map (·.env)) clear led) := by
  have hI := inv_all (T := T) h0 hn fs slots
  generalize fs.foldl (Multi.run n) (⟨0, fun i => ⟨slots i, false⟩⟩ : Multi T) = s at hI
  obtain ⟨hp, hi⟩ := hI
  have hne := since_ne fs
  generalize since fs = L at hi hne
  have hslot : ∀ i < n, (if (s.slot (idx n s.pos i)).active then some (T.color (s.slot (idx n s.pos i)).tr clear clear led) else none) =
      (L[i]?).bind (fun gs => alone T s0 (gs.map (·.env)) clear led) := by
    intro i hin
    have h1 := hi i hin
    cases hs : L[i]? with
    | none =>
      rw [hs] at h1
      simp only at h1
      simp [h1]
    | some gs =>
      rw [hs] at h1
      obtain ⟨k0, e⟩ := h1
      have hg := hne gs (List.mem_of_getElem? hs)
      obtain ⟨g, gs', rfl⟩ := List.exists_cons_of_ne_nil hg
      obtain ⟨j1, j2⟩ := helper_frames k0.begin rfl ((g :: gs').map (·.env))
      rw [e]
      show _ = alone T s0 ((g :: gs').map (·.env)) clear led
      rw [List.map_cons, alone_fresh hT s0 k0.tr]
      unfold alone
      rw [List.map_cons] at j1 j2
      cases ha : ((g.env :: gs'.map (·.env)).foldl Helper.run k0.begin).active with
      | true =>
        rw [if_pos rfl, if_neg (fun hh => by rw [j2.2 ((any_iff T _ _).1 hh)] at ha; cases ha), j1 ha]; rfl
      | false =>
        rw [if_neg (by simp), if_pos ((any_iff T (T.begin k0.tr) _).2 (j2.1 ha))]
  unfold Multi.layers
  rw [range_reverse, List.filterMap_map]
  have e1 : (List.range n).filterMap ((fun i => if (s.slot ((i + s.pos) % n)).active then some (T.color (s.slot ((i + s.pos) % n)).tr clear clear led) else none) ∘ fun i => n - 1 - i) =
      (List.range n).filterMap (fun i => (L[i]?).bind (fun gs => alone T s0 (gs.map (·.env)) clear led)) := by
    apply filterMap_same
    intro i hin
    rw [List.mem_range] at hin
    exact hslot i hin
  rw [e1]
  have e2 : ∀ (L : List (List Hit)) (n : Nat), (List.range n).filterMap (fun i => (L[i]?).bind (fun gs => alone T s0 (gs.map (·.env)) clear led)) =
      (L.take n).filterMap (fun gs => alone T s0 (gs.map (·.env)) clear led) := by
    intro L
    induction L with
    | nil => intro n; simp
    | cons a L ih =>
      intro n
      cases n with
      | zero => simp
      | succ n =>
        rw [List.range_succ_eq_map, List.filterMap_cons, List.take_succ_cons, List.filterMap_cons]
        rw [List.filterMap_map]
        have := ih n
        simp only [List.getElem?_cons_zero, Option.bind_some, Function.comp_def, List.getElem?_cons_succ]
        rw [this]
  exact e2 L n

/-- Fades are like that. -/
theorem fade_fresh (m : Nat) : Fresh (Lockup.fade m) := by
  intro s s' e es
  have : (Lockup.fade m).run ((Lockup.fade m).begin s) e = (Lockup.fade m).run ((Lockup.fade m).begin s') e := by
    simp only [Lockup.fade, if_true]
  have h : (e :: es).foldl (Lockup.fade m).run ((Lockup.fade m).begin s) = (e :: es).foldl (Lockup.fade m).run ((Lockup.fade m).begin s') := by
    show es.foldl (Lockup.fade m).run ((Lockup.fade m).run ((Lockup.fade m).begin s) e) = es.foldl (Lockup.fade m).run ((Lockup.fade m).run ((Lockup.fade m).begin s') e)
    rw [this]
  rw [h]
  exact ⟨rfl, fun _ _ _ => rfl⟩

/-- Frame at time `t`. -/
def at_ (t : Nat) (hit : Bool) : Hit := ⟨⟨t, 10, 0⟩, hit⟩

/-- Two slots and three effects: the newest two are left. -/
example : since [at_ 0 true, at_ 10 true, at_ 20 false, at_ 30 true] =
    [[at_ 30 true], [at_ 10 true, at_ 20 false, at_ 30 true], [at_ 0 true, at_ 10 true, at_ 20 false, at_ 30 true]] := rfl

/-! ## `TransitionLoopL` -/

/-- `run`, styles/transition_loop.h:17-20. -/
def loopRun {C : Type} (T : Trans C) (s : T.S) (e : Env) : T.S := T.run (if T.done s then T.begin s else s) e

/-- One whole round: begun, run over frames, and over in the last of them and not before. -/
def Whole {C : Type} (T : Trans C) (s : T.S) (es : List Env) : Prop :=
  es ≠ [] ∧ T.done (es.foldl T.run (T.begin s)) = true ∧
    ∀ pre, pre <+: es → pre ≠ [] → pre ≠ es → T.done (pre.foldl T.run (T.begin s)) = false

/-- Whole rounds one after the other. -/
def Rounds {C : Type} (T : Trans C) : T.S → List (List Env) → Prop
  | _, [] => True
  | s, r :: rs => Whole T s r ∧ Rounds T (r.foldl T.run (T.begin s)) rs

/-- The state after whole rounds. -/
def after {C : Type} (T : Trans C) (s : T.S) (rs : List (List Env)) : T.S := rs.foldl (fun s r => r.foldl T.run (T.begin s)) s

theorem rounds_snoc {C : Type} (T : Trans C) (s : T.S) (rs : List (List Env)) (r : List Env) (h : Rounds T s rs)
    (hr : Whole T (after T s rs) r) : Rounds T s (rs ++ [r]) := by
  induction rs generalizing s with
  | nil => exact ⟨hr, trivial⟩
  | cons a rs ih => exact ⟨h.1, ih _ h.2 hr⟩

/-- The transition is run in rounds without end and without gap: all frames so far are whole rounds and then
one which is not over in any frame (or has just begun).  What is shown is the transition as begun with this round. -/
theorem C112_loop {C : Type} (T : Trans C) (hT : ∀ s, T.begin (T.begin s) = T.begin s) (s : T.S) (es : List Env) :
    ∃ (rs : List (List Env)) (cur : List Env), rs.flatten ++ cur = es ∧ Rounds T s rs ∧
      (∀ pre, pre <+: cur → pre ≠ [] → T.done (pre.foldl T.run (T.begin (after T s rs))) = false) ∧
      (es.foldl (loopRun T) (T.begin s) =
        if cur = [] ∧ rs ≠ [] then after T s rs else cur.foldl T.run (T.begin (after T s rs))) := by
  have key : ∀ es : List Env, ∃ (rs : List (List Env)) (cur : List Env), rs.flatten ++ cur = es.reverse ∧ Rounds T s rs ∧
      (∀ pre, pre <+: cur → pre ≠ [] → T.done (pre.foldl T.run (T.begin (after T s rs))) = false) ∧
      (es.reverse.foldl (loopRun T) (T.begin s) =
        if cur = [] ∧ rs ≠ [] then after T s rs else cur.foldl T.run (T.begin (after T s rs))) := by
    intro es
    induction es with
    | nil =>
      refine ⟨[], [], rfl, trivial, ?_, by simp [after]⟩
      intro pre h1 h2
      exact absurd (List.prefix_nil.1 h1) h2
    | cons e es ih =>
      obtain ⟨rs, cur, h1, h2, h3, h4⟩ := ih
      rw [List.reverse_cons, List.foldl_append, h4]
      have hstep : loopRun T (if cur = [] ∧ rs ≠ [] then after T s rs else cur.foldl T.run (T.begin (after T s rs))) e =
          (cur ++ [e]).foldl T.run (T.begin (after T s rs)) := by
        rw [List.foldl_append]
        show _ = T.run (cur.foldl T.run (T.begin (after T s rs))) e
        unfold loopRun
        by_cases hc : cur = []
        · subst hc
          by_cases hr : rs = []
          · have h5 : (if ([] : List Env) = [] ∧ rs ≠ [] then after T s rs else ([] : List Env).foldl T.run (T.begin (after T s rs))) =
                T.begin (after T s rs) := if_neg (fun hh => hh.2 hr)
            rw [h5]
            simp only [List.foldl_nil]
            split
            · rw [hT]
            · rfl
          · have h5 : (if ([] : List Env) = [] ∧ rs ≠ [] then after T s rs else ([] : List Env).foldl T.run (T.begin (after T s rs))) =
                after T s rs := if_pos ⟨rfl, hr⟩
            rw [h5]
            have hd : T.done (after T s rs) = true := by
              have hl : ∀ (rs : List (List Env)) (s : T.S), Rounds T s rs → rs ≠ [] → T.done (after T s rs) = true := by
                intro rs
                induction rs with
                | nil => intro s _ h; exact absurd rfl h
                | cons r rs ih2 =>
                  intro s h _
                  by_cases hr2 : rs = []
                  · subst hr2; exact h.1.2.1
                  · exact ih2 _ h.2 hr2
              exact hl rs s h2 hr
            rw [if_pos hd]; rfl
        · have h5 : (if cur = [] ∧ rs ≠ [] then after T s rs else cur.foldl T.run (T.begin (after T s rs))) =
              cur.foldl T.run (T.begin (after T s rs)) := if_neg (fun hh => hc hh.1)
          rw [h5]
          have := h3 cur (List.prefix_refl _) hc
          rw [if_neg (by rw [this]; simp)]
      have hfold : [e].foldl (loopRun T) (if cur = [] ∧ rs ≠ [] then after T s rs else cur.foldl T.run (T.begin (after T s rs))) =
          (cur ++ [e]).foldl T.run (T.begin (after T s rs)) := hstep
      rw [hfold]
      have hpre : ∀ pre : List Env, pre <+: cur ++ [e] → pre ≠ cur ++ [e] → pre <+: cur := by
        intro pre hp hne
        obtain ⟨t, ht⟩ := hp
        rcases List.eq_nil_or_concat t with ht2 | ⟨t', x, ht2⟩
        · rw [ht2] at ht; exact absurd (by simpa using ht) hne
        · rw [ht2, List.concat_eq_append, ← List.append_assoc] at ht
          have := List.append_inj_left' ht rfl
          exact ⟨t', this⟩
      cases hd : T.done ((cur ++ [e]).foldl T.run (T.begin (after T s rs))) with
      | true =>
        refine ⟨rs ++ [cur ++ [e]], [], ?_, ?_, ?_, ?_⟩
        · rw [← h1]; simp
        · apply rounds_snoc T s rs _ h2
          exact ⟨by simp, hd, fun pre hp hne hne2 => h3 pre (hpre pre hp hne2) hne⟩
        · intro pre hp hne; exact absurd (List.prefix_nil.1 hp) hne
        · rw [if_pos ⟨rfl, by simp⟩]
          have h6 : ∀ x, after T s (rs ++ [x]) = x.foldl T.run (T.begin (after T s rs)) := by
            intro x
            unfold after
            rw [List.foldl_append]; rfl
          rw [h6]
      | false =>
        refine ⟨rs, cur ++ [e], by rw [← h1]; simp, h2, ?_, by rw [if_neg (by simp)]⟩
        intro pre hp hne
        by_cases hh : pre = cur ++ [e]
        · rw [hh]; exact hd
        · exact h3 pre (hpre pre hp hh) hne
  obtain ⟨rs, cur, h⟩ := key es.reverse
  rw [List.reverse_reverse] at h
  exact ⟨rs, cur, h⟩

example (m : Nat) (s : (Lockup.fade m).S) : (Lockup.fade m).begin ((Lockup.fade m).begin s) = (Lockup.fade m).begin s := rfl

/-- A loop of 100 ms: over at 101, and the next round begins with the next frame. -/
example : let f : Nat → Env := fun t => ⟨t, 10, 0⟩
    (Lockup.fade 100).color ([f 0, f 50, f 101, f 110, f 140].foldl (loopRun (Lockup.fade 100)) ((Lockup.fade 100).begin (false, 0, 0, 0))) 0 1 3 = 30 / 100 := by
  decide +kernel

end Verif.Style.MultiEffect
