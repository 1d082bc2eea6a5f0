import Verif.Blade.SubBlade
/-!
# The ring of the sub-blades of a blade

Model of the factories, activation and the frame loop of blades/sub_blade.h.  Sub-blades are numbered in the order they are created; physical
blades are numbers too.
-/
set_option linter.unusedSimpArgs false
set_option linter.unusedVariables false
namespace Verif.Blade

/-- all sub-blades; blades/sub_blade.h:150-160 and `blade_`, blades/blade_wrapper.h:31 -/
structure St where
  /-- `next_` -/
  next : Nat → Nat
  /-- `blade_` -/
  blade : Nat → Nat
  /-- the wrapper's class with `offset_` and `num_leds_` -/
  kind : Nat → Kind
  offset : Nat → Int
  num : Nat → Int
  /-- `active_` -/
  active : Nat → Bool
  /-- `current_style_` is set -/
  styled : Nat → Bool
  /-- `new` was called this often -/
  count : Nat
  /-- `first_subblade_wrapper` -/
  first : Option Nat
  /-- `last_subblade_wrapper` -/
  last : Nat
  /-- the style of a physical blade is this sub-blade -/
  base : Nat → Option Nat
  /-- `Activate` (true) and `Deactivate` (false) of the physical blade, with the calling sub-blade -/
  log : List (Nat × Bool)

/-- at program start -/
def St.init : St := ⟨fun _ => 0, fun _ => 0, fun _ => .plain, fun _ => 0, fun _ => 0, fun _ => false, fun _ => false, 0, none, 0, fun _ => none, []⟩

def upd {α : Type} (f : Nat → α) (k : Nat) (v : α) : Nat → α := fun i => if i = k then v else f i

/-- `SubBlade(first, last, blade)` and its variants; `none` for a null pointer; blades/sub_blade.h:162-185, 199-222, 240-264, 287-312.
`leds` gives the sizes of the physical blades. -/
def make (leds : Nat → Int) (s : St) (k : Kind) (a b : Int) (blade : Option Nat) : St × Option Nat :=
  let s := if blade.isSome then { s with first := none } else s
  let phys : Option Nat := blade.or (s.first.map s.blade)
  match phys with
  | none => (s, none)
  | some p =>
    if leds p ≤ b then (s, none) else
    let n := s.count
    let geo := setup k a b
    let s := { s with count := n + 1, blade := upd s.blade n p, kind := upd s.kind n k, offset := upd s.offset n geo.1, num := upd s.num n geo.2, active := upd s.active n false, styled := upd s.styled n false }
    match s.first with
    | some f => ({ s with next := upd (upd s.next n s.last) f n, last := n }, some n)
    | none => ({ s with next := upd s.next n n, first := some n, last := n }, some n)

/-- the loops `tmp = this; do … tmp = tmp->next_ while (tmp != this)`: the sub-blades met, `none` if there is no end within the fuel -/
def walk (next : Nat → Nat) (this : Nat) : Nat → Nat → Option (List Nat)
  | 0, _ => none
  | f + 1, t => if next t = this then some [t] else (walk next this f (next t)).map (t :: ·)

/-- from sub-blade `k`; with as many steps as there are sub-blades -/
def St.visit (s : St) (k : Nat) : Option (List Nat) := walk s.next k s.count k

/-- `Activate`, blades/sub_blade.h:58-64 -/
def activate (s : St) (k : Nat) : Option St :=
  if s.active k then some s else
  (s.visit k).map fun l => { s with active := upd s.active k true, log := if l.any s.active then s.log else s.log ++ [(k, true)] }

/-- `Deactivate`, blades/sub_blade.h:65-70 -/
def deactivate (s : St) (k : Nat) : Option St :=
  if s.active k then
    let s := { s with active := upd s.active k false }
    (s.visit k).map fun l => { s with log := if l.any s.active then s.log else s.log ++ [(k, false)] }
  else some s

def St.isPrimary (s : St) (k : Nat) : Bool := primary (s.kind k) (s.offset k) (s.num k)

/-- `SetStyle`, blades/sub_blade.h:77-84 -/
def setStyle (s : St) (k : Nat) : St :=
  let s := { s with styled := upd s.styled k true }
  if s.isPrimary k then { s with base := upd s.base (s.blade k) (some k) } else s

/-- `UnSetStyle`, blades/sub_blade.h:86-94 -/
def unsetStyle (s : St) (k : Nat) : St :=
  let s := { s with styled := upd s.styled k false }
  if s.isPrimary k then { s with base := upd s.base (s.blade k) none } else s

/-- `run`, blades/sub_blade.h:119-130, called by the physical blade: the sub-blades whose styles ran, in order, and whether the physical
blade may be disabled.  `allow` tells which styles call `allow_disable` in this frame. -/
def frame (s : St) (allow : Nat → Bool) (p : Nat) : Option (List Nat × Bool) :=
  match s.base p with
  | none => some ([], false)
  | some k => (s.visit k).map fun l => (l.filter s.styled, l.all fun i => s.styled i && allow i)

/-- `NoOnOff`, blades/sub_blade.h:137-144, with `q` telling which styles want no on and off -/
def noOnOff (s : St) (q : Nat → Bool) (k : Nat) : Option Bool := (s.visit k).map fun l => l.any fun i => s.styled i && q i

/-- what is done with sub-blades -/
inductive Op where
  | make (k : Kind) (a b : Int) (blade : Option Nat)
  | activate (k : Nat)
  | deactivate (k : Nat)
  | setStyle (k : Nat)
  | unsetStyle (k : Nat)

/-- one operation; `none` when a loop does not end -/
def step (leds : Nat → Int) (s : St) : Op → Option St
  | .make k a b bl => some (make leds s k a b bl).1
  | .activate k => activate s k
  | .deactivate k => deactivate s k
  | .setStyle k => some (setStyle s k)
  | .unsetStyle k => some (unsetStyle s k)

/-! ## Specification: cuts

A cut is the sub-blades made from one mention of a physical blade. -/

/-- which sub-blade belongs to which cut, newest cut first, from the calls and their results -/
def cutStep (cuts : List (List Nat)) (blade : Option Nat) (res : Option Nat) : List (List Nat) :=
  match blade, res with
  | some _, some n => [n] :: cuts
  | some _, none => [] :: cuts
  | none, some n => (n :: cuts.headD []) :: cuts.tail
  | none, none => cuts

/-- the states that can be reached, with their cuts; operations only name sub-blades that exist -/
inductive Reach (leds : Nat → Int) : St → List (List Nat) → Prop
  | init : Reach leds St.init []
  | make {s cuts} (k : Kind) (a b : Int) (bl : Option Nat) : Reach leds s cuts →
      Reach leds (make leds s k a b bl).1 (cutStep cuts bl (make leds s k a b bl).2)
  | activate {s cuts s'} (k : Nat) : Reach leds s cuts → k < s.count → activate s k = some s' → Reach leds s' cuts
  | deactivate {s cuts s'} (k : Nat) : Reach leds s cuts → k < s.count → deactivate s k = some s' → Reach leds s' cuts
  | setStyle {s cuts} (k : Nat) : Reach leds s cuts → k < s.count → Reach leds (setStyle s k) cuts
  | unsetStyle {s cuts} (k : Nat) : Reach leds s cuts → k < s.count → Reach leds (unsetStyle s k) cuts

/-! ## Rings -/

/-- `next` leads from each element to the one after it and then to `z` -/
def Chain (next : Nat → Nat) (z : Nat) : List Nat → Prop
  | [] => True
  | [x] => next x = z
  | x :: y :: l => next x = y ∧ Chain next z (y :: l)

def Ring (next : Nat → Nat) (l : List Nat) : Prop := l.Nodup ∧ ∀ a r, l = a :: r → Chain next a l

theorem Chain.snoc {next : Nat → Nat} {z w : Nat} : ∀ {l : List Nat}, Chain next z l → next z = w → Chain next w (l ++ [z])
  | [], _, h2 => h2
  | [x], h1, h2 => ⟨h1, h2⟩
  | x :: y :: l, h1, h2 => ⟨h1.1, Chain.snoc h1.2 h2⟩

theorem Ring.rotate {next : Nat → Nat} {a : Nat} {l : List Nat} (h : Ring next (a :: l)) : Ring next (l ++ [a]) := by
  refine ⟨?_, ?_⟩
  · have := h.1
    rw [List.nodup_cons] at this
    rw [List.nodup_append]
    exact ⟨this.2, by simp, fun x hx y hy => by simp at hy; subst hy; intro e; subst e; exact this.1 hx⟩
  · intro b r e
    have hc := h.2 a l rfl
    cases l with
    | nil => simp at e; rw [← e.1]; exact hc
    | cons y l =>
      simp at e
      rw [← e.1]
      exact Chain.snoc hc.2 hc.1

theorem Ring.at {next : Nat → Nat} : ∀ {l1 l2 : List Nat}, Ring next (l1 ++ l2) → Ring next (l2 ++ l1)
  | [], l2, h => by simpa using h
  | a :: l1, l2, h => by
    have := Ring.rotate (l := l1 ++ l2) h
    rw [List.append_assoc] at this
    have := Ring.at this
    simpa using this

theorem walk_chain {next : Nat → Nat} {this : Nat} : ∀ {l : List Nat} {x f : Nat}, Chain next this (x :: l) → this ∉ l → l.length < f → walk next this f x = some (x :: l)
  | [], x, 0, h, hn, hf => absurd hf (by simp)
  | [], x, f + 1, h, hn, hf => by simp only [walk]; rw [if_pos (show next x = this from h)]
  | y :: l, x, 0, h, hn, hf => absurd hf (by simp)
  | y :: l, x, f + 1, h, hn, hf => by
    simp only [walk]
    rw [if_neg (by rw [h.1]; intro e; apply hn; simp [e]), h.1, walk_chain h.2 (by intro e; apply hn; simp [e]) (by simpa using hf)]
    rfl

theorem walk_ring {next : Nat → Nat} {l : List Nat} {k f : Nat} (h : Ring next l) (hk : k ∈ l) (hf : l.length ≤ f) : ∃ r, walk next k f k = some r ∧ r.Perm l := by
  obtain ⟨l1, l2, rfl⟩ := List.append_of_mem hk
  have h2 := h.at
  have hp : (k :: l2 ++ l1).Perm (l1 ++ k :: l2) := List.perm_append_comm
  refine ⟨k :: (l2 ++ l1), walk_chain (h2.2 k (l2 ++ l1) rfl) ?_ ?_, hp⟩
  · have := h2.1
    simp only [List.cons_append, List.nodup_cons] at this
    exact this.1
  · simp at hf ⊢; omega

theorem chain_congr {next next' : Nat → Nat} {z : Nat} : ∀ {l : List Nat}, (∀ x ∈ l, next' x = next x) → Chain next z l → Chain next' z l
  | [], _, h => h
  | [x], hc, h => by simp only [Chain] at *; rw [hc x (by simp)]; exact h
  | x :: y :: l, hc, h => ⟨by rw [hc x (by simp)]; exact h.1, chain_congr (fun w hw => hc w (List.mem_cons_of_mem _ hw)) h.2⟩

theorem ring_congr {next next' : Nat → Nat} {l : List Nat} (hc : ∀ x ∈ l, next' x = next x) (h : Ring next l) : Ring next' l :=
  ⟨h.1, fun a r e => chain_congr hc (h.2 a r e)⟩

end Verif.Blade
