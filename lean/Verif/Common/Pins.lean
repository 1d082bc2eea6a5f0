import Mathlib.Data.List.Nodup
import Mathlib.Tactic.Common

/-!
Who uses which pin, found out when compiling (`common/resources.h`).

Simplified: a class that uses pins is a value of some type. The compiler is modelled as a pass over the
declarations: using a resource defines a function for it whose result type is the user (line 36), the same
definition twice is one instance of a template, and two definitions with different results do not compile.
-/

namespace Verif.Common.Pins

/-- The resources for pins: `common/resources.h` lines 18-19. -/
inductive Res where
  | inp (p : Int)
  | out (p : Int)
deriving DecidableEq

/-- `USE_PIN_OUTPUT` and `USE_PIN_INPUT`: `common/resources.h` lines 69-70. -/
structure Use (U : Type) where
  pin : Int
  user : U
  input : Bool

/-- `BondedPins`, after some `PROFFIEOS_BOND_PINS`: `common/resources.h` lines 28-32. -/
def other : List (Int × Int) → Int → Int
  | [], _ => -1
  | (a, b) :: l, p => if p = a then b else if p = b then a else other l p

/-- `UsePin2`: `common/resources.h` lines 39-50. For an input at -1 both special cases fit and neither is
more special, which does not compile. -/
def usePin2 (pin : Int) (input : Bool) : Option (List Res) :=
  if pin = -1 then (if input then none else some [])
  else if input then some [.inp pin] else some [.out pin, .inp pin]

/-- `UseBondedPin`: `common/resources.h` lines 53-59. -/
def useBonded (pin : Int) (input : Bool) : List Res :=
  if input then [] else if pin = -1 then [] else [.out pin]

/-- `UsePin`: `common/resources.h` lines 61-65. -/
def usePin (bonds : List (Int × Int)) (pin : Int) (input : Bool) : Option (List Res) :=
  (usePin2 pin input).map fun l => l ++ useBonded (other bonds pin) input

/-- `UseResource`: `common/resources.h` lines 34-37. The functions defined so far are in `t`. -/
def useResource {U : Type} [DecidableEq U] (t : List (Res × U)) (c : Res × U) : Option (List (Res × U)) :=
  if t.any fun d => d.1 = c.1 && d.2 ≠ c.2 then none else some (c :: t)

/-- One declaration. `common/resources.h` lines 61-70. -/
def declare {U : Type} [DecidableEq U] (bonds : List (Int × Int)) (t : List (Res × U)) (u : Use U) : Option (List (Res × U)) :=
  (usePin bonds u.pin u.input).bind fun l => (l.map fun r => (r, u.user)).foldlM useResource t

/-- A whole program: `none` when it does not compile. -/
def compile {U : Type} [DecidableEq U] (bonds : List (Int × Int)) (l : List (Use U)) : Option (List (Res × U)) :=
  l.foldlM (declare bonds) []

/-! ### Specification -/

/-- The bonds are of different pins, none of them the missing pin: otherwise there would be two definitions of
one special case. -/
def Bonds (bonds : List (Int × Int)) : Prop := (bonds.flatMap fun b => [b.1, b.2]).Nodup ∧ ∀ b ∈ bonds, b.1 ≠ -1 ∧ b.2 ≠ -1

/-- Two uses get in each other's way: they are by different users, of a pin that is there, and of the same pin,
or both drive pins that are bonded. -/
def Clash {U : Type} (bonds : List (Int × Int)) (a b : Use U) : Prop :=
  a.user ≠ b.user ∧ a.pin ≠ -1 ∧ b.pin ≠ -1 ∧
    (a.pin = b.pin ∨ (a.input = false ∧ b.input = false ∧ ((a.pin, b.pin) ∈ bonds ∨ (b.pin, a.pin) ∈ bonds)))

/-! ### Proofs -/

theorem other_mem {bonds : List (Int × Int)} (h : Bonds bonds) (p q : Int) (hq : q ≠ -1) :
    other bonds p = q ↔ ((p, q) ∈ bonds ∨ (q, p) ∈ bonds) := by
  induction bonds with
  | nil => simp [other]; exact fun e => hq e.symm
  | cons c l ih =>
    obtain ⟨a, b⟩ := c
    obtain ⟨h1, h2⟩ := h
    simp only [List.flatMap_cons, List.cons_append, List.nil_append, List.nodup_cons, List.mem_cons, not_or] at h1
    obtain ⟨⟨hab, ha⟩, hb, hn⟩ := h1
    have no : ∀ x, x = a ∨ x = b → ∀ y, (x, y) ∉ l ∧ (y, x) ∉ l := by
      intro x hx y
      constructor <;> intro hm
      · have : x ∈ l.flatMap fun b => [b.1, b.2] := List.mem_flatMap.mpr ⟨_, hm, by simp⟩
        rcases hx with e | e <;> subst e <;> contradiction
      · have : x ∈ l.flatMap fun b => [b.1, b.2] := List.mem_flatMap.mpr ⟨_, hm, by simp⟩
        rcases hx with e | e <;> subst e <;> contradiction
    have ih := ih ⟨hn, fun b hb => h2 b (List.mem_cons_of_mem _ hb)⟩
    simp only [other, List.mem_cons, Prod.mk.injEq]
    split
    · rename_i e; subst e
      have := no p (Or.inl rfl) q
      constructor
      · intro e; exact Or.inl (Or.inl ⟨rfl, e.symm⟩)
      · rintro ((⟨_, e⟩ | m) | (⟨_, e⟩ | m))
        · exact e.symm
        · exact absurd m this.1
        · exact absurd e hab
        · exact absurd m this.2
    · split
      · rename_i hpa e; subst e
        have := no p (Or.inr rfl) q
        constructor
        · intro e; exact Or.inr (Or.inl ⟨e.symm, rfl⟩)
        · rintro ((⟨e, _⟩ | m) | (⟨e, _⟩ | m))
          · exact absurd e hpa
          · exact absurd m this.1
          · exact e.symm
          · exact absurd m this.2
      · rename_i hpa hpb
        rw [ih]
        constructor
        · rintro (m | m)
          · exact Or.inl (Or.inr m)
          · exact Or.inr (Or.inr m)
        · rintro ((⟨e, _⟩ | m) | (⟨_, e⟩ | m))
          · exact absurd e hpa
          · exact Or.inl m
          · exact absurd e hpb
          · exact Or.inr m

variable {U : Type} [DecidableEq U]

/-- Every resource has one user. -/
def Single (t : List (Res × U)) : Prop := ∀ c ∈ t, ∀ d ∈ t, c.1 = d.1 → c.2 = d.2

theorem useAll (l t : List (Res × U)) (ht : Single t) :
    (∃ t', l.foldlM useResource t = some t' ∧ Single t' ∧ (∀ c, c ∈ t' ↔ c ∈ t ∨ c ∈ l)) ∨
    (l.foldlM useResource t = none ∧ ¬ Single (t ++ l)) := by
  induction l generalizing t with
  | nil => exact Or.inl ⟨t, rfl, ht, by simp⟩
  | cons c l ih =>
    rw [List.foldlM_cons]
    unfold useResource
    split
    · rename_i hc
      right
      refine ⟨rfl, fun hs => ?_⟩
      simp only [List.any_eq_true, Bool.and_eq_true, decide_eq_true_eq] at hc
      obtain ⟨d, hd, e, ne⟩ := hc
      exact ne (hs d (by simp [hd]) c (by simp) e)
    · rename_i hc
      simp only [List.any_eq_true, Bool.and_eq_true, decide_eq_true_eq, not_exists, not_and, ne_eq, not_not] at hc
      have ht' : Single (c :: t) := by
        intro x hx y hy e
        rcases List.mem_cons.mp hx with hx | hx <;> rcases List.mem_cons.mp hy with hy | hy
        · rw [hx, hy]
        · rw [hx]; exact (hc y hy (by rw [← e, hx])).symm
        · rw [hy]; exact hc x hx (by rw [e, hy])
        · exact ht x hx y hy e
      rcases ih (c :: t) ht' with ⟨t', e, s, m⟩ | ⟨e, s⟩
      · left
        refine ⟨t', e, s, fun x => ?_⟩
        rw [m, List.mem_cons, List.mem_cons]; tauto
      · right
        refine ⟨e, fun hs => s ?_⟩
        intro x hx y hy
        exact hs x (by simp at hx ⊢; tauto) y (by simp at hy ⊢; tauto)

/-- The resources one declaration asks for. -/
def claims (bonds : List (Int × Int)) (u : Use U) : List (Res × U) :=
  ((usePin bonds u.pin u.input).getD []).map fun r => (r, u.user)

theorem compile_all (bonds : List (Int × Int)) (l : List (Use U)) (hl : ∀ u ∈ l, u.pin = -1 → u.input = false) (t : List (Res × U))
    (ht : Single t) :
    (l.foldlM (declare bonds) t).isSome ↔ Single (t ++ l.flatMap (claims bonds)) := by
  induction l generalizing t with
  | nil => simp [ht]
  | cons u l ih =>
    have hu : (usePin bonds u.pin u.input) = some ((usePin bonds u.pin u.input).getD []) := by
      have := hl u (by simp)
      unfold usePin usePin2
      by_cases hp : u.pin = -1
      · simp [hp, this hp]
      · cases hi : u.input <;> simp [hp]
    have hd : declare bonds t u = (claims bonds u).foldlM useResource t := by
      unfold declare claims
      rw [hu]; rfl
    rw [List.foldlM_cons, hd, List.flatMap_cons]
    rcases useAll (claims bonds u) t ht with ⟨t', e, s, m⟩ | ⟨e, s⟩
    · rw [e]
      simp only [Option.bind_eq_bind, Option.bind_some]
      rw [ih (fun v hv => hl v (by simp [hv])) t' s]
      have mm : ∀ c, c ∈ t' ++ l.flatMap (claims bonds) ↔ c ∈ t ++ (claims bonds u ++ l.flatMap (claims bonds)) := by
        intro c
        rw [List.mem_append, List.mem_append, List.mem_append, m, or_assoc]
      unfold Single
      simp only [mm]
    · rw [e]
      simp only [Option.bind_eq_bind, Option.bind_none, Option.isSome_none, Bool.false_eq_true, false_iff]
      intro hs
      refine s fun x hx y hy => hs x ?_ y ?_
      · rw [List.mem_append] at hx ⊢; rcases hx with h | h
        · exact Or.inl h
        · exact Or.inr (List.mem_append_left _ h)
      · rw [List.mem_append] at hy ⊢; rcases hy with h | h
        · exact Or.inl h
        · exact Or.inr (List.mem_append_left _ h)

theorem mem_claims (bonds : List (Int × Int)) (u : Use U) (r : Res) (x : U) : (r, x) ∈ claims bonds u ↔
    x = u.user ∧ u.pin ≠ -1 ∧ (r = .inp u.pin ∨ (u.input = false ∧ (r = .out u.pin ∨ (other bonds u.pin ≠ -1 ∧ r = .out (other bonds u.pin))))) ∨
    x = u.user ∧ u.pin = -1 ∧ u.input = false ∧ other bonds u.pin ≠ -1 ∧ r = .out (other bonds u.pin) := by
  obtain ⟨p, v, i⟩ := u
  unfold claims usePin usePin2 useBonded
  by_cases hp : p = -1 <;> by_cases ho : other bonds p = -1 <;> cases i <;>
    simp_all <;> tauto

theorem other_missing {bonds : List (Int × Int)} (h : Bonds bonds) : other bonds (-1) = -1 := by
  by_contra hq
  rcases (other_mem h (-1) _ hq).mp rfl with m | m
  · exact (h.2 _ m).1 rfl
  · exact (h.2 _ m).2 rfl

theorem other_back {bonds : List (Int × Int)} (h : Bonds bonds) {p : Int} (hp : p ≠ -1) (ho : other bonds p ≠ -1) :
    other bonds (other bonds p) = p :=
  (other_mem h _ _ hp).mpr ((other_mem h p _ ho).mp rfl).symm

/-- **C156.** When no input is declared at the missing pin -1: a program compiles exactly when no two of its uses
of pins get in each other's way, whatever the bonds between pins and in whatever order the uses are declared. -/
theorem C156_clash_partial (bonds : List (Int × Int)) (hb : Bonds bonds) (l : List (Use U))
    (hl : ∀ u ∈ l, u.pin = -1 → u.input = false) :
    (compile bonds l).isSome ↔ ∀ a ∈ l, ∀ b ∈ l, ¬ Clash bonds a b := by
  unfold compile
  rw [compile_all bonds l hl [] (by intro c hc; cases hc), List.nil_append]
  constructor
  · intro hs a ha b hbm ⟨hne, pa, pb, hc⟩
    have sh : ∀ r, (r, a.user) ∈ claims bonds a → (r, b.user) ∈ claims bonds b → False := fun r h1 h2 =>
      hne (hs (r, a.user) (List.mem_flatMap.mpr ⟨a, ha, h1⟩) (r, b.user) (List.mem_flatMap.mpr ⟨b, hbm, h2⟩) rfl)
    rcases hc with e | ⟨ia, ib, m⟩
    · exact sh (.inp a.pin) ((mem_claims ..).mpr (Or.inl ⟨rfl, pa, Or.inl rfl⟩))
        ((mem_claims ..).mpr (Or.inl ⟨rfl, pb, Or.inl (by rw [e])⟩))
    · have ho := (other_mem hb a.pin b.pin pb).mpr m
      exact sh (.out b.pin) ((mem_claims ..).mpr (Or.inl ⟨rfl, pa, Or.inr ⟨ia, Or.inr ⟨by rw [ho]; exact pb, by rw [ho]⟩⟩⟩))
        ((mem_claims ..).mpr (Or.inl ⟨rfl, pb, Or.inr ⟨ib, Or.inl rfl⟩⟩))
  · rintro hn ⟨r, x⟩ hc ⟨r', y⟩ hd e
    dsimp only at e ⊢
    subst e
    obtain ⟨a, ha, hc⟩ := List.mem_flatMap.mp hc
    obtain ⟨b, hbm, hd⟩ := List.mem_flatMap.mp hd
    rcases (mem_claims ..).mp hc with ⟨ex, pa, ra⟩ | ⟨_, pa, _, o, _⟩
    swap
    · rw [pa] at o; exact absurd (other_missing hb) o
    rcases (mem_claims ..).mp hd with ⟨ey, pb, rb⟩ | ⟨_, pb, _, o, _⟩
    swap
    · rw [pb] at o; exact absurd (other_missing hb) o
    subst ex ey
    by_contra hne
    refine hn a ha b hbm ⟨hne, pa, pb, ?_⟩
    rcases ra with ra | ⟨ia, ra | ⟨oa, ra⟩⟩ <;> rcases rb with rb | ⟨ib, rb | ⟨ob, rb⟩⟩ <;> rw [ra] at rb <;>
      first
        | (cases rb)
        | skip
    · injection rb with rb; exact Or.inl rb
    · injection rb with rb; exact Or.inl rb
    · injection rb with rb
      exact Or.inr ⟨ia, ib, ((other_mem hb b.pin a.pin pa).mp rb.symm).symm⟩
    · injection rb with rb
      exact Or.inr ⟨ia, ib, (other_mem hb a.pin b.pin pb).mp rb⟩
    · injection rb with rb
      left
      rw [← other_back hb pa oa, rb, other_back hb pb ob]

/-- The bonds of the Proffieboard V3 (`config/proffieboard_v3_config.h` lines 93-98) are bonds. -/
example : Bonds [(0, 1), (2, 3), (4, 5), (9, 10), (11, 12), (13, 14)] := by
  constructor <;> decide

/-- **C156.** Counterexample: an input at the missing pin -1, which uses no pin, never compiles, though the same
as an output does. -/
theorem C156_missing_input_counterexample (bonds : List (Int × Int)) (hb : Bonds bonds) (u : U) :
    compile bonds [⟨-1, u, true⟩] = none ∧ (compile bonds [⟨-1, u, false⟩]).isSome := by
  refine ⟨rfl, (C156_clash_partial bonds hb _ (by simp)).mpr ?_⟩
  intro a ha b _ hc
  rw [List.mem_singleton.mp ha] at hc
  exact hc.2.1 rfl

end Verif.Common.Pins
