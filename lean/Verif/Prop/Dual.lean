/-!
# Two props in one (C118)

Model of `SaberBlasterProp` (props/dual_prop.h:111-186) over `PropBase::Event` (props/prop_base.h:1735-1758) and the handling of
the modifiers by the buttons (buttons/button_base.h:84-115). A mask of buttons is a predicate on bit positions; the loop
`for (; m; m &= m - 1)` takes the set bits one by one, lowest first.
-/
namespace Verif.Prop.Dual

/-- A mask: which bits are set. -/
abbrev Mask := Nat → Bool

def empty : Mask := fun _ => false

/-- Bit positions of common/events.h:6-25. -/
def power : Nat := 0
def aux : Nat := 1
def aux2 : Nat := 2
def fire : Nat := 3
def modeSelect : Nat := 4
def bladeDetect : Nat := 8

/-- `map_button`, props/dual_prop.h:113-123, on the position of the bit; `three` is `NUM_BUTTONS == 3`. -/
def mapBit (three : Bool) (b : Nat) : Nat :=
  if three then (if b = aux then fire else if b = aux2 then modeSelect else b)
  else (if b = power then fire else if b = aux then modeSelect else b)

/-- `reverse_map_button`, props/dual_prop.h:124-134. -/
def unmapBit (three : Bool) (b : Nat) : Nat :=
  if three then (if b = fire then aux else if b = modeSelect then aux2 else b)
  else (if b = fire then power else if b = modeSelect then aux else b)

/-- The loop over the set bits, props/dual_prop.h:161-163, on 32 bits. -/
def mapMask (f : Nat → Nat) (m : Mask) : Mask :=
  ((List.range 32).filter (fun b => m b)).foldl (fun acc b => fun k => acc k || (k == f b)) empty

/-- A button, `none` for gestures. `EVENT` is any type. -/
abbrev Btn := Option Nat

def mapBtn (f : Nat → Nat) (b : Btn) : Btn := b.map f

/-- `Event2` of a prop: button, event, other buttons (`none` is `MODE_ANY_BUTTON`); state of the prop. -/
abbrev Handler (σ Ev : Type) := σ → Btn → Ev → Option Mask → σ × Bool

/-- `m & ~button`. -/
def without (m : Mask) (b : Btn) : Mask := fun k => m k && !(b == some k)

/-- `PropBase::Event`, props/prop_base.h:1735-1758: handled with exactly these modifiers clears them; handled with any clears the
bit of the button. -/
def baseEvent {σ Ev : Type} (h : Handler σ Ev) (s : σ) (m : Mask) (b : Btn) (e : Ev) : σ × Mask × Bool :=
  if (h s b e (some m)).2 then ((h s b e (some m)).1, empty, true)
  else if (h (h s b e (some m)).1 b e none).2 then ((h (h s b e (some m)).1 b e none).1, without m b, true)
  else ((h (h s b e (some m)).1 b e none).1, m, false)

/-- The blaster branch of `SaberBlasterProp::Event`, props/dual_prop.h:155-172. -/
def blasterEvent {σ Ev : Type} (three : Bool) (h : Handler σ Ev) (s : σ) (m : Mask) (b : Btn) (e : Ev) : σ × Mask × Bool :=
  ((baseEvent h s (mapMask (mapBit three) m) (mapBtn (mapBit three) b) e).1,
   mapMask (unmapBit three) (baseEvent h s (mapMask (mapBit three) m) (mapBtn (mapBit three) b) e).2.1,
   (baseEvent h s (mapMask (mapBit three) m) (mapBtn (mapBit three) b) e).2.2)

/-- `SaberBlasterProp::Event`, props/dual_prop.h:136-173; `present` is `blade_present()`. -/
def event {σ Ev : Type} (three : Bool) (saber blaster : Handler σ Ev) (present : Bool) (s : σ) (m : Mask) (b : Btn) (e : Ev) : σ × Mask × Bool :=
  if present then baseEvent saber s m b e else blasterEvent three blaster s m b e

/-! ## Lemmas -/

theorem fold_or (f : Nat → Nat) (l : List Nat) (acc : Mask) (k : Nat) :
    (l.foldl (fun acc b => fun k => acc k || (k == f b)) acc) k = true ↔ acc k = true ∨ ∃ b ∈ l, k = f b := by
  induction l generalizing acc with
  | nil => simp
  | cons x t ih =>
    rw [List.foldl_cons, ih]
    simp only [Bool.or_eq_true, beq_iff_eq, List.mem_cons, exists_eq_or_imp]
    constructor
    · rintro ((h | h) | h)
      · exact Or.inl h
      · exact Or.inr (Or.inl h)
      · exact Or.inr (Or.inr h)
    · rintro (h | h | h)
      · exact Or.inl (Or.inl h)
      · exact Or.inl (Or.inr h)
      · exact Or.inr h

theorem mapMask_iff (f : Nat → Nat) (m : Mask) (k : Nat) : mapMask f m k = true ↔ ∃ b, b < 32 ∧ m b = true ∧ k = f b := by
  unfold mapMask
  rw [fold_or]
  simp only [empty, Bool.false_eq_true, false_or, List.mem_filter, List.mem_range]
  constructor
  · rintro ⟨b, ⟨h1, h2⟩, h3⟩; exact ⟨b, h1, h2, h3⟩
  · rintro ⟨b, h1, h2, h3⟩; exact ⟨b, ⟨h1, h2⟩, h3⟩

/-- A button the saber may have: all but the two names of the blaster. -/
def Phys (b : Nat) : Prop := b < 32 ∧ b ≠ fire ∧ b ≠ modeSelect

theorem mapBit_lt (three : Bool) (b : Nat) (h : b < 32) : mapBit three b < 32 := by
  unfold mapBit power aux aux2 fire modeSelect
  repeat' split
  all_goals omega

theorem unmap_map (three : Bool) (b : Nat) (h : Phys b) : unmapBit three (mapBit three b) = b := by
  obtain ⟨h1, h2, h3⟩ := h
  unfold fire at h2; unfold modeSelect at h3
  unfold unmapBit mapBit power aux aux2 fire modeSelect
  cases three
  · simp only [Bool.false_eq_true, if_false]
    repeat' split
    all_goals omega
  · simp only [if_true]
    repeat' split
    all_goals omega

theorem map_inj (three : Bool) (a b : Nat) (ha : Phys a) (hb : Phys b) (h : mapBit three a = mapBit three b) : a = b := by
  rw [← unmap_map three a ha, ← unmap_map three b hb, h]

theorem roundtrip (three : Bool) (m : Mask) (hm : ∀ b, m b = true → Phys b) : mapMask (unmapBit three) (mapMask (mapBit three) m) = m := by
  funext k
  rw [Bool.eq_iff_iff, mapMask_iff]
  constructor
  · rintro ⟨b, h1, h2, h3⟩
    obtain ⟨a, a1, a2, a3⟩ := (mapMask_iff _ _ _).1 h2
    rw [h3, a3, unmap_map three a (hm a a2)]
    exact a2
  · intro h
    exact ⟨mapBit three k, mapBit_lt three k (hm k h).1, (mapMask_iff _ _ _).2 ⟨k, (hm k h).1, h, rfl⟩, (unmap_map three k (hm k h)).symm⟩

theorem map_without (three : Bool) (m : Mask) (b : Btn) (hm : ∀ b, m b = true → Phys b) (hb : ∀ x, b = some x → Phys x) :
    without (mapMask (mapBit three) m) (mapBtn (mapBit three) b) = mapMask (mapBit three) (without m b) := by
  funext k
  rw [Bool.eq_iff_iff, mapMask_iff]
  unfold without
  simp only [Bool.and_eq_true, mapMask_iff]
  constructor
  · rintro ⟨⟨a, a1, a2, a3⟩, h⟩
    refine ⟨a, a1, ⟨a2, ?_⟩, a3⟩
    cases hbb : b with
    | none => rfl
    | some x =>
      rw [hbb] at h
      by_cases hx : x = a
      · rw [hx] at h; simp [mapBtn, a3] at h
      · simp [hx]
  · rintro ⟨a, a1, ⟨a2, h⟩, a3⟩
    refine ⟨⟨a, a1, a2, a3⟩, ?_⟩
    cases hbb : b with
    | none => rfl
    | some x =>
      rw [hbb] at h
      have hx : x ≠ a := by simpa using h
      have : mapBit three x ≠ mapBit three a := fun q => hx (map_inj three x a (hb x hbb) (hm a a2) q)
      simp [mapBtn, a3, this]

/-! ## Claims -/

/-- What the blaster prop would do if it were the only one and its buttons had its own names: the same prop, seen through the
renaming of buttons. -/
def renamed {σ Ev : Type} (three : Bool) (h : Handler σ Ev) : Handler σ Ev :=
  fun s b e m => h s (mapBtn (mapBit three) b) e (m.map (mapMask (mapBit three)))

/-- Without a blade, the saber is exactly the blaster with its buttons renamed: same actions, and the modifiers that remain
are those a single prop would leave. -/
theorem C118_blaster {σ Ev : Type} (three : Bool) (saber h : Handler σ Ev) (s : σ) (m : Mask) (b : Btn) (e : Ev)
    (hm : ∀ b, m b = true → Phys b) (hb : ∀ x, b = some x → Phys x) :
    event three saber h false s m b e = baseEvent (renamed three h) s m b e := by
  have he : mapMask (unmapBit three) empty = empty := by
    funext k
    cases hk : mapMask (unmapBit three) empty k with
    | false => rfl
    | true => obtain ⟨x, _, h2, _⟩ := (mapMask_iff _ _ _).1 hk; simp [empty] at h2
  have hr := roundtrip three m hm
  have hw : mapMask (unmapBit three) (without (mapMask (mapBit three) m) (mapBtn (mapBit three) b)) = without m b := by
    rw [map_without three m b hm hb]
    apply roundtrip
    intro x hx
    unfold without at hx
    simp only [Bool.and_eq_true] at hx
    exact hm x hx.1
  unfold event
  rw [if_neg (by simp)]
  unfold blasterEvent baseEvent renamed
  simp only [Option.map_some, Option.map_none]
  generalize h s (mapBtn (mapBit three) b) e (some (mapMask (mapBit three) m)) = r1
  generalize h r1.1 (mapBtn (mapBit three) b) e none = r2
  cases r1.2
  · cases r2.2
    · simp [hr]
    · simp [hw]
  · simp [he]

/-- The renaming: with three buttons aux fires and aux2 selects the mode, else power fires and aux selects; the others keep
their names; and no two buttons get the same name. -/
theorem C118_names (three : Bool) :
    (mapBit true aux = fire ∧ mapBit true aux2 = modeSelect ∧ mapBit true power = power) ∧
    (mapBit false power = fire ∧ mapBit false aux = modeSelect) ∧
    (∀ a b, Phys a → Phys b → mapBit three a = mapBit three b → a = b) :=
  ⟨by decide, by decide, map_inj three⟩

/-- What happens to the saber: a button goes down or up, another event (of a button or gesture), the blade is taken out or put in. -/
inductive Op (Ev : Type)
  | press (b : Nat) (e : Ev)
  | release (b : Nat) (e : Ev)
  | other (b : Btn) (e : Ev)
  | blade (p : Bool)

/-- State: prop, modifiers, blade, and (for the claim) the buttons now down. -/
structure St (σ : Type) where
  s : σ
  m : Mask := empty
  present : Bool := true
  down : Mask := empty

/-- `m | button`. -/
def withB (m : Mask) (b : Nat) : Mask := fun k => m k || (k == b)

/-- buttons/button_base.h:84-115: the event of pressing, then the modifier is set; the event of letting go, then it is
cleared. The blade may change at any time (blade ID). -/
def step {σ Ev : Type} (three : Bool) (saber blaster : Handler σ Ev) (t : St σ) : Op Ev → St σ
  | .press b e => { t with
      s := (event three saber blaster t.present t.s t.m (some b) e).1
      m := withB (event three saber blaster t.present t.s t.m (some b) e).2.1 b
      down := withB t.down b }
  | .release b e => { t with
      s := (event three saber blaster t.present t.s t.m (some b) e).1
      m := without (event three saber blaster t.present t.s t.m (some b) e).2.1 (some b)
      down := without t.down (some b) }
  | .other b e => { t with
      s := (event three saber blaster t.present t.s t.m b e).1
      m := (event three saber blaster t.present t.s t.m b e).2.1 }
  | .blade p => { t with present := p }

def Op.Phys {Ev : Type} : Op Ev → Prop
  | .press b _ => Dual.Phys b
  | .release b _ => Dual.Phys b
  | .other b _ => ∀ x, b = some x → Dual.Phys x
  | .blade _ => True

theorem base_sub {σ Ev : Type} (h : Handler σ Ev) (s : σ) (m : Mask) (b : Btn) (e : Ev) (k : Nat) (hk : (baseEvent h s m b e).2.1 k = true) : m k = true := by
  unfold baseEvent at hk
  split at hk
  · simp [empty] at hk
  · split at hk
    · unfold without at hk
      simp only [Bool.and_eq_true] at hk
      exact hk.1
    · exact hk

theorem event_sub {σ Ev : Type} (three : Bool) (saber blaster : Handler σ Ev) (p : Bool) (s : σ) (m : Mask) (b : Btn) (e : Ev)
    (hm : ∀ b, m b = true → Phys b) (hb : ∀ x, b = some x → Phys x) (k : Nat) (hk : (event three saber blaster p s m b e).2.1 k = true) : m k = true := by
  cases p
  · rw [C118_blaster three saber blaster s m b e hm hb] at hk
    exact base_sub _ _ _ _ _ _ hk
  · unfold event at hk
    rw [if_pos rfl] at hk
    exact base_sub _ _ _ _ _ _ hk

theorem step_held {σ Ev : Type} (three : Bool) (saber blaster : Handler σ Ev) (t : St σ) (o : Op Ev) (ho : o.Phys)
    (hp : ∀ b, t.down b = true → Phys b) (h : ∀ b, t.m b = true → t.down b = true) :
    (∀ b, (step three saber blaster t o).down b = true → Phys b) ∧
    (∀ b, (step three saber blaster t o).m b = true → (step three saber blaster t o).down b = true) := by
  have hm : ∀ b, t.m b = true → Phys b := fun b hb => hp b (h b hb)
  cases o with
  | press b e =>
    have hs := fun k => event_sub three saber blaster t.present t.s t.m (some b) e hm (fun x hx => by cases hx; exact ho) k
    refine ⟨fun k hk => ?_, fun k hk => ?_⟩
    · simp only [step, withB, Bool.or_eq_true, beq_iff_eq] at hk
      rcases hk with hk | hk
      · exact hp k hk
      · rw [hk]; exact ho
    · simp only [step, withB, Bool.or_eq_true, beq_iff_eq] at hk ⊢
      rcases hk with hk | hk
      · exact Or.inl (h k (hs k hk))
      · exact Or.inr hk
  | release b e =>
    have hs := fun k => event_sub three saber blaster t.present t.s t.m (some b) e hm (fun x hx => by cases hx; exact ho) k
    refine ⟨fun k hk => ?_, fun k hk => ?_⟩
    · simp only [step, without, Bool.and_eq_true] at hk
      exact hp k hk.1
    · simp only [step, without, Bool.and_eq_true] at hk ⊢
      exact ⟨h k (hs k hk.1), hk.2⟩
  | other b e =>
    have hs := fun k => event_sub three saber blaster t.present t.s t.m b e hm ho k
    exact ⟨hp, fun k hk => h k (hs k hk)⟩
  | blade p => exact ⟨hp, h⟩

/-- No modifier is ever stuck: only buttons that are down count, whatever the props do and whenever the blade is put in or taken
out while buttons are held. -/
theorem C118_not_stuck {σ Ev : Type} (three : Bool) (saber blaster : Handler σ Ev) (s : σ) (ops : List (Op Ev)) (h : ∀ o ∈ ops, o.Phys) (b : Nat)
    (hb : (ops.foldl (step three saber blaster) ⟨s, empty, true, empty⟩).m b = true) :
    (ops.foldl (step three saber blaster) ⟨s, empty, true, empty⟩).down b = true := by
  have key : ∀ (ops : List (Op Ev)) (t : St σ), (∀ o ∈ ops, o.Phys) → (∀ b, t.down b = true → Phys b) → (∀ b, t.m b = true → t.down b = true) →
      ∀ b, (ops.foldl (step three saber blaster) t).m b = true → (ops.foldl (step three saber blaster) t).down b = true := by
    intro ops
    induction ops with
    | nil => intro t _ _ h2 b hb; exact h2 b hb
    | cons o r ih =>
      intro t ho h1 h2
      obtain ⟨q1, q2⟩ := step_held three saber blaster t o (ho o (by simp)) h1 h2
      exact ih (step three saber blaster t o) (fun o' h' => ho o' (List.mem_cons_of_mem _ h')) q1 q2
  exact key ops _ h (by simp [empty]) (by simp [empty]) b hb

/-- The two names of the blaster must not be physical buttons of the saber: a fire button held without a blade turns into the
power button at the next event, and is not held any more. -/
theorem C118_fire_counterexample {σ Ev : Type} (saber h : Handler σ Ev) (s : σ) (e : Ev) (hh : ∀ s b e m, (h s b e m).2 = false) :
    (event false saber h false s (withB empty fire) none e).2.1 power = true ∧ (event false saber h false s (withB empty fire) none e).2.1 fire = false := by
  have hx : (event false saber h false s (withB empty fire) none e).2.1 = mapMask (unmapBit false) (mapMask (mapBit false) (withB empty fire)) := by
    simp [event, blasterEvent, baseEvent, hh]
  rw [hx]
  decide

example : mapMask (mapBit true) (withB (withB empty aux) power) fire = true ∧ mapMask (mapBit true) (withB (withB empty aux) power) power = true ∧
    mapMask (mapBit true) (withB (withB empty aux) power) aux = false := by decide
example : Phys power ∧ Phys aux ∧ Phys aux2 := by unfold Phys; decide

end Verif.Prop.Dual
