/-!
# Shared power pins

Model of blades/power_pin.h with `SHARED_POWER_PINS`: several blades switch the same pins.
-/
set_option linter.unusedSimpArgs false
set_option linter.unusedVariables false
namespace Verif.Blade.Pin

/-- one pin: `PowerPinSingleton<PIN>` and the hardware behind it; blades/power_pin.h:30-57 -/
structure Pin where
  /-- `refs_`, a byte -/
  refs : Nat
  /-- `init_refs_`, a byte -/
  inits : Nat
  /-- the pin is an output -/
  output : Bool
  /-- the level written last -/
  level : Bool

/-- after reset -/
def Pin.start : Pin := ⟨0, 0, false, false⟩

/-- `PowerPinSingleton::Init`, blades/power_pin.h:33-38 -/
def Pin.init (p : Pin) : Pin :=
  let q := { p with inits := (p.inits + 1) % 256 }
  if p.inits = 0 then { q with output := true, level := false } else q

/-- `PowerPinSingleton::DeInit`, blades/power_pin.h:39-43 -/
def Pin.deInit (p : Pin) : Pin :=
  let q := { p with inits := (p.inits + 255) % 256 }
  if q.inits = 0 then { q with output := false } else q

/-- `PowerPinSingleton::Power`, blades/power_pin.h:44-47 -/
def Pin.power (p : Pin) (on : Bool) : Pin :=
  let r := if on then (p.refs + 1) % 256 else (p.refs + 255) % 256
  { p with refs := r, level := decide (r ≠ 0) }

/-- the pin supplies power -/
def Pin.supplies (p : Pin) : Bool := p.output && p.level

/-- all pins -/
abbrev Pins := Nat → Pin

def upd (ps : Pins) (i : Nat) (p : Pin) : Pins := fun j => if j = i then p else ps j

/-- a `PowerPinWrapper`: its pin and `on_` -/
structure Wrap where
  pin : Nat
  on : Bool

/-- `PowerPinWrapper::Power`, blades/power_pin.h:69-73 -/
def Wrap.power (w : Wrap) (v : Bool) (ps : Pins) : Wrap × Pins :=
  if v = w.on then (w, ps) else ({ w with on := v }, upd ps w.pin ((ps w.pin).power v))

/-- `PowerPinWrapper::DeInit`, blades/power_pin.h:65-68 -/
def Wrap.deInit (w : Wrap) (ps : Pins) : Wrap × Pins :=
  let (w, ps) := w.power false ps
  (w, upd ps w.pin (ps w.pin).deInit)

/-- `PowerPINS::Init`, blades/power_pin.h:99-102 -/
def initAll : List Wrap → Pins → Pins
  | [], ps => ps
  | w :: l, ps => initAll l (upd ps w.pin (ps w.pin).init)

/-- `PowerPINS::DeInit`, blades/power_pin.h:103-106 -/
def deInitAll : List Wrap → Pins → List Wrap × Pins
  | [], ps => ([], ps)
  | w :: l, ps =>
    let a := w.deInit ps
    let b := deInitAll l a.2
    (a.1 :: b.1, b.2)

/-- `PowerPINS::Power`, blades/power_pin.h:107-110 -/
def powerAll (v : Bool) : List Wrap → Pins → List Wrap × Pins
  | [], ps => ([], ps)
  | w :: l, ps =>
    let a := w.power v ps
    let b := powerAll v l a.2
    (a.1 :: b.1, b.2)

/-- every blade has its own list of wrappers -/
structure St where
  blades : List (List Wrap)
  pins : Pins

/-- blades with the given pins, after reset -/
def St.start (cfg : List (List Nat)) : St := ⟨cfg.map fun l => l.map fun p => ⟨p, false⟩, fun _ => Pin.start⟩

/-- what a blade can do with its power pins -/
inductive Op where
  | init
  | deInit
  | power (on : Bool)

/-- one call by blade `b` -/
def step (s : St) (b : Nat) : Op → St
  | .init => { s with pins := initAll (s.blades.getD b []) s.pins }
  | .deInit =>
    let r := deInitAll (s.blades.getD b []) s.pins
    ⟨s.blades.set b r.1, r.2⟩
  | .power v =>
    let r := powerAll v (s.blades.getD b []) s.pins
    ⟨s.blades.set b r.1, r.2⟩

/-! ## Specification -/

/-- a blade as its owner sees it -/
inductive View where
  | unused
  | ready (on : Bool)

/-- the owner's calls: `Init` first, then `Power` any number of times, then `DeInit` -/
def View.next : View → Op → Option View
  | .unused, .init => some (.ready false)
  | .ready _, .power v => some (.ready v)
  | .ready _, .deInit => some .unused
  | _, _ => none

/-- all interleavings of calls of all blades in which each blade keeps to this protocol -/
inductive Reach (cfg : List (List Nat)) : St → List View → Prop
  | start : Reach cfg (St.start cfg) (cfg.map fun _ => .unused)
  | step {s vs v v'} (b : Nat) (op : Op) : Reach cfg s vs → vs[b]? = some v → v.next op = some v' → Reach cfg (step s b op) (vs.set b v')

/-! ## Counting -/

def View.used : View → Bool
  | .unused => false
  | .ready _ => true

def View.on : View → Bool
  | .unused => false
  | .ready v => v

/-- how often pin `p` occurs -/
def occ (p : Nat) (l : List Nat) : Nat := l.count p

/-- wrappers of pin `p` in the blades for which `f` holds -/
def total (f : View → Bool) (p : Nat) : List (List Nat) → List View → Nat
  | l :: cfg, v :: vs => (if f v then l.count p else 0) + total f p cfg vs
  | _, _ => 0

/-- one blade changes -/
theorem total_set {f : View → Bool} {p : Nat} : ∀ {cfg : List (List Nat)} {vs : List View} {b : Nat} {v w : View} {l : List Nat}, vs[b]? = some v → cfg[b]? = some l →
    total f p cfg (vs.set b w) + (if f v then l.count p else 0) = total f p cfg vs + (if f w then l.count p else 0) ∧ (if f v then l.count p else 0) ≤ total f p cfg vs
  | [], vs, b, v, w, l, h, h' => by simp at h'
  | x :: cfg, [], b, v, w, l, h, h' => by simp at h
  | x :: cfg, y :: vs, 0, v, w, l, h, h' => by
    simp at h h'
    subst h h'
    simp only [List.set_cons_zero, total]
    omega
  | x :: cfg, y :: vs, b + 1, v, w, l, h, h' => by
    simp at h h'
    have := total_set (f := f) (p := p) (w := w) h h'
    simp only [List.set_cons_succ, total]
    omega

theorem total_le {f g : View → Bool} {p : Nat} (hfg : ∀ v, f v = true → g v = true) : ∀ {cfg : List (List Nat)} {vs : List View}, total f p cfg vs ≤ total g p cfg vs
  | [], _ => by simp [total]
  | _ :: _, [] => by simp [total]
  | l :: cfg, v :: vs => by
    simp only [total]
    have := total_le (p := p) hfg (cfg := cfg) (vs := vs)
    cases hf : f v with
    | false => simp; omega
    | true => rw [hfg v hf]; simp; omega

theorem total_flatten {f : View → Bool} {p : Nat} : ∀ {cfg : List (List Nat)} {vs : List View}, total f p cfg vs ≤ cfg.flatten.count p
  | [], _ => by simp [total]
  | _ :: _, [] => by simp [total]
  | l :: cfg, v :: vs => by
    simp only [total, List.flatten_cons, List.count_append]
    have := total_flatten (f := f) (p := p) (cfg := cfg) (vs := vs)
    split <;> omega

theorem total_pos {f : View → Bool} {p : Nat} : ∀ {cfg : List (List Nat)} {vs : List View}, 0 < total f p cfg vs ↔ ∃ (b : Nat) (l : List Nat) (v : View), cfg[b]? = some l ∧ vs[b]? = some v ∧ f v = true ∧ p ∈ l
  | [], _ => by simp [total]
  | _ :: _, [] => by simp [total]
  | l :: cfg, v :: vs => by
    simp only [total]
    have ih := total_pos (f := f) (p := p) (cfg := cfg) (vs := vs)
    constructor
    · intro h
      by_cases h1 : 0 < total f p cfg vs
      · obtain ⟨b, l', v', h2, h3, h4, h5⟩ := ih.1 h1
        exact ⟨b + 1, l', v', by simpa using h2, by simpa using h3, h4, h5⟩
      · have : 0 < (if f v then l.count p else 0) := by omega
        cases hf : f v with
        | false => rw [hf] at this; simp at this
        | true =>
          rw [hf] at this
          simp only [if_true] at this
          exact ⟨0, l, v, rfl, rfl, hf, List.count_pos_iff.1 this⟩
    · rintro ⟨b, l', v', h2, h3, h4, h5⟩
      cases b with
      | zero =>
        simp at h2 h3
        subst h2 h3
        have := List.count_pos_iff.2 h5
        rw [h4]; simp only [if_true]; omega
      | succ b =>
        have := ih.2 ⟨b, l', v', by simpa using h2, by simpa using h3, h4, h5⟩
        omega

/-! ## The list operations -/

theorem initAll_spec : ∀ (l : List Wrap) (ps : Pins) (p : Nat), (ps p).inits + (l.map (·.pin)).count p ≤ 255 →
    (initAll l ps p).refs = (ps p).refs ∧ (initAll l ps p).inits = (ps p).inits + (l.map (·.pin)).count p ∧
    ((l.map (·.pin)).count p = 0 → initAll l ps p = ps p) ∧
    (0 < (l.map (·.pin)).count p → (initAll l ps p).output = ((ps p).output || decide ((ps p).inits = 0)) ∧ (initAll l ps p).level = ((ps p).level && decide ((ps p).inits ≠ 0)))
  | [], ps, p, h => by simp [initAll]
  | w :: l, ps, p, h => by
    simp only [initAll, List.map_cons, List.count_cons] at h ⊢
    by_cases e : w.pin = p
    · have hb : (w.pin == p) = true := by simp [e]
      rw [hb] at h ⊢
      simp only [if_true] at h ⊢
      have hu : upd ps w.pin (ps w.pin).init p = (ps p).init := by unfold upd; rw [if_pos e.symm, e]
      have hi : (ps p).init.inits = (ps p).inits + 1 ∧ (ps p).init.refs = (ps p).refs ∧ (ps p).init.output = ((ps p).output || decide ((ps p).inits = 0)) ∧ (ps p).init.level = ((ps p).level && decide ((ps p).inits ≠ 0)) := by
        unfold Pin.init
        by_cases c : (ps p).inits = 0
        · simp [c]
        · simp [c]; omega
      have ih := initAll_spec l (upd ps w.pin (ps w.pin).init) p (by rw [hu, hi.1]; omega)
      rw [hu] at ih
      obtain ⟨i1, i2, i3, i4⟩ := ih
      refine ⟨by rw [i1, hi.2.1], by rw [i2, hi.1]; omega, fun h => by omega, fun _ => ?_⟩
      by_cases c : (l.map (·.pin)).count p = 0
      · rw [i3 c]; exact ⟨hi.2.2.1, hi.2.2.2⟩
      · obtain ⟨j1, j2⟩ := i4 (by omega)
        rw [j1, j2, hi.2.2.1, hi.2.2.2, hi.1]
        simp
    · have hb : (w.pin == p) = false := by simp [e]
      rw [hb] at h ⊢
      simp only [Bool.false_eq_true, if_false, Nat.add_zero] at h ⊢
      have hu : upd ps w.pin (ps w.pin).init p = ps p := by unfold upd; rw [if_neg (fun e' => e e'.symm)]
      have ih := initAll_spec l (upd ps w.pin (ps w.pin).init) p (by rw [hu]; exact h)
      rw [hu] at ih
      exact ih

/-- wrappers which are all on or all off -/
def same (v : Bool) (l : List Nat) : List Wrap := l.map fun p => ⟨p, v⟩

theorem same_pins (v : Bool) (l : List Nat) : (same v l).map (·.pin) = l := by unfold same; simp [List.map_map, Function.comp_def]

/-- switching to what is already set does nothing -/
theorem powerAll_same (v : Bool) : ∀ (l : List Nat) (ps : Pins), powerAll v (same v l) ps = (same v l, ps)
  | [], ps => rfl
  | p :: l, ps => by
    have h : Wrap.power ⟨p, v⟩ v ps = (⟨p, v⟩, ps) := by unfold Wrap.power; rw [if_pos rfl]
    show (let a := Wrap.power ⟨p, v⟩ v ps; let b := powerAll v (same v l) a.2; (a.1 :: b.1, b.2)) = _
    simp only [h, powerAll_same v l ps]
    rfl

theorem power_on {p : Pin} (h : p.refs + 1 ≤ 255) : p.power true = { p with refs := p.refs + 1, level := true } := by
  unfold Pin.power
  have : (p.refs + 1) % 256 = p.refs + 1 := Nat.mod_eq_of_lt (by omega)
  simp [this]

theorem power_off {p : Pin} (h : 1 ≤ p.refs) (h2 : p.refs ≤ 255) : p.power false = { p with refs := p.refs - 1, level := decide (p.refs - 1 ≠ 0) } := by
  unfold Pin.power
  have : (p.refs + 255) % 256 = p.refs - 1 := by omega
  simp [this]

/-- switching on -/
theorem powerAll_on : ∀ (l : List Nat) (ps : Pins), (∀ p, (ps p).refs + l.count p ≤ 255) →
    (powerAll true (same false l) ps).1 = same true l ∧ ∀ p, (powerAll true (same false l) ps).2 p = { ps p with refs := (ps p).refs + l.count p, level := if l.count p = 0 then (ps p).level else true }
  | [], ps, h => ⟨rfl, fun p => by simp [powerAll, same]⟩
  | q :: l, ps, h => by
    have hq := h q
    simp only [List.count_cons_self] at hq
    have hw : Wrap.power ⟨q, false⟩ true ps = (⟨q, true⟩, upd ps q { ps q with refs := (ps q).refs + 1, level := true }) := by
      unfold Wrap.power; rw [if_neg (by simp)]; simp only; rw [power_on (by omega)]
    have hb : ∀ p, (upd ps q { ps q with refs := (ps q).refs + 1, level := true } p).refs + l.count p ≤ 255 := by
      intro p
      have := h p
      unfold upd
      by_cases e : p = q
      · subst e; simp at this ⊢; omega
      · have : (q == p) = false := by simp; exact fun e' => e e'.symm
        rw [if_neg e]
        have hp := h p
        rw [List.count_cons, this] at hp
        simpa using hp
    obtain ⟨i1, i2⟩ := powerAll_on l _ hb
    have hr : powerAll true (same false (q :: l)) ps = (⟨q, true⟩ :: (powerAll true (same false l) (upd ps q { ps q with refs := (ps q).refs + 1, level := true })).1, (powerAll true (same false l) (upd ps q { ps q with refs := (ps q).refs + 1, level := true })).2) := by
      show (let a := Wrap.power ⟨q, false⟩ true ps; let b := powerAll true (same false l) a.2; (a.1 :: b.1, b.2)) = _
      simp only [hw]
    rw [hr]
    refine ⟨by rw [i1]; rfl, fun p => ?_⟩
    rw [i2 p]
    unfold upd
    by_cases e : p = q
    · subst e
      simp only [if_true, List.count_cons_self]
      simp only [ite_self, Nat.add_one_ne_zero, if_false, Pin.mk.injEq, and_true, true_and]
      omega
    · have hc : (q == p) = false := by simp; exact fun e' => e e'.symm
      rw [if_neg e, List.count_cons, hc]
      simp

/-- switching off -/
theorem powerAll_off : ∀ (l : List Nat) (ps : Pins), (∀ p, l.count p ≤ (ps p).refs ∧ (ps p).refs ≤ 255) →
    (powerAll false (same true l) ps).1 = same false l ∧ ∀ p, (powerAll false (same true l) ps).2 p = { ps p with refs := (ps p).refs - l.count p, level := if l.count p = 0 then (ps p).level else decide ((ps p).refs - l.count p ≠ 0) }
  | [], ps, h => ⟨rfl, fun p => by simp [powerAll, same]⟩
  | q :: l, ps, h => by
    have hq := h q
    simp only [List.count_cons_self] at hq
    have hw : Wrap.power ⟨q, true⟩ false ps = (⟨q, false⟩, upd ps q { ps q with refs := (ps q).refs - 1, level := decide ((ps q).refs - 1 ≠ 0) }) := by
      unfold Wrap.power; rw [if_neg (by simp)]; simp only; rw [power_off (by omega) (by omega)]
    have hb : ∀ p, l.count p ≤ (upd ps q { ps q with refs := (ps q).refs - 1, level := decide ((ps q).refs - 1 ≠ 0) } p).refs ∧ (upd ps q { ps q with refs := (ps q).refs - 1, level := decide ((ps q).refs - 1 ≠ 0) } p).refs ≤ 255 := by
      intro p
      have hp := h p
      unfold upd
      by_cases e : p = q
      · subst e; simp at hp ⊢; omega
      · have : (q == p) = false := by simp; exact fun e' => e e'.symm
        rw [if_neg e]
        rw [List.count_cons, this] at hp
        simpa using hp
    obtain ⟨i1, i2⟩ := powerAll_off l _ hb
    have hr : powerAll false (same true (q :: l)) ps = (⟨q, false⟩ :: (powerAll false (same true l) (upd ps q { ps q with refs := (ps q).refs - 1, level := decide ((ps q).refs - 1 ≠ 0) })).1, (powerAll false (same true l) (upd ps q { ps q with refs := (ps q).refs - 1, level := decide ((ps q).refs - 1 ≠ 0) })).2) := by
      show (let a := Wrap.power ⟨q, true⟩ false ps; let b := powerAll false (same true l) a.2; (a.1 :: b.1, b.2)) = _
      simp only [hw]
    rw [hr]
    refine ⟨by rw [i1]; rfl, fun p => ?_⟩
    rw [i2 p]
    unfold upd
    by_cases e : p = q
    · subst e
      simp only [if_true, List.count_cons_self, Nat.add_one_ne_zero, if_false]
      have e1 : (ps p).refs - 1 - l.count p = (ps p).refs - (l.count p + 1) := by omega
      rw [e1]
      by_cases c : l.count p = 0
      · simp [c]
      · simp [c]
    · have hc : (q == p) = false := by simp; exact fun e' => e e'.symm
      rw [if_neg e, List.count_cons, hc]
      simp

/-- releasing: as switching off, and counting down the users -/
theorem deInitAll_spec (v : Bool) : ∀ (l : List Nat) (ps : Pins), (∀ p, (if v then l.count p else 0) ≤ (ps p).refs ∧ (ps p).refs ≤ 255 ∧ l.count p ≤ (ps p).inits ∧ (ps p).inits ≤ 255) →
    (deInitAll (same v l) ps).1 = same false l ∧ ∀ p, (deInitAll (same v l) ps).2 p =
      { refs := (ps p).refs - (if v then l.count p else 0), inits := (ps p).inits - l.count p,
        output := if l.count p = 0 then (ps p).output else ((ps p).output && decide ((ps p).inits - l.count p ≠ 0)),
        level := if v = true ∧ l.count p ≠ 0 then decide ((ps p).refs - l.count p ≠ 0) else (ps p).level }
  | [], ps, h => ⟨rfl, fun p => by simp [deInitAll, same]⟩
  | q :: l, ps, h => by
    have hq := h q
    simp only [List.count_cons_self] at hq
    obtain ⟨n, hn⟩ : ∃ n : Pin, n = { refs := (ps q).refs - (if v then 1 else 0), inits := (ps q).inits - 1, output := (ps q).output && decide ((ps q).inits - 1 ≠ 0), level := if v then decide ((ps q).refs - 1 ≠ 0) else (ps q).level } := ⟨_, rfl⟩
    have hd : ∀ x : Pin, 1 ≤ x.inits → x.inits ≤ 255 → x.deInit = { x with inits := x.inits - 1, output := x.output && decide (x.inits - 1 ≠ 0) } := by
      intro x h1 h2
      unfold Pin.deInit
      have : (x.inits + 255) % 256 = x.inits - 1 := by omega
      simp only [this]
      by_cases c : x.inits - 1 = 0
      · simp [c]
      · simp [c]
    have huu : ∀ (a b : Pin), upd (upd ps q a) q b = upd ps q b := by
      intro a b; funext j; unfold upd; by_cases e : j = q <;> simp [e]
    have hself : ∀ a : Pin, upd ps q a q = a := by intro a; unfold upd; rw [if_pos rfl]
    have hw : Wrap.deInit ⟨q, v⟩ ps = (⟨q, false⟩, upd ps q n) := by
      unfold Wrap.deInit Wrap.power
      cases v with
      | true =>
        simp only [if_true] at hq hn
        simp only [Bool.false_eq_true, if_false]
        rw [huu, hself, power_off (by omega) (by omega), hd _ (by simp; omega) (by simp; omega), hn]
      | false =>
        simp only [if_true]
        rw [hd _ (by omega) (by omega), hn]
        simp
    have hne : ∀ p, p ≠ q → (q == p) = false := fun p e => by simp; exact fun e' => e e'.symm
    have hb : ∀ p, (if v then l.count p else 0) ≤ (upd ps q n p).refs ∧ (upd ps q n p).refs ≤ 255 ∧ l.count p ≤ (upd ps q n p).inits ∧ (upd ps q n p).inits ≤ 255 := by
      intro p
      have hp := h p
      by_cases e : p = q
      · subst e
        rw [hself, hn]
        cases v <;> simp at hp ⊢ <;> omega
      · unfold upd
        rw [if_neg e]
        rw [List.count_cons, hne p e] at hp
        simpa using hp
    obtain ⟨i1, i2⟩ := deInitAll_spec v l _ hb
    have hr : deInitAll (same v (q :: l)) ps = (⟨q, false⟩ :: (deInitAll (same v l) (upd ps q n)).1, (deInitAll (same v l) (upd ps q n)).2) := by
      show (let a := Wrap.deInit ⟨q, v⟩ ps; let b := deInitAll (same v l) a.2; (a.1 :: b.1, b.2)) = _
      simp only [hw]
    rw [hr]
    refine ⟨by rw [i1]; rfl, fun p => ?_⟩
    rw [i2 p]
    by_cases e : p = q
    · subst e
      rw [hself, hn]
      simp only [List.count_cons_self]
      have e1 : (ps p).refs - 1 - l.count p = (ps p).refs - (l.count p + 1) := by omega
      have e2 : (ps p).inits - 1 - l.count p = (ps p).inits - (l.count p + 1) := by omega
      cases v with
      | true =>
        simp only [if_true, e1, e2]
        by_cases c : l.count p = 0
        · simp [c]
        · have e3 : decide ((ps p).inits - 1 = 0) = false := by simp; omega
          simp [c, e3]
      | false =>
        simp only [e2]
        by_cases c : l.count p = 0
        · simp [c]
        · have e3 : decide ((ps p).inits - 1 = 0) = false := by simp; omega
          simp [c, e3]
    · unfold upd
      rw [if_neg e, List.count_cons, hne p e]
      simp

/-! ## C53 -/

structure Inv (cfg : List (List Nat)) (s : St) (vs : List View) : Prop where
  len : vs.length = cfg.length
  blades : s.blades = List.zipWith (fun l v => same (View.on v) l) cfg vs
  refs : ∀ p, (s.pins p).refs = total View.on p cfg vs
  inits : ∀ p, (s.pins p).inits = total View.used p cfg vs
  output : ∀ p, (s.pins p).output = decide ((s.pins p).inits ≠ 0)
  level : ∀ p, (s.pins p).level = decide ((s.pins p).refs ≠ 0)

theorem zip_set {α β γ : Type} {f : α → β → γ} : ∀ {as : List α} {bs : List β} {b : Nat} {y : β} {a : α}, as[b]? = some a →
    (List.zipWith f as bs).set b (f a y) = List.zipWith f as (bs.set b y)
  | [], bs, b, y, a, h => by simp at h
  | x :: as, [], b, y, a, h => by simp
  | x :: as, z :: bs, 0, y, a, h => by simp at h; subst h; simp
  | x :: as, z :: bs, b + 1, y, a, h => by simp at h; simp [zip_set h]

theorem inv_start (cfg : List (List Nat)) : Inv cfg (St.start cfg) (cfg.map fun _ => .unused) := by
  have h0 : ∀ (f : View → Bool), f .unused = false → ∀ p cfg, total f p cfg (cfg.map fun _ => View.unused) = 0 := by
    intro f hf p cfg
    induction cfg with
    | nil => rfl
    | cons l cfg ih => simp only [List.map_cons, total, hf, ih]; rfl
  refine ⟨by simp, ?_, fun p => (h0 _ rfl p cfg).symm, fun p => (h0 _ rfl p cfg).symm, fun p => rfl, fun p => rfl⟩
  show cfg.map _ = _
  induction cfg with
  | nil => rfl
  | cons l cfg ih => simp only [List.map_cons, List.zipWith_cons_cons, ih]; rfl

theorem inv_step {cfg : List (List Nat)} (hcfg : ∀ p, cfg.flatten.count p ≤ 255) {s : St} {vs : List View} (h : Inv cfg s vs) {b : Nat} {op : Op} {v v' : View}
    (hv : vs[b]? = some v) (hn : v.next op = some v') : Inv cfg (step s b op) (vs.set b v') := by
  obtain ⟨hb, _⟩ := List.getElem?_eq_some_iff.1 hv
  obtain ⟨l, hl⟩ : ∃ l, cfg[b]? = some l := ⟨cfg[b]'(by have := h.len; omega), List.getElem?_eq_getElem _⟩
  have hw : s.blades.getD b [] = same v.on l := by
    rw [h.blades, List.getD_eq_getElem?_getD, List.getElem?_zipWith, hl, hv]; rfl
  have hr := fun p => total_set (f := View.on) (p := p) (w := v') hv hl
  have hi := fun p => total_set (f := View.used) (p := p) (w := v') hv hl
  have hle := fun p => total_le (f := View.on) (g := View.used) (p := p) (fun v e => by cases v with | unused => cases e | ready _ => rfl) (cfg := cfg) (vs := vs)
  have hc1 := fun p => Nat.le_trans (total_flatten (f := View.on) (p := p) (cfg := cfg) (vs := vs)) (hcfg p)
  have hc2 := fun p => Nat.le_trans (total_flatten (f := View.used) (p := p) (cfg := cfg) (vs := vs)) (hcfg p)
  have hc3 := fun p => Nat.le_trans (total_flatten (f := View.used) (p := p) (cfg := cfg) (vs := vs.set b v')) (hcfg p)
  have hc4 := fun p => Nat.le_trans (total_flatten (f := View.on) (p := p) (cfg := cfg) (vs := vs.set b v')) (hcfg p)
  have hrefs := h.refs
  have hinits := h.inits
  have hlen : (vs.set b v').length = cfg.length := by rw [List.length_set]; exact h.len
  have hbl : s.blades.set b (same v'.on l) = List.zipWith (fun l v => same (View.on v) l) cfg (vs.set b v') := by
    rw [h.blades]; exact zip_set (f := fun l v => same (View.on v) l) hl
  cases v with
  | unused =>
    cases op with
    | init =>
      simp only [View.next, Option.some.injEq] at hn
      subst hn
      simp only [View.on, View.used, if_true, Bool.false_eq_true, if_false] at hr hi hw hbl
      have hs : s.blades.set b (same false l) = s.blades := by
        rw [← hw]
        apply List.ext_getElem? ; intro i
        rw [List.getElem?_set]
        by_cases e : b = i
        · subst e
          rw [if_pos rfl]
          by_cases hlt : b < s.blades.length
          · rw [if_pos hlt, List.getD_eq_getElem?_getD, List.getElem?_eq_getElem hlt]; rfl
          · rw [if_neg hlt, List.getElem?_eq_none (by omega)]
        · rw [if_neg e]
      have sp := fun p => initAll_spec (same false l) s.pins p (by rw [same_pins]; have := hi p; have := hc3 p; rw [hinits p]; omega)
      simp only [same_pins] at sp
      refine ⟨hlen, ?_, ?_, ?_, ?_, ?_⟩
      · show s.blades = _
        exact hs.symm.trans hbl
      all_goals
        intro p
        simp only [step, hw]
        obtain ⟨s1, s2, s3, s4⟩ := sp p
        have hr := hr p
        have hi := hi p
        have hle := hle p
        have h1 := hrefs p
        have h2 := hinits p
        have h3 := h.output p
        have h4 := h.level p
      · omega
      · omega
      · by_cases c : l.count p = 0
        · rw [s3 c, h3]
        · rw [(s4 (by omega)).1, s2, h3]
          by_cases c2 : (s.pins p).inits = 0
          · simp [c2, c]
          · simp [c2]
      · by_cases c : l.count p = 0
        · rw [s3 c, h4]
        · rw [(s4 (by omega)).2, s1, h4]
          by_cases c2 : (s.pins p).inits = 0
          · have : (s.pins p).refs = 0 := by omega
            simp [c2, this]
          · simp [c2]
    | deInit => cases hn
    | power w => cases hn
  | ready u =>
    cases op with
    | init => cases hn
    | power w =>
      simp only [View.next, Option.some.injEq] at hn
      subst hn
      simp only [View.on, View.used, if_true] at hr hi hw hbl
      by_cases huw : u = w
      · subst huw
        refine ⟨hlen, ?_, ?_, ?_, ?_, ?_⟩
        · simp only [step, hw, powerAll_same]; exact hbl
        all_goals
          intro p
          simp only [step, hw, powerAll_same]
        · have := hr p; rw [hrefs p]; omega
        · have := hi p; rw [hinits p]; omega
        · exact h.output p
        · exact h.level p
      · cases w with
        | true =>
          have hu : u = false := by cases u <;> simp_all
          subst hu
          simp only [Bool.false_eq_true, if_false, if_true] at hr
          have sp := powerAll_on l s.pins (fun p => by have := hr p; have := hc4 p; rw [hrefs p]; omega)
          refine ⟨hlen, ?_, ?_, ?_, ?_, ?_⟩
          · simp only [step, hw, sp.1]; exact hbl
          all_goals
            intro p
            simp only [step, hw, sp.2 p]
            have hr := hr p
            have hi := hi p
            have h1 := hrefs p
            have h2 := hinits p
          · omega
          · omega
          · exact h.output p
          · rw [h.level p]
            by_cases c : l.count p = 0
            · simp [c]
            · simp [c]
        | false =>
          have hu : u = true := by cases u <;> simp_all
          subst hu
          simp only [Bool.false_eq_true, if_false, if_true] at hr
          have sp := powerAll_off l s.pins (fun p => by have := hr p; have := hc1 p; rw [hrefs p]; omega)
          refine ⟨hlen, ?_, ?_, ?_, ?_, ?_⟩
          · simp only [step, hw, sp.1]; exact hbl
          all_goals
            intro p
            simp only [step, hw, sp.2 p]
            have hr := hr p
            have hi := hi p
            have h1 := hrefs p
            have h2 := hinits p
          · omega
          · omega
          · exact h.output p
          · rw [h.level p]
            by_cases c : l.count p = 0
            · simp [c]
            · simp [c]
    | deInit =>
      simp only [View.next, Option.some.injEq] at hn
      subst hn
      simp only [View.on, View.used, if_true, Bool.false_eq_true, if_false] at hr hi hw hbl
      replace hr : ∀ p, total View.on p cfg (vs.set b .unused) + (if u = true then l.count p else 0) = total View.on p cfg vs ∧ (if u = true then l.count p else 0) ≤ total View.on p cfg vs := by
        intro p; have := hr p; cases u <;> simpa using this
      have sp := deInitAll_spec u l s.pins (fun p => by
        have := hr p; have := hc1 p; have := hi p; have := hc2 p; rw [hrefs p, hinits p]; omega)
      refine ⟨hlen, ?_, ?_, ?_, ?_, ?_⟩
      · simp only [step, hw, sp.1]; exact hbl
      all_goals
        intro p
        simp only [step, hw, sp.2 p]
        have hr := hr p
        have hi := hi p
        have hle := hle p
        have h1 := hrefs p
        have h2 := hinits p
      · omega
      · omega
      · rw [h.output p]
        by_cases c : l.count p = 0
        · simp [c]
        · have : (s.pins p).inits ≠ 0 := by omega
          simp [c, this]
      · rw [h.level p]
        cases u with
        | false => simp
        | true =>
          by_cases c : l.count p = 0
          · simp [c]
          · simp [c]

theorem reach_inv {cfg : List (List Nat)} (hcfg : ∀ p, cfg.flatten.count p ≤ 255) {s : St} {vs : List View} (h : Reach cfg s vs) : Inv cfg s vs := by
  induction h with
  | start => exact inv_start cfg
  | step b op _ hv hn ih => exact inv_step hcfg ih hv hn

/-- With shared power pins, whatever the blades do in whatever order, a pin supplies power just when some blade that uses the pin has its power on.
At most 255 blades may share a pin. -/
theorem C53_shared {cfg : List (List Nat)} (hcfg : ∀ p, cfg.flatten.count p ≤ 255) {s : St} {vs : List View} (h : Reach cfg s vs) (p : Nat) :
    (s.pins p).supplies = true ↔ ∃ (b : Nat) (l : List Nat), cfg[b]? = some l ∧ p ∈ l ∧ vs[b]? = some (.ready true) := by
  have hi := reach_inv hcfg h
  have hle := total_le (f := View.on) (g := View.used) (p := p) (fun v e => by cases v with | unused => cases e | ready _ => rfl) (cfg := cfg) (vs := vs)
  have hp := total_pos (f := View.on) (p := p) (cfg := cfg) (vs := vs)
  have e : (s.pins p).supplies = true ↔ 0 < total View.on p cfg vs := by
    unfold Pin.supplies
    rw [hi.output p, hi.level p, hi.refs p, hi.inits p]
    simp only [Bool.and_eq_true, decide_eq_true_eq]
    omega
  rw [e, hp]
  constructor
  · rintro ⟨b, l, v, h1, h2, h3, h4⟩
    refine ⟨b, l, h1, h4, ?_⟩
    rw [h2]
    cases v with
    | unused => cases h3
    | ready u => cases u with
      | true => rfl
      | false => cases h3
  · rintro ⟨b, l, h1, h4, h2⟩
    exact ⟨b, l, _, h1, h2, rfl, h4⟩

/-- A pin is left floating just when no blade using it is in use. -/
theorem C53_released {cfg : List (List Nat)} (hcfg : ∀ p, cfg.flatten.count p ≤ 255) {s : St} {vs : List View} (h : Reach cfg s vs) (p : Nat) :
    (s.pins p).output = false ↔ ∀ (b : Nat) (l : List Nat), cfg[b]? = some l → p ∈ l → vs[b]? = some .unused := by
  have hi := reach_inv hcfg h
  have hp := total_pos (f := View.used) (p := p) (cfg := cfg) (vs := vs)
  rw [hi.output p, hi.inits p]
  simp only [decide_eq_false_iff_not, Decidable.not_not]
  constructor
  · intro h0 b l hl hm
    have hb : b < vs.length := by rw [hi.len]; exact (List.getElem?_eq_some_iff.1 hl).1
    rw [List.getElem?_eq_getElem hb]
    cases hv : vs[b] with
    | unused => rfl
    | ready u =>
      have := hp.2 ⟨b, l, vs[b], hl, List.getElem?_eq_getElem hb, by rw [hv]; rfl, hm⟩
      omega
  · intro hh
    by_cases c : 0 < total View.used p cfg vs
    · obtain ⟨b, l, v, h1, h2, h3, h4⟩ := hp.1 c
      have := hh b l h1 h4
      rw [h2] at this
      cases this
      cases h3
    · omega

/-- two blades sharing pin 8 -/
def demo : List (List Nat) := [[7, 8], [8, 9]]
def demoSt : St := step (step (step (step (St.start demo) 0 .init) 1 .init) 0 (.power true)) 1 (.power true)
example : Reach demo (step (step demoSt 0 (.power false)) 0 .deInit) [.unused, .ready true] :=
  (((((Reach.start.step (v := .unused) (v' := .ready false) 0 .init rfl rfl).step (v := .unused) (v' := .ready false) 1 .init rfl rfl).step (v := .ready false) (v' := .ready true) 0 (.power true) rfl rfl).step (v := .ready false) (v' := .ready true) 1 (.power true) rfl rfl).step (v := .ready true) (v' := .ready false) 0 (.power false) rfl rfl).step (v := .ready false) (v' := .unused) 0 .deInit rfl rfl
example : ((step (step demoSt 0 (.power false)) 0 .deInit).pins 8).supplies = true ∧ ((step (step demoSt 0 (.power false)) 0 .deInit).pins 7).supplies = false := by decide
example : ∀ p, demo.flatten.count p ≤ 255 := fun p => Nat.le_trans List.count_le_length (by decide)

/-! ### Without `SHARED_POWER_PINS` -/

/-- `PowerPinWrapper` without sharing: every call goes straight to the pin; blades/power_pin.h:14-26 -/
def plainStep (p : Pin) : Op → Pin
  | .init => { p with output := true }
  | .deInit => { p with output := false }
  | .power v => { p with level := v }

/-- by default blades sharing a pin switch each other off: the first blade is still on when the second is released, and the pin is dead -/
theorem C53_unshared_counterexample : ∃ (calls : List (Nat × Op)), (calls.filter (·.1 = 0)).map (·.2) = [.init, .power true] ∧
    ((calls.map (·.2)).foldl plainStep Pin.start).supplies = false :=
  ⟨[(0, .init), (0, .power true), (1, .init), (1, .power true), (1, .power false), (1, .deInit)], rfl, by decide⟩

end Verif.Blade.Pin
