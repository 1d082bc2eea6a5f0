import Verif.Prop.SaberButtons
/-
  What each kind of event does, in closed form, for the standard two button saber.
-/
set_option linter.unusedSimpArgs false
namespace Verif.Prop.SaberButtons

/-- The modifier of the other button. -/
def M.other (m : M) (b : B) : Bool := if b = .aux then m.power else m.aux
def S.other (s : S) (b : B) : Bool := if b = .aux then s.power else s.aux

theorem ev2_pressed {c : Cfg} (hc : c.dual = false) (now : Nat) (acc : Bool) (s : S) (b : B) (hb : b ≠ .none) (m : M) :
    ev2 c now acc s b pressed m =
      if m.other b = true ∨ m.any = true then none
      else if m.on = true then some ({ s with pointing := acc }, [])
      else if b = .power then some (s, [.motion]) else none := by
  obtain ⟨p, a, y, o⟩ := m
  cases b <;> cases p <;> cases a <;> cases y <;> cases o <;>
    simp_all [ev2, eid, swap, M.other, pressed, released, clickShort, clickLong, firstClickShort, doubleClick, stabEv, twistEv, clashEv]

theorem ev2_released {c : Cfg} (hc : c.dual = false) (now : Nat) (acc : Bool) (s : S) (b : B) (hb : b ≠ .none) (m : M) :
    ev2 c now acc s b released m =
      if m.other b = false ∧ m.any = true ∧ m.on = true ∧ s.lk ≠ .none then some ({ s with lk := .none }, [.endLockup])
      else none := by
  obtain ⟨p, a, y, o⟩ := m
  cases b <;> cases p <;> cases a <;> cases y <;> cases o <;>
    simp_all [ev2, eid, swap, M.other, pressed, released, clickShort, clickLong, firstClickShort, doubleClick, stabEv, twistEv, clashEv] <;>
    (split <;> simp_all)

theorem ev2_clickShort_power {c : Cfg} (hc : c.dual = false) (now : Nat) (acc : Bool) (s : S) (m : M) :
    ev2 c now acc s .power clickShort m =
      if m.any = true then none
      else if m.on = true then (if m.aux = true then some ({ s with menu := true }, [.colorMenu]) else none)
      else if m.aux = true then some (s, [.previousPreset])
      else some (turnOn c { s with auxOn := false } now) := by
  obtain ⟨p, a, y, o⟩ := m
  cases p <;> cases a <;> cases y <;> cases o <;>
    simp_all [ev2, eid, swap, M.other, pressed, released, clickShort, clickLong, firstClickShort, doubleClick, stabEv, twistEv, clashEv]

theorem ev2_clickShort_aux {c : Cfg} (hc : c.dual = false) (now : Nat) (acc : Bool) (s : S) (m : M) :
    ev2 c now acc s .aux clickShort m =
      if m.any = true then none
      else if m.on = true then
        (if m.power = true then some ({ s with lk := .lightning }, [.beginLockup .lightning]) else some (s, [.blast]))
      else if m.power = true then none
      else some (s, [.nextPreset]) := by
  obtain ⟨p, a, y, o⟩ := m
  cases p <;> cases a <;> cases y <;> cases o <;>
    simp_all [ev2, eid, swap, M.other, pressed, released, clickShort, clickLong, firstClickShort, doubleClick, stabEv, twistEv, clashEv]

theorem ev2_clickLong {c : Cfg} (hc : c.dual = false) (now : Nat) (acc : Bool) (s : S) (b : B) (hb : b ≠ .none) (m : M) :
    ev2 c now acc s b clickLong m =
      if b = .power ∧ m.aux = false ∧ m.any = false then some (s, [if m.on then .force else .track]) else none := by
  obtain ⟨p, a, y, o⟩ := m
  cases b <;> cases p <;> cases a <;> cases y <;> cases o <;>
    simp_all [ev2, eid, swap, M.other, pressed, released, clickShort, clickLong, firstClickShort, doubleClick, stabEv, twistEv, clashEv]

theorem ev2_held {c : Cfg} (hc : c.dual = false) (now : Nat) (acc : Bool) (s : S) (b : B) (hb : b ≠ .none) (m : M)
    (k cnt : Nat) (hk : k < 3) (hn : cnt ≤ 4) : ev2 c now acc s b (held k + 8 * cnt) m = none := by
  have hk : k = 0 ∨ k = 1 ∨ k = 2 := by omega
  have hn : cnt = 0 ∨ cnt = 1 ∨ cnt = 2 ∨ cnt = 3 ∨ cnt = 4 := by omega
  rcases hk with rfl | rfl | rfl <;> rcases hn with rfl | rfl | rfl | rfl | rfl <;> cases b <;>
    simp_all [ev2, eid, swap, held, pressed, released, clickShort, clickLong, firstClickShort, doubleClick, stabEv, twistEv, clashEv]

theorem ev2_saved {c : Cfg} (hc : c.dual = false) (now : Nat) (acc : Bool) (s : S) (b : B) (hb : b ≠ .none) (m : M)
    (cnt : Nat) (hn : cnt ≤ 4) : ev2 c now acc s b (savedClickShort + 8 * cnt) m = none := by
  have hn : cnt = 0 ∨ cnt = 1 ∨ cnt = 2 ∨ cnt = 3 ∨ cnt = 4 := by omega
  rcases hn with rfl | rfl | rfl | rfl | rfl <;> cases b <;>
    simp_all [ev2, eid, swap, savedClickShort, pressed, released, clickShort, clickLong, firstClickShort, doubleClick, stabEv, twistEv, clashEv]

theorem ev2_released_counted {c : Cfg} (hc : c.dual = false) (now : Nat) (acc : Bool) (s : S) (b : B) (hb : b ≠ .none) (m : M)
    (cnt : Nat) (h1 : 1 ≤ cnt) (hn : cnt ≤ 4) : ev2 c now acc s b (released + 8 * cnt) m = none := by
  have hn : cnt = 1 ∨ cnt = 2 ∨ cnt = 3 ∨ cnt = 4 := by omega
  rcases hn with rfl | rfl | rfl | rfl <;> cases b <;>
    simp_all [ev2, eid, swap, savedClickShort, pressed, released, clickShort, clickLong, firstClickShort, doubleClick, stabEv, twistEv, clashEv]

theorem ev2_clickLong_counted {c : Cfg} (hc : c.dual = false) (now : Nat) (acc : Bool) (s : S) (b : B) (hb : b ≠ .none) (m : M)
    (cnt : Nat) (h1 : 1 ≤ cnt) (hn : cnt ≤ 4) : ev2 c now acc s b (clickLong + 8 * cnt) m = none := by
  have hn : cnt = 1 ∨ cnt = 2 ∨ cnt = 3 ∨ cnt = 4 := by omega
  rcases hn with rfl | rfl | rfl | rfl <;> cases b <;>
    simp_all [ev2, eid, swap, savedClickShort, pressed, released, clickShort, clickLong, firstClickShort, doubleClick, stabEv, twistEv, clashEv]

theorem ev2_clickShort_counted {c : Cfg} (hc : c.dual = false) (now : Nat) (acc : Bool) (s : S) (b : B) (hb : b ≠ .none) (m : M)
    (cnt : Nat) (h1 : 1 ≤ cnt) (hn : cnt ≤ 4) :
    ev2 c now acc s b (clickShort + 8 * cnt) m =
      if b = .power ∧ cnt = 1 ∧ m.aux = false ∧ m.any = false ∧ m.on = true then some (turnOff s) else none := by
  have hn : cnt = 1 ∨ cnt = 2 ∨ cnt = 3 ∨ cnt = 4 := by omega
  obtain ⟨p, a, y, o⟩ := m
  rcases hn with rfl | rfl | rfl | rfl <;> cases b <;> cases p <;> cases a <;> cases y <;> cases o <;>
    simp_all [ev2, eid, swap, savedClickShort, pressed, released, clickShort, clickLong, firstClickShort, doubleClick, stabEv, twistEv, clashEv]

theorem ev2_pressed_counted {c : Cfg} (hc : c.dual = false) (now : Nat) (acc : Bool) (s : S) (b : B) (hb : b ≠ .none) (m : M)
    (cnt : Nat) (h1 : 1 ≤ cnt) (hn : cnt ≤ 4) :
    ev2 c now acc s b (pressed + 8 * cnt) m =
      if cnt = 2 ∧ m.other b = false ∧ m.any = false then
        (if m.on = true then
          some (s, if b = .aux then [.blast] else if since now s.activated < 500 then [.mute] else [])
         else if b = .power ∧ s.pending = true then some (s, [.mute]) else none)
      else none := by
  have hn : cnt = 1 ∨ cnt = 2 ∨ cnt = 3 ∨ cnt = 4 := by omega
  obtain ⟨p, a, y, o⟩ := m
  rcases hn with rfl | rfl | rfl | rfl <;> cases b <;> cases p <;> cases a <;> cases y <;> cases o <;>
    simp_all [ev2, eid, swap, M.other, savedClickShort, pressed, released, clickShort, clickLong, firstClickShort, doubleClick, stabEv, twistEv, clashEv]

theorem ev2_clash {c : Cfg} (hc : c.dual = false) (now : Nat) (acc : Bool) (s : S) (m : M) :
    ev2 c now acc s .none clashEv m =
      if m.any = true then none
      else if m.on = true then
        (if m.power ≠ m.aux ∧ s.lk = .none then
          some ({ s with lk := if s.pointing then .drag else .normal }, [.beginLockup (if s.pointing then .drag else .normal)])
         else none)
      else if m.power = true ∧ m.aux = false then some (s, [.nextPreset]) else none := by
  obtain ⟨p, a, y, o⟩ := m
  cases p <;> cases a <;> cases y <;> cases o <;>
    simp_all [ev2, eid, swap, M.other, pressed, released, clickShort, clickLong, firstClickShort, doubleClick, stabEv, twistEv, clashEv]

theorem ev2_stab {c : Cfg} (hc : c.dual = false) (now : Nat) (acc : Bool) (s : S) (m : M) :
    ev2 c now acc s .none stabEv m =
      if m.any = false ∧ m.on = true ∧ m.power ≠ m.aux ∧ s.lk = .none then
        some ({ s with lk := .melt }, [.beginLockup .melt])
      else none := by
  obtain ⟨p, a, y, o⟩ := m
  cases p <;> cases a <;> cases y <;> cases o <;>
    simp_all [ev2, eid, swap, M.other, pressed, released, clickShort, clickLong, firstClickShort, doubleClick, stabEv, twistEv, clashEv]

theorem ev2_twist {c : Cfg} (hc : c.dual = false) (now : Nat) (acc : Bool) (s : S) (m : M) :
    ev2 c now acc s .none twistEv m =
      if c.one = true ∧ m.any = false ∧ m.on = true ∧ m.power = true ∧ m.aux = false then
        some ({ s with menu := true }, [.colorMenu])
      else none := by
  obtain ⟨p, a, y, o⟩ := m
  cases p <;> cases a <;> cases y <;> cases o <;>
    simp_all [ev2, eid, swap, M.other, pressed, released, clickShort, clickLong, firstClickShort, doubleClick, stabEv, twistEv, clashEv]

end Verif.Prop.SaberButtons
