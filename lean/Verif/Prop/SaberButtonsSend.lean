import Verif.Prop.SaberButtonsLemmas
/-
  `Send` in closed form, for the standard two button saber.
-/
set_option linter.unusedSimpArgs false
set_option linter.unusedVariables false
namespace Verif.Prop.SaberButtons

/-! ## `Send`, in closed form -/

/-- No modifier left. -/
def S.clear (s : S) : S := { s with power := false, aux := false }

theorem event_free {c : Cfg} {now : Nat} {acc : Bool} {s : S} (hm : s.menu = false) (b : B) (e : Nat) :
    event c now acc s b e =
      match ev2 c now acc s b e { power := s.power, aux := s.aux, on := isOn s } with
      | some (s', a) => (s'.clear, a, true)
      | none =>
        match ev2 c now acc s b e { any := true, on := isOn s } with
        | some (s', a) =>
          ({ s' with power := s'.power && decide (b ≠ .power), aux := s'.aux && decide (b ≠ .aux) }, a, true)
        | none => (s, [], false) := by
  simp only [event, modeEv2, hm, S.clear]
  rcases h : ev2 c now acc s b e { power := s.power, aux := s.aux, on := isOn s } with _ | ⟨s', a⟩
  · rcases h2 : ev2 c now acc s b e { any := true, on := isOn s } with _ | ⟨s', a⟩ <;> simp [h, h2]
  · simp [h]

/-- The counted event is not taken: the plain one decides. -/
theorem send_plain {c : Cfg} {now : Nat} {acc : Bool} {s : S} {b : B} {cnt e : Nat}
    (h : event c now acc s b (e + 8 * cnt) = (s, [], false)) : send c now acc s b cnt e = event c now acc s b e := by
  unfold send; rw [h]; simp

theorem send_counted {c : Cfg} {now : Nat} {acc : Bool} {s : S} {b : B} {cnt e : Nat} {s' : S} {a : List Act}
    (h : event c now acc s b (e + 8 * cnt) = (s', a, true)) : send c now acc s b cnt e = (s', a, true) := by
  unfold send; rw [h]; simp

theorem isOn_pending {s : S} (h : isOn s = false) : s.pending = false := by
  unfold isOn at h; cases hp : s.pending <;> simp_all

theorem send_released {c : Cfg} (hc : c.dual = false) {now : Nat} {acc : Bool} {s : S} (hm : s.menu = false) {b : B} (hb : b ≠ .none)
    {cnt : Nat} (h1 : 1 ≤ cnt) (h4 : cnt ≤ 4) :
    send c now acc s b cnt released =
      if isOn s = true ∧ s.lk ≠ .none then (S.setMod { s with lk := .none } b false, [.endLockup], true)
      else (s, [], false) := by
  rw [send_plain (by
    rw [event_free hm, ev2_released_counted hc now acc s b hb _ cnt h1 h4, ev2_released_counted hc now acc s b hb _ cnt h1 h4])]
  rw [event_free hm, ev2_released hc now acc s b hb, ev2_released hc now acc s b hb]
  cases b with
  | none => exact absurd rfl hb
  | power => cases hs : isOn s <;> by_cases h : s.lk = .none <;> simp [hs, h, M.other, S.setMod]
  | aux => cases hs : isOn s <;> by_cases h : s.lk = .none <;> simp [hs, h, M.other, S.setMod]

theorem send_pressed {c : Cfg} (hc : c.dual = false) {now : Nat} {acc : Bool} {s : S} (hm : s.menu = false) {b : B} (hb : b ≠ .none)
    {cnt : Nat} (h1 : 1 ≤ cnt) (h4 : cnt ≤ 4) :
    send c now acc s b cnt pressed =
      if s.other b = true then (s, [], false)
      else if isOn s = true then
        (if cnt = 2 then
          (s.clear, if b = .aux then [.blast] else if since now s.activated < 500 then [.mute] else [], true)
         else (S.clear { s with pointing := acc }, [], true))
      else if b = .power then (s.clear, [.motion], true)
      else (s, [], false) := by
  have e1 := event_free (c := c) (now := now) (acc := acc) hm b (pressed + 8 * cnt)
  rw [ev2_pressed_counted hc now acc s b hb _ cnt h1 h4, ev2_pressed_counted hc now acc s b hb _ cnt h1 h4] at e1
  have e2 := event_free (c := c) (now := now) (acc := acc) hm b pressed
  rw [ev2_pressed hc now acc s b hb, ev2_pressed hc now acc s b hb] at e2
  have hp := @isOn_pending s
  cases b with
  | none => exact absurd rfl hb
  | power =>
    by_cases h2 : cnt = 2 <;> cases hs : isOn s <;> cases ha : s.aux <;> simp [h2, hs, ha, hp, M.other] at e1 e2 <;>
      first
        | (rw [h2, send_counted e1]; simp [S.other, ha]; done)
        | (rw [h2, send_plain e1, e2]; simp [S.other, ha]; done)
        | (rw [send_plain e1, e2]; simp [S.other, ha, h2]; done)
  | aux =>
    by_cases h2 : cnt = 2 <;> cases hs : isOn s <;> cases ha : s.power <;> simp [h2, hs, ha, hp, M.other] at e1 e2 <;>
      first
        | (rw [h2, send_counted e1]; simp [S.other, ha]; done)
        | (rw [h2, send_plain e1, e2]; simp [S.other, ha]; done)
        | (rw [send_plain e1, e2]; simp [S.other, ha, h2]; done)

theorem send_clickShort_power {c : Cfg} (hc : c.dual = false) {now : Nat} {acc : Bool} {s : S} (hm : s.menu = false)
    {cnt : Nat} (h1 : 1 ≤ cnt) (h4 : cnt ≤ 4) :
    send c now acc s .power cnt clickShort =
      if isOn s = true then
        (if s.aux = true then (S.clear { s with menu := true }, [.colorMenu], true)
         else if cnt = 1 then ((turnOff s).1.clear, (turnOff s).2, true)
         else (s, [], false))
      else if s.aux = true then (s.clear, [.previousPreset], true)
      else ((turnOn c { s with auxOn := false } now).1.clear, (turnOn c { s with auxOn := false } now).2, true) := by
  have e1 := event_free (c := c) (now := now) (acc := acc) hm .power (clickShort + 8 * cnt)
  rw [ev2_clickShort_counted hc now acc s _ (by decide) _ cnt h1 h4, ev2_clickShort_counted hc now acc s _ (by decide) _ cnt h1 h4] at e1
  have e2 := event_free (c := c) (now := now) (acc := acc) hm .power clickShort
  rw [ev2_clickShort_power hc, ev2_clickShort_power hc] at e2
  by_cases h2 : cnt = 1 <;> cases hs : isOn s <;> cases ha : s.aux <;> simp [h2, hs, ha] at e1 e2 <;>
    first
      | (rw [h2, send_counted e1]; simp; done)
      | (rw [h2, send_plain e1, e2]; simp; done)
      | (rw [send_plain e1, e2]; simp [h2]; done)

theorem send_clickShort_aux {c : Cfg} (hc : c.dual = false) {now : Nat} {acc : Bool} {s : S} (hm : s.menu = false)
    {cnt : Nat} (h1 : 1 ≤ cnt) (h4 : cnt ≤ 4) :
    send c now acc s .aux cnt clickShort =
      if isOn s = true then
        (if s.power = true then (S.clear { s with lk := .lightning }, [.beginLockup .lightning], true)
         else (s.clear, [.blast], true))
      else if s.power = true then (s, [], false)
      else (s.clear, [.nextPreset], true) := by
  have e1 := event_free (c := c) (now := now) (acc := acc) hm .aux (clickShort + 8 * cnt)
  rw [ev2_clickShort_counted hc now acc s _ (by decide) _ cnt h1 h4, ev2_clickShort_counted hc now acc s _ (by decide) _ cnt h1 h4] at e1
  have e2 := event_free (c := c) (now := now) (acc := acc) hm .aux clickShort
  rw [ev2_clickShort_aux hc, ev2_clickShort_aux hc] at e2
  cases hs : isOn s <;> cases ha : s.power <;> simp [hs, ha] at e1 e2 <;>
    (rw [send_plain e1, e2]; simp)

theorem send_clickLong {c : Cfg} (hc : c.dual = false) {now : Nat} {acc : Bool} {s : S} (hm : s.menu = false) {b : B} (hb : b ≠ .none)
    {cnt : Nat} (h1 : 1 ≤ cnt) (h4 : cnt ≤ 4) :
    send c now acc s b cnt clickLong =
      if b = .power ∧ s.aux = false then (s.clear, [if isOn s then .force else .track], true) else (s, [], false) := by
  rw [send_plain (by
    rw [event_free hm, ev2_clickLong_counted hc now acc s b hb _ cnt h1 h4, ev2_clickLong_counted hc now acc s b hb _ cnt h1 h4])]
  rw [event_free hm, ev2_clickLong hc now acc s b hb, ev2_clickLong hc now acc s b hb]
  cases b with
  | none => exact absurd rfl hb
  | power => cases ha : s.aux <;> simp [ha]
  | aux => simp

theorem send_held {c : Cfg} (hc : c.dual = false) {now : Nat} {acc : Bool} {s : S} (hm : s.menu = false) {b : B} (hb : b ≠ .none)
    {cnt : Nat} (h4 : cnt ≤ 4) {k : Nat} (hk : k < 3) :
    send c now acc s b cnt (held k) = (s, [], false) := by
  have h0 := fun m => ev2_held hc now acc s b hb m k 0 hk (by omega)
  simp only [Nat.mul_zero, Nat.add_zero] at h0
  rw [send_plain (by
    rw [event_free hm, ev2_held hc now acc s b hb _ k cnt hk h4, ev2_held hc now acc s b hb _ k cnt hk h4])]
  rw [event_free hm, h0, h0]

theorem send_saved {c : Cfg} (hc : c.dual = false) {now : Nat} {acc : Bool} {s : S} (hm : s.menu = false) {b : B} (hb : b ≠ .none)
    {cnt : Nat} (h4 : cnt ≤ 4) :
    send c now acc s b cnt savedClickShort = (s, [], false) := by
  have h0 := fun m => ev2_saved hc now acc s b hb m 0 (by omega)
  simp only [Nat.mul_zero, Nat.add_zero] at h0
  rw [send_plain (by
    rw [event_free hm, ev2_saved hc now acc s b hb _ cnt h4, ev2_saved hc now acc s b hb _ cnt h4])]
  rw [event_free hm, h0, h0]

end Verif.Prop.SaberButtons
