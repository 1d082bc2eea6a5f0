import Verif.Prop.SaberButtonsSend
/-
  C96: what the buttons of the standard saber do.
-/
set_option linter.unusedSimpArgs false
set_option linter.unusedVariables false
namespace Verif.Prop.SaberButtons

/-! ## What holds all the time -/

/-- A lockup only while on; on and about to be on exclude each other. -/
def Good (s : S) : Prop := (s.lk ≠ .none → isOn s = true) ∧ ¬ (s.on = true ∧ s.pending = true)

/-- Reading the actions: `some b` if each lockup is ended before the next begins, and no
    end without a beginning; `b`: is there one at the end. -/
def replay (b : Bool) : List Act → Option Bool
  | [] => some b
  | x :: l =>
    match x with
    | .beginLockup _ => if b then none else replay true l
    | .endLockup => if b then replay false l else none
    | _ => replay b l

theorem replay_append (b : Bool) (l m : List Act) : replay b (l ++ m) = (replay b l).bind (fun b => replay b m) := by
  induction l generalizing b with
  | nil => rfl
  | cons x l ih =>
    cases x <;> simp [replay, ih]
    all_goals (cases b <;> simp)

def S.locked (s : S) : Bool := decide (s.lk ≠ .none)

/-- One event may do this. -/
structure Ok (s s' : S) (a : List Act) : Prop where
  good : Good s'
  pw : s'.power = true → s.power = true
  ax : s'.aux = true → s.aux = true
  rep : replay s.locked a = some s'.locked

theorem Ok.refl {s : S} (h : Good s) : Ok s s [] := ⟨h, id, id, rfl⟩

theorem Ok.clear {s s' : S} {a : List Act} (h : Ok s s' a) : Ok s s'.clear a :=
  ⟨h.good, by simp [S.clear], by simp [S.clear], h.rep⟩

theorem Ok.trans {s t u : S} {a b : List Act} (h : Ok s t a) (k : Ok t u b) : Ok s u (a ++ b) :=
  ⟨k.good, fun x => h.pw (k.pw x), fun x => h.ax (k.ax x), by rw [replay_append, h.rep]; exact k.rep⟩

/-- With a menu open only modifiers are used up. -/
theorem event_menu {c : Cfg} {now : Nat} {acc : Bool} {s : S} (hm : s.menu = true) (b : B) (e : Nat) :
    ∃ p a h, event c now acc s b e = ({ s with power := s.power && p, aux := s.aux && a }, [], h) := by
  simp only [event, modeEv2, hm, if_true]
  by_cases h : c.menu b e { power := s.power, aux := s.aux, on := isOn s } = true
  · exact ⟨false, false, true, by simp [h, hm]⟩
  · by_cases h2 : c.menu b e { any := true, on := isOn s } = true
    · exact ⟨decide (b ≠ .power), decide (b ≠ .aux), true, by simp [h, h2, hm]⟩
    · refine ⟨true, true, false, ?_⟩
      cases s; simp_all

theorem send_menu {c : Cfg} {now : Nat} {acc : Bool} {s : S} (hm : s.menu = true) (b : B) (cnt e : Nat) :
    ∃ p a h, send c now acc s b cnt e = ({ s with power := s.power && p, aux := s.aux && a }, [], h) := by
  obtain ⟨p, a, h, e1⟩ := event_menu (c := c) (now := now) (acc := acc) hm b (e + 8 * cnt)
  unfold send
  rw [e1]
  cases h with
  | true => exact ⟨p, a, true, by simp⟩
  | false =>
    obtain ⟨p', a', h', e2⟩ := event_menu (c := c) (now := now) (acc := acc)
      (s := { s with power := s.power && p, aux := s.aux && a }) hm b e
    refine ⟨p && p', a && a', h', ?_⟩
    simp only [e2, Bool.and_assoc]
    simp

theorem ok_menu {s : S} (hg : Good s) {p a : Bool} : Ok s { s with power := s.power && p, aux := s.aux && a } [] :=
  ⟨hg, by simp +contextual, by simp +contextual, rfl⟩

theorem turnOff_ok {s : S} (hg : Good s) (h : s.lk = .none ∨ s.on = true) : Ok s (turnOff s).1 (turnOff s).2 := by
  obtain ⟨h1, h2⟩ := hg
  unfold turnOff
  cases hp : s.pending <;> cases ho : s.on <;> by_cases hl : s.lk = .none <;>
    simp_all [isOn] <;> constructor <;> simp_all [Good, isOn, replay, S.locked]

theorem turnOn_ok {c : Cfg} {s : S} {now : Nat} (hg : Good s) : Ok s (turnOn c s now).1 (turnOn c s now).2 := by
  obtain ⟨h1, h2⟩ := hg
  unfold turnOn
  cases hp : s.pending <;> cases ho : s.on <;> cases hn : c.noOnOff <;> by_cases hl : s.lk = .none <;>
    simp_all [isOn] <;> constructor <;> simp_all [Good, isOn, replay, S.locked]

section
variable {c : Cfg} (hc : c.dual = false) {now : Nat} {acc : Bool} {s : S} (hg : Good s) {b : B} (hb : b ≠ .none)
  {cnt : Nat} (h1 : 1 ≤ cnt) (h4 : cnt ≤ 4)
include hc hg

theorem pressed_ok (hb : b ≠ .none) (h1 : 1 ≤ cnt) (h4 : cnt ≤ 4) :
    Ok s (send c now acc s b cnt pressed).1 (send c now acc s b cnt pressed).2.1 := by
  cases hm : s.menu with
  | true => obtain ⟨p, a, h, e⟩ := send_menu (c := c) (now := now) (acc := acc) hm b cnt pressed; rw [e]; exact ok_menu hg
  | false =>
    rw [send_pressed hc hm hb h1 h4]
    have o := Ok.refl hg
    repeat' split
    all_goals first | exact o | (refine ⟨hg, ?_, ?_, ?_⟩ <;> simp_all [S.clear, replay, S.locked])

theorem released_ok (hb : b ≠ .none) (h1 : 1 ≤ cnt) (h4 : cnt ≤ 4) :
    Ok s (send c now acc s b cnt released).1 (send c now acc s b cnt released).2.1 ∧
    ((send c now acc s b cnt released).1.mod b = true → (send c now acc s b cnt released).1.menu = false →
      (send c now acc s b cnt released).1.lk = .none ∧ (send c now acc s b cnt released).2.1 = [] ∧ (send c now acc s b cnt released).1 = s) := by
  cases hm : s.menu with
  | true =>
    obtain ⟨p, a, h, e⟩ := send_menu (c := c) (now := now) (acc := acc) hm b cnt released; rw [e]
    exact ⟨ok_menu hg, by simp [hm]⟩
  | false =>
    rw [send_released hc hm hb h1 h4]
    by_cases hl : s.lk = .none
    · simp [hl, Ok.refl hg]
    · have hi := hg.1 hl
      simp only [hi, hl, ne_eq, not_false_eq_true, and_self, if_true]
      constructor
      · cases b with
        | none => exact absurd rfl hb
        | power => constructor <;> simp_all [Good, isOn, S.setMod, replay, S.locked]
        | aux => constructor <;> simp_all [Good, isOn, S.setMod, replay, S.locked]
      · cases b <;> simp [S.mod, S.setMod]

theorem held_ok (hb : b ≠ .none) (h4 : cnt ≤ 4) {k : Nat} (hk : k < 3) :
    Ok s (send c now acc s b cnt (held k)).1 (send c now acc s b cnt (held k)).2.1 := by
  cases hm : s.menu with
  | true => obtain ⟨p, a, h, e⟩ := send_menu (c := c) (now := now) (acc := acc) hm b cnt (held k); rw [e]; exact ok_menu hg
  | false => rw [send_held hc hm hb h4 hk]; exact Ok.refl hg

theorem saved_ok (hb : b ≠ .none) (h4 : cnt ≤ 4) :
    Ok s (send c now acc s b cnt savedClickShort).1 (send c now acc s b cnt savedClickShort).2.1 := by
  cases hm : s.menu with
  | true => obtain ⟨p, a, h, e⟩ := send_menu (c := c) (now := now) (acc := acc) hm b cnt savedClickShort; rw [e]; exact ok_menu hg
  | false => rw [send_saved hc hm hb h4]; exact Ok.refl hg

theorem clickLong_ok (hb : b ≠ .none) (h1 : 1 ≤ cnt) (h4 : cnt ≤ 4) :
    Ok s (send c now acc s b cnt clickLong).1 (send c now acc s b cnt clickLong).2.1 := by
  cases hm : s.menu with
  | true => obtain ⟨p, a, h, e⟩ := send_menu (c := c) (now := now) (acc := acc) hm b cnt clickLong; rw [e]; exact ok_menu hg
  | false =>
    rw [send_clickLong hc hm hb h1 h4]
    split
    · cases isOn s <;> (refine ⟨hg, ?_, ?_, ?_⟩ <;> simp_all [S.clear, replay, S.locked])
    · exact Ok.refl hg

theorem clickShort_ok (hb : b ≠ .none) (h1 : 1 ≤ cnt) (h4 : cnt ≤ 4) (hl : s.menu = false → s.lk = .none) :
    Ok s (send c now acc s b cnt clickShort).1 (send c now acc s b cnt clickShort).2.1 := by
  cases hm : s.menu with
  | true => obtain ⟨p, a, h, e⟩ := send_menu (c := c) (now := now) (acc := acc) hm b cnt clickShort; rw [e]; exact ok_menu hg
  | false =>
    have hl := hl hm
    cases b with
    | none => exact absurd rfl hb
    | power =>
      rw [send_clickShort_power hc hm h1 h4]
      split
      · split
        · refine ⟨hg, ?_, ?_, ?_⟩ <;> simp_all [S.clear, replay, S.locked]
        · split
          · exact (turnOff_ok hg (Or.inl hl)).clear
          · exact Ok.refl hg
      · split
        · refine ⟨hg, ?_, ?_, ?_⟩ <;> simp_all [S.clear, replay, S.locked]
        · have h := (turnOn_ok (c := c) (s := { s with auxOn := false }) (now := now) hg).clear
          exact ⟨h.good, h.pw, h.ax, h.rep⟩
    | aux =>
      rw [send_clickShort_aux hc hm h1 h4]
      split
      · split
        · refine ⟨?_, ?_, ?_, ?_⟩ <;> simp_all [S.clear, replay, S.locked, Good, isOn]
        · refine ⟨hg, ?_, ?_, ?_⟩ <;> simp_all [S.clear, replay, S.locked]
      · split
        · exact Ok.refl hg
        · refine ⟨hg, ?_, ?_, ?_⟩ <;> simp_all [S.clear, replay, S.locked]

theorem contact_ok (stab : Bool) :
    Ok s (event c now acc s .none (if stab then stabEv else clashEv)).1
      (event c now acc s .none (if stab then stabEv else clashEv)).2.1 := by
  cases hm : s.menu with
  | true =>
    obtain ⟨p, a, h, e⟩ := event_menu (c := c) (now := now) (acc := acc) hm .none (if stab then stabEv else clashEv)
    rw [e]; exact ok_menu hg
  | false =>
    rw [event_free hm]
    cases stab with
    | true =>
      simp only [if_true]
      rw [ev2_stab hc, ev2_stab hc]
      by_cases h : isOn s = true ∧ s.power ≠ s.aux ∧ s.lk = .none
      · simp only [h, ne_eq, not_false_eq_true, and_self, if_true]
        constructor <;> simp_all [S.clear, replay, S.locked, Good, isOn]
      · simp only [true_and, h, if_false, false_and, Bool.true_eq_false]
        exact Ok.refl hg
    | false =>
      simp only [Bool.false_eq_true, if_false]
      rw [ev2_clash hc, ev2_clash hc]
      cases hi : isOn s <;> cases hp : s.power <;> cases ha : s.aux <;> by_cases hl : s.lk = .none <;> cases hd : s.pointing <;>
        simp [hi, hp, ha, hl, hd] <;> constructor <;> simp_all [S.clear, replay, S.locked, Good, isOn]

theorem twist_ok : Ok s (event c now acc s .none twistEv).1 (event c now acc s .none twistEv).2.1 := by
  cases hm : s.menu with
  | true => obtain ⟨p, a, h, e⟩ := event_menu (c := c) (now := now) (acc := acc) hm .none twistEv; rw [e]; exact ok_menu hg
  | false =>
    rw [event_free hm, ev2_twist hc, ev2_twist hc]
    by_cases h : c.one = true ∧ isOn s = true ∧ s.power = true ∧ s.aux = false
    · simp only [h, and_self, if_true]
      exact ⟨hg, by simp [S.clear], by simp [S.clear], rfl⟩
    · simp only [true_and, h, if_false, false_and, Bool.true_eq_false, and_false]
      exact Ok.refl hg
end

/-- Modifiers belong to buttons that are down, and the count of presses is 1 to 4. -/
structure Inv (w : W) : Prop where
  good : Good w.s
  pd : w.s.power = true → w.p.down = true
  ad : w.s.aux = true → w.a.down = true
  pc : w.p.cnt ≤ 4
  ac : w.a.cnt ≤ 4
  p1 : w.p.down = true → 1 ≤ w.p.cnt
  a1 : w.a.down = true → 1 ≤ w.a.cnt

theorem press_inv {c : Cfg} (hc : c.dual = false) {w : W} (h : Inv w) {b : B} (hb : b ≠ .none) (now : Nat) (acc : Bool) :
    Inv (press c w b now acc).1 ∧ replay w.s.locked (press c w b now acc).2 = some (press c w b now acc).1.s.locked := by
  unfold press
  simp only
  generalize hn : (if since now (w.bt b).push < 500 then (if (w.bt b).cnt < 4 then (w.bt b).cnt + 1 else (w.bt b).cnt) else 1) = n
  have hx : (w.bt b).cnt ≤ 4 := by unfold W.bt; split; exact h.ac; exact h.pc
  have h1 : 1 ≤ n := by rw [← hn]; (repeat' split) <;> omega
  have h4 : n ≤ 4 := by rw [← hn]; (repeat' split) <;> omega
  have o := pressed_ok hc (now := now) (acc := acc) h.good hb h1 h4
  generalize send c now acc w.s b n pressed = r at o
  obtain ⟨g1, g2, g3, g4, g5, g6, g7⟩ := h
  obtain ⟨o1, o2, o3, o4⟩ := o
  cases b with
  | none => exact absurd rfl hb
  | power =>
    refine ⟨⟨?_, ?_, ?_, ?_, ?_, ?_, ?_⟩, ?_⟩ <;> simp_all [W.setBt, S.setMod, S.locked]
    · exact o1
  | aux =>
    refine ⟨⟨?_, ?_, ?_, ?_, ?_, ?_, ?_⟩, ?_⟩ <;> simp_all [W.setBt, S.setMod, S.locked]
    · exact o1

theorem good_setMod {s : S} (h : Good s) (b : B) (x : Bool) : Good (s.setMod b x) := by
  cases b <;> exact h

/-- A button goes up: the modifier is gone. -/
theorem inv_up {w : W} (h : Inv w) {b : B} (hb : b ≠ .none) {s : S} (hg : Good s)
    (hp : s.power = true → w.s.power = true) (ha : s.aux = true → w.s.aux = true) (hm : s.mod b = false)
    {x : Bt} (hx : x.cnt = (w.bt b).cnt) (hd : x.down = false) : Inv (W.setBt { w with s := s } b x) := by
  obtain ⟨g1, g2, g3, g4, g5, g6, g7⟩ := h
  cases b with
  | none => exact absurd rfl hb
  | power => refine ⟨?_, ?_, ?_, ?_, ?_, ?_, ?_⟩ <;> simp_all [W.setBt, W.bt, S.mod]
  | aux => refine ⟨?_, ?_, ?_, ?_, ?_, ?_, ?_⟩ <;> simp_all [W.setBt, W.bt, S.mod]

@[simp] theorem setBt_s (w : W) (b : B) (x : Bt) : (W.setBt w b x).s = w.s := by unfold W.setBt; split <;> rfl
@[simp] theorem setMod_locked (s : S) (b : B) (x : Bool) : (s.setMod b x).locked = s.locked := by unfold S.setMod; split <;> rfl
@[simp] theorem setMod_menu (s : S) (b : B) (x : Bool) : (s.setMod b x).menu = s.menu := by unfold S.setMod; split <;> rfl
@[simp] theorem setMod_lk (s : S) (b : B) (x : Bool) : (s.setMod b x).lk = s.lk := by unfold S.setMod; split <;> rfl

theorem Ok.mod {s s' : S} {a : List Act} (h : Ok s s' a) {b : B} (hm : s.mod b = false) : s'.mod b = false := by
  obtain ⟨_, p, q, _⟩ := h
  cases b <;> cases hp : s'.power <;> cases ha : s'.aux <;> simp_all [S.mod]

theorem setMod_mod (s : S) {b : B} (x : Bool) : (s.setMod b x).mod b = x := by
  cases b <;> rfl

theorem setMod_false_power (s : S) (b : B) : (s.setMod b false).power = true → s.power = true := by
  cases b <;> simp [S.setMod]
theorem setMod_false_aux (s : S) (b : B) : (s.setMod b false).aux = true → s.aux = true := by
  cases b <;> simp [S.setMod]

theorem release_inv {c : Cfg} (hc : c.dual = false) {w : W} (h : Inv w) {b : B} (hb : b ≠ .none) (hd : (w.bt b).down = true)
    (now : Nat) (acc : Bool) :
    Inv (release c w b now acc).1 ∧ replay w.s.locked (release c w b now acc).2 = some (release c w b now acc).1.s.locked := by
  have h1 : 1 ≤ (w.bt b).cnt := by
    revert hd; unfold W.bt; split <;> intro hd; exact h.a1 hd; exact h.p1 hd
  have h4 : (w.bt b).cnt ≤ 4 := by unfold W.bt; split; exact h.ac; exact h.pc
  obtain ⟨o, hr⟩ := released_ok hc (now := now) (acc := acc) h.good hb h1 h4
  unfold release
  simp only
  generalize send c now acc w.s b (w.bt b).cnt released = r at o hr
  generalize since now (w.bt b).push = d
  have gm : Good (r.1.setMod b false) := good_setMod o.good b false
  have pm := fun x => o.pw (setMod_false_power r.1 b x)
  have am := fun x => o.ax (setMod_false_aux r.1 b x)
  have hl : (r.1.setMod b false).locked = r.1.locked := setMod_locked _ _ _
  by_cases hm : r.1.mod b = true
  · simp only [hm, if_true]
    by_cases d1 : d < 500
    · simp only [d1, if_true]
      have k := clickShort_ok hc (now := now) (acc := acc) gm hb h1 h4 (by
        intro hx; rw [setMod_menu] at hx; rw [setMod_lk]; exact (hr hm hx).1)
      generalize send c now acc (r.1.setMod b false) b (w.bt b).cnt clickShort = q at k
      refine ⟨inv_up h hb k.good (fun x => pm (k.pw x)) (fun x => am (k.ax x)) (k.mod (setMod_mod _ _)) rfl rfl, ?_⟩
      rw [replay_append, o.rep, ← hl]
      simpa using k.rep
    · simp only [d1, if_false]
      by_cases d2 : d < 2500
      · simp only [d2, if_true]
        have k := clickLong_ok hc (now := now) (acc := acc) gm hb h1 h4
        generalize send c now acc (r.1.setMod b false) b (w.bt b).cnt clickLong = q at k
        refine ⟨inv_up h hb k.good (fun x => pm (k.pw x)) (fun x => am (k.ax x)) (k.mod (setMod_mod _ _)) rfl rfl, ?_⟩
        rw [replay_append, o.rep, ← hl]
        simpa using k.rep
      · simp only [d2, if_false]
        refine ⟨inv_up h hb gm pm am (setMod_mod _ _) rfl rfl, ?_⟩
        rw [o.rep]; simp
  · simp only [hm, Bool.false_eq_true, if_false]
    refine ⟨inv_up h hb o.good o.pw o.ax (by simpa using hm) rfl rfl, ?_⟩
    rw [o.rep]; simp

theorem inv_s {w : W} (h : Inv w) {s : S} {a : List Act} (o : Ok w.s s a) : Inv { w with s := s } :=
  ⟨o.good, fun x => h.pd (o.pw x), fun x => h.ad (o.ax x), h.pc, h.ac, h.p1, h.a1⟩

theorem step_inv {c : Cfg} (hc : c.dual = false) {w : W} (h : Inv w) (op : Op) :
    Inv (step c w op).1 ∧ replay w.s.locked (step c w op).2 = some (step c w op).1.s.locked := by
  have hcnt : ∀ b, (w.bt b).cnt ≤ 4 := by intro b; unfold W.bt; split; exact h.ac; exact h.pc
  cases op with
  | press b now acc =>
    simp only [step]; split
    · exact ⟨h, rfl⟩
    · rename_i hn; exact press_inv hc h (fun x => hn (Or.inl x)) now acc
  | hold b k now acc =>
    simp only [step]; split
    · exact ⟨h, rfl⟩
    · rename_i hn
      unfold hold; split
      · have o := held_ok hc (now := now) (acc := acc) h.good (fun x => hn (Or.inl x)) (hcnt b) (Nat.mod_lt k (by decide : 3 > 0))
        exact ⟨inv_s h o, o.rep⟩
      · exact ⟨h, rfl⟩
  | release b now acc =>
    simp only [step]; split
    · exact ⟨h, rfl⟩
    · rename_i hn
      exact release_inv hc h (fun x => hn (Or.inl x)) (by cases hx : (w.bt b).down <;> simp_all) now acc
  | saved b now acc =>
    simp only [step]; split
    · exact ⟨h, rfl⟩
    · rename_i hn
      unfold savedClick; simp only; split
      · have o := saved_ok hc (now := now) (acc := acc) h.good (fun x => hn (Or.inl x)) (hcnt b)
        generalize send c now acc w.s b (w.bt b).cnt savedClickShort = r at o
        have i := inv_s h o
        obtain ⟨g1, g2, g3, g4, g5, g6, g7⟩ := i
        refine ⟨?_, by simpa using o.rep⟩
        cases b with
        | none => exact absurd (Or.inl rfl) hn
        | power => exact ⟨g1, g2, g3, g4, g5, g6, g7⟩
        | aux => exact ⟨g1, g2, g3, g4, g5, g6, g7⟩
      · exact ⟨h, rfl⟩
  | contact stab now acc =>
    have o := contact_ok hc (now := now) (acc := acc) h.good stab
    simp only [step, contact]
    generalize event c now acc w.s .none (if stab then stabEv else clashEv) = r at o
    split
    · exact ⟨inv_s h o, o.rep⟩
    · split
      · refine ⟨inv_s h o, ?_⟩
        rw [replay_append, o.rep]
        cases stab <;> rfl
      · exact ⟨inv_s h o, o.rep⟩
  | twist now acc =>
    have o := twist_ok hc (now := now) (acc := acc) h.good
    exact ⟨inv_s h o, o.rep⟩
  | preonDone =>
    simp only [step]
    obtain ⟨g1, g2, g3, g4, g5, g6, g7⟩ := h
    obtain ⟨k1, k2⟩ := g1
    cases hp : w.s.pending with
    | false => simp only [Bool.false_eq_true, if_false]; exact ⟨⟨⟨k1, k2⟩, g2, g3, g4, g5, g6, g7⟩, rfl⟩
    | true =>
      simp only [if_true]
      refine ⟨⟨⟨?_, ?_⟩, g2, g3, g4, g5, g6, g7⟩, rfl⟩ <;> simp [isOn]
  | lowBattery =>
    simp only [step]; split
    · rename_i ho
      have o := turnOff_ok h.good (Or.inr ho)
      exact ⟨inv_s h o, o.rep⟩
    · exact ⟨h, rfl⟩
  | leaveMenu => exact ⟨⟨h.good, h.pd, h.ad, h.pc, h.ac, h.p1, h.a1⟩, rfl⟩

theorem run_inv {c : Cfg} (hc : c.dual = false) {w : W} (h : Inv w) (ops : List Op) :
    Inv (run c w ops).1 ∧ replay w.s.locked (run c w ops).2 = some (run c w ops).1.s.locked := by
  induction ops generalizing w with
  | nil => exact ⟨h, rfl⟩
  | cons op ops ih =>
    obtain ⟨h1, h2⟩ := step_inv hc h op
    obtain ⟨k1, k2⟩ := ih h1
    refine ⟨k1, ?_⟩
    simp only [run]
    rw [replay_append, h2]; exact k2

theorem inv_init : Inv {} := by constructor <;> simp [Good]

/-! ## One press, one release -/

/-- The how manieth press in a row this is (presses less than half a second apart), up to 4. -/
def nth (x : Bt) (t : Nat) : Nat := if since t x.push < 500 then min (x.cnt + 1) 4 else 1

theorem nth_eq {x : Bt} (h : x.cnt ≤ 4) (t : Nat) :
    (if since t x.push < 500 then (if x.cnt < 4 then x.cnt + 1 else x.cnt) else 1) = nth x t := by
  unfold nth
  (repeat' split) <;> omega

theorem nth_pos (x : Bt) (t : Nat) : 1 ≤ nth x t := by unfold nth; split <;> omega
theorem nth_le (x : Bt) (t : Nat) : nth x t ≤ 4 := by unfold nth; split <;> omega

theorem bt_cnt {w : W} (h : Inv w) (b : B) : (w.bt b).cnt ≤ 4 := by unfold W.bt; split; exact h.ac; exact h.pc

/-- What a press does when the other button isn't held. -/
def pressActs (w : W) (b : B) (t : Nat) : List Act :=
  if isOn w.s then
    if nth (w.bt b) t = 2 then
      if b = .aux then [.blast] else if since t w.s.activated < 500 then [.mute] else []
    else []
  else if b = .power then [.motion] else []

def pressPoint (w : W) (b : B) (t : Nat) (acc : Bool) : Bool :=
  if isOn w.s ∧ nth (w.bt b) t ≠ 2 then acc else w.s.pointing

theorem press_alone {c : Cfg} (hc : c.dual = false) {w : W} (h : Inv w) (hm : w.s.menu = false) {b : B} (hb : b ≠ .none)
    (hp : w.s.power = false) (ha : w.s.aux = false) (t : Nat) (acc : Bool) :
    press c w b t acc =
      (W.setBt { w with s := S.setMod { w.s with pointing := pressPoint w b t acc } b true } b ⟨true, t, nth (w.bt b) t, false⟩,
       pressActs w b t) := by
  have hn := nth_eq (bt_cnt h b) t
  unfold press
  simp only [hn]
  rw [send_pressed hc hm hb (nth_pos _ _) (nth_le _ _)]
  unfold pressActs pressPoint
  generalize since t w.s.activated = d
  generalize nth (w.bt b) t = n
  obtain ⟨⟨s1, s2, s3, s4, s5, s6, s7, s8, s9⟩, x, y⟩ := w
  simp only at hm hp ha
  subst hm; subst hp; subst ha
  cases b with
  | none => exact absurd rfl hb
  | power => cases hs : isOn ⟨s1, s2, s3, s4, s5, s6, false, false, false⟩ <;> by_cases h2 : n = 2 <;> simp [S.other, S.clear, hs, h2]
  | aux => cases hs : isOn ⟨s1, s2, s3, s4, s5, s6, false, false, false⟩ <;> by_cases h2 : n = 2 <;> simp [S.other, S.clear, hs, h2]

/-- A press while the other button is held does nothing at once. -/
theorem press_chord {c : Cfg} (hc : c.dual = false) {w : W} (h : Inv w) (hm : w.s.menu = false) {b : B} (hb : b ≠ .none)
    (ho : w.s.other b = true) (t : Nat) (acc : Bool) :
    press c w b t acc = (W.setBt { w with s := S.setMod w.s b true } b ⟨true, t, nth (w.bt b) t, false⟩, []) := by
  have hn := nth_eq (bt_cnt h b) t
  unfold press
  simp only [hn]
  rw [send_pressed hc hm hb (nth_pos _ _) (nth_le _ _)]
  simp [ho]

/-- A release during a lockup ends it, and nothing else happens. -/
theorem release_locked {c : Cfg} (hc : c.dual = false) {w : W} (h : Inv w) (hm : w.s.menu = false) {b : B} (hb : b ≠ .none)
    (hd : (w.bt b).down = true) (hl : w.s.lk ≠ .none) (t : Nat) (acc : Bool) :
    release c w b t acc =
      (W.setBt { w with s := S.setMod { w.s with lk := .none } b false } b
        { (w.bt b) with down := false, push := t + 4294967296 - 10000, saved := false }, [.endLockup]) := by
  have h1 : 1 ≤ (w.bt b).cnt := by
    revert hd; unfold W.bt; split <;> intro hd; exact h.a1 hd; exact h.p1 hd
  unfold release
  simp only [send_released hc hm hb h1 (bt_cnt h b)]
  simp only [h.good.1 hl, hl, ne_eq, not_false_eq_true, and_self, if_true, setMod_mod, Bool.false_eq_true, if_false]

/-- A release without a lockup, after the button was used with the blade or another
    button: nothing. -/
theorem release_used {c : Cfg} (hc : c.dual = false) {w : W} (h : Inv w) (hm : w.s.menu = false) {b : B} (hb : b ≠ .none)
    (hd : (w.bt b).down = true) (hl : w.s.lk = .none) (hu : w.s.mod b = false) (t : Nat) (acc : Bool) :
    release c w b t acc =
      (W.setBt w b { (w.bt b) with down := false, push := t + 4294967296 - 10000, saved := false }, []) := by
  have h1 : 1 ≤ (w.bt b).cnt := by
    revert hd; unfold W.bt; split <;> intro hd; exact h.a1 hd; exact h.p1 hd
  unfold release
  simp only [send_released hc hm hb h1 (bt_cnt h b)]
  simp [hl, hu]

/-- A release without a lockup: the click, long click or nothing. -/
theorem release_click {c : Cfg} (hc : c.dual = false) {w : W} (h : Inv w) (hm : w.s.menu = false) {b : B} (hb : b ≠ .none)
    (hd : (w.bt b).down = true) (hl : w.s.lk = .none) (hu : w.s.mod b = true) (t : Nat) (acc : Bool) :
    release c w b t acc =
      if since t (w.bt b).push < 500 then
        (W.setBt { w with s := (send c t acc (w.s.setMod b false) b (w.bt b).cnt clickShort).1 } b
          { (w.bt b) with down := false, saved := !(send c t acc (w.s.setMod b false) b (w.bt b).cnt clickShort).2.2 },
         (send c t acc (w.s.setMod b false) b (w.bt b).cnt clickShort).2.1)
      else if since t (w.bt b).push < 2500 then
        (W.setBt { w with s := (send c t acc (w.s.setMod b false) b (w.bt b).cnt clickLong).1 } b
          { (w.bt b) with down := false, saved := false },
         (send c t acc (w.s.setMod b false) b (w.bt b).cnt clickLong).2.1)
      else (W.setBt { w with s := w.s.setMod b false } b { (w.bt b) with down := false, saved := false }, []) := by
  have h1 : 1 ≤ (w.bt b).cnt := by
    revert hd; unfold W.bt; split <;> intro hd; exact h.a1 hd; exact h.p1 hd
  unfold release
  simp only [send_released hc hm hb h1 (bt_cnt h b)]
  simp [hl, hu]

end Verif.Prop.SaberButtons
