import Verif.Prop.SaberButtonsGestures
/-
  C96, continued: what holds in every history of the standard saber's buttons.
-/
set_option linter.unusedSimpArgs false
set_option linter.unusedVariables false
namespace Verif.Prop.SaberButtons

/-! ## C96: lockups -/

/-- In every history: a lockup only while the blade is on (or about to be); lockups begin
    and end in turn. -/
theorem C96_lockup_history {c : Cfg} (hc : c.dual = false) (ops : List Op) :
    ((run c {} ops).1.s.lk ≠ .none → isOn (run c {} ops).1.s = true) ∧
    replay false (run c {} ops).2 = some (decide ((run c {} ops).1.s.lk ≠ .none)) := by
  have h := run_inv hc inv_init ops
  exact ⟨h.1.good.1, h.2⟩

/-- In every history: whichever button goes up, with no menu open, ends the lockup there is;
    without one, the only lockup there can be afterwards is the lightning of a short click of
    AUX with POWER held. -/
theorem C96_release {c : Cfg} (hc : c.dual = false) (ops : List Op) {b : B} (hb : b ≠ .none) (t : Nat) (acc : Bool)
    (hm : (run c {} ops).1.s.menu = false) (hd : ((run c {} ops).1.bt b).down = true) :
    ((run c {} ops).1.s.lk ≠ .none →
      (step c (run c {} ops).1 (.release b t acc)).1.s.lk = .none ∧ (step c (run c {} ops).1 (.release b t acc)).2 = [.endLockup]) ∧
    ((run c {} ops).1.s.lk = .none → (step c (run c {} ops).1 (.release b t acc)).1.s.lk ≠ .none →
      (step c (run c {} ops).1 (.release b t acc)).1.s.lk = .lightning ∧ b = .aux ∧ (run c {} ops).1.s.power = true ∧
      since t (run c {} ops).1.a.push < 500) := by
  have hi := (run_inv hc inv_init ops).1
  generalize (run c {} ops).1 = w at *
  have h1 : 1 ≤ (w.bt b).cnt := by
    revert hd; unfold W.bt; split <;> intro hd; exact hi.a1 hd; exact hi.p1 hd
  rw [step_release hb hd]
  constructor
  · intro hl
    rw [release_locked hc hi hm hb hd hl]
    refine ⟨?_, rfl⟩
    rw [setBt_s]; exact setMod_lk _ _ _
  · intro hl
    cases hu : w.s.mod b with
    | false =>
      rw [release_used hc hi hm hb hd hl hu, setBt_s]
      intro x; exact absurd hl x
    | true =>
      rw [release_click hc hi hm hb hd hl hu]
      have hm' : (w.s.setMod b false).menu = false := (setMod_menu _ _ _).trans hm
      have hl' : (w.s.setMod b false).lk = .none := (setMod_lk _ _ _).trans hl
      by_cases d1 : since t (w.bt b).push < 500
      · rw [if_pos d1, setBt_s]
        cases b with
        | none => exact absurd rfl hb
        | power =>
          simp only
          rw [send_clickShort_power hc hm' h1 (bt_cnt hi _)]
          intro x
          exfalso
          apply x
          generalize w.s.setMod .power false = s at hl'
          (repeat' split) <;> simp_all [S.clear, turnOff, turnOn]
          all_goals ((repeat' split) <;> simp_all)
        | aux =>
          have hp : (w.s.setMod .aux false).power = w.s.power := rfl
          have da : since t w.a.push < 500 := d1
          simp only
          rw [send_clickShort_aux hc hm' h1 (bt_cnt hi _)]
          rw [← hp]
          generalize w.s.setMod .aux false = s at hl'
          cases hs : s.power with
          | false =>
            intro x; exfalso; apply x
            cases isOn s <;> simp [S.clear, hl']
          | true =>
            cases isOn s with
            | false => intro x; exfalso; apply x; simp [hl']
            | true => intro x; refine ⟨by simp [S.clear], ?_, ?_, da⟩ <;> simp
      · rw [if_neg d1]
        by_cases d2 : since t (w.bt b).push < 2500
        · rw [if_pos d2, setBt_s]
          simp only
          rw [send_clickLong hc hm' hb h1 (bt_cnt hi _)]
          intro x; exfalso; apply x
          split <;> simp [S.clear, hl]
        · rw [if_neg d2, setBt_s]
          intro x; exact absurd hl' x

/-! ## C96: what turns the blade on and off -/

def isPw : Act → Bool
  | .ignite | .retract | .cancelPreon => true
  | _ => false

section
variable {c : Cfg} (hc : c.dual = false) {now : Nat} {acc : Bool} {s : S} {b : B} {cnt : Nat}

theorem menu_pw (hm : s.menu = true) (e : Nat) : ∀ x ∈ (send c now acc s b cnt e).2.1, isPw x = false := by
  obtain ⟨p, a, h, e⟩ := send_menu (c := c) (now := now) (acc := acc) hm b cnt e
  rw [e]; simp
include hc

theorem pressed_pw (hb : b ≠ .none) (h1 : 1 ≤ cnt) (h4 : cnt ≤ 4) : ∀ x ∈ (send c now acc s b cnt pressed).2.1, isPw x = false := by
  cases hm : s.menu with
  | true => exact menu_pw hm _
  | false =>
    rw [send_pressed hc hm hb h1 h4]
    generalize since now s.activated = d
    (repeat' split) <;> simp [isPw]

theorem released_pw (hb : b ≠ .none) (h1 : 1 ≤ cnt) (h4 : cnt ≤ 4) : ∀ x ∈ (send c now acc s b cnt released).2.1, isPw x = false := by
  cases hm : s.menu with
  | true => exact menu_pw hm _
  | false => rw [send_released hc hm hb h1 h4]; (repeat' split) <;> simp [isPw]

theorem held_pw (hb : b ≠ .none) (h4 : cnt ≤ 4) {k : Nat} (hk : k < 3) : ∀ x ∈ (send c now acc s b cnt (held k)).2.1, isPw x = false := by
  cases hm : s.menu with
  | true => exact menu_pw hm _
  | false => rw [send_held hc hm hb h4 hk]; simp

theorem saved_pw (hb : b ≠ .none) (h4 : cnt ≤ 4) : ∀ x ∈ (send c now acc s b cnt savedClickShort).2.1, isPw x = false := by
  cases hm : s.menu with
  | true => exact menu_pw hm _
  | false => rw [send_saved hc hm hb h4]; simp

theorem clickLong_pw (hb : b ≠ .none) (h1 : 1 ≤ cnt) (h4 : cnt ≤ 4) : ∀ x ∈ (send c now acc s b cnt clickLong).2.1, isPw x = false := by
  cases hm : s.menu with
  | true => exact menu_pw hm _
  | false => rw [send_clickLong hc hm hb h1 h4]; (repeat' split) <;> simp [isPw]

theorem clickShort_pw (hb : b ≠ .none) (h1 : 1 ≤ cnt) (h4 : cnt ≤ 4) {x : Act} (hx : x ∈ (send c now acc s b cnt clickShort).2.1) (hp : isPw x = true) :
    s.menu = false ∧ b = .power ∧ s.aux = false ∧
      ((x = .ignite ∧ isOn s = false ∧ c.noOnOff = false) ∨ (x ≠ .ignite ∧ isOn s = true ∧ cnt = 1)) := by
  cases hm : s.menu with
  | true => have := menu_pw hm _ x hx; rw [hp] at this; exact absurd this (by decide)
  | false =>
    cases b with
    | none => exact absurd rfl hb
    | power =>
      rw [send_clickShort_power hc hm h1 h4] at hx
      cases hi : isOn s <;> cases ha : s.aux <;> by_cases h2 : cnt = 1 <;> simp [hi, ha, h2] at hx
      all_goals first
        | (subst hx; simp [isPw] at hp; done)
        | skip
      all_goals refine ⟨rfl, rfl, rfl, ?_⟩
      · left; revert hx; unfold turnOn; cases hn : c.noOnOff <;> cases ho : s.on <;> simp_all [isOn]
      · left; revert hx; unfold turnOn; cases hn : c.noOnOff <;> cases ho : s.on <;> simp_all [isOn]
      · right
        refine ⟨?_, rfl, h2⟩
        revert hx; unfold turnOff
        (repeat' split) <;> simp
        · rintro rfl; simp
        · rintro rfl; simp
        · rintro (rfl | rfl) <;> simp
    | aux =>
      rw [send_clickShort_aux hc hm h1 h4] at hx
      exfalso
      cases hi : isOn s <;> cases ha : s.power <;> simp [hi, ha] at hx <;> (subst hx; simp [isPw] at hp)
end

theorem contact_event_pw {c : Cfg} (hc : c.dual = false) {now : Nat} {acc : Bool} {s : S} (stab : Bool) :
    ∀ x ∈ (event c now acc s .none (if stab then stabEv else clashEv)).2.1, isPw x = false := by
  cases hm : s.menu with
  | true =>
    obtain ⟨p, a, h, e⟩ := event_menu (c := c) (now := now) (acc := acc) hm .none (if stab then stabEv else clashEv)
    rw [e]; simp
  | false =>
    rw [event_free hm]
    cases stab with
    | true =>
      simp only [if_true]
      rw [ev2_stab hc, ev2_stab hc]
      cases hi : isOn s <;> cases hp : s.power <;> cases ha : s.aux <;> by_cases hl : s.lk = .none <;>
        simp [hi, hp, ha, hl, isPw]
    | false =>
      simp only [Bool.false_eq_true, if_false]
      rw [ev2_clash hc, ev2_clash hc]
      cases hi : isOn s <;> cases hp : s.power <;> cases ha : s.aux <;> by_cases hl : s.lk = .none <;>
        simp [hi, hp, ha, hl, isPw]

theorem twist_pw {c : Cfg} (hc : c.dual = false) {now : Nat} {acc : Bool} {s : S} :
    ∀ x ∈ (event c now acc s .none twistEv).2.1, isPw x = false := by
  cases hm : s.menu with
  | true => obtain ⟨p, a, h, e⟩ := event_menu (c := c) (now := now) (acc := acc) hm .none twistEv; rw [e]; simp
  | false =>
    rw [event_free hm, ev2_twist hc, ev2_twist hc]
    cases h1 : c.one <;> cases hi : isOn s <;> cases hp : s.power <;> cases ha : s.aux <;> simp [h1, hi, hp, ha, isPw]

/-- In every history: the blade is turned on only by the end of a short press of POWER while
    it is off, AUX isn't held, no menu is open and the press wasn't used for something else;
    it is turned off only by the end of a short first press of POWER while it is on, under
    the same conditions, or by an empty battery. -/
theorem C96_power {c : Cfg} (hc : c.dual = false) (ops : List Op) (op : Op) {x : Act}
    (hx : x ∈ (step c (run c {} ops).1 op).2) (hp : isPw x = true) :
    (op = .lowBattery ∧ x = .retract ∧ (run c {} ops).1.s.on = true) ∨
    ∃ t acc, op = .release .power t acc ∧ (run c {} ops).1.p.down = true ∧ since t (run c {} ops).1.p.push < 500 ∧
      (run c {} ops).1.s.menu = false ∧ (run c {} ops).1.s.power = true ∧ (run c {} ops).1.s.aux = false ∧
      (run c {} ops).1.s.lk = .none ∧
      ((x = .ignite ∧ isOn (run c {} ops).1.s = false ∧ c.noOnOff = false) ∨
       (x ≠ .ignite ∧ isOn (run c {} ops).1.s = true ∧ (run c {} ops).1.p.cnt = 1)) := by
  have hi := (run_inv hc inv_init ops).1
  generalize (run c {} ops).1 = w at *
  have no : ∀ {l : List Act}, (∀ y ∈ l, isPw y = false) → x ∈ l → False := by
    intro l h hx; have := h x hx; rw [hp] at this; exact absurd this (by decide)
  cases op with
  | press b t acc =>
    exfalso
    simp only [step] at hx
    split at hx
    · cases hx
    · rename_i hn
      unfold press at hx
      simp only [nth_eq (bt_cnt hi b) t] at hx
      exact no (pressed_pw hc (fun y => hn (Or.inl y)) (nth_pos _ _) (nth_le _ _)) hx
  | hold b k t acc =>
    exfalso
    simp only [step] at hx
    split at hx
    · cases hx
    · rename_i hn
      unfold hold at hx
      split at hx
      · exact no (held_pw hc (fun y => hn (Or.inl y)) (bt_cnt hi b) (Nat.mod_lt k (by decide : 3 > 0))) hx
      · cases hx
  | saved b t acc =>
    exfalso
    simp only [step] at hx
    split at hx
    · cases hx
    · rename_i hn
      unfold savedClick at hx
      simp only at hx
      split at hx
      · exact no (saved_pw hc (fun y => hn (Or.inl y)) (bt_cnt hi b)) hx
      · cases hx
  | contact stab t acc =>
    exfalso
    simp only [step, contact] at hx
    have e := contact_event_pw hc (now := t) (acc := acc) (s := w.s) stab
    generalize event c t acc w.s .none (if stab then stabEv else clashEv) = r at *
    split at hx
    · exact no e hx
    · split at hx
      · rcases List.mem_append.mp hx with hx | hx
        · exact no e hx
        · cases stab <;> simp at hx <;> (subst hx; simp [isPw] at hp)
      · exact no e hx
  | twist t acc => exact absurd hx (fun y => no (twist_pw hc) y)
  | preonDone => cases hx
  | leaveMenu => cases hx
  | lowBattery =>
    left
    simp only [step] at hx
    split at hx
    · rename_i ho
      refine ⟨rfl, ?_, ho⟩
      have hnp : w.s.pending = false := by
        cases hpe : w.s.pending with
        | false => rfl
        | true => exact absurd ⟨ho, hpe⟩ hi.good.2
      revert hx
      unfold turnOff
      simp only [hnp, ho, Bool.false_eq_true, if_false, Bool.not_true]
      split <;> simp
      rintro (rfl | rfl)
      · simp [isPw] at hp
      · rfl
    · cases hx
  | release b t acc =>
    right
    simp only [step] at hx
    split at hx
    · cases hx
    · rename_i hn
      have hb : b ≠ .none := fun y => hn (Or.inl y)
      have hd : (w.bt b).down = true := by cases hy : (w.bt b).down <;> simp_all
      have h1 : 1 ≤ (w.bt b).cnt := by
        revert hd; unfold W.bt; split <;> intro hd; exact hi.a1 hd; exact hi.p1 hd
      obtain ⟨_, hr⟩ := released_ok hc (now := t) (acc := acc) hi.good hb h1 (bt_cnt hi b)
      have hpw := released_pw hc (s := w.s) (now := t) (acc := acc) hb h1 (bt_cnt hi b)
      unfold release at hx
      simp only at hx
      generalize send c t acc w.s b (w.bt b).cnt released = r at *
      by_cases hm : r.1.mod b = true
      · rw [if_pos hm] at hx
        by_cases d1 : since t (w.bt b).push < 500
        · rw [if_pos d1] at hx
          rcases List.mem_append.mp hx with hx | hx
          · exact (no hpw hx).elim
          · have k := clickShort_pw hc hb h1 (bt_cnt hi b) hx hp
            obtain ⟨k1, k2, k3, k4⟩ := k
            rw [setMod_menu] at k1
            obtain ⟨q1, q2, q3⟩ := hr hm k1
            rw [q3] at k1 k3 k4 hm q1
            subst k2
            exact ⟨t, acc, rfl, hd, d1, k1, hm, k3, q1, k4⟩
        · rw [if_neg d1] at hx
          exfalso
          by_cases d2 : since t (w.bt b).push < 2500
          · rw [if_pos d2] at hx
            rcases List.mem_append.mp hx with hx | hx
            · exact no hpw hx
            · exact no (clickLong_pw hc hb h1 (bt_cnt hi b)) hx
          · rw [if_neg d2] at hx
            exact no hpw hx
      · rw [if_neg hm] at hx
        exact (no hpw hx).elim

/-- A double click of POWER while off: on, and muted; the second click doesn't turn the
    blade off again. -/
theorem C96_muted {c : Cfg} (hc : c.dual = false) (hno : c.noOnOff = false) {w : W} (h : Idle w) (hoff : isOn w.s = false)
    (t t1 t2 t3 : Nat) (acc acc1 acc2 acc3 : Bool) (hn : nth w.p t = 1)
    (h1 : since t1 t < 500) (h2 : since t2 t < 500) (h2' : since t2 t1 < 500) (h3 : since t3 t2 < 500) :
    ∃ w', run c w [.press .power t acc, .release .power t1 acc1, .press .power t2 acc2, .release .power t3 acc3] =
      (w', [.motion, .ignite, .mute]) ∧ isOn w'.s = true := by
  have hon : w.s.on = false := by cases ho : w.s.on <;> simp_all [isOn]
  have hsd := send_clickShort_power hc (now := t1) (acc := acc1) (s := pointed w .power t acc)
    h.menu (nth_pos w.p t) (nth_le w.p t)
  have ha : (pointed w .power t acc).aux = false := h.aux
  rw [if_neg (by rw [isOn_pointed, hoff]; decide), if_neg (by rw [ha]; decide)] at hsd
  have k := click_short hc h (by decide) t t1 acc acc1 h1 hsd
  have pa : pressActs w .power t = [.motion] := by simp [pressActs, hoff]
  have et : turnOn c { pointed w .power t acc with auxOn := false } t1 =
      ({ pointed w .power t acc with auxOn := false, pending := true, activated := t1 }, [.ignite]) := by
    have : (pointed w .power t acc).on = false := hon
    simp [turnOn, this, hno]
  rw [et, pa] at k
  have i := idle_after hc h (by decide) k rfl h.menu h.lk
  have hbt : w.bt .power = w.p := rfl
  generalize hw : W.setBt { pressed1 w .power t acc with
    s := S.clear { pointed w .power t acc with auxOn := false, pending := true, activated := t1 } } .power
      ⟨false, t, nth (w.bt .power) t, !true⟩ = w1 at *
  have hp : w1.p = ⟨false, t, 1, false⟩ := by rw [← hw, hbt, hn]; rfl
  have hs : w1.s.activated = t1 := by rw [← hw, setBt_s]; rfl
  have ho : isOn w1.s = true := by rw [← hw, setBt_s]; simp [isOn, S.clear]
  have hn2 : nth w1.p t2 = 2 := by
    rw [hp]; unfold nth; rw [if_pos h2]; rfl
  obtain ⟨w2, l, r, _, _, _, q⟩ := C96_power_click hc i t2 t3 acc2 acc3 h3
  obtain ⟨q1, q2⟩ := q ho (by rw [hn2]; exact Nat.le_refl _)
  rw [hs, if_pos ⟨hn2, h2'⟩] at q1
  subst q1
  refine ⟨w2, ?_, q2⟩
  have ra := run_append c w [.press .power t acc, .release .power t1 acc1] [.press .power t2 acc2, .release .power t3 acc3]
  rw [k, r] at ra
  exact ra

/-! ## Concrete cases, and what goes wrong -/

/-- Two buttons, menu events ignored. -/
def std : Cfg := ⟨false, false, false, fun _ _ _ => false⟩
def dual : Cfg := { std with dual := true }

/-- Buttons idle for a while. -/
def rest : W := { p := { push := 0 }, a := { push := 0 } }
/-- The same, on. -/
def lit : W := { rest with s := { on := true, auxOn := false, activated := 1000 } }

example : Idle lit := by constructor <;> first | rfl | (constructor <;> simp [lit, rest, Good, isOn])
example : nth lit.p 5000 = 1 ∧ since 5200 5000 < 500 := by decide +kernel
/-- On, a lockup, a blast, lightning, off. -/
example : (run std rest [.press .power 1000 false, .release .power 1100 false, .preonDone,
      .press .aux 3000 true, .contact false 3100 false, .release .aux 4000 false,
      .press .aux 6000 false, .release .aux 6100 false,
      .press .power 7000 false, .press .aux 7300 false, .release .aux 7400 false, .contact false 7500 false, .release .power 8000 false,
      .press .power 9000 false, .release .power 9100 false]).2 =
    [.motion, .ignite, .beginLockup .drag, .endLockup, .blast, .beginLockup .lightning, .endLockup, .retract] := by decide +kernel
example : isOn (run std rest [.press .power 1000 false, .release .power 1100 false]).1.s = true := by decide +kernel
/-- `C96_release`: a lockup and a lit lightning both occur. -/
example : (run std {} [.press .power 1000 false, .release .power 1100 false, .preonDone, .press .aux 3000 false, .contact true 3100 false]).1.s.lk = .melt := by
  decide +kernel

/-- Two quick clicks of AUX while on make three blasts (the second press is
    EVENT_DOUBLE_CLICK, its release EVENT_CLICK_SHORT; saber.h:108-112 handles both). -/
theorem C96_blasts_counterexample :
    (run std lit [.press .aux 5000 false, .release .aux 5100 false, .press .aux 5200 false, .release .aux 5300 false]).2 =
      [.blast, .blast, .blast] := by decide +kernel

/-- A lockup begun with a second quick press of the button uses the direction of the blade
    at an earlier press (saber.h:57-60 isn't reached: EVENT_SECOND_PRESSED is handled first). -/
theorem C96_direction_counterexample :
    (run std lit [.press .aux 5000 true, .release .aux 5100 true, .press .aux 5200 false, .contact false 5300 false]).2 =
      [.blast, .blast, .beginLockup .drag] := by decide +kernel

/-- DUAL_POWER_BUTTONS: turned on with AUX, POWER and AUX should change places (saber.h:44-49);
    in fact both act as POWER, and a click of either turns the blade off. -/
theorem C96_dual_counterexample (b : B) (hb : b ≠ .none) :
    (run dual { lit with s := { lit.s with auxOn := true } } [.press b 5000 false, .release b 5100 false]).2 = [.retract] := by
  cases b
  · exact absurd rfl hb
  · decide +kernel
  · decide +kernel

/-- With both buttons held no contact starts a lockup (it is a clash). -/
theorem C96_both_held {c : Cfg} (hc : c.dual = false) {w : W} (hm : w.s.menu = false) (hon : w.s.on = true) (hl : w.s.lk = .none)
    (hp : w.s.power = true) (ha : w.s.aux = true) (stab : Bool) (t : Nat) (acc : Bool) :
    step c w (.contact stab t acc) = (w, [if stab then .stab else .clash]) := by
  rw [C96_contact hc hm, if_neg (by simp [hp, ha]), if_neg (by simp [ha]), if_pos ⟨hon, hl⟩]

end Verif.Prop.SaberButtons
