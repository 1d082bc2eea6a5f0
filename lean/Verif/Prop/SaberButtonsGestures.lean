import Verif.Prop.SaberButtonsProps
/-
  C96: the gestures of the standard saber (documented in props/saber.h:1-26).
-/
set_option linter.unusedSimpArgs false
set_option linter.unusedVariables false
namespace Verif.Prop.SaberButtons

/-- Nothing is held, no menu is open, no lockup.  (`Inv` holds in every state that can
    be reached: `run_inv`.) -/
structure Idle (w : W) : Prop where
  inv : Inv w
  menu : w.s.menu = false
  pu : w.p.down = false
  au : w.a.down = false
  lk : w.s.lk = .none

theorem Idle.power {w : W} (h : Idle w) : w.s.power = false := by
  cases hp : w.s.power with
  | false => rfl
  | true => have := h.inv.pd hp; rw [h.pu] at this; exact absurd this (by decide)
theorem Idle.aux {w : W} (h : Idle w) : w.s.aux = false := by
  cases hp : w.s.aux with
  | false => rfl
  | true => have := h.inv.ad hp; rw [h.au] at this; exact absurd this (by decide)

theorem Idle.up {w : W} (h : Idle w) (b : B) : (w.bt b).down = false := by
  unfold W.bt; split; exact h.au; exact h.pu

@[simp] theorem setBt_bt (w : W) {b : B} (x : Bt) : (W.setBt w b x).bt b = x := by cases b <;> rfl

/-- The state after a press. -/
def pressed1 (w : W) (b : B) (t : Nat) (acc : Bool) : W :=
  W.setBt { w with s := S.setMod { w.s with pointing := pressPoint w b t acc } b true } b ⟨true, t, nth (w.bt b) t, false⟩

theorem step_press_idle {c : Cfg} (hc : c.dual = false) {w : W} (h : Idle w) {b : B} (hb : b ≠ .none) (t : Nat) (acc : Bool) :
    step c w (.press b t acc) = (pressed1 w b t acc, pressActs w b t) := by
  have hu := h.up b
  simp only [step, hb, hu, Bool.false_eq_true, or_self, if_false]
  exact press_alone hc h.inv h.menu hb h.power h.aux t acc

theorem pressed1_inv {c : Cfg} (hc : c.dual = false) {w : W} (h : Idle w) {b : B} (hb : b ≠ .none) (t : Nat) (acc : Bool) :
    Inv (pressed1 w b t acc) := by
  have := (press_inv hc h.inv hb t acc).1
  rwa [press_alone hc h.inv h.menu hb h.power h.aux t acc] at this

theorem pressed1_setMod {w : W} (h : Idle w) {b : B} (hb : b ≠ .none) (t : Nat) (acc : Bool) :
    (pressed1 w b t acc).s.setMod b false = { w.s with pointing := pressPoint w b t acc } := by
  have h1 := h.power
  have h2 := h.aux
  generalize hp : pressPoint w b t acc = p
  unfold pressed1
  rw [setBt_s, hp]
  obtain ⟨⟨s1, s2, s3, s4, s5, s6, s7, s8, s9⟩, x, y⟩ := w
  simp only at h1 h2
  subst h1; subst h2
  cases b <;> rfl

theorem run_two {c : Cfg} {w w1 w2 : W} {a b : Op} {x y : List Act} (h1 : step c w a = (w1, x)) (h2 : step c w1 b = (w2, y)) :
    run c w [a, b] = (w2, x ++ y) := by
  simp only [run, h1, h2, List.append_nil]

theorem run_step {c : Cfg} {w w1 w2 : W} {a : Op} {ops : List Op} {x y : List Act} (h1 : step c w a = (w1, x)) (h2 : run c w1 ops = (w2, y)) :
    run c w (a :: ops) = (w2, x ++ y) := by
  simp only [run, h1, h2]

theorem run_nil (c : Cfg) (w : W) : run c w [] = (w, []) := rfl

theorem pressed1_lk (w : W) (b : B) (t : Nat) (acc : Bool) : (pressed1 w b t acc).s.lk = w.s.lk := by
  unfold pressed1; rw [setBt_s, setMod_lk]
theorem pressed1_menu (w : W) (b : B) (t : Nat) (acc : Bool) : (pressed1 w b t acc).s.menu = w.s.menu := by
  unfold pressed1; rw [setBt_s, setMod_menu]
theorem pressed1_mod (w : W) (b : B) (t : Nat) (acc : Bool) : (pressed1 w b t acc).s.mod b = true := by
  unfold pressed1; rw [setBt_s, setMod_mod]
theorem pressed1_bt (w : W) (b : B) (t : Nat) (acc : Bool) : (pressed1 w b t acc).bt b = ⟨true, t, nth (w.bt b) t, false⟩ :=
  setBt_bt _ _

theorem step_release {c : Cfg} {w : W} {b : B} (hb : b ≠ .none) (hd : (w.bt b).down = true) (t : Nat) (acc : Bool) :
    step c w (.release b t acc) = release c w b t acc := by
  simp only [step, hb, hd, Bool.true_eq_false, or_self, if_false]

/-- The state before the click is sent. -/
def pointed (w : W) (b : B) (t : Nat) (acc : Bool) : S := { w.s with pointing := pressPoint w b t acc }

section
variable {c : Cfg} (hc : c.dual = false) {w : W} (h : Idle w) {b : B} (hb : b ≠ .none) (t t' : Nat) (acc acc' : Bool)
include hc h hb

theorem release_pressed1 :
    release c (pressed1 w b t acc) b t' acc' =
      if since t' t < 500 then
        (W.setBt { pressed1 w b t acc with s := (send c t' acc' (pointed w b t acc) b (nth (w.bt b) t) clickShort).1 } b
          ⟨false, t, nth (w.bt b) t, !(send c t' acc' (pointed w b t acc) b (nth (w.bt b) t) clickShort).2.2⟩,
         (send c t' acc' (pointed w b t acc) b (nth (w.bt b) t) clickShort).2.1)
      else if since t' t < 2500 then
        (W.setBt { pressed1 w b t acc with s := (send c t' acc' (pointed w b t acc) b (nth (w.bt b) t) clickLong).1 } b
          ⟨false, t, nth (w.bt b) t, false⟩,
         (send c t' acc' (pointed w b t acc) b (nth (w.bt b) t) clickLong).2.1)
      else (W.setBt { pressed1 w b t acc with s := pointed w b t acc } b ⟨false, t, nth (w.bt b) t, false⟩, []) := by
  have k := release_click hc (pressed1_inv hc h hb t acc) ((pressed1_menu _ _ _ _).trans h.menu) hb
    (by rw [pressed1_bt]) ((pressed1_lk _ _ _ _).trans h.lk) (pressed1_mod _ _ _ _) t' acc'
  rw [pressed1_setMod h hb, pressed1_bt] at k
  exact k

/-- A short click, in closed form. -/
theorem click_short {s : S} {a : List Act} {hd : Bool} (hs : since t' t < 500)
    (e : send c t' acc' (pointed w b t acc) b (nth (w.bt b) t) clickShort = (s, a, hd)) :
    run c w [.press b t acc, .release b t' acc'] =
      (W.setBt { pressed1 w b t acc with s := s } b ⟨false, t, nth (w.bt b) t, !hd⟩, pressActs w b t ++ a) := by
  refine run_two (step_press_idle hc h hb t acc) ?_
  rw [step_release hb (by rw [pressed1_bt]), release_pressed1 hc h hb, if_pos hs, e]

theorem click_long {s : S} {a : List Act} {hd : Bool} (hs : ¬ since t' t < 500) (hs' : since t' t < 2500)
    (e : send c t' acc' (pointed w b t acc) b (nth (w.bt b) t) clickLong = (s, a, hd)) :
    run c w [.press b t acc, .release b t' acc'] =
      (W.setBt { pressed1 w b t acc with s := s } b ⟨false, t, nth (w.bt b) t, false⟩, pressActs w b t ++ a) := by
  refine run_two (step_press_idle hc h hb t acc) ?_
  rw [step_release hb (by rw [pressed1_bt]), release_pressed1 hc h hb, if_neg hs, if_pos hs', e]

theorem click_verylong (hs' : ¬ since t' t < 2500) :
    run c w [.press b t acc, .release b t' acc'] =
      (W.setBt { pressed1 w b t acc with s := pointed w b t acc } b ⟨false, t, nth (w.bt b) t, false⟩, pressActs w b t) := by
  have hs : ¬ since t' t < 500 := fun x => hs' (Nat.lt_trans x (by decide))
  have := run_two (step_press_idle hc h hb t acc) (by
    rw [step_release hb (by rw [pressed1_bt]), release_pressed1 hc h hb t t' acc acc', if_neg hs, if_neg hs'])
  rwa [List.append_nil] at this
end

theorem idle_after {c : Cfg} (hc : c.dual = false) {w : W} (h : Idle w) {b : B} (hb : b ≠ .none) {t : Nat} {acc : Bool} {ops : List Op}
    {s : S} {x : Bt} {l : List Act} (hr : run c w ops = (W.setBt { pressed1 w b t acc with s := s } b x, l))
    (hx : x.down = false) (hm : s.menu = false) (hl : s.lk = .none) :
    Idle (W.setBt { pressed1 w b t acc with s := s } b x) := by
  have i := (run_inv hc h.inv ops).1
  rw [hr] at i
  have h1 := h.pu
  have h2 := h.au
  refine ⟨i, by rw [setBt_s]; exact hm, ?_, ?_, by rw [setBt_s]; exact hl⟩
  · cases b with
    | none => exact absurd rfl hb
    | power => exact hx
    | aux => exact h1
  · cases b with
    | none => exact absurd rfl hb
    | power => exact h2
    | aux => exact hx

theorem isOn_pointed (w : W) (b : B) (t : Nat) (acc : Bool) : isOn (pointed w b t acc) = isOn w.s := rfl

/-! ## C96: clicks -/

/-- A short click of POWER: off, it ignites (`motion`: motion detection is asked for at
    the press); on, it retracts, but only if it isn't a quick repetition. -/
theorem C96_power_click {c : Cfg} (hc : c.dual = false) {w : W} (h : Idle w) (t t' : Nat) (acc acc' : Bool) (hs : since t' t < 500) :
    ∃ w' l, run c w [.press .power t acc, .release .power t' acc'] = (w', l) ∧ Idle w' ∧
    (isOn w.s = false → l = .motion :: (if c.noOnOff then [] else [.ignite]) ∧ isOn w'.s = !c.noOnOff) ∧
    (isOn w.s = true → nth w.p t = 1 → l = [if w.s.on then .retract else .cancelPreon] ∧ isOn w'.s = false) ∧
    (isOn w.s = true → 2 ≤ nth w.p t →
      l = (if nth w.p t = 2 ∧ since t w.s.activated < 500 then [.mute] else []) ∧ isOn w'.s = true) := by
  have hsd := send_clickShort_power hc (now := t') (acc := acc') (s := pointed w .power t acc)
    h.menu (nth_pos w.p t) (nth_le w.p t)
  have hl : (pointed w .power t acc).lk = .none := h.lk
  have ha : (pointed w .power t acc).aux = false := h.aux
  have hm : (pointed w .power t acc).menu = false := h.menu
  have hg : Good (pointed w .power t acc) := h.inv.good
  have ho : (pointed w .power t acc).on = w.s.on := rfl
  have hbt : w.bt .power = w.p := rfl
  rw [isOn_pointed, ha] at hsd
  have hnp := nth_pos w.p t
  cases hi : isOn w.s with
  | false =>
    simp only [hi, Bool.false_eq_true, if_false] at hsd
    have k := click_short hc h (by decide) t t' acc acc' hs hsd
    have he : isOn (pointed w .power t acc) = false := hi
    generalize pointed w .power t acc = s at hl hm he k
    refine ⟨_, _, k, idle_after hc h (by decide) k rfl ?_ ?_, ?_, by simp, by simp⟩
    · unfold turnOn S.clear; (repeat' split) <;> simp [hm]
    · unfold turnOn S.clear; (repeat' split) <;> simp [hl]
    · intro _
      simp only [isOn] at he
      simp only [setBt_s, pressActs, hi]
      cases hno : c.noOnOff <;> simp_all [turnOn, isOn, S.clear]
  | true =>
    simp only [hi, Bool.false_eq_true, if_false, if_true] at hsd
    by_cases hn : nth w.p t = 1
    · rw [if_pos hn] at hsd
      have k := click_short hc h (by decide) t t' acc acc' hs hsd
      have he : isOn (pointed w .power t acc) = true := hi
      have pa : pressActs w .power t = [] := by simp [pressActs, hi, hbt, hn]
      rw [pa] at k
      generalize pointed w .power t acc = s at hl hm he k hg ho
      obtain ⟨g1, g2⟩ := hg
      refine ⟨_, _, k, idle_after hc h (by decide) k rfl ?_ ?_, by simp, ?_, ?_⟩
      · unfold turnOff S.clear; (repeat' split) <;> simp [hm]
      · unfold turnOff S.clear; (repeat' split) <;> simp_all
      · intro _ _
        simp only [setBt_s]
        rw [← ho]
        cases hon : s.on <;> cases hpe : s.pending <;> simp_all [turnOff, isOn, S.clear]
      · intro _ h2; exact absurd hn (by omega)
    · rw [if_neg hn] at hsd
      have k := click_short hc h (by decide) t t' acc acc' hs hsd
      have he : isOn (pointed w .power t acc) = true := hi
      refine ⟨_, _, k, idle_after hc h (by decide) k rfl hm hl, by simp, fun _ x => absurd x hn, ?_⟩
      intro _ _
      simp only [setBt_s, he, List.append_nil, and_true]
      unfold pressActs
      rw [hi, hbt]
      generalize nth w.p t = n
      generalize since t w.s.activated = d
      by_cases n2 : n = 2 <;> by_cases d2 : d < 500 <;> simp [n2, d2]

/-- A long click of POWER: force while on, the next track while off.  Longer than 2.5
    seconds: nothing. -/
theorem C96_power_long {c : Cfg} (hc : c.dual = false) {w : W} (h : Idle w) (t t' : Nat) (acc acc' : Bool) (hs : ¬ since t' t < 500) :
    ∃ w' l, run c w [.press .power t acc, .release .power t' acc'] = (w', l) ∧ Idle w' ∧ isOn w'.s = isOn w.s ∧
    l = (if isOn w.s then (if nth w.p t = 2 ∧ since t w.s.activated < 500 then [.mute] else []) else [.motion]) ++
      (if since t' t < 2500 then [if isOn w.s then .force else .track] else []) := by
  have pa : pressActs w .power t =
      (if isOn w.s then (if nth w.p t = 2 ∧ since t w.s.activated < 500 then [.mute] else []) else [.motion]) := by
    unfold pressActs
    have hbt : w.bt .power = w.p := rfl
    rw [hbt]
    generalize nth w.p t = n
    generalize since t w.s.activated = d
    cases isOn w.s <;> by_cases n2 : n = 2 <;> by_cases d2 : d < 500 <;> simp [n2, d2]
  have hl : (pointed w .power t acc).lk = .none := h.lk
  have ha : (pointed w .power t acc).aux = false := h.aux
  have hm : (pointed w .power t acc).menu = false := h.menu
  rw [← pa]
  by_cases h2 : since t' t < 2500
  · have hsd := send_clickLong hc (now := t') (acc := acc') (s := pointed w .power t acc) (b := .power)
      h.menu (by decide) (nth_pos w.p t) (nth_le w.p t)
    rw [ha, isOn_pointed, if_pos ⟨rfl, rfl⟩] at hsd
    have k := click_long hc h (by decide) t t' acc acc' hs h2 hsd
    refine ⟨_, _, k, idle_after hc h (by decide) k rfl hm hl, ?_, ?_⟩
    · rw [setBt_s]; rfl
    · rw [if_pos h2]
  · have k := click_verylong hc h (by decide : B.power ≠ .none) t t' acc acc' h2
    refine ⟨_, _, k, idle_after hc h (by decide) k rfl hm hl, ?_, ?_⟩
    · rw [setBt_s]; rfl
    · rw [if_neg h2, List.append_nil]

/-- A click of AUX: a blast while on, the next preset while off; a second quick press
    already makes one blast itself.  Half a second or longer: nothing. -/
theorem C96_aux_click {c : Cfg} (hc : c.dual = false) {w : W} (h : Idle w) (t t' : Nat) (acc acc' : Bool) :
    ∃ w' l, run c w [.press .aux t acc, .release .aux t' acc'] = (w', l) ∧ Idle w' ∧ isOn w'.s = isOn w.s ∧
    l = (if isOn w.s ∧ nth w.a t = 2 then [.blast] else []) ++
      (if since t' t < 500 then [if isOn w.s then .blast else .nextPreset] else []) := by
  have pa : pressActs w .aux t = (if isOn w.s ∧ nth w.a t = 2 then [.blast] else []) := by
    unfold pressActs
    have hbt : w.bt .aux = w.a := rfl
    rw [hbt]
    generalize nth w.a t = n
    cases isOn w.s <;> by_cases n2 : n = 2 <;> simp [n2]
  have hl : (pointed w .aux t acc).lk = .none := h.lk
  have ha : (pointed w .aux t acc).power = false := h.power
  have hm : (pointed w .aux t acc).menu = false := h.menu
  rw [← pa]
  by_cases hs : since t' t < 500
  · have hsd := send_clickShort_aux hc (now := t') (acc := acc') (s := pointed w .aux t acc)
      h.menu (nth_pos w.a t) (nth_le w.a t)
    rw [ha, isOn_pointed] at hsd
    simp only [Bool.false_eq_true, if_false] at hsd
    cases hi : isOn w.s with
    | true =>
      rw [hi, if_pos rfl] at hsd
      have k := click_short hc h (by decide) t t' acc acc' hs hsd
      refine ⟨_, _, k, idle_after hc h (by decide) k rfl hm hl, ?_, ?_⟩
      · rw [setBt_s, ← hi]; rfl
      · rw [if_pos hs]; rfl
    | false =>
      rw [hi, if_neg (by decide)] at hsd
      have k := click_short hc h (by decide) t t' acc acc' hs hsd
      refine ⟨_, _, k, idle_after hc h (by decide) k rfl hm hl, ?_, ?_⟩
      · rw [setBt_s, ← hi]; rfl
      · rw [if_pos hs]; rfl
  · rw [if_neg hs]
    by_cases h2 : since t' t < 2500
    · have hsd := send_clickLong hc (now := t') (acc := acc') (s := pointed w .aux t acc) (b := .aux)
        h.menu (by decide) (nth_pos w.a t) (nth_le w.a t)
      rw [if_neg (by simp)] at hsd
      have k := click_long hc h (by decide) t t' acc acc' hs h2 hsd
      exact ⟨_, _, k, idle_after hc h (by decide) k rfl hm hl, by rw [setBt_s]; rfl, rfl⟩
    · have k := click_verylong hc h (by decide : B.aux ≠ .none) t t' acc acc' h2
      exact ⟨_, _, k, idle_after hc h (by decide) k rfl hm hl, by rw [setBt_s]; rfl, (List.append_nil _).symm⟩

/-! ## C96: the blade hits something -/

/-- Which lockup a contact starts. -/
def lockupOf (stab pointing : Bool) : Lk := if stab then .melt else if pointing then .drag else .normal

/-- A clash or a stab: with exactly one button held (and not yet used) a lockup starts if on,
    or the preset changes (POWER, off, a clash); otherwise it is just an effect, while the
    blade is on and there's no lockup. -/
theorem C96_contact {c : Cfg} (hc : c.dual = false) {w : W} (hm : w.s.menu = false) (stab : Bool) (t : Nat) (acc : Bool) :
    step c w (.contact stab t acc) =
      if isOn w.s = true ∧ w.s.power ≠ w.s.aux ∧ w.s.lk = .none then
        ({ w with s := { w.s with lk := lockupOf stab w.s.pointing, power := false, aux := false } },
         [.beginLockup (lockupOf stab w.s.pointing)])
      else if isOn w.s = false ∧ stab = false ∧ w.s.power = true ∧ w.s.aux = false then
        ({ w with s := { w.s with power := false, aux := false } }, [.nextPreset])
      else if w.s.on = true ∧ w.s.lk = .none then (w, [if stab then .stab else .clash])
      else (w, []) := by
  have hoo : w.s.on = true → isOn w.s = true := by intro x; simp [isOn, x]
  simp only [step, contact]
  rw [event_free hm]
  cases stab with
  | true =>
    simp only [if_true]
    rw [ev2_stab hc, ev2_stab hc]
    generalize isOn w.s = o at hoo
    cases o <;> cases hp : w.s.power <;> cases ha : w.s.aux <;> by_cases hl : w.s.lk = .none <;> cases hon : w.s.on <;>
      simp_all [lockupOf, S.clear]
  | false =>
    simp only [Bool.false_eq_true, if_false]
    rw [ev2_clash hc, ev2_clash hc]
    generalize isOn w.s = o at hoo
    cases o <;> cases hp : w.s.power <;> cases ha : w.s.aux <;> by_cases hl : w.s.lk = .none <;> cases hon : w.s.on <;>
      cases hd : w.s.pointing <;>
      simp_all [lockupOf, S.clear]

/-- A contact of the blade, or time passing with a button held. -/
def idleOp : Op → Bool
  | .contact .. | .hold .. => true
  | _ => false

/-- During a lockup with the buttons used up nothing changes. -/
theorem locked_quiet {c : Cfg} (hc : c.dual = false) {w : W} (hm : w.s.menu = false) (hl : w.s.lk ≠ .none)
    (hp : w.s.power = false) (ha : w.s.aux = false) {ops : List Op} (ho : ∀ op ∈ ops, idleOp op = true) :
    run c w ops = (w, []) := by
  induction ops with
  | nil => rfl
  | cons op ops ih =>
    have i := ih (fun x hx => ho x (List.mem_cons_of_mem _ hx))
    have h1 : step c w op = (w, []) := by
      have := ho op (List.mem_cons_self ..)
      cases op with
      | contact stab t acc => rw [C96_contact hc hm]; simp [hp, ha, hl]
      | hold b k t acc =>
        have : w.s.mod b = false := by cases b <;> simp [S.mod, hp, ha]
        simp only [step, hold, this]
        split <;> simp
      | _ => simp [idleOp] at this
    simpa using run_step h1 i

theorem run_append (c : Cfg) (w : W) (xs ys : List Op) :
    run c w (xs ++ ys) = ((run c (run c w xs).1 ys).1, (run c w xs).2 ++ (run c (run c w xs).1 ys).2) := by
  induction xs generalizing w with
  | nil => simp [run]
  | cons x xs ih => simp only [List.cons_append, run, ih, List.append_assoc]

theorem pressed1_isOn (w : W) (b : B) (t : Nat) (acc : Bool) : isOn (pressed1 w b t acc).s = isOn w.s := by
  unfold pressed1; rw [setBt_s]; cases b <;> rfl

/-- Hold a button and hit something while on: a lockup (drag if the blade pointed down when
    the button was pressed, melt if it was a stab).  It goes on whatever else is hit, until
    the button is released; the release does nothing else. -/
theorem C96_lockup {c : Cfg} (hc : c.dual = false) {w : W} (h : Idle w) (hon : isOn w.s = true) {b : B} (hb : b ≠ .none)
    (t t1 t2 : Nat) (acc acc1 acc2 stab : Bool) {mid : List Op} (hmid : ∀ op ∈ mid, idleOp op = true)
    (hn : nth (w.bt b) t ≠ 2) :
    ∃ w1 w2, run c w ([.press b t acc, .contact stab t1 acc1] ++ mid) = (w1, [.beginLockup (lockupOf stab acc)]) ∧
      w1.s.lk = lockupOf stab acc ∧ isOn w1.s = true ∧
      step c w1 (.release b t2 acc2) = (w2, [.endLockup]) ∧ Idle w2 ∧ isOn w2.s = true := by
  have pa : pressActs w b t = [] := by simp [pressActs, hon, hn]
  have pp : (pressed1 w b t acc).s.pointing = acc := by
    unfold pressed1; rw [setBt_s]; unfold pressPoint; cases b <;> simp [S.setMod, hon, hn]
  have hx : (pressed1 w b t acc).s.power ≠ (pressed1 w b t acc).s.aux := by
    unfold pressed1; rw [setBt_s]; cases b with
    | none => exact absurd rfl hb
    | power => simp [S.setMod, h.aux]
    | aux => simp [S.setMod, h.power]
  have hbt := pressed1_bt w b t acc
  have hm1 : (pressed1 w b t acc).s.menu = false := (pressed1_menu _ _ _ _).trans h.menu
  have hl1 : (pressed1 w b t acc).s.lk = .none := (pressed1_lk _ _ _ _).trans h.lk
  have hi1 : isOn (pressed1 w b t acc).s = true := (pressed1_isOn _ _ _ _).trans hon
  have hinv := pressed1_inv hc h hb t acc
  have s1 := step_press_idle hc h hb t acc
  rw [pa] at s1
  have hup : (b = .aux ∨ (pressed1 w b t acc).a.down = false) ∧ (b ≠ .aux ∨ (pressed1 w b t acc).p.down = false) := by
    have h1 := h.pu
    have h2 := h.au
    unfold pressed1
    cases b <;> simp [W.setBt, h1, h2]
  generalize pressed1 w b t acc = w0 at *
  have s2 := C96_contact hc hm1 stab t1 acc1
  rw [if_pos ⟨hi1, hx, hl1⟩, pp] at s2
  have hln : lockupOf stab acc ≠ .none := by cases stab <;> cases acc <;> decide
  generalize lockupOf stab acc = l at *
  have r1 := run_two s1 s2
  have i1 := (step_inv hc hinv (.contact stab t1 acc1)).1
  rw [s2] at i1
  have q := locked_quiet hc (w := { w0 with s := { w0.s with lk := l, power := false, aux := false } }) hm1 hln rfl rfl hmid
  have hd : (W.bt { w0 with s := { w0.s with lk := l, power := false, aux := false } } b).down = true := by
    have : W.bt { w0 with s := { w0.s with lk := l, power := false, aux := false } } b = w0.bt b := by cases b <;> rfl
    rw [this, hbt]
  have rl := release_locked hc (w := { w0 with s := { w0.s with lk := l, power := false, aux := false } }) i1 hm1 hb hd hln t2 acc2
  refine ⟨{ w0 with s := { w0.s with lk := l, power := false, aux := false } },
    W.setBt { w0 with s := { w0.s with lk := .none, power := false, aux := false } } b
      { (w0.bt b) with down := false, push := t2 + 4294967296 - 10000, saved := false }, ?_, rfl, hi1, ?_, ?_, ?_⟩
  · rw [run_append, r1, q]; rfl
  · rw [step_release hb hd, rl]
    cases b <;> rfl
  · have i2 := (step_inv hc i1 (.release b t2 acc2)).1
    rw [step_release hb hd, rl] at i2
    obtain ⟨u1, u2⟩ := hup
    refine ⟨?_, ?_, ?_, ?_, ?_⟩
    · cases b with
      | none => exact absurd rfl hb
      | power => exact i2
      | aux => exact i2
    · rw [setBt_s]; exact hm1
    · cases b with
      | none => exact absurd rfl hb
      | power => rfl
      | aux => exact (by simpa using u2 : w0.p.down = false)
    · cases b with
      | none => exact absurd rfl hb
      | power => exact (by simpa using u1 : w0.a.down = false)
      | aux => rfl
    · rw [setBt_s]
  · rw [setBt_s]; exact hi1

/-! ## C96: two buttons -/

def flip : B → B
  | .power => .aux
  | .aux => .power
  | .none => .none

theorem setBt_setBt (w : W) (b : B) (x y : Bt) : W.setBt (W.setBt w b x) b y = W.setBt w b y := by cases b <;> rfl

/-- Hold the other button, then click this one. -/
theorem chord_short {c : Cfg} (hc : c.dual = false) {w : W} (h : Idle w) {b : B} (hb : b ≠ .none) (t t1 t2 : Nat) (acc acc1 acc2 : Bool)
    {s : S} {a : List Act} {hd : Bool} (hs : since t2 t1 < 500)
    (e : send c t2 acc2 (pressed1 w (flip b) t acc).s b (nth (w.bt b) t1) clickShort = (s, a, hd)) :
    run c w [.press (flip b) t acc, .press b t1 acc1, .release b t2 acc2] =
      (W.setBt { pressed1 w (flip b) t acc with s := s } b ⟨false, t1, nth (w.bt b) t1, !hd⟩, pressActs w (flip b) t ++ a) := by
  have hf : flip b ≠ .none := by cases b <;> simp_all [flip]
  have i1 := pressed1_inv hc h hf t acc
  have hm : (pressed1 w (flip b) t acc).s.menu = false := (pressed1_menu _ _ _ _).trans h.menu
  have hl : (pressed1 w (flip b) t acc).s.lk = .none := (pressed1_lk _ _ _ _).trans h.lk
  have hbt : (pressed1 w (flip b) t acc).bt b = w.bt b := by
    cases b <;> first | exact absurd rfl hb | rfl
  have ho : (pressed1 w (flip b) t acc).s.other b = true := by
    have := pressed1_mod w (flip b) t acc
    cases b <;> simp_all [S.other, S.mod, flip]
  have hmod : (pressed1 w (flip b) t acc).s.mod b = false := by
    have h1 := h.power
    have h2 := h.aux
    unfold pressed1
    rw [setBt_s]
    cases b <;> simp_all [S.setMod, S.mod, flip]
  refine run_step (step_press_idle hc h hf t acc) ?_
  have hu := h.up b
  generalize pressed1 w (flip b) t acc = w1 at *
  have s2 : step c w1 (.press b t1 acc1) = press c w1 b t1 acc1 := by
    simp only [step, hb, hbt, hu, Bool.false_eq_true, or_self, if_false]
  have i2 := (step_inv hc i1 (.press b t1 acc1)).1
  have pc := press_chord hc i1 hm hb ho t1 acc1
  rw [s2, pc] at i2
  rw [pc, hbt] at s2
  rw [hbt] at i2
  have em : ({ w1 with s := w1.s.setMod b true } : W).s.setMod b false = w1.s := by
    obtain ⟨⟨s1, s2, s3, s4, s5, s6, s7, s8, s9⟩, x, y⟩ := w1
    cases b with
    | none => exact absurd rfl hb
    | power => simp only [S.mod] at hmod; cases s8 <;> simp_all [S.setMod]
    | aux => simp only [S.mod] at hmod; cases s9 <;> simp_all [S.setMod]
  have rc := release_click hc i2 (by rw [setBt_s]; exact (setMod_menu _ _ _).trans hm) hb (by rw [setBt_bt])
    (by rw [setBt_s]; exact (setMod_lk _ _ _).trans hl) (by rw [setBt_s]; exact setMod_mod _ _) t2 acc2
  rw [setBt_bt] at rc
  simp only [setBt_s] at rc
  have hs' : since t2 ({ down := true, push := t1, cnt := nth (w.bt b) t1, saved := false } : Bt).push < 500 := hs
  rw [if_pos hs'] at rc
  simp only at em
  simp only [em, e] at rc
  have s3 := step_release (c := c) (w := W.setBt { w1 with s := w1.s.setMod b true } b ⟨true, t1, nth (w.bt b) t1, false⟩)
    hb (by rw [setBt_bt]) t2 acc2
  rw [rc] at s3
  have := run_two s2 s3
  rw [this]
  cases b <;> rfl

/-- Hold AUX and click POWER: the previous preset while off, the colour menu while on. -/
theorem C96_aux_power {c : Cfg} (hc : c.dual = false) {w : W} (h : Idle w) (t t1 t2 : Nat) (acc acc1 acc2 : Bool)
    (hs : since t2 t1 < 500) (hn : nth w.a t ≠ 2) :
    ∃ w', run c w [.press .aux t acc, .press .power t1 acc1, .release .power t2 acc2] =
        (w', [if isOn w.s then .colorMenu else .previousPreset]) ∧ w'.s.menu = isOn w.s ∧ isOn w'.s = isOn w.s ∧ w'.s.lk = .none := by
  have hm : (pressed1 w .aux t acc).s.menu = false := (pressed1_menu _ _ _ _).trans h.menu
  have hl : (pressed1 w .aux t acc).s.lk = .none := (pressed1_lk _ _ _ _).trans h.lk
  have hmo : (pressed1 w .aux t acc).s.aux = true := pressed1_mod w .aux t acc
  have hi := pressed1_isOn w .aux t acc
  have hsd := send_clickShort_power hc (now := t2) (acc := acc2) hm (nth_pos (w.bt .power) t1) (nth_le (w.bt .power) t1)
  rw [hmo, hi] at hsd
  simp only [if_true] at hsd
  have pa : pressActs w .aux t = [] := by
    have : w.bt .aux = w.a := rfl
    simp [pressActs, this, hn]
  cases ho : isOn w.s with
  | true =>
    rw [ho, if_pos rfl] at hsd
    have k := chord_short hc h (b := .power) (by decide) t t1 t2 acc acc1 acc2 hs hsd
    simp only [flip, pa, List.nil_append] at k
    refine ⟨_, k, ?_, ?_, ?_⟩
    · rw [setBt_s]; rfl
    · rw [setBt_s, ← ho, ← hi]; rfl
    · rw [setBt_s]; exact hl
  | false =>
    rw [ho, if_neg (by decide)] at hsd
    have k := chord_short hc h (b := .power) (by decide) t t1 t2 acc acc1 acc2 hs hsd
    simp only [flip, pa, List.nil_append] at k
    refine ⟨_, k, ?_, ?_, ?_⟩
    · rw [setBt_s]; exact hm
    · rw [setBt_s, ← ho, ← hi]; rfl
    · rw [setBt_s]; exact hl

/-- Hold POWER and click AUX while on: lightning, until POWER is released. -/
theorem C96_lightning {c : Cfg} (hc : c.dual = false) {w : W} (h : Idle w) (hon : isOn w.s = true) (t t1 t2 t3 : Nat) (acc acc1 acc2 acc3 : Bool)
    (hs : since t2 t1 < 500) (hn : nth w.p t ≠ 2) {mid : List Op} (hmid : ∀ op ∈ mid, idleOp op = true) :
    ∃ w1 w2, run c w ([.press .power t acc, .press .aux t1 acc1, .release .aux t2 acc2] ++ mid) = (w1, [.beginLockup .lightning]) ∧
      w1.s.lk = .lightning ∧ isOn w1.s = true ∧
      step c w1 (.release .power t3 acc3) = (w2, [.endLockup]) ∧ w2.s.lk = .none ∧ isOn w2.s = true := by
  have hm : (pressed1 w .power t acc).s.menu = false := (pressed1_menu _ _ _ _).trans h.menu
  have hmo : (pressed1 w .power t acc).s.power = true := pressed1_mod w .power t acc
  have hi := pressed1_isOn w .power t acc
  have hsd := send_clickShort_aux hc (now := t2) (acc := acc2) hm (nth_pos (w.bt .aux) t1) (nth_le (w.bt .aux) t1)
  rw [if_pos (hi.trans hon), if_pos hmo] at hsd
  have pa : pressActs w .power t = [] := by
    have : w.bt .power = w.p := rfl
    simp [pressActs, this, hn, hon]
  have k := chord_short hc h (b := .aux) (by decide) t t1 t2 acc acc1 acc2 hs hsd
  simp only [flip, pa, List.nil_append] at k
  have i := (run_inv hc h.inv [.press .power t acc, .press .aux t1 acc1, .release .aux t2 acc2]).1
  rw [k] at i
  have hbp := pressed1_bt w .power t acc
  have hon1 : isOn (pressed1 w .power t acc).s = true := hi.trans hon
  generalize pressed1 w .power t acc = w0 at *
  have hbt : ∀ s x, W.bt (W.setBt { w0 with s := s } .aux x) .power = w0.bt .power := fun _ _ => rfl
  have hm1 : (W.setBt { w0 with s := S.clear { w0.s with lk := .lightning } } .aux ⟨false, t1, nth (w.bt .aux) t1, !true⟩).s.menu = false := by
    rw [setBt_s]; exact hm
  have hl1 : (W.setBt { w0 with s := S.clear { w0.s with lk := .lightning } } .aux ⟨false, t1, nth (w.bt .aux) t1, !true⟩).s.lk ≠ .none := by
    rw [setBt_s]; simp [S.clear]
  have hd1 : ((W.setBt { w0 with s := S.clear { w0.s with lk := .lightning } } .aux ⟨false, t1, nth (w.bt .aux) t1, !true⟩).bt .power).down = true := by
    rw [hbt, hbp]
  have q := locked_quiet hc hm1 hl1 (by rw [setBt_s]; rfl) (by rw [setBt_s]; rfl) hmid
  have rl := release_locked hc i hm1 (by decide) hd1 hl1 t3 acc3
  refine ⟨_, _, ?_, ?_, ?_, (step_release (by decide) hd1 t3 acc3).trans rl, ?_, ?_⟩
  · rw [run_append, k, q]; rfl
  · rw [setBt_s]; rfl
  · rw [setBt_s]; exact hon1
  · rw [setBt_s]; rfl
  · rw [setBt_s]; exact hon1

/-- Hold POWER and hit the blade (or the hilt) while off: the next preset; the release of
    the button then does nothing. -/
theorem C96_bump {c : Cfg} (hc : c.dual = false) {w : W} (h : Idle w) (hoff : isOn w.s = false) (t t1 t2 : Nat) (acc acc1 acc2 : Bool) :
    ∃ w', run c w [.press .power t acc, .contact false t1 acc1, .release .power t2 acc2] = (w', [.motion, .nextPreset]) ∧
      isOn w'.s = false := by
  have hm : (pressed1 w .power t acc).s.menu = false := (pressed1_menu _ _ _ _).trans h.menu
  have hl : (pressed1 w .power t acc).s.lk = .none := (pressed1_lk _ _ _ _).trans h.lk
  have hmo : (pressed1 w .power t acc).s.power = true := pressed1_mod w .power t acc
  have hax : (pressed1 w .power t acc).s.aux = false := h.aux
  have hi : isOn (pressed1 w .power t acc).s = false := (pressed1_isOn w .power t acc).trans hoff
  have hbp := pressed1_bt w .power t acc
  have s1 := step_press_idle hc h (by decide : B.power ≠ .none) t acc
  have pa : pressActs w .power t = [.motion] := by simp [pressActs, hoff]
  rw [pa] at s1
  have i1 := pressed1_inv hc h (by decide : B.power ≠ .none) t acc
  generalize pressed1 w .power t acc = w0 at *
  have s2 := C96_contact hc hm false t1 acc1
  rw [if_neg (by simp [hi]), if_pos ⟨hi, rfl, hmo, hax⟩] at s2
  have i2 := (step_inv hc i1 (.contact false t1 acc1)).1
  rw [s2] at i2
  have hd : (W.bt { w0 with s := { w0.s with power := false, aux := false } } .power).down = true := by
    have : W.bt { w0 with s := { w0.s with power := false, aux := false } } .power = w0.bt .power := rfl
    rw [this, hbp]
  have s3 := (step_release (c := c) (by decide) hd t2 acc2).trans (release_used hc i2 hm (by decide) hd hl rfl t2 acc2)
  refine ⟨_, run_step s1 (run_two s2 s3), ?_⟩
  rw [setBt_s]; exact hi

end Verif.Prop.SaberButtons
