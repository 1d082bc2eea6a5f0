import Verif.Sound.Font
/-! References to players are counted exactly -/
namespace Verif.Font

/-- one if the pointer points to player `u` -/
def ind (o : Option Nat) (u : Nat) : Nat := if o = some u then 1 else 0

/-- pointers of the font to player `u` -/
def cnt (w : W) (u : Nat) : Nat := ind (w.ptr .hum) u + ind (w.ptr .next) u + ind (w.ptr .swing) u + ind (w.ptr .lock) u

/-- the references counted are those of the font, those of others and those of temporary pointers (`t`) -/
def Bal (w : W) (t : Nat → Nat) : Prop := ∀ u, (w.pl u).refs = cnt w u + w.ext u + t u

abbrev Z : Nat → Nat := fun _ => 0

theorem ind_none (u : Nat) : ind none u = 0 := rfl

theorem ind_self (u : Nat) : ind (some u) u = 1 := by simp [ind]

theorem ind_ne {u v : Nat} (h : v ≠ u) : ind (some u) v = 0 := by
  unfold ind; rw [if_neg]; simp only [Option.some.injEq]; exact fun e => h e.symm

theorem ind_le (w : W) (s : Slot) (u : Nat) : ind (w.ptr s) u ≤ cnt w u := by
  unfold cnt; cases s <;> omega

theorem cnt_put (w : W) (s : Slot) (v : Option Nat) (u : Nat) : cnt (w.put s v) u + ind (w.ptr s) u = cnt w u + ind v u := by
  cases s <;> simp [cnt, W.put] <;> omega

theorem mod_self (w : W) (u : Nat) (g : Player → Player) : (w.mod u g).pl u = g (w.pl u) := by simp [W.mod, upd]

theorem mod_ne (w : W) {u v : Nat} (g : Player → Player) (h : v ≠ u) : (w.mod u g).pl v = w.pl v := by simp [W.mod, upd, h]

theorem bal_mod {w : W} {t : Nat → Nat} (h : Bal w t) (u : Nat) (g : Player → Player) (hg : ∀ p, (g p).refs = p.refs) : Bal (w.mod u g) t := by
  intro v
  have := h v
  by_cases e : v = u
  · subst e; rw [mod_self, hg]; exact this
  · rw [mod_ne _ _ e]; exact this

theorem bal_subRef {w : W} {t : Nat → Nat} (v : Option Nat) (h : Bal w fun u => t u + ind v u) : Bal (subRef w v) t := by
  cases v with
  | none => intro u; have := h u; simpa [subRef, ind_none] using this
  | some v =>
    intro u
    have := h u
    unfold subRef
    by_cases e : u = v
    · subst e; rw [mod_self]; simp only [ind_self] at this; show (w.pl u).refs - 1 = cnt w u + w.ext u + t u; omega
    · rw [mod_ne _ _ e]; simp only [ind_ne e] at this; exact this

theorem bal_addRef {w : W} {t : Nat → Nat} (v : Option Nat) (h : Bal w t) : Bal (addRef w v) fun u => t u + ind v u := by
  cases v with
  | none => intro u; have := h u; simpa [addRef, ind_none] using this
  | some v =>
    intro u
    have := h u
    unfold addRef
    by_cases e : u = v
    · subst e; rw [mod_self]; simp only [ind_self]; show (w.pl u).refs + 1 = cnt w u + w.ext u + (t u + 1); omega
    · rw [mod_ne _ _ e]; simp only [ind_ne e]; exact this

theorem subRef_ptr (w : W) (v : Option Nat) : (subRef w v).ptr = w.ptr := by cases v <;> rfl
theorem addRef_ptr (w : W) (v : Option Nat) : (addRef w v).ptr = w.ptr := by cases v <;> rfl
theorem subRef_ext (w : W) (v : Option Nat) : (subRef w v).ext = w.ext := by cases v <;> rfl

theorem bal_free {w : W} {t : Nat → Nat} (s : Slot) (h : Bal w t) : Bal (free w s) t := by
  have h2 : Bal (w.put s none) fun u => t u + ind (w.ptr s) u := by
    intro u
    have h1 := cnt_put w s none u
    have := h u
    have h3 := ind_none u
    show (w.pl u).refs = cnt (w.put s none) u + w.ext u + (t u + ind (w.ptr s) u)
    omega
  have h3 : free w s = subRef (w.put s none) (w.ptr s) := by
    unfold free; cases w.ptr s <;> rfl
  rw [h3]
  exact bal_subRef _ h2

theorem free_ptr (w : W) (s : Slot) : (free w s).ptr s = none := by simp [free, W.put]

theorem free_ptr_ne (w : W) {s r : Slot} (h : r ≠ s) : (free w s).ptr r = w.ptr r := by simp [free, W.put, h, subRef_ptr]

theorem put_put (w : W) (s : Slot) (a b : Option Nat) : (w.put s a).put s b = w.put s b := by
  simp only [W.put]; congr 1; funext t; by_cases h : t = s <;> simp [h]

theorem bal_assign {w : W} {t : Nat → Nat} (s : Slot) (v : Option Nat) (h : Bal w t) : Bal (assign w s v) t := by
  unfold assign
  split
  · exact h
  · have h1 := bal_addRef v (bal_free s h)
    intro u
    have h2 : ((addRef (free w s) v).pl u).refs = cnt (addRef (free w s) v) u + (addRef (free w s) v).ext u + (t u + ind v u) := h1 u
    have h3 := cnt_put (free w s) s v u
    rw [free_ptr, ind_none] at h3
    have e : ((addRef ((free w s).put s v) v).pl u).refs = ((addRef (free w s) v).pl u).refs := by cases v <;> rfl
    have e2 : cnt (addRef ((free w s).put s v) v) u = cnt ((free w s).put s v) u := by unfold cnt; rw [addRef_ptr]
    have e3 : (addRef ((free w s).put s v) v).ext u = (addRef (free w s) v).ext u := by cases v <;> rfl
    have e4 : cnt (addRef (free w s) v) u = cnt (free w s) u := by unfold cnt; rw [addRef_ptr]
    show _ = cnt (addRef ((free w s).put s v) v) u + _ + _
    omega

theorem take_none {c : Cfg} {w : W} (h : freeOne c w = none) : take c w = (w, none) := by unfold take; rw [h]

theorem take_some {c : Cfg} {w : W} {u : Nat} (h : freeOne c w = some u) :
    take c w = (w.mod u fun p => { p with refs := p.refs + 1, fading := false }, some u) := by unfold take; rw [h]

theorem bal_take {w : W} {t : Nat → Nat} (c : Cfg) (h : Bal w t) : Bal (take c w).1 fun u => t u + ind (take c w).2 u := by
  cases e : freeOne c w with
  | none => rw [take_none e]; intro u; have := h u; simpa [ind_none] using this
  | some v =>
    rw [take_some e]
    intro u
    have := h u
    by_cases e : u = v
    · subst e; rw [mod_self]; simp only [ind_self]; show (w.pl u).refs + 1 = cnt w u + w.ext u + (t u + 1); omega
    · rw [mod_ne _ _ e]; simp only [ind_ne e]; exact this

theorem bal_playOnce {w : W} {t : Nat → Nat} (h : Bal w t) (u : Nat) (s : Snd) : Bal (playOnce w u s) t := bal_mod h _ _ fun _ => rfl
theorem bal_playLoop {w : W} {t : Nat → Nat} (h : Bal w t) (u : Nat) (s : Snd) : Bal (playLoop w u s) t := bal_mod h _ _ fun _ => rfl
theorem bal_fade {w : W} {t : Nat → Nat} (h : Bal w t) (u : Nat) : Bal (fade w u) t := bal_mod h _ _ fun _ => rfl

/-- taking a player and letting a pointer hold it -/
theorem bal_hold {w : W} {t : Nat → Nat} (s : Slot) (v : Option Nat) (h : Bal w fun u => t u + ind v u) : Bal (subRef (assign w s v) v) t :=
  bal_subRef v (bal_assign s v h)

theorem bal_getNextHum {c : Cfg} {w : W} (h : Bal w Z) : Bal (getNextHum c w) Z := by
  unfold getNextHum
  split
  · exact h
  · exact bal_hold _ _ (bal_take c h)

theorem bal_swapHum {w : W} (h : Bal w Z) : Bal (swapHum w) Z := by
  unfold swapHum
  simp only
  apply bal_free
  apply bal_assign
  split
  · exact bal_free _ (bal_fade h _)
  · exact h

theorem bal_playMono {c : Cfg} {w w' : W} {s has l} (h : Bal w Z) (e : playMono c w s has l = some w') : Bal w' Z := by
  have h1 := bal_getNextHum (c := c) h
  unfold playMono at e
  simp only at e
  split at e
  · cases e; exact h1
  · split at e
    · split at e
      · cases e; exact bal_playLoop (bal_playOnce (bal_swapHum h1) _ _) _ _
      · cases e; exact bal_playOnce (bal_swapHum h1) _ _
    · cases e

theorem bal_playPoly {c : Cfg} {w : W} {t : Nat → Nat} (h : Bal w t) (s : Snd) (has : Bool) :
    Bal (playPoly c w s has).1 fun u => t u + ind (playPoly c w s has).2 u := by
  unfold playPoly
  split
  · simp only
    have := bal_take c h
    split
    · exact this
    · rename_i u e
      rw [e] at this
      exact bal_playOnce this _ _
  · intro u; have := h u; simpa [ind_none] using this

theorem bal_playPoly' {c : Cfg} {w : W} (h : Bal w Z) (s : Snd) (has : Bool) : Bal (playPoly' c w s has) Z :=
  bal_subRef _ (bal_playPoly h s has)

theorem bal_preon {c : Cfg} {w : W} (h : Bal w Z) : Bal (preon c w) Z := by
  unfold preon
  simp only
  have key : ∀ v : W, Bal v Z → Bal { v with st := .wait } Z := fun v hv => hv
  apply key
  split
  · apply bal_subRef
    have h1 := bal_playPoly (c := c) (w := { w with fol := fun s => if s = .preon then some .out else w.fol s }) (t := Z) h .preon true
    split
    · exact bal_assign _ _ h1
    · exact h1
  · exact h

theorem bal_startHum {c : Cfg} {w w' : W} (h : Bal w Z) (e : startHum c w = some w') : Bal w' Z := by
  unfold startHum at e
  split at e
  · cases e; exact h
  · simp only at e
    have h1 := bal_hold .hum _ (bal_take c h)
    split at e
    · cases e; exact h1
    · split at e
      · cases e; exact bal_playLoop (bal_playOnce h1 _ _) _ _
      · cases e

theorem bal_sbOn {c : Cfg} {w w' : W} {has t d} (h : Bal w Z) (e : sbOn c w has t d = some w') : Bal w' Z := by
  unfold sbOn at e
  simp only at e
  split at e
  · obtain ⟨v, e1, rfl⟩ := Option.map_eq_some_iff.1 e
    split at e1
    · cases e1; exact h
    · have h1 : Bal v Z := bal_playMono (w := { w with lit := true }) h e1
      exact h1
  · obtain ⟨v, e1, rfl⟩ := Option.map_eq_some_iff.1 e
    have h1 : Bal v Z := bal_startHum (w := { w with lit := true, st := .out }) h e1
    have key : ∀ (v : W) (a b), Bal v Z → Bal { v with inTime := a, humStart := b } Z := fun v _ _ hv => hv
    apply key
    split
    · exact h1
    · exact bal_playPoly' h1 _ _

theorem bal_endSwing {w : W} (h : Bal w Z) : Bal (endSwing w) Z := by
  unfold endSwing
  split
  · exact bal_free _ (bal_fade h _)
  · exact h

theorem bal_retract {c : Cfg} {w w' : W} {fast most t} (h : Bal w Z) (e : retract c w fast most t = some w') : Bal w' Z := by
  unfold retract at e
  simp only at e
  obtain ⟨v, e1, rfl⟩ := Option.map_eq_some_iff.1 e
  have h1 : Bal v Z := by
    split at e1
    · cases e1; exact bal_playPoly' (w := { w with st := .fadeOut }) h _ _
    · split at e1
      · split at e1
        · obtain ⟨x, e2, rfl⟩ := Option.map_eq_some_iff.1 e1
          have h2 : Bal x Z := bal_playMono (w := { w with st := .off }) h e2
          exact h2
        · cases e1; exact bal_playPoly' (w := { w with st := .fadeOut }) h _ _
      · split at e1
        · split at e1
          · cases e1
          · cases e1; exact bal_free _ (bal_fade (w := { w with st := .off }) h _)
        · cases e1; exact h
  split
  · exact h1
  · exact h1

theorem bal_sbOff {c : Cfg} {w w' : W} {o most all has t} (h : Bal w Z) (e : sbOff c w o most all has t = some w') : Bal w' Z := by
  unfold sbOff at e
  simp only at e
  obtain ⟨v, e1, rfl⟩ := Option.map_eq_some_iff.1 e
  apply bal_endSwing
  have hl : ∀ (f : Snd → Option Snd) (l : Bool) (s : St), Bal { w with fol := f, lit := l, st := s } Z := fun _ _ _ => h
  unfold offCase at e1
  cases o with
  | cancel => cases e1; exact h
  | idle => cases e1; exact h
  | normal => exact bal_retract (hl _ _ w.st) e1
  | fast => exact bal_retract (hl _ _ w.st) e1
  | blast =>
    simp only at e1
    split at e1
    · exact bal_playMono (hl _ _ w.st) e1
    · cases e1; exact bal_playPoly' (hl _ _ .fadeOut) _ _

theorem bal_beginLockup {c : Cfg} {w w' : W} {has} (h : Bal w Z) (e : beginLockup c w has = some w') : Bal w' Z := by
  have h0 : Bal { w with locked := true } Z := h
  unfold beginLockup at e
  simp only at e
  split at e
  · exact bal_playMono h0 e
  · split at e
    · cases e; exact h
    · have h1 := bal_hold .lock _ (bal_playPoly (c := c) h0 .fx has)
      split at e
      · cases e; exact h1
      · cases e; exact bal_playLoop h1 _ _

theorem bal_endLockup {c : Cfg} {w w' : W} {has} (h : Bal w Z) (e : endLockup c w has = some w') : Bal w' Z := by
  have h0 : Bal { w with locked := false } Z := h
  unfold endLockup at e
  simp only at e
  split at e
  · cases e; exact bal_free _ (bal_fade (bal_playPoly' h0 _ _) _)
  · split at e
    · exact bal_playMono h0 e
    · cases e; exact h

theorem bal_fields {w : W} (h : Bal w Z) (a : Rat) (b : St) (l : Nat) : Bal { w with vol := a, st := b, last := l } Z := h

theorem bal_fadeStep {w : W} (h : Bal w Z) (u : Nat) : Bal (fadeStep w u) Z := by
  unfold fadeStep
  simp only
  split
  · exact bal_fields h _ w.st w.last
  · exact bal_fields h _ w.st w.last
  · exact bal_fields h _ _ _
  · split
    · exact bal_fields h _ _ _
    · exact bal_fields h _ w.st _
  · exact bal_fields h w.vol w.st _
  · split
    · exact bal_free _ (bal_fade (bal_fields h _ _ _) _)
    · exact bal_fields h _ w.st _

theorem bal_setHum {c : Cfg} {w w' : W} (h : Bal w Z) (e : setHum c w = some w') : Bal w' Z := by
  unfold setHum at e
  split at e
  · cases e; exact h
  · simp only at e
    obtain ⟨v, e1, rfl⟩ := Option.map_eq_some_iff.1 e
    have h1 : Bal v Z := by
      split at e1
      · exact bal_startHum h e1
      · cases e1; exact h
    split
    · exact h1
    · apply bal_fadeStep
      split
      · exact h1
      · exact h1

theorem bal_overSwing {w : W} {i} (h : Bal w Z) : Bal (overSwing w i) Z := by
  unfold overSwing
  split
  · split
    · exact bal_free _ (bal_fade h _)
    · exact h
  · exact h

theorem bal_polySwing {c : Cfg} {w : W} {i} (h : Bal w Z) : Bal (polySwing c w i) Z := by
  unfold polySwing
  simp only
  have h1 := bal_overSwing (i := i) h
  split
  · exact h1
  · split
    · exact h1
    · have key : ∀ (v : W) (a), Bal v Z → Bal { v with swinging := a } Z := fun v _ hv => hv
      exact key _ _ (bal_hold .swing _ (bal_playPoly h1 _ _))

theorem bal_swingVolume {w : W} (h : Bal w Z) : Bal (swingVolume w) Z := by
  unfold swingVolume
  split
  · split
    · exact bal_free _ h
    · exact h
  · exact h

theorem bal_startSwing {c : Cfg} {w w' : W} {i} (h : Bal w Z) (e : startSwing c w i = some w') : Bal w' Z := by
  unfold startSwing at e
  simp only at e
  obtain ⟨v, e1, e2⟩ := Option.bind_eq_some_iff.1 e
  refine bal_setHum ?_ e2
  split at e1
  · obtain ⟨x, e3, rfl⟩ := Option.map_eq_some_iff.1 e1
    apply bal_swingVolume
    split at e3
    · cases e3; exact bal_polySwing h
    · split at e3
      · cases e3; exact h
      · obtain ⟨y, e4, rfl⟩ := Option.map_eq_some_iff.1 e3
        have h2 : Bal y Z := bal_playMono h e4
        exact h2
  · split at e1
    · cases e1; exact bal_free .swing h
    · cases e1; exact h

theorem bal_motion {c : Cfg} {w w' : W} {i} (h : Bal w Z) (e : motion c w i = some w') : Bal w' Z := by
  unfold motion at e
  split at e
  · exact bal_startSwing h e
  · cases e; exact h

theorem bal_loop {c : Cfg} {w w' : W} {has t d} (h : Bal w Z) (e : loop c w has t d = some w') : Bal w' Z := by
  unfold loop at e
  split at e
  · exact bal_sbOn (w := { w with log := .turnOn :: w.log }) h e
  · split at e
    · cases e; exact h
    · cases e; exact h

theorem bal_other {c : Cfg} {w : W} (h : Bal w Z) : Bal (other c w) Z := by
  unfold other
  simp only
  have h1 := bal_playPoly (c := c) h .fx true
  split
  · rename_i e; rw [e] at h1; intro u; have := h1 u; simpa [ind_none] using this
  · rename_i v e
    rw [e] at h1
    intro u
    have := h1 u
    by_cases hu : u = v
    · subst hu; simp only [ind_self] at this
      show ((playPoly c w .fx true).1.pl u).refs = cnt (playPoly c w .fx true).1 u + (if u = u then _ else _) + 0
      rw [if_pos rfl]; omega
    · simp only [ind_ne hu] at this
      show ((playPoly c w .fx true).1.pl u).refs = cnt (playPoly c w .fx true).1 u + (if u = v then _ else _) + 0
      rw [if_neg hu]; omega

theorem bal_dropExt {w : W} (h : Bal w Z) (v : Nat) : Bal (dropExt w v) Z := by
  unfold dropExt
  split
  · exact h
  · rename_i hv
    intro u
    have this : (w.pl u).refs = cnt w u + w.ext u + 0 := h u
    have ec : cnt { subRef w (some v) with ext := fun x => if x = v then w.ext v - 1 else w.ext x } u = cnt w u := rfl
    rw [ec]
    show ((subRef w (some v)).pl u).refs = cnt w u + (if u = v then w.ext v - 1 else w.ext u) + 0
    unfold subRef
    by_cases hu : u = v
    · subst hu; rw [mod_self, if_pos rfl]; show (w.pl u).refs - 1 = cnt w u + (w.ext u - 1) + 0; omega
    · rw [mod_ne _ _ hu, if_neg hu]; exact this

theorem bal_step {c : Cfg} {w w' : W} (e : Ev) (h : Bal w Z) (he : step c w e = some w') : Bal w' Z := by
  cases e with
  | preon => cases he; exact bal_preon h
  | on => exact bal_sbOn h he
  | off => exact bal_sbOff h he
  | effect m has =>
    simp only [step, effect] at he
    split at he
    · exact bal_playMono h he
    · cases he; exact bal_playPoly' h _ _
  | beginLockup => exact bal_beginLockup h he
  | endLockup => exact bal_endLockup h he
  | motion => exact bal_motion h he
  | loop => exact bal_loop h he
  | finish u =>
    cases he
    apply bal_mod h
    intro p
    split
    · split <;> rfl
    · rfl
  | stopped u =>
    cases he
    unfold stopped
    split
    · exact bal_mod h _ _ fun _ => rfl
    · exact h
  | take => cases he; exact bal_other h
  | drop u => cases he; exact bal_dropExt h u
  | tick => cases he; exact h

theorem bal_run {c : Cfg} (es : List Ev) : ∀ {w w' : W}, Bal w Z → run c w es = some w' → Bal w' Z := by
  induction es with
  | nil => intro w w' h e; cases e; exact h
  | cons a es ih =>
    intro w w' h e
    obtain ⟨v, e1, e2⟩ := Option.bind_eq_some_iff.1 e
    exact ih (bal_step a h e1) e2

theorem bal_boot (now : Nat) : Bal (boot now) Z := fun _ => rfl

/-- what `GetFreeWavPlayer` finds is free -/
theorem freeOne_some {c : Cfg} {w : W} {u : Nat} (h : freeOne c w = some u) : u < c.n ∧ (w.pl u).refs = 0 ∧ (w.pl u).cur = none := by
  unfold freeOne at h
  have h1 := List.find?_some h
  have h2 := List.mem_of_find?_eq_some h
  simp [avail] at h1
  exact ⟨List.mem_range.1 h2, h1⟩

theorem refs_pos {w : W} (h : Bal w Z) {u : Nat} (s : Slot) (hs : w.ptr s = some u) : (w.pl u).refs ≠ 0 := by
  have h1 := h u
  have h2 := ind_le w s u
  rw [hs, ind_self] at h2
  omega

/-- a free player belongs to nobody -/
theorem freeOne_ptr {c : Cfg} {w : W} {u : Nat} (hb : Bal w Z) (h : freeOne c w = some u) (s : Slot) : w.ptr s ≠ some u :=
  fun hs => refs_pos hb s hs (freeOne_some h).2.1

end Verif.Font
