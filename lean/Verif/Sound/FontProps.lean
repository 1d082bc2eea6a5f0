import Verif.Sound.FontStep
import Mathlib.Tactic.LinearCombination
/-!
# C94: the hum sounds while a blade is on, and only then

`ends`: what the players do by themselves, when one file after the other comes to its end.  A player is *heard* until it fades.
-/
namespace Verif.Font

/-- player `u` has come to the end of a file `n` times -/
def ends (c : Cfg) (w : W) (u : Nat) : Nat → W
  | 0 => w
  | n + 1 => finish c (ends c w u n) u

/-- a sound that goes on until somebody stops it -/
def endless (o : Option Snd) : Prop := o = some .hum ∨ o = some .lock

/-! ## References -/

/-- how many of the font's four pointers hold player `u` -/
def holders (w : W) (u : Nat) : Nat := (List.filter (fun s => w.ptr s == some u) [.hum, .next, .swing, .lock]).length

theorem holders_eq (w : W) (u : Nat) : holders w u = cnt w u := by
  have hi : ∀ o : Option Nat, ind o u = if o = some u then 1 else 0 := by
    intro o
    cases o with
    | none => simp [ind]
    | some v =>
      by_cases h : v = u
      · subst h; simp [ind]
      · rw [ind_ne (fun e => h e.symm)]; simp [h]
  unfold holders cnt
  rw [hi, hi, hi, hi]
  by_cases h1 : w.ptr .hum = some u <;> by_cases h2 : w.ptr .next = some u <;> by_cases h3 : w.ptr .swing = some u <;> by_cases h4 : w.ptr .lock = some u <;>
    simp [h1, h2, h3, h4]

/-- **C94.** Whatever has happened, every player's count of references is the number of pointers to it -/
theorem C94_refs {c : Cfg} {now : Nat} {es : List Ev} {w : W} (e : run c (boot now) es = some w) (u : Nat) : (w.pl u).refs = holders w u + w.ext u := by
  have := bal_run es (bal_boot now) e u
  rw [holders_eq]
  simp only [Z] at this
  omega

/-- **C94.** A player that is given to somebody is held by nobody, neither by the font nor by others, and plays nothing -/
theorem C94_exclusive {c : Cfg} {now : Nat} {es : List Ev} {w : W} (e : run c (boot now) es = some w) {u : Nat} (h : (take c w).2 = some u) :
    u < c.n ∧ (∀ s, w.ptr s ≠ some u) ∧ w.ext u = 0 ∧ (w.pl u).cur = none := by
  cases hf : freeOne c w with
  | none => rw [take_none hf] at h; simp at h
  | some v =>
    rw [take_some hf] at h
    simp at h
    subst h
    obtain ⟨h1, h2, h3⟩ := freeOne_some hf
    have hr := C94_refs e v
    exact ⟨h1, freeOne_ptr (bal_run es (bal_boot now) e) hf, by omega, h3⟩

/-! ## The hum -/

theorem ends_k (c : Cfg) (w : W) (u n : Nat) : (ends c w u n).k = w.k := by
  induction n with
  | zero => rfl
  | succ n ih => exact ih

theorem ends_ptr (c : Cfg) (w : W) (u n : Nat) : (ends c w u n).ptr = w.ptr := by
  induction n with
  | zero => rfl
  | succ n ih => exact ih

theorem ok_ends {c : Cfg} (wf : WF c) {w : W} (h : Ok c w) (u n : Nat) : Ok c (ends c w u n) := by
  induction n with
  | zero => exact h
  | succ n ih => exact ok_finish wf ih u

/-- the player after the end of its file -/
def over (c : Cfg) (fol : Snd → Option Snd) (p : Player) : Player :=
  match p.cur, p.nxt with
  | some _, some s => if c.has s then { p with cur := some s, nxt := fol s } else { p with cur := none }
  | _, _ => { p with cur := none }

theorem finish_pl (c : Cfg) (w : W) (u : Nat) : (finish c w u).pl u = over c w.fol (w.pl u) := mod_self w u _

/-- the end of a file, for a player after which the hum or the sound of lockup comes -/
theorem finish_sounding {c : Cfg} {w : W} (wf : WF c) (h : Ok c w) {u : Nat} (hs : Sounding c w.k (w.sv u)) :
    ((finish c w u).pl u).cur = (w.pl u).nxt ∧ Sounding c w.k ((finish c w u).sv u) ∧
      (((w.pl u).nxt = some .out → ((finish c w u).pl u).nxt = some .hum) ∧ ((w.pl u).nxt ≠ some .out → ((finish c w u).pl u).nxt = (w.pl u).nxt)) := by
  obtain ⟨h1, h2, h3⟩ := hs
  have hfo := h.fol
  rcases hp : w.pl u with ⟨r, cur, nxt, fd⟩
  simp only [W.sv, hp, Player.sv] at h1 h2 h3
  have hfin := finish_pl c w u
  rw [hp] at hfin
  unfold W.sv
  rw [hfin]
  cases cur with
  | none => exact absurd rfl h1
  | some y =>
    subst h2
    rcases h3 with e | ⟨e, e2, e3, e4⟩ | ⟨e, e2⟩ <;> subst e <;> simp only [over]
    · simp only [wf.hum, if_true, Player.sv]
      exact ⟨trivial, ⟨by simp, rfl, Or.inl hfo.hum⟩, fun e => by simp at e, fun _ => hfo.hum⟩
    · simp only [wf.lock e3, if_true, Player.sv]
      exact ⟨trivial, ⟨by simp, rfl, Or.inr (Or.inl ⟨hfo.lock, e2, e3, e4⟩)⟩, fun e => by simp at e, fun _ => hfo.lock⟩
    · have hm : c.mono = true := by
        cases hm : c.mono with
        | true => rfl
        | false => rw [hfo.poly hm] at e2; simp at e2
      simp only [wf.out hm, if_true, Player.sv]
      exact ⟨trivial, ⟨by simp, rfl, Or.inl e2⟩, fun _ => e2, fun e => by simp at e⟩

theorem ends_sounding {c : Cfg} {w : W} (wf : WF c) (h : Ok c w) {u : Nat} (hs : Sounding c w.k (w.sv u)) (n : Nat) :
    Sounding c w.k ((ends c w u n).sv u) := by
  induction n with
  | zero => exact hs
  | succ n ih =>
    have hk := ends_k c w u n
    have := (finish_sounding wf (ok_ends wf h u n) (u := u) (by rw [hk]; exact ih)).2.1
    rw [hk] at this
    exact this

/-- after one end the next sound is the hum or the sound of lockup -/
theorem ends_nxt {c : Cfg} {w : W} (wf : WF c) (h : Ok c w) {u : Nat} (hs : Sounding c w.k (w.sv u)) (n : Nat) :
    ((ends c w u (n + 1)).pl u).nxt = some .hum ∨ (((ends c w u (n + 1)).pl u).nxt = some .lock ∧ w.locked = true) := by
  induction n with
  | zero =>
    have hf := finish_sounding wf h hs
    show ((finish c w u).pl u).nxt = some .hum ∨ (((finish c w u).pl u).nxt = some .lock ∧ w.locked = true)
    rcases hs.2.2 with e | ⟨e, e2, _⟩ | ⟨e, _⟩
    · left; rw [hf.2.2.2 (by rw [show (w.pl u).nxt = some .hum from e]; simp)]; exact e
    · right; rw [hf.2.2.2 (by rw [show (w.pl u).nxt = some .lock from e]; simp)]; exact ⟨e, e2⟩
    · left; exact hf.2.2.1 e
  | succ n ih =>
    have hk := ends_k c w u (n + 1)
    have hf := finish_sounding wf (ok_ends wf h u (n + 1)) (u := u) (by rw [hk]; exact ends_sounding wf h hs (n + 1))
    show ((finish c (ends c w u (n + 1)) u).pl u).nxt = some .hum ∨ (((finish c (ends c w u (n + 1)) u).pl u).nxt = some .lock ∧ w.locked = true)
    rcases ih with e | ⟨e, e2⟩
    · left; rw [hf.2.2.2 (by rw [e]; simp)]; exact e
    · right; rw [hf.2.2.2 (by rw [e]; simp)]; exact ⟨e, e2⟩

/-- **C94, the hum is there.**  After every history that fits, while a blade is on some player is playing, is not fading, and however often its file
comes to an end, goes on playing: the hum (or, during lockup, the sound of lockup) from the second file on at the latest -/
theorem C94_hum_partial {c : Cfg} (wf : WF c) {now : Nat} {es : List Ev} {w : W} (hf : Fits c (boot now) es) (e : run c (boot now) es = some w)
    (hl : w.lit = true) :
    ∃ u, u < c.n ∧ (w.pl u).fading = false ∧
      ∀ n, ∃ s, ((ends c w u n).pl u).cur = some s ∧ (2 ≤ n → s = .hum ∨ (s = .lock ∧ w.locked = true)) := by
  have hok := ok_run wf es (bal_boot now) (ok_boot c now) hf e
  obtain ⟨u, hu, hs⟩ := hum_of hok hl
  refine ⟨u, hok.bound u hs.1, hs.2.1, ?_⟩
  intro n
  have h1 := (ends_sounding wf hok hs n).1
  cases hc : ((ends c w u n).pl u).cur with
  | none => exact absurd hc h1
  | some s =>
    refine ⟨s, rfl, ?_⟩
    intro hn
    obtain ⟨m, rfl⟩ : ∃ m, n = m + 1 + 1 := ⟨n - 2, by omega⟩
    have hk := ends_k c w u (m + 1)
    have hfs := (finish_sounding wf (ok_ends wf hok u (m + 1)) (u := u) (by rw [hk]; exact ends_sounding wf hok hs (m + 1))).1
    have hc' : ((finish c (ends c w u (m + 1)) u).pl u).cur = some s := hc
    rw [hfs] at hc'
    rcases ends_nxt wf hok hs m with e1 | ⟨e1, e2⟩ <;> rw [e1] at hc' <;> simp at hc'
    · exact Or.inl hc'.symm
    · exact Or.inr ⟨hc'.symm, e2⟩

theorem ends_fading (c : Cfg) (w : W) (u n : Nat) : ((ends c w u n).pl u).fading = (w.pl u).fading := by
  induction n with
  | zero => rfl
  | succ n ih =>
    show ((finish c (ends c w u n) u).pl u).fading = _
    unfold finish
    rw [mod_self, ← ih]
    split
    · split <;> rfl
    · rfl

/-- a player that comes to an endless sound is loud before -/
theorem loud_back {c : Cfg} {w : W} (h : Ok c w) (u : Nat) (hl : Loud w.fol ((finish c w u).sv u)) : Loud w.fol (w.sv u) := by
  have hfo := h.fol
  have hn := h.nxt u
  rcases hp : w.pl u with ⟨r, cur, nxt, fd⟩
  have hsv : w.sv u = ⟨cur, nxt, fd⟩ := by unfold W.sv; rw [hp]; rfl
  rw [hsv] at hn ⊢
  unfold W.sv finish at hl
  rw [mod_self, hp] at hl
  cases cur with
  | none => simp [Player.sv, Loud] at hl
  | some y =>
    cases nxt with
    | none => simp [Player.sv, Loud] at hl
    | some s =>
      by_cases hs : c.has s
      · simp [hs, Player.sv] at hl
        obtain ⟨_, h2, h3⟩ := hl
        refine ⟨by simp, h2, Or.inr (Or.inr ?_)⟩
        rcases hn (by simp) with e | e | e | e | ⟨e, e2⟩ <;> simp at e
        · subst e; exact Or.inl rfl
        · subst e; exact Or.inr (Or.inl rfl)
        · subst e
          rw [show w.fol .pstoff = none from hfo.pstoff] at h3
          simp [leads] at h3
        · subst e
          refine Or.inr (Or.inr ⟨rfl, ?_⟩)
          rcases hfo.out with e3 | e3
          · rw [show w.fol .out = none from e3] at h3
            simp [leads] at h3
          · exact e3
      · simp [hs, Player.sv, Loud] at hl

theorem loud_of_ends {c : Cfg} (wf : WF c) {w : W} (h : Ok c w) (u n : Nat) (hl : Loud w.fol ((ends c w u n).sv u)) : Loud w.fol (w.sv u) := by
  induction n with
  | zero => exact hl
  | succ n ih =>
    apply ih
    have hk : (ends c w u n).fol = w.fol := congrArg K.fol (ends_k c w u n)
    have := loud_back (ok_ends wf h u n) u (by rw [hk]; exact hl)
    rw [hk] at this
    exact this

theorem loud_of_endless {c : Cfg} (wf : WF c) {w : W} (h : Ok c w) {u n : Nat} (hf : (w.pl u).fading = false) (he : endless ((ends c w u n).pl u).cur) :
    Loud w.fol (w.sv u) := by
  apply loud_of_ends wf h u n
  refine ⟨?_, ?_, ?_⟩
  · intro e
    have : ((ends c w u n).pl u).cur = none := e
    rw [this] at he
    rcases he with e | e <;> simp at e
  · exact (ends_fading c w u n).trans hf
  · rcases he with e | e
    · exact Or.inl e
    · exact Or.inr (Or.inl e)

/-- **C94, and only then.**  After every history that fits, while every blade is off and none is about to be turned on, a player that is heard and
would come to an endless sound, now or after any number of files, is the one of the hum, and the font is fading it out -/
theorem C94_silent_partial {c : Cfg} (wf : WF c) {now : Nat} {es : List Ev} {w : W} (hf : Fits c (boot now) es) (e : run c (boot now) es = some w)
    (hl : w.lit = false) (hw : w.st ≠ .wait) {u n : Nat} (hfd : (w.pl u).fading = false) (he : endless ((ends c w u n).pl u).cur) :
    w.ptr .hum = some u ∧ w.st = .fadeOut ∧ c.mono = false := by
  have hok := ok_run wf es (bal_boot now) (ok_boot c now) hf e
  have e1 : w.k.lit = false := hl
  have e2 : w.k.st ≠ .wait := hw
  rcases hok.quiet u (loud_of_endless wf hok hfd he) with h1 | h1
  · simp only [e1, e2, Bool.false_eq_true, false_or, or_false, and_false, false_and] at h1
    refine ⟨h1.1, h1.2, ?_⟩
    cases hm : c.mono with
    | false => rfl
    | true =>
      have := hok.monoSt hm
      rw [h1.2] at this
      simp at this
  · simp [e1] at h1

/-! ## Fading -/

/-- what fading depends on -/
def W.f (w : W) : St × Rat × Rat × Rat × Nat × Nat × Bool × Bool := (w.st, w.vol, w.inTime, w.outTime, w.last, w.now, w.lit, w.locked)

theorem subRef_f (w : W) (o : Option Nat) : (subRef w o).f = w.f := by cases o <;> rfl
theorem addRef_f (w : W) (o : Option Nat) : (addRef w o).f = w.f := by cases o <;> rfl
theorem free_f (w : W) (s : Slot) : (free w s).f = w.f := subRef_f w (w.ptr s)
theorem assign_f (w : W) (s : Slot) (o : Option Nat) : (assign w s o).f = w.f := by
  unfold assign; split
  · rfl
  · rw [addRef_f]; exact free_f w s

theorem overSwing_f (w : W) (i : Swing) : (overSwing w i).f = w.f ∧ (overSwing w i).ptr .hum = w.ptr .hum := by
  unfold overSwing
  split
  · split
    · exact ⟨free_f (fade w _) .swing, by rw [free_ptrs]; rfl⟩
    · exact ⟨rfl, rfl⟩
  · exact ⟨rfl, rfl⟩

theorem polySwing_f (c : Cfg) (w : W) (i : Swing) : (polySwing c w i).f = w.f ∧ (polySwing c w i).ptr .hum = w.ptr .hum := by
  have h := overSwing_f w i
  unfold polySwing
  revert h
  generalize overSwing w i = v
  intro h
  simp only
  split
  · exact h
  · split
    · exact h
    · rcases playPoly_cases c v .fx i.has with e | ⟨u, _, _, e⟩ <;> rw [e] <;> simp only
      · constructor
        · show (subRef (assign v .swing none) none).f = _
          rw [subRef_f, assign_f]; exact h.1
        · rw [subRef_ptr, assign_ptrs, setPtr_ne _ _ (by decide)]; exact h.2
      · constructor
        · show (subRef (assign (playOnce (took v u) u .fx) .swing (some u)) (some u)).f = _
          rw [subRef_f, assign_f]; exact h.1
        · rw [subRef_ptr, assign_ptrs, setPtr_ne _ _ (by decide)]; exact h.2

theorem swingVolume_f (w : W) : (swingVolume w).f = w.f ∧ (swingVolume w).ptr .hum = w.ptr .hum := by
  unfold swingVolume
  split
  · split
    · exact ⟨free_f _ _, by rw [free_ptrs]; rfl⟩
    · exact ⟨rfl, rfl⟩
  · exact ⟨rfl, rfl⟩

/-- a motion, with a polyphonic font, a player for the hum, outside of lockup -/
theorem motion_poly {c : Cfg} (wf : WF c) (hm : c.mono = false) {w : W} {u : Nat} (hu : w.ptr .hum = some u) (ha : active w.st = true) (hlo : w.locked = false)
    (i : Swing) : ∃ v : W, v.f = w.f ∧ v.ptr .hum = some u ∧ motion c w i = some (fadeStep v u) := by
  have hg : c.guess = false := by
    cases hg : c.guess with
    | false => rfl
    | true => rw [wf.guess hg] at hm; simp at hm
  have key : ∀ v : W, v.f = w.f → v.ptr .hum = some u → setHum c v = some (fadeStep v u) := by
    intro v _ hv
    unfold setHum
    rw [hm]
    simp [hv]
  unfold motion
  rw [if_pos (by simp [ha, hlo])]
  unfold startSwing
  simp only [hg, Bool.not_false, if_true]
  cases i.fast with
  | true =>
    have h1 := polySwing_f c w i
    have h2 := swingVolume_f (polySwing c w i)
    have e1 : (swingVolume (polySwing c w i)).f = w.f := h2.1.trans h1.1
    have e2 : (swingVolume (polySwing c w i)).ptr .hum = some u := (h2.2.trans h1.2).trans hu
    exact ⟨_, e1, e2, key _ e1 e2⟩
  | false =>
    cases i.slow with
    | true =>
      have e1 : W.f { free w .swing with swinging := false } = w.f := free_f w .swing
      have e2 : W.ptr { free w .swing with swinging := false } .hum = some u := by
        show (free w .swing).ptr .hum = some u
        rw [free_ptrs]; exact hu
      exact ⟨_, e1, e2, key _ e1 e2⟩
    | false => exact ⟨w, rfl, hu, key w rfl hu⟩

/-- time passes, and then there is a report from the motion sensor; again and again -/
def sway (c : Cfg) (w : W) (ps : List (Nat × Swing)) : Option W := run c w (ps.flatMap fun p => [.tick p.1, .motion p.2])

theorem sway_cons (c : Cfg) (w : W) (p : Nat × Swing) (ps : List (Nat × Swing)) :
    sway c w (p :: ps) = (motion c { w with now := w.now + p.1 } p.2).bind fun v => sway c v ps := by
  rfl

/-- the time that has passed -/
def total (ps : List (Nat × Swing)) : Rat := (((ps.map (·.1)).sum : Nat) : Rat)

theorem total_cons (p : Nat × Swing) (ps : List (Nat × Swing)) : total (p :: ps) = (p.1 : Rat) + total ps := by
  unfold total
  rw [List.map_cons, List.sum_cons]
  push_cast
  rfl

theorem total_nonneg (ps : List (Nat × Swing)) : 0 ≤ total ps := by
  unfold total
  exact_mod_cast Nat.zero_le _

theorem delta_eq {m n d k : Nat} (hk : 0 < k) (hd : d < k) (hm : m = n % k) : ((n + d) % k + k - m) % k = d := by
  subst hm
  have h1 : n % k < k := Nat.mod_lt _ hk
  rw [Nat.add_mod, Nat.mod_eq_of_lt hd]
  by_cases h : n % k + d < k
  · rw [Nat.mod_eq_of_lt h]
    have : n % k + d + k - n % k = d + k := by omega
    rw [this, Nat.add_mod_right, Nat.mod_eq_of_lt hd]
  · have e : (n % k + d) % k = n % k + d - k := by
      rw [Nat.mod_eq_sub_mod (by omega)]
      exact Nat.mod_eq_of_lt (by omega)
    rw [e]
    have : n % k + d - k + k - n % k = d := by omega
    rw [this, Nat.mod_eq_of_lt hd]

/-- the fields of a state from its fading part -/
theorem f_eq {v w : W} (h : v.f = w.f) :
    v.st = w.st ∧ v.vol = w.vol ∧ v.inTime = w.inTime ∧ v.outTime = w.outTime ∧ v.last = w.last ∧ v.now = w.now ∧ v.lit = w.lit ∧ v.locked = w.locked := by
  unfold W.f at h
  simp only [Prod.mk.injEq] at h
  exact h

theorem fadeStep_on {v : W} {u : Nat} (h : v.st = .on) :
    (fadeStep v u).st = .on ∧ (fadeStep v u).vol = v.vol ∧ (fadeStep v u).ptr = v.ptr ∧ (fadeStep v u).locked = v.locked := by
  unfold fadeStep
  simp only [h]
  refine ⟨?_, ?_, ?_, ?_⟩ <;> trivial

/-- once on, the volume stays -/
theorem sway_on {c : Cfg} (wf : WF c) (hm : c.mono = false) (ps : List (Nat × Swing)) : ∀ {w w' : W} {u : Nat}, w.ptr .hum = some u → w.st = .on →
    w.locked = false → sway c w ps = some w' → w'.st = .on ∧ w'.vol = w.vol := by
  induction ps with
  | nil => intro w w' u _ hs _ e; simp [sway, run] at e; subst e; exact ⟨hs, rfl⟩
  | cons p ps ih =>
    intro w w' u hu hs hlo e
    rw [sway_cons] at e
    obtain ⟨v, f1, f2, f3⟩ := motion_poly wf hm (w := { w with now := w.now + p.1 }) hu (by rw [show W.st { w with now := w.now + p.1 } = .on from hs]; rfl) hlo p.2
    rw [f3] at e
    simp only [Option.bind_some] at e
    obtain ⟨g1, g2, _, _, _, _, _, g8⟩ := f_eq f1
    obtain ⟨k1, k2, k3, k4⟩ := fadeStep_on (v := v) (u := u) (g1.trans hs)
    have := ih (u := u) (by rw [k3]; exact f2) k1 (k4.trans (g8.trans hlo)) e
    exact ⟨this.1, this.2.trans (k2.trans g2)⟩

theorem fadeStep_in {v : W} {u n d : Nat} (h : v.st = .fadeIn) (hl : v.last = n % M) (hn : v.now = n + d) (hd : d < M) :
    (if v.vol + (d : Rat) / v.inTime ≥ 1 then (fadeStep v u).st = .on ∧ (fadeStep v u).vol = 1
      else (fadeStep v u).st = .fadeIn ∧ (fadeStep v u).vol = v.vol + (d : Rat) / v.inTime) ∧
    (fadeStep v u).ptr = v.ptr ∧ (fadeStep v u).locked = v.locked ∧ (fadeStep v u).last = v.now % M ∧ (fadeStep v u).now = v.now ∧
      (fadeStep v u).inTime = v.inTime := by
  have hdel : (v.now % M + M - v.last) % M = d := by rw [hn]; exact delta_eq (by decide) hd hl
  unfold fadeStep
  simp only [h, hdel]
  by_cases hc : v.vol + (d : Rat) / v.inTime ≥ 1
  · simp only [if_pos hc]; exact ⟨⟨trivial, trivial⟩, trivial, trivial, trivial, trivial, trivial⟩
  · simp only [if_neg hc]; exact ⟨⟨trivial, trivial⟩, trivial, trivial, trivial, trivial, trivial⟩

/-- **C94, the hum comes.**  From the moment the fade in has begun, once the time given for it has passed (with however many reports from the motion
sensor, at least one every 71 minutes) the hum is at full volume -/
theorem C94_fade_in {c : Cfg} (wf : WF c) (hm : c.mono = false) (ps : List (Nat × Swing)) : ∀ {w : W} {u : Nat}, w.ptr .hum = some u → w.st = .fadeIn →
    w.locked = false → w.last = w.now % M → 0 < w.inTime → w.vol < 1 → (∀ p ∈ ps, p.1 < M) → (1 - w.vol) * w.inTime ≤ total ps →
    ∃ w', sway c w ps = some w' ∧ w'.st = .on ∧ w'.vol = 1 := by
  induction ps with
  | nil =>
    intro w u _ _ _ _ h1 h2 _ h4
    exfalso
    have : (0 : Rat) < (1 - w.vol) * w.inTime := mul_pos (by linarith) h1
    have e : total [] = 0 := rfl
    rw [e] at h4
    linarith
  | cons p ps ih =>
    intro w u hu hs hlo hla h1 h2 h3 h4
    rw [sway_cons]
    obtain ⟨v, f1, f2, f3⟩ := motion_poly wf hm (w := { w with now := w.now + p.1 }) hu (by rw [show W.st { w with now := w.now + p.1 } = .fadeIn from hs]; rfl) hlo p.2
    rw [f3]
    simp only [Option.bind_some]
    obtain ⟨g1, g2, g3, _, g5, g6, _, g8⟩ := f_eq f1
    simp only at g1 g2 g3 g5 g6 g8
    obtain ⟨k1, k2, k3, k4, k5, k6⟩ := fadeStep_in (v := v) (u := u) (n := w.now) (d := p.1) (g1.trans hs) (g5.trans hla) g6 (h3 p (by simp))
    rw [g2, g3] at k1
    rw [g3] at k6
    split at k1
    · obtain ⟨w', e1⟩ : ∃ w', sway c (fadeStep v u) ps = some w' := by
        clear ih h3 h4
        generalize fadeStep v u = y at k1 k2 k3
        have hy : y.ptr .hum = some u := by rw [k2]; exact f2
        have hyl : y.locked = false := k3.trans (g8.trans hlo)
        have hys := k1.1
        clear k1 k2 k3 k4 k5 k6
        induction ps generalizing y with
        | nil => exact ⟨y, rfl⟩
        | cons q qs ih =>
          rw [sway_cons]
          obtain ⟨v', f1', f2', f3'⟩ := motion_poly wf hm (w := { y with now := y.now + q.1 }) hy (by rw [show W.st { y with now := y.now + q.1 } = .on from hys]; rfl) hyl q.2
          rw [f3']
          obtain ⟨g1', _, _, _, _, _, _, g8'⟩ := f_eq f1'
          obtain ⟨a1, _, a3, a4⟩ := fadeStep_on (v := v') (u := u) (g1'.trans hys)
          exact ih _ (by rw [a3]; exact f2') (a4.trans (g8'.trans hyl)) a1
      have := sway_on wf hm ps (u := u) (by rw [k2]; exact f2) k1.1 (k3.trans (g8.trans hlo)) e1
      exact ⟨w', e1, this.1, this.2.trans k1.2⟩
    · rename_i hc
      refine ih (u := u) (by rw [k2]; exact f2) k1.1 (k3.trans (g8.trans hlo)) (by rw [k4, k5]) (by rw [k6]; exact h1) ?_ (fun q hq => h3 q (by simp [hq])) ?_
      · rw [k1.2]; exact lt_of_not_ge hc
      · rw [k1.2, k6]
        rw [total_cons] at h4
        have e1 : (1 - (w.vol + (p.1 : Rat) / w.inTime)) * w.inTime = (1 - w.vol) * w.inTime - (p.1 : Rat) := by
          have : (p.1 : Rat) / w.inTime * w.inTime = p.1 := div_mul_cancel₀ _ (ne_of_gt h1)
          linear_combination -this
        rw [e1]
        linarith

theorem fadeStep_out {v : W} {u n d : Nat} (h : v.st = .fadeOut) (hl : v.last = n % M) (hn : v.now = n + d) (hd : d < M) :
    (if v.vol - (d : Rat) / v.outTime ≤ 0 then (fadeStep v u).st = .off ∧ (fadeStep v u).ptr .hum = none ∧ ((fadeStep v u).pl u).fading = true
      else (fadeStep v u).st = .fadeOut ∧ (fadeStep v u).vol = v.vol - (d : Rat) / v.outTime ∧ (fadeStep v u).ptr = v.ptr ∧ (fadeStep v u).locked = v.locked ∧
        (fadeStep v u).last = v.now % M ∧ (fadeStep v u).now = v.now ∧ (fadeStep v u).outTime = v.outTime) := by
  have hdel : (v.now % M + M - v.last) % M = d := by rw [hn]; exact delta_eq (by decide) hd hl
  unfold fadeStep
  simp only [h, hdel]
  by_cases hc : v.vol - (d : Rat) / v.outTime ≤ 0
  · simp only [if_pos hc]
    generalize v.now % M = m
    refine ⟨?_, ?_, ?_⟩
    · exact congrArg K.st (free_k _ .hum)
    · exact free_ptr _ .hum
    · have := congrFun (free_sv (fade { v with vol := 0, st := .off, last := m } u) .hum) u
      rw [fade_sv, setSV_at] at this
      exact congrArg SV.fading this
  · simp only [if_neg hc]; exact ⟨trivial, trivial, trivial, trivial, trivial, trivial, trivial⟩

/-- with everything off, motion does nothing -/
theorem sway_off {c : Cfg} (ps : List (Nat × Swing)) : ∀ {w : W}, w.st = .off → ∃ w', sway c w ps = some w' ∧ w'.st = .off ∧ w'.pl = w.pl ∧ w'.ptr = w.ptr := by
  induction ps with
  | nil => intro w h; exact ⟨w, rfl, h, rfl, rfl⟩
  | cons p ps ih =>
    intro w h
    rw [sway_cons]
    have : motion c { w with now := w.now + p.1 } p.2 = some { w with now := w.now + p.1 } := by
      unfold motion
      rw [if_neg (by simp [h, active])]
    rw [this]
    obtain ⟨w', h1, h2, h3, h4⟩ := ih (w := { w with now := w.now + p.1 }) h
    exact ⟨w', h1, h2, h3, h4⟩

/-- **C94, the hum goes.**  From the moment the fade out has begun, once the time for it has passed, the font is off, has let go of the player, and the player is fading -/
theorem C94_fade_out {c : Cfg} (wf : WF c) (hm : c.mono = false) (ps : List (Nat × Swing)) : ∀ {w : W} {u : Nat}, w.ptr .hum = some u → w.st = .fadeOut →
    w.locked = false → w.last = w.now % M → 0 < w.outTime → (∀ p ∈ ps, p.1 < M) → ps ≠ [] → w.vol * w.outTime ≤ total ps →
    ∃ w', sway c w ps = some w' ∧ w'.st = .off ∧ w'.ptr .hum = none ∧ (w'.pl u).fading = true := by
  induction ps with
  | nil => intro w u _ _ _ _ _ _ h; exact absurd rfl h
  | cons p ps ih =>
    intro w u hu hs hlo hla h1 h3 _ h4
    rw [sway_cons]
    obtain ⟨v, f1, f2, f3⟩ := motion_poly wf hm (w := { w with now := w.now + p.1 }) hu (by rw [show W.st { w with now := w.now + p.1 } = .fadeOut from hs]; rfl) hlo p.2
    rw [f3]
    simp only [Option.bind_some]
    obtain ⟨g1, g2, _, g3, g5, g6, _, g8⟩ := f_eq f1
    simp only at g1 g2 g3 g5 g6 g8
    have k1 := fadeStep_out (v := v) (u := u) (n := w.now) (d := p.1) (g1.trans hs) (g5.trans hla) g6 (h3 p (by simp))
    rw [g2, g3] at k1
    split at k1
    · obtain ⟨w', e1, e2, e3, e4⟩ := sway_off (c := c) ps k1.1
      exact ⟨w', e1, e2, by rw [e4]; exact k1.2.1, by rw [e3]; exact k1.2.2⟩
    · rename_i hc
      obtain ⟨k1, k2, k3, k4, k5, k6, k7⟩ := k1
      have hpos : 0 < w.vol - (p.1 : Rat) / w.outTime := lt_of_not_ge hc
      have e1 : (w.vol - (p.1 : Rat) / w.outTime) * w.outTime = w.vol * w.outTime - (p.1 : Rat) := by
        have : (p.1 : Rat) / w.outTime * w.outTime = p.1 := div_mul_cancel₀ _ (ne_of_gt h1)
        linear_combination -this
      have h5 : (0 : Rat) < (w.vol - (p.1 : Rat) / w.outTime) * w.outTime := mul_pos hpos h1
      rw [total_cons] at h4
      refine ih (u := u) (by rw [k3]; exact f2) k1 (k4.trans (g8.trans hlo)) (by rw [k5, k6]) (by rw [k7]; exact h1) (fun q hq => h3 q (by simp [hq])) ?_ ?_
      · intro e
        subst e
        have e2 : total [] = 0 := rfl
        rw [e2] at h4
        linarith
      · rw [k2, k7, e1]
        linarith

/-! ## The volume -/

/-- the numbers the volume depends on -/
def W.g (w : W) : Rat × Rat × Rat := (w.vol, w.inTime, w.outTime)

theorem subRef_g (w : W) (o : Option Nat) : (subRef w o).g = w.g := by cases o <;> rfl
theorem addRef_g (w : W) (o : Option Nat) : (addRef w o).g = w.g := by cases o <;> rfl
theorem free_g (w : W) (s : Slot) : (free w s).g = w.g := subRef_g w (w.ptr s)
theorem assign_g (w : W) (s : Slot) (o : Option Nat) : (assign w s o).g = w.g := by
  unfold assign; split
  · rfl
  · rw [addRef_g]; exact free_g w s

theorem take_g (c : Cfg) (w : W) : (take c w).1.g = w.g := by
  unfold take; split <;> rfl

theorem getNextHum_g (c : Cfg) (w : W) : (getNextHum c w).g = w.g := by
  unfold getNextHum; split
  · rfl
  · simp only; rw [subRef_g, assign_g, take_g]

theorem swapHum_g (w : W) : (swapHum w).g = w.g := by
  unfold swapHum
  simp only
  rw [free_g, assign_g]
  split
  · rw [free_g]; rfl
  · rfl

theorem playMono_g {c : Cfg} {w w' : W} {s has l} (e : playMono c w s has l = some w') : w'.g = w.g := by
  unfold playMono at e
  simp only at e
  split at e
  · simp at e; rw [← e]; exact getNextHum_g c w
  · split at e
    · split at e
      · simp at e; rw [← e]; exact (swapHum_g _).trans (getNextHum_g c w)
      · simp at e; rw [← e]; exact (swapHum_g _).trans (getNextHum_g c w)
    · simp at e

theorem playPoly_g (c : Cfg) (w : W) (s : Snd) (has : Bool) : (playPoly c w s has).1.g = w.g := by
  rcases playPoly_cases c w s has with e | ⟨u, _, _, e⟩
  · rw [e]
  · rw [e]; rfl

theorem playPoly'_g (c : Cfg) (w : W) (s : Snd) (has : Bool) : (playPoly' c w s has).g = w.g := by
  unfold playPoly'
  simp only
  rw [subRef_g, playPoly_g]

theorem startHum_g {c : Cfg} {w w' : W} (e : startHum c w = some w') : w'.g = w.g := by
  unfold startHum at e
  split at e
  · simp at e; rw [← e]
  · simp only at e
    split at e
    · simp at e; rw [← e, subRef_g, assign_g, take_g]
    · split at e
      · simp at e
        rw [← e]
        show (subRef _ _).g = _
        rw [subRef_g, assign_g, take_g]
      · simp at e

theorem endSwing_g (w : W) : (endSwing w).g = w.g := by
  unfold endSwing; split
  · rw [free_g]; rfl
  · rfl

/-- the volume is between nothing and full -/
def VolOk (w : W) : Prop := 0 ≤ w.vol ∧ w.vol ≤ 1 ∧ 0 ≤ w.inTime ∧ 0 ≤ w.outTime

theorem VolOk.of {v w : W} (h : VolOk w) (e : v.g = w.g) : VolOk v := by
  unfold W.g at e
  simp only [Prod.mk.injEq] at e
  unfold VolOk
  rw [e.1, e.2.1, e.2.2]
  exact h

theorem vol_fadeStep {w : W} (h : VolOk w) (u : Nat) : VolOk (fadeStep w u) := by
  obtain ⟨h1, h2, h3, h4⟩ := h
  unfold fadeStep
  simp only
  generalize w.now % M = m
  have hd : (0 : Rat) ≤ ((((m + M - w.last) % M : Nat) : Rat)) := by exact_mod_cast Nat.zero_le _
  generalize ((((m + M - w.last) % M : Nat) : Rat)) = d at hd
  have k : ∀ (x : Rat) (s : St) (l : Nat), 0 ≤ x → x ≤ 1 → VolOk { w with vol := x, st := s, last := l } := fun x s l a b => ⟨a, b, h3, h4⟩
  have hi : 0 ≤ d / w.inTime := div_nonneg hd h3
  have ho : 0 ≤ d / w.outTime := div_nonneg hd h4
  cases w.st with
  | off => exact k 0 _ w.last (le_refl _) zero_le_one
  | wait => exact k 0 _ w.last (le_refl _) zero_le_one
  | out => exact k 0 _ m (le_refl _) zero_le_one
  | fadeIn =>
    simp only
    split
    · exact k 1 .on m zero_le_one (le_refl _)
    · rename_i hc
      exact k _ .fadeIn m (by linarith) (le_of_lt (lt_of_not_ge hc))
  | on => exact k w.vol .on m h1 h2
  | fadeOut =>
    simp only
    split
    · exact (k 0 .off m (le_refl _) zero_le_one).of (free_g _ _)
    · rename_i hc
      exact k _ .fadeOut m (le_of_lt (lt_of_not_ge hc)) (by linarith)

theorem vol_setHum {c : Cfg} {w w' : W} (h : VolOk w) (e : setHum c w = some w') : VolOk w' := by
  unfold setHum at e
  split at e
  · simp at e; rw [← e]; exact h
  · simp only at e
    rw [Option.map_eq_some_iff] at e
    obtain ⟨v, e, e2⟩ := e
    have hv : VolOk v := by
      split at e
      · exact h.of (startHum_g e)
      · simp at e; rw [← e]; exact h
    rw [← e2]
    split
    · exact hv
    · apply vol_fadeStep
      generalize v.now / 1000 % M = q
      split
      · exact hv
      · exact hv

theorem polySwing_g (c : Cfg) (w : W) (i : Swing) : (polySwing c w i).g = w.g := by
  have h := (polySwing_f c w i).1
  unfold W.f at h
  simp only [Prod.mk.injEq] at h
  unfold W.g
  rw [h.2.1, h.2.2.1, h.2.2.2.1]

theorem swingVolume_g (w : W) : (swingVolume w).g = w.g := by
  have h := (swingVolume_f w).1
  unfold W.f at h
  simp only [Prod.mk.injEq] at h
  unfold W.g
  rw [h.2.1, h.2.2.1, h.2.2.2.1]

theorem vol_motion {c : Cfg} {w w' : W} {i} (h : VolOk w) (e : motion c w i = some w') : VolOk w' := by
  unfold motion at e
  split at e
  · unfold startSwing at e
    simp only at e
    rw [Option.bind_eq_some_iff] at e
    obtain ⟨v, e, e2⟩ := e
    refine vol_setHum ?_ e2
    split at e
    · rw [Option.map_eq_some_iff] at e
      obtain ⟨y, e, e3⟩ := e
      rw [← e3]
      refine VolOk.of ?_ (swingVolume_g y)
      split at e
      · simp at e; rw [← e]; exact h.of (polySwing_g c w i)
      · split at e
        · simp at e; rw [← e]; exact h
        · rw [Option.map_eq_some_iff] at e
          obtain ⟨z, e, e4⟩ := e
          rw [← e4]
          have : VolOk z := h.of (playMono_g e)
          exact this
    · split at e
      · simp only [Option.some.injEq] at e
        rw [← e]
        have : VolOk (free w .swing) := h.of (free_g w .swing)
        exact this
      · simp at e; rw [← e]; exact h
  · simp at e; rw [← e]; exact h

theorem vol_sbOn {c : Cfg} {w w' : W} {has t d} (h : VolOk w) (ht : 0 ≤ t) (e : sbOn c w has t d = some w') : VolOk w' := by
  unfold sbOn at e
  simp only at e
  split at e
  · rw [Option.map_eq_some_iff] at e
    obtain ⟨v, e, e2⟩ := e
    have hv : VolOk v := by
      split at e
      · simp at e; rw [← e]; exact h
      · have h0 : VolOk { w with lit := true } := h
        exact h0.of (playMono_g e)
    rw [← e2]; exact hv
  · rw [Option.map_eq_some_iff] at e
    obtain ⟨v, e, e2⟩ := e
    have h0 : VolOk { w with lit := true, st := .out } := h
    have hv : VolOk v := h0.of (startHum_g e)
    have hv2 : ∀ z : W, VolOk z → ∀ q, VolOk { z with inTime := t, humStart := q } := fun z hz q => ⟨hz.1, hz.2.1, ht, hz.2.2.2⟩
    rw [← e2]
    apply hv2
    split
    · exact hv
    · exact hv.of (playPoly'_g c v .out has)

theorem vol_retract {c : Cfg} {w w' : W} {fast most t} (h : VolOk w) (ht : 0 ≤ t) (e : retract c w fast most t = some w') : VolOk w' := by
  unfold retract at e
  simp only at e
  rw [Option.map_eq_some_iff] at e
  obtain ⟨v, e, e2⟩ := e
  have hset : ∀ z : W, VolOk z → ∀ q : Rat, 0 ≤ q → VolOk { z with outTime := q } := fun z hz q hq => ⟨hz.1, hz.2.1, hz.2.2.1, hq⟩
  have h0 : ∀ s : St, VolOk { w with st := s } := fun _ => h
  have hv : VolOk v := by
    split at e
    · simp only [Option.some.injEq] at e
      rw [← e]
      exact hset _ ((h0 .fadeOut).of (playPoly'_g _ _ _ _)) _ (by decide)
    · split at e
      · split at e
        · rw [Option.map_eq_some_iff] at e
          obtain ⟨z, e, e3⟩ := e
          rw [← e3]
          exact hset _ ((h0 .off).of (playMono_g e)) _ ht
        · simp only [Option.some.injEq] at e
          rw [← e]
          exact hset _ ((h0 .fadeOut).of (playPoly'_g _ _ _ _)) _ ht
      · split at e
        · split at e
          · simp at e
          · simp only [Option.some.injEq] at e
            rw [← e]
            exact (h0 .off).of (free_g _ _)
        · simp only [Option.some.injEq] at e
          rw [← e]
          exact hset _ (h0 .fadeOut) _ (by decide)
  rw [← e2]
  split
  · exact hv
  · exact hv

theorem vol_sbOff {c : Cfg} {w w' : W} {o most all has t} (h : VolOk w) (ht : 0 ≤ t) (e : sbOff c w o most all has t = some w') : VolOk w' := by
  unfold sbOff at e
  simp only at e
  rw [Option.map_eq_some_iff] at e
  obtain ⟨v, e, e2⟩ := e
  rw [← e2]
  refine VolOk.of ?_ (endSwing_g v)
  have h0 : ∀ (f : Snd → Option Snd) (l : Bool) (s : St), VolOk { w with fol := f, lit := l, st := s } := fun _ _ _ => h
  unfold offCase at e
  cases o with
  | cancel => simp only [Option.some.injEq] at e; rw [← e]; exact h
  | idle => simp only [Option.some.injEq] at e; rw [← e]; exact h
  | normal => exact vol_retract (h0 _ _ w.st) ht e
  | fast => exact vol_retract (h0 _ _ w.st) ht e
  | blast =>
    simp only at e
    split at e
    · exact VolOk.of (h0 _ _ w.st) (playMono_g e)
    · simp only [Option.some.injEq] at e
      rw [← e]
      exact VolOk.of (h0 _ _ .fadeOut) (playPoly'_g _ _ _ _)

/-- the times given with an event are not negative -/
def Timely : Ev → Prop
  | .on _ t _ => 0 ≤ t
  | .loop _ t _ => 0 ≤ t
  | .off _ _ _ _ t => 0 ≤ t
  | _ => True

theorem vol_step {c : Cfg} {w w' : W} {x : Ev} (h : VolOk w) (ht : Timely x) (e : step c w x = some w') : VolOk w' := by
  cases x with
  | preon =>
    simp only [step, Option.some.injEq] at e
    rw [← e]
    unfold preon
    have key : ∀ z : W, VolOk z → VolOk { z with st := .wait } := fun _ hz => hz
    apply key
    split
    · simp only
      refine VolOk.of ?_ (subRef_g _ _)
      have h1 : VolOk (playPoly c { w with fol := fun s => if s = .preon then some .out else w.fol s } .preon true).1 := VolOk.of h (playPoly_g _ _ _ _)
      split
      · exact VolOk.of h1 (assign_g _ _ _)
      · exact h1
    · exact h
  | on has t d => exact vol_sbOn h ht e
  | off o most all has t => exact vol_sbOff h ht e
  | effect m has =>
    simp only [step, effect] at e
    split at e
    · exact h.of (playMono_g e)
    · simp only [Option.some.injEq] at e; rw [← e]; exact h.of (playPoly'_g _ _ _ _)
  | beginLockup has =>
    simp only [step, beginLockup] at e
    have h0 : VolOk { w with locked := true } := h
    split at e
    · exact h0.of (playMono_g e)
    · split at e
      · simp only [Option.some.injEq] at e; rw [← e]; exact h0
      · split at e
        · simp only [Option.some.injEq] at e; rw [← e]; exact h0.of (by rw [subRef_g, assign_g, playPoly_g])
        · simp only [Option.some.injEq] at e; rw [← e]
          refine h0.of ?_
          show (subRef _ _).g = _
          rw [subRef_g, assign_g, playPoly_g]
  | endLockup has =>
    simp only [step, endLockup] at e
    have h0 : VolOk { w with locked := false } := h
    split at e
    · simp only [Option.some.injEq] at e; rw [← e]
      refine h0.of ?_
      rw [free_g]
      exact playPoly'_g _ _ _ _
    · split at e
      · exact h0.of (playMono_g e)
      · simp only [Option.some.injEq] at e; rw [← e]; exact h0
  | motion i => exact vol_motion h e
  | loop has t d =>
    simp only [step, loop] at e
    split at e
    · exact vol_sbOn (w := { w with log := .turnOn :: w.log }) h ht e
    · split at e
      · simp only [Option.some.injEq] at e; rw [← e]; exact h
      · simp only [Option.some.injEq] at e; rw [← e]; exact h
  | finish u => simp only [step, Option.some.injEq] at e; rw [← e]; exact h
  | stopped u =>
    simp only [step, Option.some.injEq, stopped] at e
    rw [← e]
    split
    · exact h
    · exact h
  | take =>
    simp only [step, Option.some.injEq, other] at e
    have h1 : VolOk (playPoly c w .fx true).1 := h.of (playPoly_g _ _ _ _)
    rw [← e]
    split
    · exact h1
    · exact h1
  | drop u =>
    simp only [step, Option.some.injEq, dropExt] at e
    rw [← e]
    split
    · exact h
    · have h1 : VolOk (subRef w (some u)) := h.of (subRef_g _ _)
      exact h1
  | tick d => simp only [step, Option.some.injEq] at e; rw [← e]; exact h

theorem vol_run {c : Cfg} (es : List Ev) : ∀ {w w' : W}, VolOk w → (∀ x ∈ es, Timely x) → run c w es = some w' → VolOk w' := by
  induction es with
  | nil => intro w w' h _ e; simp [run] at e; rw [← e]; exact h
  | cons x xs ih =>
    intro w w' h ht e
    unfold run at e
    rw [Option.bind_eq_some_iff] at e
    obtain ⟨v, e1, e2⟩ := e
    exact ih (vol_step h (ht x (by simp)) e1) (fun y hy => ht y (by simp [hy])) e2

/-- **C94.** Whatever has happened, the volume of the hum is between nothing and full -/
theorem C94_volume {c : Cfg} {now : Nat} {es : List Ev} {w : W} (ht : ∀ x ∈ es, Timely x) (e : run c (boot now) es = some w) : 0 ≤ w.vol ∧ w.vol ≤ 1 := by
  have h0 : VolOk (boot now) := ⟨le_refl _, zero_le_one, show (0 : Rat) ≤ 200000 by decide, show (0 : Rat) ≤ 200000 by decide⟩
  have := vol_run es h0 ht e
  exact ⟨this.1, this.2.1⟩

/-- **C94, silence.**  A saber with a polyphonic font that is off and fading out is silent once the time for it has passed: no player that is heard comes to an endless sound -/
theorem C94_silence_partial {c : Cfg} (wf : WF c) (hm : c.mono = false) {now : Nat} {es : List Ev} {w : W} (hf : Fits c (boot now) es)
    (e : run c (boot now) es = some w) (hs : w.st = .fadeOut) (hla : w.last = w.now % M) (ho : 0 < w.outTime) (ps : List (Nat × Swing)) (hd : ∀ p ∈ ps, p.1 < M)
    (hne : ps ≠ []) (ht : w.vol * w.outTime ≤ total ps) :
    ∃ w', sway c w ps = some w' ∧ w'.st = .off ∧ ∀ u n, (w'.pl u).fading = false → ¬ endless ((ends c w' u n).pl u).cur := by
  have hok := ok_run wf es (bal_boot now) (ok_boot c now) hf e
  have hb := bal_run es (bal_boot now) e
  have hl : w.lit = false := by
    cases hl : w.lit with
    | false => rfl
    | true => have := hok.lit hl; rw [show w.k.st = .fadeOut from hs] at this; simp at this
  obtain ⟨u, hu⟩ : ∃ u, w.ptr .hum = some u := by
    cases hp : w.ptr .hum with
    | none => exact absurd hp (hok.hum (Or.inr (Or.inl hs)))
    | some u => exact ⟨u, rfl⟩
  obtain ⟨w', e1, e2, _, _⟩ := C94_fade_out wf hm ps hu hs (unlocked_of hok hl) hla ho hd hne ht
  refine ⟨w', e1, e2, ?_⟩
  have hfit : ∀ (qs : List (Nat × Swing)) (v : W), Fits c v (qs.flatMap fun p => [.tick p.1, .motion p.2]) := by
    intro qs
    induction qs with
    | nil => intro v; trivial
    | cons q qs ih => intro v; exact ⟨trivial, fun v' _ => ⟨trivial, fun v'' _ => ih v''⟩⟩
  have hok' : Ok c w' := ok_run wf _ hb hok (hfit ps w) e1
  intro x n hx he
  have hq := hok'.quiet x (loud_of_endless wf hok' hx he)
  have k1 : w'.k.st = .off := e2
  have k2 : w'.k.lit = false := by
    cases hl' : w'.k.lit with
    | false => rfl
    | true => have := hok'.lit hl'; rw [k1] at this; simp at this
  simp [k1, k2] at hq

/-! ## What happens otherwise -/

/-- a polyphonic font: hum, in, out, pre-on -/
def poly : Cfg := ⟨6, false, false, fun s => s == .hum || s == .inn || s == .out || s == .preon, false, false⟩

/-- a monophonic font: hum, power on, power off, pre-on -/
def monoF : Cfg := ⟨6, true, true, fun s => s == .hum || s == .out || s == .poweroff || s == .preon, false, false⟩

/-- player `u` plays, is heard, and will play the hum after `n` files -/
def hums (c : Cfg) (w : W) (u n : Nat) : Bool := !(w.pl u).fading && ((ends c w u n).pl u).cur == some .hum

/-- the hum of a saber whose blades are off, with nothing that would end it: the font thinks it is off -/
def ghost (c : Cfg) (u n : Nat) (es : List Ev) : Bool :=
  match run c (boot 0) es with
  | some w => !w.lit && w.st == .off && hums c w u n
  | none => false

/-- With a monophonic font, turning off during the pre-on leaves the pre-on sound, and it goes on to the power on sound and the hum, for ever -/
theorem C94_cancel_counterexample : ghost monoF 0 2 [.preon, .off .cancel true true true 0] = true := by decide +kernel

/-- With a monophonic font, an effect that is played in place of the hum while the saber is off is followed by the hum -/
theorem C94_effect_counterexample : ghost monoF 0 1 [.effect true true] = true := by decide +kernel

/-- With a monophonic font and no free player, turning off leaves the hum -/
theorem C94_players_counterexample :
    ghost { monoF with n := 2 } 0 1 [.on true 0 0, .take, .off .normal true true true 0] = true := by decide +kernel

/-- With a polyphonic font, pre-on during the fade out of the hum, and turning off before the pre-on is over, leaves the hum -/
theorem C94_preon_counterexample : ghost poly 0 1 [.on true 0 0, .off .normal true true true 0, .preon, .off .cancel true true true 0] = true := by
  decide +kernel

/-- Turning off the only blade that is on, when that is not the main blade, leaves the hum: the font stays on -/
theorem C94_blade_counterexample :
    (match run poly (boot 0) [.on true 0 0, .off .normal false true true 0] with
    | some w => !w.lit && w.st == .on && hums poly w 0 1
    | none => false) = true := by decide +kernel

/-- With a monophonic font, turning off one of two blades ends the hum -/
theorem C94_other_blade_counterexample :
    (match run monoF (boot 0) [.on true 0 0, .off .normal true false true 0] with
    | some w => w.lit && (List.range 6).all fun u => (w.pl u).fading || ((ends monoF w u 2).pl u).cur == none
    | none => false) = true := by decide +kernel

/-- With a monophonic font, a saber turned off by a blast still starts swings, and the hum with them -/
theorem C94_blast_counterexample :
    (match run monoF (boot 0) [.on true 0 0, .off .blast true true true 0, .motion ⟨true, false, false, true⟩] with
    | some w => !w.lit && hums monoF w 2 1
    | none => false) = true := by decide +kernel

/-- Turning on again before the retraction sound is over: "post off" is announced while the saber is on -/
theorem C94_postoff_counterexample :
    (match run { poly with has := fun s => poly.has s || s == .pstoff } (boot 0)
        [.on true 0 0, .off .normal true true true 0, .on true 0 0, .finish 2, .loop true 0 0] with
    | some w => w.lit && w.log == [.postOff]
    | none => false) = true := by decide +kernel

/-- A font without a hum crashes when the saber is turned on -/
theorem C94_nohum_counterexample : (run { poly with has := fun s => s == .out } (boot 0) [.on true 0 0]).isNone = true := by decide +kernel

theorem wf_poly : WF poly := ⟨rfl, fun h => by simp [poly] at h, fun h => by simp [poly] at h, fun h => by simp [poly] at h, fun h => by simp [poly] at h⟩

theorem wf_mono : WF monoF := ⟨rfl, fun _ => rfl, fun _ => rfl, fun h => by simp [monoF] at h, fun _ => rfl⟩

/-- on, fade in, lockup, a swing, off, fading out: everything fits, and one player hums until the end -/
def evening : List Ev :=
  [.preon, .finish 0, .loop true 200000 0, .tick 1000, .motion ⟨true, false, false, true⟩, .tick 300000, .motion ⟨false, true, false, true⟩, .finish 1, .finish 1,
   .beginLockup true, .endLockup true]

def fitsB (c : Cfg) (w : W) : Ev → Bool
  | .preon => !w.lit && w.st == .off && (freeOne c w).isSome
  | .on _ _ _ => (freeOne c w).isSome
  | .loop _ _ _ => (freeOne c w).isSome
  | .off o most all _ _ =>
    match o with
    | .cancel => w.st == .wait && (!c.mono || !c.has .preon)
    | .idle => true
    | .blast => !c.mono && all && w.lit && !w.locked
    | _ => (all == most) && (!c.mono || all) && w.lit && !w.locked && (freeOne c w).isSome
  | .effect m _ => !m || w.lit
  | .beginLockup _ => w.lit
  | .endLockup _ => w.locked && (freeOne c w).isSome
  | _ => true

theorem fit_of (c : Cfg) (w : W) (e : Ev) (h : fitsB c w e = true) : Fit c w e := by
  cases e with
  | off o most all has t => cases o <;> simp [fitsB, Fit] at h ⊢ <;> (try cases hm : c.mono) <;> simp_all [Option.isSome_iff_ne_none] <;>
      (obtain ⟨⟨⟨⟨a, b⟩, _⟩, _⟩, _⟩ := h; rw [← a]; exact b)
  | effect m has => cases m <;> simp_all [fitsB, Fit]
  | _ => simp_all [fitsB, Fit, Option.isSome_iff_ne_none]

def allFit (c : Cfg) : W → List Ev → Bool
  | _, [] => true
  | w, e :: es => fitsB c w e && (match step c w e with | some w' => allFit c w' es | none => true)

theorem fits_of (c : Cfg) (es : List Ev) : ∀ w, allFit c w es = true → Fits c w es := by
  induction es with
  | nil => intro w _; trivial
  | cons e es ih =>
    intro w h
    unfold allFit at h
    simp only [Bool.and_eq_true] at h
    refine ⟨fit_of c w e h.1, ?_⟩
    intro w' hw
    have h2 := h.2
    rw [hw] at h2
    exact ih w' h2

/-- the hypotheses are met: a whole evening with a polyphonic font, in the end one player hums and no other -/
example : allFit poly (boot 0) evening = true ∧
    (match run poly (boot 0) evening with
    | some w => w.lit && hums poly w 1 2 && w.st == .on && decide (w.vol = 1) && ((List.range 6).filter fun u => hums poly w u 2) == [1]
    | none => false) = true := by decide +kernel

/-- ... and with a monophonic one -/
example : allFit monoF (boot 0) [.preon, .finish 0, .loop true 0 0, .motion ⟨true, false, false, true⟩, .finish 1, .effect true true, .off .normal true true true 0] = true ∧
    (match run monoF (boot 0) [.preon, .finish 0, .loop true 0 0, .motion ⟨true, false, false, true⟩, .finish 1, .effect true true] with
    | some w => w.lit && ((List.range 6).filter fun u => hums monoF w u 2) == [2]
    | none => false) = true := by decide +kernel

/-- turned off, the hum fades for a fifth of a second, and there is silence -/
example : allFit poly (boot 0) (evening ++ [.off .normal true true true 0]) = true ∧
    (match run poly (boot 0) (evening ++ [.off .normal true true true 0]) with
    | some w => w.st == .fadeOut && decide (w.vol = 1 ∧ w.outTime = 200000 ∧ w.last = w.now % M) &&
      (match sway poly w [(100000, ⟨false, false, false, true⟩), (100000, ⟨false, false, false, true⟩)] with
      | some w' => w'.st == .off && ((List.range 6).filter fun u => hums poly w' u 2) == []
      | none => false)
    | none => false) = true := by decide +kernel

end Verif.Font
