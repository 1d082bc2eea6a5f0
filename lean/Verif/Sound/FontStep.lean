import Verif.Sound.FontInv
/-! Every event preserves the invariant behind C94 -/
namespace Verif.Font

abbrev Ok (c : Cfg) (w : W) : Prop := Inv c w.sv w.ptr w.k

/-- What the rest of the program must keep to (see DESIGN.md for what happens otherwise): a pre-on begins only when everything is off and the font has
finished fading; cancelling only cancels a pre-on; the main blade is turned off together with the others; a lockup is ended before; effects that
replace the hum are for a saber that is on; and when the saber is turned on or off or a lockup ends a player is free -/
def Fit (c : Cfg) (w : W) : Ev → Prop
  | .preon => w.lit = false ∧ w.st = .off ∧ freeOne c w ≠ none
  | .on _ _ _ => freeOne c w ≠ none
  | .loop _ _ _ => freeOne c w ≠ none
  | .off o most all _ _ =>
    match o with
    | .cancel => w.st = .wait ∧ (c.mono = true → c.has .preon = false)
    | .idle => True
    | .blast => c.mono = false ∧ all = true ∧ w.lit = true ∧ w.locked = false
    | _ => all = most ∧ (c.mono = true → all = true) ∧ w.lit = true ∧ w.locked = false ∧ freeOne c w ≠ none
  | .effect m _ => m = true → w.lit = true
  | .beginLockup _ => w.lit = true
  | .endLockup _ => w.locked = true ∧ freeOne c w ≠ none
  | _ => True

theorem getNextHum_none {c : Cfg} {w : W} (hf : freeOne c w = none) (hn : w.ptr .next = none) : getNextHum c w = w := by
  unfold getNextHum
  rw [hn]
  simp only [take_none hf]
  unfold assign
  rw [if_pos hn.symm]; rfl

theorem playMono_none {c : Cfg} {w : W} {s : Snd} {has : Bool} {l : Option Snd} (hf : freeOne c w = none) (hn : w.ptr .next = none) :
    playMono c w s has l = some w := by
  unfold playMono
  rw [getNextHum_none hf hn]
  simp only [hn]

theorem fx_quiet {f : Snd → Option Snd} (h : f .fx = none) : ¬ Loud f ⟨some .fx, f .fx, false⟩ := by
  rw [h]; simp [Loud, leads]

theorem fx_nxt {f : Snd → Option Snd} (h : f .fx = none) : NxtOk f ⟨some .fx, f .fx, false⟩ := fun _ => Or.inl h

theorem ok_polyFx {c : Cfg} {w : W} (hb : Bal w Z) (h : Ok c w) (has : Bool) : Ok c (playPoly' c w .fx has) :=
  inv_played hb h (playPoly'_spec c w .fx has) (fx_quiet h.fol.fx) (fx_nxt h.fol.fx)

/-- an effect in place of the hum, while a blade is on -/
theorem ok_monoFx {c : Cfg} {w w' : W} {has} (hb : Bal w Z) (h : Ok c w) (hl : w.lit = true) (e : playMono c w .fx has (some .hum) = some w') : Ok c w' := by
  cases hf : freeOne c w with
  | none =>
    rw [playMono_none hf h.next] at e
    simp at e; subst e; exact h
  | some u =>
    obtain ⟨h1, h2, h3⟩ := playMono_spec hb hf h.next e
    show Inv c w'.sv w'.ptr w'.k
    rw [h1, h2, h3]
    have hst := h.lit hl
    refine h.mono (fresh_of_free hb hf).1 _ w.k rfl ⟨by simp, rfl, Or.inl rfl⟩ (fun _ => Or.inr (Or.inl rfl)) hl hst ?_ fun e => (h.lock e).1
    intro hm
    rcases h.monoSt hm with e | e | e
    · rw [e] at hst; simp at hst
    · rw [e] at hst; simp at hst
    · exact e

theorem ok_effect {c : Cfg} {w w' : W} {m has} (hb : Bal w Z) (h : Ok c w) (hf : m = true → w.lit = true) (e : effect c w m has = some w') : Ok c w' := by
  unfold effect at e
  cases m with
  | false => simp at e; subst e; exact ok_polyFx hb h has
  | true => simp at e; exact ok_monoFx hb h (hf rfl) e

theorem ok_finish {c : Cfg} {w : W} (wf : WF c) (h : Ok c w) (u : Nat) : Ok c (finish c w u) := by
  show Inv c (finish c w u).sv w.ptr w.k
  unfold finish
  rw [mod_sv]
  have hn := h.nxt u
  have hfo := h.fol
  rcases hp : w.pl u with ⟨r, cur, nxt, fd⟩
  have hsv : w.sv u = ⟨cur, nxt, fd⟩ := by unfold W.sv; rw [hp]; rfl
  rw [hsv] at hn
  apply h.one u
  · rw [hsv]
    intro hl
    cases cur with
    | none => simp [Player.sv, Loud] at hl
    | some y =>
      cases nxt with
      | none => simp [Player.sv, Loud] at hl
      | some s =>
        by_cases hs : c.has s
        · simp [hs, Player.sv] at hl
          obtain ⟨_, h2, h3⟩ := hl
          refine ⟨by simp, h2, Or.inr (Or.inr ?_)⟩
          rcases hn (by simp) with e | e | e | e | ⟨e, e2⟩ <;> simp at e
          · subst e; exact Or.inl rfl
          · subst e; exact Or.inr (Or.inl rfl)
          · subst e
            rw [show w.fol .pstoff = none from hfo.pstoff] at h3
            simp [leads] at h3
          · subst e
            refine Or.inr (Or.inr ⟨rfl, ?_⟩)
            rcases hfo.out with e3 | e3
            · rw [show w.fol .out = none from e3] at h3
              simp [leads] at h3
            · exact e3
        · simp [hs, Player.sv, Loud] at hl
  · rw [hsv]
    intro hs
    obtain ⟨h1, h2, h3⟩ := hs
    cases cur with
    | none => exact absurd rfl h1
    | some y =>
      simp only at h2 h3
      subst h2
      rcases h3 with e | ⟨e, e2, e3, e4⟩ | ⟨e, e2⟩ <;> subst e
      · simp only [wf.hum, if_true, Player.sv]
        exact ⟨by simp, rfl, Or.inl hfo.hum⟩
      · simp only [wf.lock e3, if_true, Player.sv]
        exact ⟨by simp, rfl, Or.inr (Or.inl ⟨hfo.lock, e2, e3, e4⟩)⟩
      · have hm : c.mono = true := by
          cases hm : c.mono with
          | true => rfl
          | false => rw [hfo.poly hm] at e2; simp at e2
        simp only [wf.out hm, if_true, Player.sv]
        exact ⟨by simp, rfl, Or.inl e2⟩
  · cases cur with
    | none => intro hc; simp [Player.sv] at hc
    | some y =>
      cases nxt with
      | none => intro hc; simp [Player.sv] at hc
      | some s =>
        by_cases hs : c.has s
        · simp only [hs, if_true, Player.sv]
          intro _
          rcases hn (by simp) with e | e | e | e | ⟨e, e2⟩ <;> simp at e
          · subst e; exact Or.inr (Or.inl hfo.hum)
          · subst e; exact Or.inr (Or.inr (Or.inl hfo.lock))
          · subst e; exact Or.inl hfo.pstoff
          · subst e
            rcases hfo.out with e3 | e3
            · exact Or.inl e3
            · exact Or.inr (Or.inl e3)
        · intro hc; simp [hs, Player.sv] at hc
  · rw [hsv]
    intro hc hn
    simp only at hn
    subst hn
    simp [Player.sv] at hc

theorem ok_stopped {c : Cfg} {w : W} (h : Ok c w) (u : Nat) : Ok c (stopped w u) := by
  unfold stopped
  split
  · rename_i hf
    show Inv c (W.mod w u _).sv w.ptr w.k
    rw [mod_sv]
    apply h.one u
    · intro hl; simp [Player.sv, Loud] at hl
    · intro hs
      have : (w.sv u).fading = false := hs.2.1
      rw [show (w.sv u).fading = (w.pl u).fading from rfl, hf] at this
      simp at this
    · intro hc; simp [Player.sv] at hc
    · intro hc; simp [Player.sv] at hc
  · exact h

theorem ok_other {c : Cfg} {w : W} (hb : Bal w Z) (h : Ok c w) : Ok c (other c w) := by
  unfold other
  rcases playPoly_cases c w .fx true with e | ⟨u, _, hf, e⟩ <;> rw [e]
  · exact h
  · show Inv c (playOnce (took w u) u .fx).sv w.ptr w.k
    rw [polyPlayed_sv]
    exact h.play (fresh_of_free hb hf).1 _ (fx_quiet h.fol.fx) (fx_nxt h.fol.fx)

theorem ok_dropExt {c : Cfg} {w : W} (h : Ok c w) (u : Nat) : Ok c (dropExt w u) := by
  unfold dropExt
  split
  · exact h
  · show Inv c (subRef w (some u)).sv (subRef w (some u)).ptr (subRef w (some u)).k
    rw [subRef_sv, subRef_ptr, subRef_k]; exact h

/-! ## Swings -/

theorem ok_overSwing {c : Cfg} {w : W} (h : Ok c w) (i : Swing) : Ok c (overSwing w i) := by
  unfold overSwing
  cases e : w.ptr .swing with
  | none => exact h
  | some u =>
    simp only
    split
    · show Inv c (free (fade w u) .swing).sv (free (fade w u) .swing).ptr (free (fade w u) .swing).k
      rw [free_sv, free_ptrs, free_k, fade_sv]
      exact (h.fade (fun e2 => h.hs u e2 e)).dropSwing
    · exact h

theorem ok_polySwing {c : Cfg} {w : W} (hb : Bal w Z) (h : Ok c w) (i : Swing) : Ok c (polySwing c w i) := by
  unfold polySwing
  have h1 := ok_overSwing h i
  have hb1 : Bal (overSwing w i) Z := bal_overSwing hb
  revert h1 hb1
  generalize overSwing w i = v
  intro h1 hb1
  simp only
  cases e : v.ptr .swing with
  | some u => exact h1
  | none =>
    simp only
    split
    · exact h1
    · show Inv c (subRef (assign (playPoly c v .fx i.has).1 .swing (playPoly c v .fx i.has).2) (playPoly c v .fx i.has).2).sv
        (subRef (assign (playPoly c v .fx i.has).1 .swing (playPoly c v .fx i.has).2) (playPoly c v .fx i.has).2).ptr
        (subRef (assign (playPoly c v .fx i.has).1 .swing (playPoly c v .fx i.has).2) (playPoly c v .fx i.has).2).k
      rw [subRef_sv, subRef_ptr, subRef_k, assign_sv, assign_ptrs, assign_k]
      rcases playPoly_cases c v .fx i.has with e2 | ⟨u, _, hf, e2⟩ <;> rw [e2] <;> simp only
      · exact h1.dropSwing
      · rw [polyPlayed_sv]
        exact (h1.play (fresh_of_free hb1 hf).1 _ (fx_quiet h1.fol.fx) (fx_nxt h1.fol.fx)).newSwing (fresh_of_free hb1 hf).1

theorem ok_freeSwing {c : Cfg} {w : W} (h : Ok c w) : Ok c (free w .swing) := by
  show Inv c (free w .swing).sv (free w .swing).ptr (free w .swing).k
  rw [free_sv, free_ptrs, free_k]
  exact h.dropSwing

theorem ok_swingVolume {c : Cfg} {w : W} (h : Ok c w) : Ok c (swingVolume w) := by
  unfold swingVolume
  cases e : w.ptr .swing with
  | none => exact h
  | some u =>
    simp only
    split
    · exact ok_freeSwing h
    · exact h

theorem ok_fields {c : Cfg} {w : W} (h : Ok c w) (a : Rat) (l : Nat) {s : St} (hs : w.st = s) : Ok c { w with vol := a, last := l, st := s } := by
  subst hs; exact h

theorem lit_of {c : Cfg} {w : W} (h : Ok c w) (hs : w.st = .out ∨ w.st = .fadeIn ∨ w.st = .on) : w.lit = true := by
  cases hl : w.lit with
  | true => rfl
  | false =>
    have := h.dark hl
    rw [show w.k.st = w.st from rfl] at this
    rcases hs with e | e | e <;> rw [e] at this <;> simp at this

/-- the hum of a blade that is on -/
theorem hum_of {c : Cfg} {w : W} (h : Ok c w) (hl : w.lit = true) : ∃ u, w.ptr .hum = some u ∧ Sounding c w.k (w.sv u) := by
  cases e : w.ptr .hum with
  | none => exact absurd e (h.hum (Or.inl hl))
  | some u => exact ⟨u, rfl, h.sound u e (Or.inl hl)⟩

theorem ok_st {c : Cfg} {w : W} (h : Ok c w) (hm : c.mono = false) (hs : w.st = .out ∨ w.st = .fadeIn ∨ w.st = .on) (a : Rat) (l : Nat) (s : St)
    (hs' : s = .out ∨ s = .fadeIn ∨ s = .on) : Ok c { w with vol := a, last := l, st := s } :=
  h.turnOn ⟨w.fol, s, w.lit, w.locked⟩ rfl (lit_of h hs) hs' (fun e => by rw [hm] at e; simp at e) rfl (hum_of h (lit_of h hs))

theorem ok_hush {c : Cfg} {w : W} (h : Ok c w) (k' : K) (hf : k'.fol = w.fol) (hl : k'.lit = false) (hst : k'.st = .off) (hlk : w.ptr .lock = none)
    (hlo : k'.locked = false) {v : W} {u : Nat} (hp : w.ptr .hum = some u) (hv : v.ptr = w.ptr) (hsv : v.sv = w.sv) (hk : v.k = k') :
    Ok c (free (fade v u) .hum) := by
  show Inv c (free (fade v u) .hum).sv (free (fade v u) .hum).ptr (free (fade v u) .hum).k
  rw [free_sv, free_ptrs, free_k, fade_sv]
  show Inv c (setSV v.sv u { v.sv u with fading := true }) (setPtr v.ptr .hum none) v.k
  rw [hv, hsv, hk]
  have := h.hush k' hf hl hst hlk hlo
  rw [hp] at this
  exact this

theorem ok_fadeStep {c : Cfg} {w : W} {u : Nat} (hm : c.mono = false) (h : Ok c w) (hu : w.ptr .hum = some u) : Ok c (fadeStep w u) := by
  unfold fadeStep
  simp only
  generalize w.now % M = m
  generalize ((((m + M - w.last) % M : Nat) : Rat)) = d
  cases hs : w.st with
  | off => exact ok_fields h 0 w.last hs
  | wait => exact ok_fields h 0 w.last hs
  | out =>
    simp only
    split
    · exact ok_st h hm (Or.inl hs) 0 m .fadeIn (Or.inr (Or.inl rfl))
    · exact ok_st h hm (Or.inl hs) 0 m .out (Or.inl rfl)
  | fadeIn =>
    simp only
    split
    · exact ok_st h hm (Or.inr (Or.inl hs)) 1 m .on (Or.inr (Or.inr rfl))
    · exact ok_fields h _ m hs
  | on => exact ok_fields h w.vol m hs
  | fadeOut =>
    simp only
    have hl : w.lit = false := by
      cases hl : w.lit with
      | false => rfl
      | true =>
        have := h.lit hl
        rw [show w.k.st = w.st from rfl, hs] at this
        simp at this
    have hlo : w.locked = false := by
      cases hlo : w.locked with
      | false => rfl
      | true => have := h.locked hlo; rw [show w.k.lit = w.lit from rfl, hl] at this; simp at this
    have hlk : w.ptr .lock = none := by
      cases e : w.ptr .lock with
      | none => rfl
      | some y =>
        have := (h.lock (by rw [e]; simp)).1
        rw [show w.k.locked = w.locked from rfl, hlo] at this
        simp at this
    split
    · exact ok_hush h ⟨w.fol, .off, w.lit, w.locked⟩ rfl hl rfl hlk hlo hu rfl rfl rfl
    · exact ok_fields h _ m hs

theorem ok_setHum {c : Cfg} {w w' : W} (h : Ok c w) (e : setHum c w = some w') : Ok c w' := by
  unfold setHum at e
  cases hm : c.mono with
  | true => rw [hm] at e; simp at e; subst e; exact h
  | false =>
    rw [hm] at e
    have hfr : (active w.st && (w.ptr .hum).isNone) = false := by
      cases ha : active w.st with
      | false => rfl
      | true =>
        cases hp : w.ptr .hum with
        | some u => rfl
        | none =>
          exfalso
          refine h.hum ?_ hp
          cases hl : w.lit with
          | true => exact Or.inl hl
          | false =>
            rcases h.dark hl with e | e | e
            · rw [show w.st = .off from e] at ha; simp [active] at ha
            · rw [show w.st = .wait from e] at ha; simp [active] at ha
            · exact Or.inr (Or.inl e)
    simp only [hfr] at e
    simp at e
    subst e
    cases hp : w.ptr .hum with
    | none => exact h
    | some u => exact ok_fadeStep hm h hp

theorem ok_startSwing {c : Cfg} {w w' : W} {i} (wf : WF c) (hb : Bal w Z) (h : Ok c w) (ha : active w.st = true) (e : startSwing c w i = some w') : Ok c w' := by
  unfold startSwing at e
  simp only at e
  rw [Option.bind_eq_some_iff] at e
  obtain ⟨v, e, e2⟩ := e
  refine ok_setHum ?_ e2
  cases hi : i.fast with
  | true =>
    rw [hi] at e
    simp only [if_true] at e
    rw [Option.map_eq_some_iff] at e
    obtain ⟨v2, e, e3⟩ := e
    subst e3
    apply ok_swingVolume
    cases hg : c.guess with
    | false =>
      rw [hg] at e
      simp at e
      subst e
      exact ok_polySwing hb h i
    | true =>
      rw [hg] at e
      simp only [Bool.not_true, Bool.false_eq_true, if_false] at e
      cases hsw : w.swinging with
      | true => rw [hsw] at e; simp at e; subst e; exact h
      | false =>
        rw [hsw] at e
        simp only [Bool.false_eq_true, if_false] at e
        rw [Option.map_eq_some_iff] at e
        obtain ⟨v3, e, e3⟩ := e
        have hst : w.st = .on := by
          rcases h.monoSt (wf.guess hg) with e | e | e
          · rw [show w.st = .off from e] at ha; simp [active] at ha
          · rw [show w.st = .wait from e] at ha; simp [active] at ha
          · exact e
        have h1 : Ok c v3 := ok_monoFx hb h (lit_of h (Or.inr (Or.inr hst))) e
        rw [← e3]
        exact h1
  | false =>
    rw [hi] at e
    simp only [Bool.false_eq_true, if_false] at e
    cases hsl : i.slow with
    | true =>
      rw [hsl] at e
      simp only [if_true, Option.some.injEq] at e
      rw [← e]
      exact ok_freeSwing h
    | false => rw [hsl] at e; simp at e; subst e; exact h

theorem ok_motion {c : Cfg} {w w' : W} {i} (wf : WF c) (hb : Bal w Z) (h : Ok c w) (e : motion c w i = some w') : Ok c w' := by
  unfold motion at e
  split at e
  · rename_i ha
    simp at ha
    exact ok_startSwing wf hb h ha.1 e
  · simp at e; subst e; exact h

/-! ## Lockup -/

theorem Inv.newLock {c sv ptr k} (h : Inv c sv ptr k) {u : Nat} (hu : Fresh c ptr u) (x : SV) (hn : NxtOk k.fol x) (hl : k.lit = true) (hlo : k.locked = true)
    (hc : (c.lockup && !c.humm) = false) (hno : ptr .lock = none) : Inv c (setSV sv u x) (setPtr ptr .lock (some u)) k where
  fol := h.fol
  nxt := by
    intro v
    by_cases e : v = u
    · subst e; rw [setSV_at]; exact hn
    · rw [setSV_ne _ _ e]; exact h.nxt v
  bound := by
    intro v hv
    by_cases e : v = u
    · subst e; exact hu.1
    · rw [setSV_ne _ _ e] at hv; exact h.bound v hv
  next := h.next
  hs := h.hs
  hl := by
    intro v hv
    simp only [setPtr]
    intro e
    simp at e
    exact hu.2 .hum (e ▸ hv)
  sl := by
    intro v hv
    simp only [setPtr]
    intro e
    simp at e
    exact hu.2 .swing (e ▸ hv)
  quiet := by
    intro v hv
    by_cases e : v = u
    · subst e; exact Or.inr ⟨by simp [setPtr], hl⟩
    · rw [setSV_ne _ _ e] at hv
      rcases h.quiet v hv with h1 | h1
      · exact Or.inl h1
      · rw [hno] at h1; exact absurd h1.1 (by simp)
  sound := by
    intro v hv hc
    have e : v ≠ u := fun e => hu.2 .hum (e ▸ hv)
    rw [setSV_ne _ _ e]; exact h.sound v hv hc
  hum := h.hum
  lit := h.lit
  dark := h.dark
  empty := h.empty
  locked := h.locked
  lock := fun _ => ⟨hlo, hc⟩
  monoSt := h.monoSt

theorem ok_lockOn {c : Cfg} {w : W} (h : Ok c w) (hl : w.lit = true) : Ok c { w with locked := true } where
  fol := h.fol
  nxt := h.nxt
  bound := h.bound
  next := h.next
  hs := h.hs
  hl := h.hl
  sl := h.sl
  quiet := h.quiet
  sound := fun u hu hc => (h.sound u hu hc).congr rfl fun _ => rfl
  hum := h.hum
  lit := h.lit
  dark := h.dark
  empty := h.empty
  locked := fun _ => hl
  lock := fun e => ⟨rfl, (h.lock e).2⟩
  monoSt := h.monoSt

theorem mono_on {c : Cfg} {w : W} (h : Ok c w) (hl : w.lit = true) (hm : c.mono = true) : w.st = .on := by
  have hst := h.lit hl
  rcases h.monoSt hm with e | e | e
  · rw [e] at hst; simp at hst
  · rw [e] at hst; simp at hst
  · exact e

theorem ok_beginLockup {c : Cfg} {w w' : W} {has} (hb : Bal w Z) (h : Ok c w) (hl : w.lit = true) (e : beginLockup c w has = some w') : Ok c w' := by
  unfold beginLockup at e
  have h1 := ok_lockOn h hl
  have hb1 : Bal { w with locked := true } Z := hb
  have hl1 : W.lit { w with locked := true } = true := hl
  have hk1 : W.locked { w with locked := true } = true := rfl
  have hpl : W.ptr { w with locked := true } .lock = w.ptr .lock := rfl
  simp only at e
  revert e h1 hb1 hl1 hk1 hpl
  generalize ({ w with locked := true } : W) = v
  intro h1 hb1 hl1 hk1 hpl e
  rw [← hpl] at e
  cases hc : (c.lockup && !c.humm) with
  | true =>
    rw [hc] at e
    simp only [if_true] at e
    simp at hc
    cases hf : freeOne c v with
    | none =>
      rw [playMono_none hf h1.next] at e
      simp at e; subst e; exact h1
    | some u =>
      obtain ⟨p1, p2, p3⟩ := playMono_spec hb1 hf h1.next e
      show Inv c w'.sv w'.ptr w'.k
      rw [p1, p2, p3]
      exact h1.mono (fresh_of_free hb1 hf).1 _ v.k rfl ⟨by simp, rfl, Or.inr (Or.inl ⟨rfl, hk1, hc.1, hc.2⟩)⟩ (fun _ => Or.inr (Or.inr (Or.inl rfl))) hl1
        (h1.lit hl1) (mono_on h1 hl1) fun _ => hk1
  | false =>
    rw [hc] at e
    simp only [Bool.false_eq_true, if_false] at e
    cases hp : v.ptr .lock with
    | some y => rw [hp] at e; simp at e; subst e; exact h1
    | none =>
      rw [hp] at e
      simp only at e
      rcases playPoly_cases c v .fx has with e2 | ⟨u, _, hf, e2⟩ <;> rw [e2] at e <;> simp only [Option.some.injEq] at e
      · subst e
        show Inv c (subRef (assign v .lock none) none).sv (subRef (assign v .lock none) none).ptr (subRef (assign v .lock none) none).k
        rw [subRef_sv, subRef_ptr, subRef_k, assign_sv, assign_ptrs, assign_k, ← hp, setPtr_self]
        exact h1
      · subst e
        show Inv c (playLoop _ u .lock).sv (subRef (assign (playOnce (took v u) u .fx) .lock (some u)) (some u)).ptr
          (subRef (assign (playOnce (took v u) u .fx) .lock (some u)) (some u)).k
        rw [playLoop_sv, subRef_sv, subRef_ptr, subRef_k, assign_sv, assign_ptrs, assign_k, polyPlayed_sv, setSV_set, setSV_at]
        exact h1.newLock (fresh_of_free hb1 hf).1 _ (fun _ => Or.inr (Or.inr (Or.inl rfl))) hl1 hk1 hc hp

/-- a lockup ends: nothing is left of it -/
theorem Inv.unlock {c sv ptr k} (h : Inv c sv ptr k) {u : Nat} (hp : ptr .lock = some u) :
    Inv c (setSV sv u { sv u with fading := true }) (setPtr ptr .lock none) { k with locked := false } := by
  have hc := (h.lock (by rw [hp]; simp)).2
  have hne : ∀ v, ptr .hum = some v → v ≠ u := fun v hv e => h.hl v hv (by rw [e]; exact hp)
  constructor
  · exact h.fol
  · intro v
    by_cases e : v = u
    · subst e; rw [setSV_at]; exact h.nxt v
    · rw [setSV_ne _ _ e]; exact h.nxt v
  · exact fun v hv => by
      by_cases e : v = u
      · subst e; rw [setSV_at] at hv; exact h.bound v hv
      · rw [setSV_ne _ _ e] at hv; exact h.bound v hv
  · exact h.next
  · exact h.hs
  · intro v _; simp [setPtr]
  · intro v _; simp [setPtr]
  · intro v hv
    by_cases e : v = u
    · subst e; rw [setSV_at] at hv; exact absurd hv loud_fade
    · rw [setSV_ne _ _ e] at hv
      rcases h.quiet v hv with h1 | h1
      · exact Or.inl h1
      · rw [hp] at h1; simp at h1; exact absurd h1.1.symm e
  · intro v hv hl
    rw [setSV_ne _ _ (hne v hv)]
    obtain ⟨h1, h2, h3⟩ := h.sound v hv hl
    refine ⟨h1, h2, ?_⟩
    rcases h3 with h3 | ⟨h3, h4, h5, h6⟩ | h3
    · exact Or.inl h3
    · simp [h5, h6] at hc
    · exact Or.inr (Or.inr h3)
  · exact h.hum
  · exact h.lit
  · exact h.dark
  · exact h.empty
  · intro e; simp at e
  · intro e; simp [setPtr] at e
  · exact h.monoSt

theorem ok_endLockup {c : Cfg} {w w' : W} {has} (hb : Bal w Z) (h : Ok c w) (hr : freeOne c w ≠ none) (hlk : w.locked = true)
    (e : endLockup c w has = some w') : Ok c w' := by
  unfold endLockup at e
  simp only at e
  cases hp : w.ptr .lock with
  | some u =>
    rw [hp] at e
    simp only [Option.some.injEq] at e
    have hs := playPoly'_spec c { w with locked := false } .fx has
    obtain ⟨s1, s2, s3⟩ := hs
    subst e
    show Inv c (free (fade (playPoly' c { w with locked := false } .fx has) u) .lock).sv (free (fade (playPoly' c { w with locked := false } .fx has) u) .lock).ptr
      (free (fade (playPoly' c { w with locked := false } .fx has) u) .lock).k
    rw [free_sv, free_ptrs, free_k, fade_sv]
    show Inv c (setSV (playPoly' c { w with locked := false } .fx has).sv u _) (setPtr (playPoly' c { w with locked := false } .fx has).ptr .lock none)
      (playPoly' c { w with locked := false } .fx has).k
    rw [s1, s2]
    rcases s3 with s3 | ⟨y, hf, s3⟩
    · rw [s3]; exact h.unlock hp
    · rw [s3]
      have hf' : freeOne c w = some y := hf
      exact Inv.unlock (h.play (fresh_of_free hb hf').1 _ (fx_quiet h.fol.fx) (fx_nxt h.fol.fx)) hp
  | none =>
    rw [hp] at e
    simp only at e
    cases hc : c.lockup with
    | true =>
      rw [hc] at e
      simp only [if_true] at e
      cases hf : freeOne c w with
      | none => exact absurd hf hr
      | some u =>
        have hb1 : Bal { w with locked := false } Z := hb
        obtain ⟨p1, p2, p3⟩ := playMono_spec hb1 (show freeOne c { w with locked := false } = some u from hf) h.next e
        have hl : w.lit = true := h.locked hlk
        show Inv c w'.sv w'.ptr w'.k
        rw [p1, p2, p3]
        exact h.mono (fresh_of_free hb hf).1 _ ⟨w.fol, w.st, w.lit, false⟩ rfl ⟨by simp, rfl, Or.inl rfl⟩ (fun _ => Or.inr (Or.inl rfl)) hl (h.lit hl)
          (mono_on h hl) fun e => absurd hp e
    | false =>
      rw [hc] at e
      simp at e
      subst e
      exact {
        fol := h.fol
        nxt := h.nxt
        bound := h.bound
        next := h.next
        hs := h.hs
        hl := h.hl
        sl := h.sl
        quiet := h.quiet
        sound := by
          intro u hu hl
          obtain ⟨h1, h2, h3⟩ := h.sound u hu hl
          refine ⟨h1, h2, ?_⟩
          rcases h3 with h3 | ⟨h3, h4, h5, h6⟩ | h3
          · exact Or.inl h3
          · simp [h5] at hc
          · exact Or.inr (Or.inr h3)
        hum := h.hum
        lit := h.lit
        dark := h.dark
        empty := h.empty
        locked := fun e => by simp [W.k] at e
        lock := fun e => absurd hp e
        monoSt := h.monoSt }

/-! ## On -/

theorem startHum_spec {c : Cfg} {w w' : W} {u : Nat} (hf : freeOne c w = some u) (hp : w.ptr .hum = none) (e : startHum c w = some w') :
    w'.ptr = setPtr w.ptr .hum (some u) ∧ w'.k = w.k ∧ w'.sv = setSV w.sv u ⟨some .hum, some .hum, false⟩ := by
  unfold startHum at e
  rw [hp] at e
  simp only [take_took hf] at e
  cases hh : c.has .hum with
  | false => rw [hh] at e; simp at e
  | true =>
    rw [hh] at e
    simp only [if_true, Option.some.injEq] at e
    subst e
    refine ⟨?_, ?_, ?_⟩
    · show (subRef (assign (took w u) .hum (some u)) (some u)).ptr = _
      rw [subRef_ptr, assign_ptrs]; rfl
    · show (subRef (assign (took w u) .hum (some u)) (some u)).k = _
      rw [subRef_k, assign_k]; rfl
    · rw [playLoop_sv, playOnce_sv, subRef_sv, assign_sv, took_sv, setSV_set, setSV_set, setSV_at]

theorem ok_onFields {c : Cfg} {w : W} (h : Ok c w) (a : Rat) (l : Nat) : Ok c { w with inTime := a, humStart := l } := h

theorem ok_out {c : Cfg} {w : W} (hm : c.mono = false) (hb : Bal w Z) (h : Ok c w) (has : Bool) : Ok c (playPoly' c w .out has) := by
  have ho : w.fol .out = none := h.fol.poly hm
  refine inv_played hb h (playPoly'_spec c w .out has) ?_ fun _ => Or.inl ho
  rw [ho]
  simp [Loud, leads]

theorem ok_sbOn {c : Cfg} {w w' : W} {has t d} (hb : Bal w Z) (h : Ok c w) (hr : freeOne c w ≠ none) (e : sbOn c w has t d = some w') : Ok c w' := by
  unfold sbOn at e
  simp only at e
  obtain ⟨u, hf⟩ : ∃ u, freeOne c w = some u := by
    cases hf : freeOne c w with
    | none => exact absurd hf hr
    | some u => exact ⟨u, rfl⟩
  cases hm : c.mono with
  | true =>
    rw [hm] at e
    simp only [if_true] at e
    rw [Option.map_eq_some_iff] at e
    obtain ⟨v, e, e2⟩ := e
    subst e2
    by_cases ha : w.st = .wait ∧ c.has .preon = true
    · rw [if_pos ha] at e
      simp only [Option.some.injEq] at e
      subst e
      show Inv c w.sv w.ptr ⟨w.fol, .on, true, w.locked⟩
      have hh : w.ptr .hum ≠ none := h.hum (Or.inr (Or.inr ⟨hm, ha⟩))
      refine h.turnOn _ rfl rfl (Or.inr (Or.inr rfl)) (fun _ => rfl) rfl ?_
      cases hp : w.ptr .hum with
      | none => exact absurd hp hh
      | some y => exact ⟨y, rfl, h.sound y hp (Or.inr (Or.inr ha))⟩
    · rw [if_neg ha] at e
      have hb1 : Bal { w with lit := true } Z := hb
      obtain ⟨p1, p2, p3⟩ := playMono_spec hb1 (show freeOne c { w with lit := true } = some u from hf) h.next e
      show Inv c v.sv v.ptr ⟨v.fol, .on, v.lit, v.locked⟩
      rw [show v.fol = w.fol from congrArg K.fol p2, show v.lit = true from congrArg K.lit p2, show v.locked = w.locked from congrArg K.locked p2, p1, p3]
      exact h.mono (fresh_of_free hb hf).1 _ ⟨w.fol, .on, true, w.locked⟩ rfl ⟨by simp, rfl, Or.inl rfl⟩ (fun _ => Or.inr (Or.inl rfl)) rfl
        (Or.inr (Or.inr rfl)) (fun _ => rfl) fun e => (h.lock e).1
  | false =>
    rw [hm] at e
    simp only [Bool.false_eq_true, if_false] at e
    rw [Option.map_eq_some_iff] at e
    obtain ⟨v, e, e2⟩ := e
    rw [← e2]
    apply ok_onFields
    have hb1 : Bal { w with lit := true, st := .out } Z := hb
    have hbv : Bal v Z := bal_startHum hb1 e
    have hv : Ok c v := by
      cases hp : w.ptr .hum with
      | some y =>
        unfold startHum at e
        simp only [hp, Option.some.injEq] at e
        rw [← e]
        show Inv c w.sv w.ptr ⟨w.fol, .out, true, w.locked⟩
        exact h.turnOn _ rfl rfl (Or.inl rfl) (fun e => by rw [hm] at e; simp at e) rfl ⟨y, hp, h.sound y hp (Or.inr (Or.inl hm))⟩
      | none =>
        obtain ⟨p1, p2, p3⟩ := startHum_spec (show freeOne c { w with lit := true, st := .out } = some u from hf) hp e
        show Inv c v.sv v.ptr v.k
        rw [p1, p2, p3]
        have := h.mono (fresh_of_free hb hf).1 ⟨some .hum, some .hum, false⟩ ⟨w.fol, .out, true, w.locked⟩ rfl ⟨by simp, rfl, Or.inl rfl⟩
          (fun _ => Or.inr (Or.inl rfl)) rfl (Or.inl rfl) (fun e => by rw [hm] at e; simp at e) fun e => (h.lock e).1
        unfold monoSV at this
        rw [hp] at this
        exact this
    split
    · exact hv
    · exact ok_out hm hbv hv has

theorem ok_loop {c : Cfg} {w w' : W} {has t d} (hb : Bal w Z) (h : Ok c w) (hr : freeOne c w ≠ none) (e : loop c w has t d = some w') : Ok c w' := by
  unfold loop at e
  split at e
  · exact ok_sbOn (w := { w with log := .turnOn :: w.log }) hb h hr e
  · split at e
    · simp only [Option.some.injEq] at e; rw [← e]; exact h
    · simp only [Option.some.injEq] at e; rw [← e]; exact h

/-! ## Pre-on -/

theorem nobody_loud {c : Cfg} {w : W} (h : Ok c w) (hl : w.lit = false) (hs : w.st = .off) (u : Nat) : ¬ Loud w.fol (w.sv u) := by
  intro hq
  have e1 : w.k.lit = false := hl
  have e2 : w.k.st = .off := hs
  rcases h.quiet u hq with h1 | h1
  · simp [e1, e2] at h1
  · simp [e1] at h1

theorem unlocked_of {c : Cfg} {w : W} (h : Ok c w) (hl : w.lit = false) : w.locked = false := by
  cases hlo : w.locked with
  | false => rfl
  | true => have := h.locked hlo; rw [show w.k.lit = w.lit from rfl, hl] at this; simp at this

theorem nolock_of {c : Cfg} {w : W} (h : Ok c w) (hlo : w.locked = false) : w.ptr .lock = none := by
  cases e : w.ptr .lock with
  | none => rfl
  | some y =>
    have := (h.lock (by rw [e]; simp)).1
    rw [show w.k.locked = w.locked from rfl, hlo] at this
    simp at this

theorem ok_preon {c : Cfg} {w : W} (hb : Bal w Z) (h : Ok c w) (hl : w.lit = false) (hs : w.st = .off) (hr : freeOne c w ≠ none) : Ok c (preon c w) := by
  obtain ⟨u, hf⟩ : ∃ u, freeOne c w = some u := by
    cases hf : freeOne c w with
    | none => exact absurd hf hr
    | some u => exact ⟨u, rfl⟩
  have hlo := unlocked_of h hl
  have hlk := nolock_of h hlo
  have hfo := h.fol
  have hfresh := (fresh_of_free hb hf).1
  have hq := nobody_loud h hl hs
  unfold preon
  cases hp : c.has .preon with
  | false =>
    show Inv c w.sv w.ptr ⟨w.fol, .wait, w.lit, w.locked⟩
    constructor
    · exact hfo
    · exact h.nxt
    · exact h.bound
    · exact h.next
    · exact h.hs
    · exact h.hl
    · exact h.sl
    · intro v hv; exact absurd hv (hq v)
    · intro v hv hc
      simp [hl, hp] at hc
      rw [h.empty hc (Or.inl hs)] at hv
      simp at hv
    · intro e; simp [hl, hp] at e
    · intro e; simp [hl] at e
    · intro _; exact Or.inr (Or.inl rfl)
    · intro hm _; exact h.empty hm (Or.inl hs)
    · intro e; simp [hlo] at e
    · intro e; exact absurd hlk e
    · intro _; exact Or.inr (Or.inl rfl)
  | true =>
    simp only [if_true]
    rcases playPoly_cases c { w with fol := fun s => if s = .preon then some .out else w.fol s } .preon true with e | ⟨y, _, hf2, e⟩
    · -- a player is free, so this is not the case
      unfold playPoly at e
      simp only [if_true] at e
      rw [take_took (show freeOne c { w with fol := fun s => if s = .preon then some .out else w.fol s } = some u from hf)] at e
      simp at e
    · have hyu : y = u := by
        have : freeOne c w = some y := hf2
        rw [hf] at this; simp at this; exact this.symm
      subst hyu
      rw [e]
      simp only
      cases hm : c.mono with
      | false =>
        simp only [Bool.false_eq_true, if_false]
        have ho : w.fol .out = none := hfo.poly hm
        have hh : w.ptr .hum = none := h.empty hm (Or.inl hs)
        generalize hv : ({ w with fol := fun s => if s = .preon then some .out else w.fol s } : W) = v
        have v1 : v.ptr = w.ptr := by rw [← hv]
        have v2 : v.sv = w.sv := by rw [← hv]; rfl
        have v3 : v.fol = fun s => if s = .preon then some .out else w.fol s := by rw [← hv]
        have v4 : v.lit = false := by rw [← hv]; exact hl
        have v5 : v.locked = false := by rw [← hv]; exact hlo
        have g1 : (subRef (playOnce (took v y) y .preon) (some y)).ptr = w.ptr := by rw [subRef_ptr]; exact v1
        have g2 : (subRef (playOnce (took v y) y .preon) (some y)).sv = setSV w.sv y ⟨some .preon, some .out, false⟩ := by
          rw [subRef_sv, polyPlayed_sv, v2, v3]; simp
        have g3 : (subRef (playOnce (took v y) y .preon) (some y)).k = v.k := by rw [subRef_k]; rfl
        generalize subRef (playOnce (took v y) y .preon) (some y) = z at g1 g2 g3
        show Inv c z.sv z.ptr ⟨z.fol, .wait, z.lit, z.locked⟩
        rw [g1, g2, show z.fol = v.fol from congrArg K.fol g3, show z.lit = v.lit from congrArg K.lit g3, show z.locked = v.locked from congrArg K.locked g3, v3, v4, v5]
        have hloud : ∀ x, Loud (fun s => if s = .preon then some .out else w.fol s) x ↔ Loud w.fol x := fun x => by simp [Loud, leads]
        constructor
        · exact ⟨hfo.hum, hfo.lock, hfo.poweroff, hfo.pstoff, hfo.fx, hfo.inn, Or.inr rfl, hfo.out, hfo.poly, fun e => by rw [hm] at e; simp at e⟩
        · intro x
          by_cases ex : x = y
          · subst ex; rw [setSV_at]; exact fun _ => Or.inr (Or.inr (Or.inr (Or.inr ⟨rfl, rfl⟩)))
          · rw [setSV_ne _ _ ex]
            intro hc
            rcases h.nxt x hc with e1 | e1 | e1 | e1 | e1
            · exact Or.inl e1
            · exact Or.inr (Or.inl e1)
            · exact Or.inr (Or.inr (Or.inl e1))
            · exact Or.inr (Or.inr (Or.inr (Or.inl e1)))
            · exact Or.inr (Or.inr (Or.inr (Or.inr ⟨e1.1, rfl⟩)))
        · intro x hx
          by_cases ex : x = y
          · subst ex; exact hfresh.1
          · rw [setSV_ne _ _ ex] at hx; exact h.bound x hx
        · exact h.next
        · exact h.hs
        · exact h.hl
        · exact h.sl
        · intro x hx
          rw [hloud] at hx
          by_cases ex : x = y
          · subst ex; rw [setSV_at] at hx; simp [Loud, leads, ho] at hx
          · rw [setSV_ne _ _ ex] at hx; exact absurd hx (hq x)
        · intro x hx; rw [hh] at hx; simp at hx
        · intro e; simp [hm] at e
        · intro e; simp at e
        · intro _; exact Or.inr (Or.inl rfl)
        · intro _ _; exact hh
        · intro e; simp at e
        · intro e; exact absurd hlk e
        · intro e; rw [hm] at e; simp at e
      | true =>
        simp only [if_true]
        generalize hv : ({ w with fol := fun s => if s = .preon then some .out else w.fol s } : W) = v
        have v1 : v.ptr = w.ptr := by rw [← hv]
        have v2 : v.sv = w.sv := by rw [← hv]; rfl
        have v3 : v.fol = fun s => if s = .preon then some .out else w.fol s := by rw [← hv]
        have v4 : v.lit = false := by rw [← hv]; exact hl
        have v5 : v.locked = false := by rw [← hv]; exact hlo
        have g2 : (playOnce (took v y) y .preon).sv = setSV w.sv y ⟨some .preon, some .out, false⟩ := by
          rw [polyPlayed_sv, v2, v3]; simp
        have g1 : (playOnce (took v y) y .preon).ptr = w.ptr := v1
        have g3 : (playOnce (took v y) y .preon).k = v.k := rfl
        generalize playOnce (took v y) y .preon = q at g1 g2 g3
        generalize hq2 : ({ q with fol := fun s => if s = .out then some .hum else q.fol s } : W) = r
        have r1 : r.ptr = w.ptr := by rw [← hq2]; exact g1
        have r2 : r.sv = setSV w.sv y ⟨some .preon, some .out, false⟩ := by rw [← hq2]; exact g2
        have r3 : r.fol = fun s => if s = .out then some .hum else if s = .preon then some .out else w.fol s := by
          rw [← hq2]
          show (fun s => if s = .out then some .hum else q.fol s) = _
          rw [show q.fol = v.fol from congrArg K.fol g3, v3]
        have r4 : r.lit = false := by rw [← hq2]; exact (congrArg K.lit g3).trans v4
        have r5 : r.locked = false := by rw [← hq2]; exact (congrArg K.locked g3).trans v5
        have s1 : (subRef (assign r .hum (some y)) (some y)).ptr = setPtr w.ptr .hum (some y) := by rw [subRef_ptr, assign_ptrs, r1]
        have s2 : (subRef (assign r .hum (some y)) (some y)).sv = setSV w.sv y ⟨some .preon, some .out, false⟩ := by rw [subRef_sv, assign_sv, r2]
        have s3 : (subRef (assign r .hum (some y)) (some y)).k = r.k := by rw [subRef_k, assign_k]
        generalize subRef (assign r .hum (some y)) (some y) = z at s1 s2 s3
        show Inv c z.sv z.ptr ⟨z.fol, .wait, z.lit, z.locked⟩
        rw [s1, s2, show z.fol = r.fol from congrArg K.fol s3, show z.lit = r.lit from congrArg K.lit s3, show z.locked = r.locked from congrArg K.locked s3, r3, r4, r5]
        constructor
        · exact ⟨hfo.hum, hfo.lock, hfo.poweroff, hfo.pstoff, hfo.fx, hfo.inn, Or.inr rfl, Or.inr rfl, fun e => by rw [hm] at e; simp at e, fun _ _ => rfl⟩
        · intro x
          by_cases ex : x = y
          · subst ex; rw [setSV_at]; exact fun _ => Or.inr (Or.inr (Or.inr (Or.inr ⟨rfl, rfl⟩)))
          · rw [setSV_ne _ _ ex]
            intro hc
            rcases h.nxt x hc with e1 | e1 | e1 | e1 | e1
            · exact Or.inl e1
            · exact Or.inr (Or.inl e1)
            · exact Or.inr (Or.inr (Or.inl e1))
            · exact Or.inr (Or.inr (Or.inr (Or.inl e1)))
            · exact Or.inr (Or.inr (Or.inr (Or.inr ⟨e1.1, rfl⟩)))
        · intro x hx
          by_cases ex : x = y
          · subst ex; exact hfresh.1
          · rw [setSV_ne _ _ ex] at hx; exact h.bound x hx
        · exact h.next
        · intro x e; simp [setPtr] at e; subst e; exact hfresh.2 .swing
        · intro x e; simp [setPtr] at e; subst e; exact hfresh.2 .lock
        · exact h.sl
        · intro x hx
          by_cases ex : x = y
          · subst ex; exact Or.inl ⟨by simp [setPtr], Or.inr (Or.inr ⟨hm, rfl, hp⟩)⟩
          · exfalso
            rw [setSV_ne _ _ ex] at hx
            refine hq x ⟨hx.1, hx.2.1, ?_⟩
            rcases hx.2.2 with e1 | e1 | e1 | e1 | e1
            · exact Or.inl e1
            · exact Or.inr (Or.inl e1)
            · exact Or.inr (Or.inr (Or.inl e1))
            · exact Or.inr (Or.inr (Or.inr (Or.inl e1)))
            · refine Or.inr (Or.inr (Or.inr (Or.inr ⟨e1.1, ?_⟩)))
              rcases h.nxt x hx.1 with e2 | e2 | e2 | e2 | e2
              · rw [e1.1] at e2; simp at e2
              · rw [e1.1] at e2; simp at e2
              · rw [e1.1] at e2; simp at e2
              · rw [e1.1] at e2; simp at e2
              · exact hfo.mono hm e2.2
        · intro x hx _
          simp [setPtr] at hx
          subst hx
          rw [setSV_at]
          exact ⟨by simp, rfl, Or.inr (Or.inr ⟨rfl, rfl⟩)⟩
        · intro _; simp [setPtr]
        · intro e; simp at e
        · intro _; exact Or.inr (Or.inl rfl)
        · intro e; rw [hm] at e; simp at e
        · intro e; simp at e
        · intro e; exact absurd hlk e
        · intro _; exact Or.inr (Or.inl rfl)

/-! ## Off -/

theorem ok_polyRetract {c : Cfg} {v z : W} {most all b : Bool} (hm : c.mono = false) (h : Ok c v) (hl : v.lit = true) (hlo : v.locked = false) (ha : all = most)
    (z1 : z.ptr = v.ptr) (z2 : z.k = ⟨v.fol, .fadeOut, v.lit && !all, v.locked⟩) (z3 : Inv c z.sv v.ptr v.k) :
    Ok c (if z.st = .fadeOut ∧ most = false then { z with st := .on } else { z with postoff := b }) := by
  have hlk := nolock_of h hlo
  have e1 : z.fol = v.fol := congrArg K.fol z2
  have e2 : z.st = .fadeOut := congrArg K.st z2
  have e3 : z.lit = (v.lit && !all) := congrArg K.lit z2
  have e4 : z.locked = v.locked := congrArg K.locked z2
  subst ha
  cases all with
  | false =>
    rw [if_pos ⟨e2, rfl⟩]
    show Inv c z.sv z.ptr ⟨z.fol, .on, z.lit, z.locked⟩
    rw [e1, e3, e4, z1]
    simp only [Bool.not_false, Bool.and_true]
    refine z3.turnOn _ rfl hl (Or.inr (Or.inr rfl)) (fun _ => rfl) rfl ?_
    cases hp : v.ptr .hum with
    | none => exact absurd hp (h.hum (Or.inl hl))
    | some u => exact ⟨u, rfl, z3.sound u hp (Or.inl hl)⟩
  | true =>
    rw [if_neg (by simp)]
    show Inv c z.sv z.ptr z.k
    rw [z1, z2]
    exact z3.toFade _ rfl (by simp) rfl hm hlk hlo hlo (h.hum (Or.inl hl))

theorem once_quiet {f : Snd → Option Snd} {s : Snd} (hs : s ≠ .hum ∧ s ≠ .lock) (h : f s = some .pstoff ∨ f s = none) : ¬ Loud f ⟨some s, f s, false⟩ := by
  rcases h with h | h <;> rw [h] <;> simp [Loud, leads, hs]

theorem once_nxt {f : Snd → Option Snd} {s : Snd} (h : f s = some .pstoff ∨ f s = none) : NxtOk f ⟨some s, f s, false⟩ := by
  intro _
  rcases h with h | h
  · exact Or.inr (Or.inr (Or.inr (Or.inl h)))
  · exact Or.inl h

/-- a sound played once on the way -/
theorem inv_onTheWay {c : Cfg} {v z : W} {s : Snd} {st : St} {lit : Bool} (hb : Bal v Z) (h : Ok c v) (hs : s ≠ .hum ∧ s ≠ .lock)
    (hfs : v.fol s = some .pstoff ∨ v.fol s = none) (hp : Played c { v with st := st, lit := lit } z s) :
    z.ptr = v.ptr ∧ z.k = ⟨v.fol, st, lit, v.locked⟩ ∧ Inv c z.sv v.ptr v.k := by
  obtain ⟨p1, p2, p3⟩ := hp
  refine ⟨p1, p2, ?_⟩
  rcases p3 with p3 | ⟨u, hf, p3⟩
  · rw [p3]; exact h
  · rw [p3]
    exact h.play (fresh_of_free hb (show freeOne c v = some u from hf)).1 _ (once_quiet hs hfs) (once_nxt hfs)

theorem ok_retract {c : Cfg} {v w' : W} {fast most all : Bool} {t} (wf : WF c) (hb : Bal v Z) (h : Ok c v) (hl : v.lit = true) (hlo : v.locked = false)
    (ha : all = most) (hma : c.mono = true → all = true) (hr : freeOne c v ≠ none) (e : retract c { v with lit := v.lit && !all } fast most t = some w') :
    Ok c w' := by
  have hlk := nolock_of h hlo
  have hfo := h.fol
  unfold retract at e
  simp only at e
  rw [Option.map_eq_some_iff] at e
  obtain ⟨z, e, e2⟩ := e
  rw [← e2]
  cases hm : c.mono with
  | false =>
    rw [hm] at e
    simp only [Bool.false_eq_true, if_false] at e
    by_cases hi : c.has .inn = true
    · rw [if_pos hi] at e
      simp only [Option.some.injEq] at e
      obtain ⟨q1, q2, q3⟩ := inv_onTheWay hb h (s := .inn) (by decide) hfo.inn
        (playPoly'_spec c { v with st := .fadeOut, lit := v.lit && !all } .inn true)
      refine ok_polyRetract hm h hl hlo ha ?_ ?_ ?_
      · rw [← e]; exact q1
      · rw [← e]; exact q2
      · rw [← e]; exact q3
    · rw [if_neg hi] at e
      by_cases hi2 : c.has .poweroff = true
      · rw [if_pos hi2] at e
        simp only [Option.some.injEq] at e
        obtain ⟨q1, q2, q3⟩ := inv_onTheWay hb h (s := .poweroff) (by decide) (Or.inl hfo.poweroff)
          (playPoly'_spec c { v with st := .fadeOut, lit := v.lit && !all } .poweroff true)
        refine ok_polyRetract hm h hl hlo ha ?_ ?_ ?_
        · rw [← e]; exact q1
        · rw [← e]; exact q2
        · rw [← e]; exact q3
      · rw [if_neg hi2] at e
        simp only [Option.some.injEq] at e
        refine ok_polyRetract hm h hl hlo ha ?_ ?_ ?_
        · rw [← e]
        · rw [← e]; rfl
        · rw [← e]; exact h
  | true =>
    have hall := hma hm
    subst hall
    rw [hm, wf.inn hm] at e
    simp only [Bool.false_eq_true, if_false, if_true, Bool.not_true, Bool.and_false] at e
    have hz : Ok c z ∧ z.st = .off := by
      by_cases hi2 : c.has .poweroff = true
      · rw [if_pos hi2] at e
        rw [Option.map_eq_some_iff] at e
        obtain ⟨y, e, e3⟩ := e
        obtain ⟨u, hf⟩ : ∃ u, freeOne c v = some u := by
          cases hf : freeOne c v with
          | none => exact absurd hf hr
          | some u => exact ⟨u, rfl⟩
        have hb1 : Bal { v with lit := false, st := .off } Z := hb
        obtain ⟨p1, p2, p3⟩ := playMono_spec hb1 (show freeOne c { v with lit := false, st := .off } = some u from hf) h.next e
        rw [← e3]
        refine ⟨?_, congrArg K.st p2⟩
        show Inv c y.sv y.ptr y.k
        rw [p1, p2, p3]
        exact h.monoOff (fresh_of_free hb hf).1 _ ⟨v.fol, .off, false, v.locked⟩ rfl (once_quiet (by decide) (Or.inl hfo.poweroff)) (once_nxt (Or.inl hfo.poweroff))
          rfl rfl hm hlk hlo
      · rw [if_neg hi2] at e
        cases hp : v.ptr .hum with
        | none => rw [hp] at e; simp at e
        | some u =>
          rw [hp] at e
          simp only [Option.some.injEq] at e
          rw [← e]
          refine ⟨ok_hush h ⟨v.fol, .off, false, v.locked⟩ rfl rfl rfl hlk hlo hp rfl rfl rfl, ?_⟩
          exact congrArg K.st (free_k _ .hum)
    rw [if_neg (by rw [hz.2]; simp)]
    exact hz.1

theorem ok_sbOff {c : Cfg} {w w' : W} {o most all has t} (wf : WF c) (hb : Bal w Z) (h : Ok c w) (hf : Fit c w (.off o most all has t))
    (e : sbOff c w o most all has t = some w') : Ok c w' := by
  unfold sbOff at e
  simp only at e
  rw [Option.map_eq_some_iff] at e
  obtain ⟨z, e, e2⟩ := e
  rw [← e2]
  apply inv_endSwing
  have hfi := Inv.folInn h (if most && o != Off.fast then some .pstoff else none) (by split <;> simp)
  generalize hv : ({ w with fol := fun s => if s = Snd.inn then (if most && o != Off.fast then some .pstoff else none) else w.fol s } : W) = v at e
  have hok : Ok c v := by rw [← hv]; exact hfi
  clear hfi
  have hbv : Bal v Z := by rw [← hv]; exact hb
  have v1 : v.st = w.st := by rw [← hv]
  have v2 : v.lit = w.lit := by rw [← hv]
  have v3 : v.locked = w.locked := by rw [← hv]
  have v4 : freeOne c v = freeOne c w := by rw [← hv]; rfl
  clear hv
  unfold offCase at e
  cases o with
  | idle => simp only [Option.some.injEq] at e; rw [← e]; exact hok
  | cancel =>
    obtain ⟨h1, h2⟩ := hf
    simp only [Option.some.injEq] at e
    have hw : v.st = .wait := by rw [v1]; exact h1
    have hk : v.k.st = .wait := hw
    have hl : v.lit = false := by
      cases hl : v.lit with
      | false => rfl
      | true => have := hok.lit hl; rw [hk] at this; simp at this
    have hkl : v.k.lit = false := hl
    have hlo := unlocked_of hok hl
    have hlk := nolock_of hok hlo
    have hq : ∀ u, ¬ Loud v.fol (v.sv u) := by
      intro u hu
      rcases hok.quiet u hu with h3 | h3
      · simp [hk, hkl] at h3
        rw [h2 h3.2.1] at h3
        simp at h3
      · simp [hkl] at h3
    rw [if_pos hw] at e
    rw [← e]
    show Inv c v.sv v.ptr ⟨v.fol, .off, false, v.locked⟩
    constructor
    · exact hok.fol
    · exact hok.nxt
    · exact hok.bound
    · exact hok.next
    · exact hok.hs
    · exact hok.hl
    · exact hok.sl
    · intro u hu; exact absurd hu (hq u)
    · intro u hu hc
      simp at hc
      rw [hok.empty hc (Or.inr hk)] at hu
      simp at hu
    · intro hc; simp at hc
    · intro hc; simp at hc
    · intro _; exact Or.inl rfl
    · intro hm _; exact hok.empty hm (Or.inr hk)
    · intro hc; simp [hlo] at hc
    · intro hc; exact absurd hlk hc
    · intro _; exact Or.inl rfl
  | normal =>
    obtain ⟨h1, h2, h3, h4, h5⟩ := hf
    simp only at e
    exact ok_retract wf hbv hok (by rw [v2]; exact h3) (by rw [v3]; exact h4) h1 h2 (by rw [v4]; exact h5) e
  | fast =>
    obtain ⟨h1, h2, h3, h4, h5⟩ := hf
    simp only at e
    exact ok_retract wf hbv hok (by rw [v2]; exact h3) (by rw [v3]; exact h4) h1 h2 (by rw [v4]; exact h5) e
  | blast =>
    obtain ⟨h1, h2, h3, h4⟩ := hf
    subst h2
    rw [h1] at e
    simp only [Bool.false_eq_true, if_false, Option.some.injEq, Bool.not_true, Bool.and_false] at e
    obtain ⟨q1, q2, q3⟩ := inv_onTheWay hbv hok (s := .fx) (by decide) (Or.inr hok.fol.fx) (playPoly'_spec c { v with lit := false, st := .fadeOut } .fx has)
    rw [← e]
    show Inv c (playPoly' c { v with lit := false, st := .fadeOut } .fx has).sv (playPoly' c { v with lit := false, st := .fadeOut } .fx has).ptr
      (playPoly' c { v with lit := false, st := .fadeOut } .fx has).k
    rw [q1, q2]
    have hlo : v.locked = false := by rw [v3]; exact h4
    exact q3.toFade _ rfl rfl rfl h1 (nolock_of hok hlo) hlo hlo (hok.hum (Or.inl (by rw [show v.k.lit = v.lit from rfl, v2]; exact h3)))

theorem ok_step {c : Cfg} {w w' : W} (wf : WF c) (e : Ev) (hb : Bal w Z) (h : Ok c w) (hf : Fit c w e) (he : step c w e = some w') : Ok c w' := by
  cases e with
  | preon => simp only [step, Option.some.injEq] at he; rw [← he]; exact ok_preon hb h hf.1 hf.2.1 hf.2.2
  | on has t d => exact ok_sbOn hb h hf he
  | off o most all has t => exact ok_sbOff wf hb h hf he
  | effect m has => exact ok_effect hb h hf he
  | beginLockup has => exact ok_beginLockup hb h hf he
  | endLockup has => exact ok_endLockup hb h hf.2 hf.1 he
  | motion i => exact ok_motion wf hb h he
  | loop has t d => exact ok_loop hb h hf he
  | finish u => simp only [step, Option.some.injEq] at he; rw [← he]; exact ok_finish wf h u
  | stopped u => simp only [step, Option.some.injEq] at he; rw [← he]; exact ok_stopped h u
  | take => simp only [step, Option.some.injEq] at he; rw [← he]; exact ok_other hb h
  | drop u => simp only [step, Option.some.injEq] at he; rw [← he]; exact ok_dropExt h u
  | tick d => simp only [step, Option.some.injEq] at he; rw [← he]; exact h

theorem ok_boot (c : Cfg) (now : Nat) : Ok c (boot now) where
  fol := ⟨rfl, rfl, rfl, rfl, rfl, Or.inl rfl, Or.inl rfl, Or.inl rfl, fun _ => rfl, fun _ e => by simp [boot, W.k, fol0] at e⟩
  nxt := fun _ => fun _ => Or.inl rfl
  bound := fun u h => absurd rfl h
  next := rfl
  hs := fun u e => by simp [boot] at e
  hl := fun u e => by simp [boot] at e
  sl := fun u e => by simp [boot] at e
  quiet := fun u h => by simp [boot, W.sv, Player.sv, Loud] at h
  sound := fun u e => by simp [boot] at e
  hum := fun e => by simp [boot, W.k] at e
  lit := fun e => by simp [boot, W.k] at e
  dark := fun _ => Or.inl rfl
  empty := fun _ _ => rfl
  locked := fun e => by simp [boot, W.k] at e
  lock := fun e => absurd rfl e
  monoSt := fun _ => Or.inl rfl

/-- a history all of whose events fit -/
def Fits (c : Cfg) (w : W) : List Ev → Prop
  | [] => True
  | e :: es => Fit c w e ∧ ∀ w', step c w e = some w' → Fits c w' es

theorem ok_run {c : Cfg} (wf : WF c) (es : List Ev) : ∀ {w w' : W}, Bal w Z → Ok c w → Fits c w es → run c w es = some w' → Ok c w' := by
  induction es with
  | nil => intro w w' _ h _ e; simp [run] at e; subst e; exact h
  | cons x xs ih =>
    intro w w' hb h hf e
    unfold run at e
    rw [Option.bind_eq_some_iff] at e
    obtain ⟨v, e1, e2⟩ := e
    exact ih (bal_step x hb e1) (ok_step wf x hb h hf.1 e1) (hf.2 v e1) e2

end Verif.Font
