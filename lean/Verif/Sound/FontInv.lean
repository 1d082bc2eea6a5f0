import Verif.Sound.FontRefs
/-! What is heard: the invariant behind C94 -/
namespace Verif.Font

/-- a player without its count of references -/
structure SV where
  cur : Option Snd
  nxt : Option Snd
  fading : Bool

def Player.sv (p : Player) : SV := ⟨p.cur, p.nxt, p.fading⟩

def W.sv (w : W) (u : Nat) : SV := (w.pl u).sv

/-- the rest of the state that matters -/
structure K where
  fol : Snd → Option Snd
  st : St
  lit : Bool
  locked : Bool

def W.k (w : W) : K := ⟨w.fol, w.st, w.lit, w.locked⟩

def setSV (f : Nat → SV) (u : Nat) (x : SV) : Nat → SV := fun v => if v = u then x else f v

def setPtr (f : Slot → Option Nat) (s : Slot) (x : Option Nat) : Slot → Option Nat := fun t => if t = s then x else f t

theorem mod_sv (w : W) (u : Nat) (g : Player → Player) : (w.mod u g).sv = setSV w.sv u (g (w.pl u)).sv := by
  funext v
  unfold setSV
  by_cases h : v = u
  · subst h; simp [W.sv, mod_self]
  · simp [W.sv, mod_ne _ _ h, h]

theorem setSV_self (f : Nat → SV) (u : Nat) : setSV f u (f u) = f := by
  funext v; unfold setSV; split
  · rename_i h; rw [h]
  · rfl

theorem subRef_sv (w : W) (v : Option Nat) : (subRef w v).sv = w.sv := by
  cases v with
  | none => rfl
  | some u => unfold subRef; rw [mod_sv]; exact setSV_self w.sv u

theorem addRef_sv (w : W) (v : Option Nat) : (addRef w v).sv = w.sv := by
  cases v with
  | none => rfl
  | some u => unfold addRef; rw [mod_sv]; exact setSV_self w.sv u

theorem subRef_k (w : W) (v : Option Nat) : (subRef w v).k = w.k := by cases v <;> rfl
theorem addRef_k (w : W) (v : Option Nat) : (addRef w v).k = w.k := by cases v <;> rfl

theorem free_sv (w : W) (s : Slot) : (free w s).sv = w.sv := subRef_sv w (w.ptr s)
theorem free_k (w : W) (s : Slot) : (free w s).k = w.k := subRef_k w (w.ptr s)
theorem free_ptrs (w : W) (s : Slot) : (free w s).ptr = setPtr w.ptr s none := by
  funext t; unfold setPtr; split
  · rename_i h; rw [h, free_ptr]
  · rename_i h; rw [free_ptr_ne w h]

theorem assign_sv (w : W) (s : Slot) (v : Option Nat) : (assign w s v).sv = w.sv := by
  unfold assign; split
  · rfl
  · rw [addRef_sv]; exact free_sv w s

theorem assign_k (w : W) (s : Slot) (v : Option Nat) : (assign w s v).k = w.k := by
  unfold assign; split
  · rfl
  · rw [addRef_k]; exact free_k w s

theorem assign_ptrs (w : W) (s : Slot) (v : Option Nat) : (assign w s v).ptr = setPtr w.ptr s v := by
  unfold assign; split
  · rename_i h; funext t; unfold setPtr; split
    · rename_i e; rw [e, h]
    · rfl
  · rw [addRef_ptr]
    funext t
    have := congrFun (free_ptrs w s) t
    unfold setPtr at this ⊢
    show (if t = s then v else (free w s).ptr t) = _
    split
    · rfl
    · rename_i h; rw [if_neg h] at this; exact this

theorem fade_sv (w : W) (u : Nat) : (fade w u).sv = setSV w.sv u { w.sv u with fading := true } := mod_sv w u _
theorem playOnce_sv (w : W) (u : Nat) (s : Snd) : (playOnce w u s).sv = setSV w.sv u ⟨some s, w.fol s, false⟩ := mod_sv w u _
theorem playLoop_sv (w : W) (u : Nat) (s : Snd) : (playLoop w u s).sv = setSV w.sv u { w.sv u with nxt := some s } := mod_sv w u _

theorem setSV_set (f : Nat → SV) (u : Nat) (x y : SV) : setSV (setSV f u x) u y = setSV f u y := by
  funext v; unfold setSV; split <;> rfl

theorem setSV_at (f : Nat → SV) (u : Nat) (x : SV) : setSV f u x u = x := by simp [setSV]

theorem setSV_ne (f : Nat → SV) {u v : Nat} (x : SV) (h : v ≠ u) : setSV f u x v = f v := by simp [setSV, h]

/-! ## The invariant -/

/-- this is, or turns by itself into, a sound that is repeated -/
def leads (fol : Snd → Option Snd) (o : Option Snd) : Prop := o = some .hum ∨ o = some .lock ∨ (o = some .out ∧ fol .out = some .hum)

/-- a player that plays a repeated sound now or later -/
def Loud (fol : Snd → Option Snd) (x : SV) : Prop := x.cur ≠ none ∧ x.fading = false ∧ (x.cur = some .hum ∨ x.cur = some .lock ∨ leads fol x.nxt)

/-- a player that will play the hum (or the sound of lockup) when the present sound is over -/
def Sounding (c : Cfg) (k : K) (x : SV) : Prop :=
  x.cur ≠ none ∧ x.fading = false ∧ (x.nxt = some .hum ∨ (x.nxt = some .lock ∧ k.locked = true ∧ c.lockup = true ∧ c.humm = false) ∨ (x.nxt = some .out ∧ k.fol .out = some .hum))

/-- a font that is complete: the sounds played in a loop exist, and a monophonic font has no retraction sound of the other kind, sound/hybrid_font.h:141-146 -/
structure WF (c : Cfg) : Prop where
  hum : c.has .hum = true
  out : c.mono = true → c.has .out = true
  inn : c.mono = true → c.has .inn = false
  lock : c.lockup = true → c.has .lock = true
  guess : c.guess = true → c.mono = true

/-- `following_` of the effects -/
structure FolOk (c : Cfg) (f : Snd → Option Snd) : Prop where
  hum : f .hum = some .hum
  lock : f .lock = some .lock
  poweroff : f .poweroff = some .pstoff
  pstoff : f .pstoff = none
  fx : f .fx = none
  inn : f .inn = some .pstoff ∨ f .inn = none
  preon : f .preon = none ∨ f .preon = some .out
  out : f .out = none ∨ f .out = some .hum
  poly : c.mono = false → f .out = none
  mono : c.mono = true → f .preon = some .out → f .out = some .hum

/-- what may come next -/
def NxtOk (f : Snd → Option Snd) (x : SV) : Prop :=
  x.cur ≠ none → x.nxt = none ∨ x.nxt = some .hum ∨ x.nxt = some .lock ∨ x.nxt = some .pstoff ∨ (x.nxt = some .out ∧ f .preon = some .out)

structure Inv (c : Cfg) (sv : Nat → SV) (ptr : Slot → Option Nat) (k : K) : Prop where
  fol : FolOk c k.fol
  nxt : ∀ u, NxtOk k.fol (sv u)
  bound : ∀ u, (sv u).cur ≠ none → u < c.n
  next : ptr .next = none
  hs : ∀ u, ptr .hum = some u → ptr .swing ≠ some u
  hl : ∀ u, ptr .hum = some u → ptr .lock ≠ some u
  sl : ∀ u, ptr .swing = some u → ptr .lock ≠ some u
  quiet : ∀ u, Loud k.fol (sv u) →
    (ptr .hum = some u ∧ (k.lit = true ∨ k.st = .fadeOut ∨ (c.mono = true ∧ k.st = .wait ∧ c.has .preon = true))) ∨ (ptr .lock = some u ∧ k.lit = true)
  sound : ∀ u, ptr .hum = some u → (k.lit = true ∨ c.mono = false ∨ (k.st = .wait ∧ c.has .preon = true)) → Sounding c k (sv u)
  hum : k.lit = true ∨ k.st = .fadeOut ∨ (c.mono = true ∧ k.st = .wait ∧ c.has .preon = true) → ptr .hum ≠ none
  lit : k.lit = true → k.st = .out ∨ k.st = .fadeIn ∨ k.st = .on
  dark : k.lit = false → k.st = .off ∨ k.st = .wait ∨ k.st = .fadeOut
  empty : c.mono = false → k.st = .off ∨ k.st = .wait → ptr .hum = none
  locked : k.locked = true → k.lit = true
  lock : ptr .lock ≠ none → k.locked = true ∧ (c.lockup && !c.humm) = false
  monoSt : c.mono = true → k.st = .off ∨ k.st = .wait ∨ k.st = .on

/-- a player of the list that the font does not hold -/
def Fresh (c : Cfg) (ptr : Slot → Option Nat) (u : Nat) : Prop := u < c.n ∧ ∀ s, ptr s ≠ some u

/-- a player nobody holds starts something that is played once -/
theorem Inv.play {c sv ptr k} (h : Inv c sv ptr k) {u : Nat} (hu : Fresh c ptr u) (x : SV) (hx : ¬ Loud k.fol x) (hn : NxtOk k.fol x) :
    Inv c (setSV sv u x) ptr k where
  fol := h.fol
  nxt := by
    intro v
    by_cases e : v = u
    · subst e; rw [setSV_at]; exact hn
    · rw [setSV_ne _ _ e]; exact h.nxt v
  bound := by
    intro v hv
    by_cases e : v = u
    · subst e; exact hu.1
    · rw [setSV_ne _ _ e] at hv; exact h.bound v hv
  next := h.next
  hs := h.hs
  hl := h.hl
  sl := h.sl
  quiet := by
    intro v hv
    by_cases e : v = u
    · subst e; rw [setSV_at] at hv; exact absurd hv hx
    · rw [setSV_ne _ _ e] at hv; exact h.quiet v hv
  sound := by
    intro v hv hc
    have e : v ≠ u := fun e => hu.2 .hum (e ▸ hv)
    rw [setSV_ne _ _ e]; exact h.sound v hv hc
  hum := h.hum
  lit := h.lit
  dark := h.dark
  empty := h.empty
  locked := h.locked
  lock := h.lock
  monoSt := h.monoSt

/-- the swing sound is forgotten -/
theorem Inv.dropSwing {c sv ptr k} (h : Inv c sv ptr k) : Inv c sv (setPtr ptr .swing none) k where
  fol := h.fol
  nxt := h.nxt
  bound := h.bound
  next := h.next
  hs := by intro u _; simp [setPtr]
  hl := h.hl
  sl := by intro u hu; simp [setPtr] at hu
  quiet := h.quiet
  sound := h.sound
  hum := h.hum
  lit := h.lit
  dark := h.dark
  empty := h.empty
  locked := h.locked
  lock := h.lock
  monoSt := h.monoSt

/-- another swing sound is held -/
theorem Inv.newSwing {c sv ptr k} (h : Inv c sv ptr k) {u : Nat} (hu : Fresh c ptr u) : Inv c sv (setPtr ptr .swing (some u)) k where
  fol := h.fol
  nxt := h.nxt
  bound := h.bound
  next := h.next
  hs := by
    intro v hv
    simp only [setPtr]
    intro e
    simp at e
    exact hu.2 .hum (e ▸ hv)
  hl := h.hl
  sl := by
    intro v hv
    simp [setPtr] at hv
    subst hv
    exact hu.2 .lock
  quiet := h.quiet
  sound := h.sound
  hum := h.hum
  lit := h.lit
  dark := h.dark
  empty := h.empty
  locked := h.locked
  lock := h.lock
  monoSt := h.monoSt

theorem loud_fade {f : Snd → Option Snd} {x : SV} : ¬ Loud f { x with fading := true } := fun h => by simp [Loud] at h

/-- a player that is not the one of the hum fades -/
theorem Inv.fade {c sv ptr k} (h : Inv c sv ptr k) {u : Nat} (hu : ptr .hum ≠ some u) : Inv c (setSV sv u { sv u with fading := true }) ptr k where
  fol := h.fol
  nxt := by
    intro v
    by_cases e : v = u
    · subst e; rw [setSV_at]; exact h.nxt v
    · rw [setSV_ne _ _ e]; exact h.nxt v
  bound := by
    intro v hv
    by_cases e : v = u
    · subst e; rw [setSV_at] at hv; exact h.bound v hv
    · rw [setSV_ne _ _ e] at hv; exact h.bound v hv
  next := h.next
  hs := h.hs
  hl := h.hl
  sl := h.sl
  quiet := by
    intro v hv
    by_cases e : v = u
    · subst e; rw [setSV_at] at hv; exact absurd hv loud_fade
    · rw [setSV_ne _ _ e] at hv; exact h.quiet v hv
  sound := by
    intro v hv hc
    have e : v ≠ u := fun e => hu (e ▸ hv)
    rw [setSV_ne _ _ e]; exact h.sound v hv hc
  hum := h.hum
  lit := h.lit
  dark := h.dark
  empty := h.empty
  locked := h.locked
  lock := h.lock
  monoSt := h.monoSt

/-- the effect of `PlayMonophonic` on what is heard: the player of the hum fades, a free one takes its place -/
def fadeHum (sv : Nat → SV) : Option Nat → Nat → SV
  | some v => setSV sv v { sv v with fading := true }
  | none => sv

def monoSV (sv : Nat → SV) (ptr : Slot → Option Nat) (u : Nat) (x : SV) : Nat → SV := setSV (fadeHum sv (ptr .hum)) u x

theorem monoSV_at (sv : Nat → SV) (ptr : Slot → Option Nat) (u : Nat) (x : SV) : monoSV sv ptr u x u = x := setSV_at _ _ _

theorem monoSV_ne (sv : Nat → SV) (ptr : Slot → Option Nat) {u v : Nat} (x : SV) (h1 : v ≠ u) (h2 : ptr .hum ≠ some v) : monoSV sv ptr u x v = sv v := by
  unfold monoSV
  rw [setSV_ne _ _ h1]
  cases e : ptr .hum with
  | none => rfl
  | some y => exact setSV_ne _ _ fun e2 => by subst e2; exact h2 e

theorem monoSV_old (sv : Nat → SV) (ptr : Slot → Option Nat) {u v : Nat} (x : SV) (h1 : v ≠ u) (h2 : ptr .hum = some v) :
    monoSV sv ptr u x v = { sv v with fading := true } := by
  unfold monoSV
  rw [setSV_ne _ _ h1, h2]
  exact setSV_at _ _ _

/-- ... with a sound after which the hum or the sound of lockup comes, when a blade is on then -/
theorem Inv.mono {c sv ptr k} (h : Inv c sv ptr k) {u : Nat} (hu : Fresh c ptr u) (x : SV) (k' : K) (hf : k'.fol = k.fol) (hx : Sounding c k' x)
    (hn : NxtOk k.fol x) (hl : k'.lit = true) (hst : k'.st = .out ∨ k'.st = .fadeIn ∨ k'.st = .on) (hms : c.mono = true → k'.st = .on)
    (hlk : ptr .lock ≠ none → k'.locked = true) :
    Inv c (monoSV sv ptr u x) (setPtr ptr .hum (some u)) k' := by
  constructor
  · rw [hf]; exact h.fol
  · intro v
    rw [hf]
    by_cases e : v = u
    · subst e; rw [monoSV_at]; exact hn
    · by_cases e2 : ptr .hum = some v
      · rw [monoSV_old _ _ _ e e2]; exact h.nxt v
      · rw [monoSV_ne _ _ _ e e2]; exact h.nxt v
  · exact fun v hv => by
      by_cases e : v = u
      · subst e; exact hu.1
      · by_cases e2 : ptr .hum = some v
        · rw [monoSV_old _ _ _ e e2] at hv; exact h.bound v hv
        · rw [monoSV_ne _ _ _ e e2] at hv; exact h.bound v hv
  · exact h.next
  · intro v e; simp [setPtr] at e; subst e; exact hu.2 .swing
  · intro v e; simp [setPtr] at e; subst e; exact hu.2 .lock
  · exact h.sl
  · intro v hq
    rw [hf] at hq
    by_cases e : v = u
    · subst e; exact Or.inl ⟨by simp [setPtr], Or.inl hl⟩
    · by_cases e2 : ptr .hum = some v
      · rw [monoSV_old _ _ _ e e2] at hq; exact absurd hq loud_fade
      · rw [monoSV_ne _ _ _ e e2] at hq
        rcases h.quiet v hq with h1 | h1
        · exact absurd h1.1 e2
        · exact Or.inr ⟨h1.1, hl⟩
  · intro v e _; simp [setPtr] at e; subst e; rw [monoSV_at]; exact hx
  · intro _; simp [setPtr]
  · intro _; exact hst
  · intro e; rw [hl] at e; simp at e
  · intro _ hs
    rcases hst with e | e | e <;> rw [e] at hs <;> simp at hs
  · intro _; exact hl
  · intro e; exact ⟨hlk e, (h.lock e).2⟩
  · intro e; exact Or.inr (Or.inr (hms e))

/-- ... with the sound of retraction: everything is off -/
theorem Inv.monoOff {c sv ptr k} (h : Inv c sv ptr k) {u : Nat} (hu : Fresh c ptr u) (x : SV) (k' : K) (hf : k'.fol = k.fol) (hx : ¬ Loud k.fol x)
    (hn : NxtOk k.fol x) (hl : k'.lit = false) (hst : k'.st = .off) (hm : c.mono = true) (hlk : ptr .lock = none) (hlo : k'.locked = false) :
    Inv c (monoSV sv ptr u x) (setPtr ptr .hum (some u)) k' := by
  constructor
  · rw [hf]; exact h.fol
  · intro v
    rw [hf]
    by_cases e : v = u
    · subst e; rw [monoSV_at]; exact hn
    · by_cases e2 : ptr .hum = some v
      · rw [monoSV_old _ _ _ e e2]; exact h.nxt v
      · rw [monoSV_ne _ _ _ e e2]; exact h.nxt v
  · exact fun v hv => by
      by_cases e : v = u
      · subst e; exact hu.1
      · by_cases e2 : ptr .hum = some v
        · rw [monoSV_old _ _ _ e e2] at hv; exact h.bound v hv
        · rw [monoSV_ne _ _ _ e e2] at hv; exact h.bound v hv
  · exact h.next
  · intro v e; simp [setPtr] at e; subst e; exact hu.2 .swing
  · intro v e; simp [setPtr] at e; subst e; exact hu.2 .lock
  · exact h.sl
  · intro v hq
    rw [hf] at hq
    by_cases e : v = u
    · subst e; rw [monoSV_at] at hq; exact absurd hq hx
    · by_cases e2 : ptr .hum = some v
      · rw [monoSV_old _ _ _ e e2] at hq; exact absurd hq loud_fade
      · rw [monoSV_ne _ _ _ e e2] at hq
        rcases h.quiet v hq with h1 | h1
        · exact absurd h1.1 e2
        · rw [hlk] at h1; exact absurd h1.1 (by simp)
  · intro v e hc; simp [hl, hst, hm] at hc
  · intro _; simp [setPtr]
  · intro e; rw [hl] at e; simp at e
  · intro _; exact Or.inl hst
  · intro e; rw [hm] at e; simp at e
  · intro e; rw [hlo] at e; simp at e
  · intro e; exact absurd hlk e
  · intro _; exact Or.inl hst

theorem fadeHum_ne (sv : Nat → SV) {o : Option Nat} {v : Nat} (h : o ≠ some v) : fadeHum sv o v = sv v := by
  cases o with
  | none => rfl
  | some y => exact setSV_ne _ _ fun e2 => by subst e2; exact h rfl

theorem fadeHum_at (sv : Nat → SV) (v : Nat) : fadeHum sv (some v) v = { sv v with fading := true } := setSV_at _ _ _

/-- the hum fades and is let go of -/
theorem Inv.hush {c sv ptr k} (h : Inv c sv ptr k) (k' : K) (hf : k'.fol = k.fol) (hl : k'.lit = false) (hst : k'.st = .off) (hlk : ptr .lock = none)
    (hlo : k'.locked = false) : Inv c (fadeHum sv (ptr .hum)) (setPtr ptr .hum none) k' := by
  constructor
  · rw [hf]; exact h.fol
  · intro v
    rw [hf]
    by_cases e2 : ptr .hum = some v
    · rw [e2, fadeHum_at]; exact h.nxt v
    · rw [fadeHum_ne _ e2]; exact h.nxt v
  · exact fun v hv => by
      by_cases e2 : ptr .hum = some v
      · rw [e2, fadeHum_at] at hv; exact h.bound v hv
      · rw [fadeHum_ne _ e2] at hv; exact h.bound v hv
  · exact h.next
  · intro v e; simp [setPtr] at e
  · intro v e; simp [setPtr] at e
  · exact h.sl
  · intro v hq
    rw [hf] at hq
    by_cases e2 : ptr .hum = some v
    · rw [e2, fadeHum_at] at hq; exact absurd hq loud_fade
    · rw [fadeHum_ne _ e2] at hq
      rcases h.quiet v hq with h1 | h1
      · exact absurd h1.1 e2
      · rw [hlk] at h1; exact absurd h1.1 (by simp)
  · intro v e; simp [setPtr] at e
  · intro e; simp [hl, hst] at e
  · intro e; rw [hl] at e; simp at e
  · intro _; exact Or.inl hst
  · intro _ _; simp [setPtr]
  · intro e; rw [hlo] at e; simp at e
  · intro e; exact absurd hlk e
  · intro _; exact Or.inl hst

theorem Sounding.congr {c k k' x} (h : Sounding c k x) (hf : k'.fol = k.fol) (hl : k.locked = true → k'.locked = true) : Sounding c k' x := by
  obtain ⟨h1, h2, h3⟩ := h
  refine ⟨h1, h2, ?_⟩
  rcases h3 with h3 | ⟨h3, h4, h5⟩ | h3
  · exact Or.inl h3
  · exact Or.inr (Or.inl ⟨h3, hl h4, h5⟩)
  · exact Or.inr (Or.inr (by rw [hf]; exact h3))

/-- the state changes while a blade is on, or a blade is turned on -/
theorem Inv.turnOn {c sv ptr k} (h : Inv c sv ptr k) (k' : K) (hf : k'.fol = k.fol) (hl : k'.lit = true)
    (hst : k'.st = .out ∨ k'.st = .fadeIn ∨ k'.st = .on) (hms : c.mono = true → k'.st = .on) (hlo : k'.locked = k.locked)
    (hh : ∃ u, ptr .hum = some u ∧ Sounding c k (sv u)) : Inv c sv ptr k' := by
  obtain ⟨u, hu, hs⟩ := hh
  constructor
  · rw [hf]; exact h.fol
  · intro v; rw [hf]; exact h.nxt v
  · exact h.bound
  · exact h.next
  · exact h.hs
  · exact h.hl
  · exact h.sl
  · intro v hq
    rw [hf] at hq
    rcases h.quiet v hq with h1 | h1
    · exact Or.inl ⟨h1.1, Or.inl hl⟩
    · exact Or.inr ⟨h1.1, hl⟩
  · intro v hv _
    rw [hu] at hv
    simp at hv
    subst hv
    exact hs.congr hf (fun e => by rw [hlo]; exact e)
  · intro _; rw [hu]; simp
  · intro _; exact hst
  · intro e; rw [hl] at e; simp at e
  · intro _ hs
    rcases hst with e | e | e <;> rw [e] at hs <;> simp at hs
  · intro _; exact hl
  · intro e; rw [hlo]; exact h.lock e
  · intro e; exact Or.inr (Or.inr (hms e))

/-- with a polyphonic font: the blades are off, the hum begins to fade -/
theorem Inv.toFade {c sv ptr k} (h : Inv c sv ptr k) (k' : K) (hf : k'.fol = k.fol) (hl : k'.lit = false) (hst : k'.st = .fadeOut) (hm : c.mono = false)
    (hlk : ptr .lock = none) (hlo : k'.locked = false) (hlo' : k.locked = false) (hh : ptr .hum ≠ none) : Inv c sv ptr k' := by
  constructor
  · rw [hf]; exact h.fol
  · intro v; rw [hf]; exact h.nxt v
  · exact h.bound
  · exact h.next
  · exact h.hs
  · exact h.hl
  · exact h.sl
  · intro v hq
    rw [hf] at hq
    rcases h.quiet v hq with h1 | h1
    · exact Or.inl ⟨h1.1, Or.inr (Or.inl hst)⟩
    · rw [hlk] at h1; exact absurd h1.1 (by simp)
  · intro v hv _
    exact (h.sound v hv (Or.inr (Or.inl hm))).congr hf (fun e => by rw [hlo'] at e; simp at e)
  · intro _; exact hh
  · intro e; rw [hl] at e; simp at e
  · intro _; exact Or.inr (Or.inr hst)
  · intro _ hs; rw [hst] at hs; simp at hs
  · intro e; rw [hlo] at e; simp at e
  · intro e; exact absurd hlk e
  · intro e; rw [hm] at e; simp at e

/-- one player changes for the better -/
theorem Inv.one {c sv ptr k} (h : Inv c sv ptr k) (u : Nat) (x : SV) (hl : Loud k.fol x → Loud k.fol (sv u)) (hs : Sounding c k (sv u) → Sounding c k x)
    (hn : NxtOk k.fol x) (hb : x.cur ≠ none → (sv u).cur ≠ none) : Inv c (setSV sv u x) ptr k where
  fol := h.fol
  nxt := by
    intro v
    by_cases e : v = u
    · subst e; rw [setSV_at]; exact hn
    · rw [setSV_ne _ _ e]; exact h.nxt v
  bound := by
    intro v hv
    by_cases e : v = u
    · subst e; rw [setSV_at] at hv; exact h.bound v (hb hv)
    · rw [setSV_ne _ _ e] at hv; exact h.bound v hv
  next := h.next
  hs := h.hs
  hl := h.hl
  sl := h.sl
  quiet := by
    intro v hv
    by_cases e : v = u
    · subst e; rw [setSV_at] at hv; exact h.quiet v (hl hv)
    · rw [setSV_ne _ _ e] at hv; exact h.quiet v hv
  sound := by
    intro v hv hc
    by_cases e : v = u
    · subst e; rw [setSV_at]; exact hs (h.sound v hv hc)
    · rw [setSV_ne _ _ e]; exact h.sound v hv hc
  hum := h.hum
  lit := h.lit
  dark := h.dark
  empty := h.empty
  locked := h.locked
  lock := h.lock
  monoSt := h.monoSt

/-- `following_` of the retraction sound changes -/
theorem Inv.folInn {c sv ptr k} (h : Inv c sv ptr k) (z : Option Snd) (hz : z = some .pstoff ∨ z = none) :
    Inv c sv ptr { k with fol := fun s => if s = .inn then z else k.fol s } := by
  have hf := h.fol
  constructor
  · constructor
    · exact hf.hum
    · exact hf.lock
    · exact hf.poweroff
    · exact hf.pstoff
    · exact hf.fx
    · exact hz
    · exact hf.preon
    · exact hf.out
    · exact hf.poly
    · exact hf.mono
  · exact h.nxt
  · exact h.bound
  · exact h.next
  · exact h.hs
  · exact h.hl
  · exact h.sl
  · exact h.quiet
  · exact h.sound
  · exact h.hum
  · exact h.lit
  · exact h.dark
  · exact h.empty
  · exact h.locked
  · exact h.lock
  · exact h.monoSt

/-! ## What the operations do to it -/

theorem setPtr_set (f : Slot → Option Nat) (s : Slot) (x y : Option Nat) : setPtr (setPtr f s x) s y = setPtr f s y := by
  funext t; unfold setPtr; split <;> rfl

theorem setPtr_self (f : Slot → Option Nat) (s : Slot) : setPtr f s (f s) = f := by
  funext t; unfold setPtr; split
  · rename_i h; rw [h]
  · rfl

theorem setPtr_at (f : Slot → Option Nat) (s : Slot) (x : Option Nat) : setPtr f s x s = x := by simp [setPtr]

theorem setPtr_ne (f : Slot → Option Nat) {s t : Slot} (x : Option Nat) (h : t ≠ s) : setPtr f s x t = f t := by simp [setPtr, h]

theorem fresh_of_free {c : Cfg} {w : W} {u : Nat} (hb : Bal w Z) (h : freeOne c w = some u) : Fresh c w.ptr u ∧ (w.sv u).cur = none :=
  ⟨⟨(freeOne_some h).1, freeOne_ptr hb h⟩, (freeOne_some h).2.2⟩

/-- the state after taking player `u` -/
def took (w : W) (u : Nat) : W := w.mod u fun p => { p with refs := p.refs + 1, fading := false }

theorem take_took {c : Cfg} {w : W} {u : Nat} (h : freeOne c w = some u) : take c w = (took w u, some u) := take_some h

theorem took_sv (w : W) (u : Nat) : (took w u).sv = setSV w.sv u { w.sv u with fading := false } := mod_sv w u _

theorem playPoly_cases (c : Cfg) (w : W) (s : Snd) (has : Bool) :
    playPoly c w s has = (w, none) ∨ ∃ u, has = true ∧ freeOne c w = some u ∧ playPoly c w s has = (playOnce (took w u) u s, some u) := by
  unfold playPoly
  cases has with
  | false => exact Or.inl rfl
  | true =>
    cases hf : freeOne c w with
    | none => left; simp [take_none hf]
    | some u => right; exact ⟨u, rfl, rfl, by simp [take_took hf]⟩

theorem polyPlayed_sv (w : W) (u : Nat) (s : Snd) : (playOnce (took w u) u s).sv = setSV w.sv u ⟨some s, w.fol s, false⟩ := by
  rw [playOnce_sv, took_sv, setSV_set]; rfl

/-- `w'` differs from `w` in that a free player has been started -/
def Played (c : Cfg) (w w' : W) (s : Snd) : Prop :=
  w'.ptr = w.ptr ∧ w'.k = w.k ∧ (w'.sv = w.sv ∨ ∃ u, freeOne c w = some u ∧ w'.sv = setSV w.sv u ⟨some s, w.fol s, false⟩)

theorem playPoly'_spec (c : Cfg) (w : W) (s : Snd) (has : Bool) : Played c w (playPoly' c w s has) s := by
  unfold playPoly'
  rcases playPoly_cases c w s has with e | ⟨u, _, hf, e⟩ <;> rw [e]
  · exact ⟨rfl, rfl, Or.inl rfl⟩
  · refine ⟨?_, ?_, Or.inr ⟨u, hf, ?_⟩⟩
    · show (subRef _ _).ptr = _; rw [subRef_ptr]; rfl
    · show (subRef _ _).k = _; rw [subRef_k]; rfl
    · show (subRef _ _).sv = _; rw [subRef_sv, polyPlayed_sv]

theorem inv_played {c : Cfg} {w w' : W} {s : Snd} (hb : Bal w Z) (h : Inv c w.sv w.ptr w.k) (hp : Played c w w' s)
    (hs : ¬ Loud w.fol ⟨some s, w.fol s, false⟩) (hn : NxtOk w.fol ⟨some s, w.fol s, false⟩) : Inv c w'.sv w'.ptr w'.k := by
  obtain ⟨h1, h2, h3⟩ := hp
  rw [h1, h2]
  rcases h3 with h3 | ⟨u, hf, h3⟩ <;> rw [h3]
  · exact h
  · exact h.play (fresh_of_free hb hf).1 _ hs hn

theorem getNextHum_spec {c : Cfg} {w : W} {u : Nat} (hf : freeOne c w = some u) (hn : w.ptr .next = none) :
    (getNextHum c w).ptr = setPtr w.ptr .next (some u) ∧ (getNextHum c w).k = w.k ∧ (getNextHum c w).sv = (took w u).sv := by
  unfold getNextHum
  rw [hn]
  simp only [take_took hf]
  refine ⟨?_, ?_, ?_⟩
  · rw [subRef_ptr, assign_ptrs]; rfl
  · rw [subRef_k, assign_k]; rfl
  · rw [subRef_sv, assign_sv]

theorem swapHum_spec (w : W) :
    (swapHum w).ptr = setPtr (setPtr w.ptr .hum (w.ptr .next)) .next none ∧ (swapHum w).k = w.k ∧ (swapHum w).sv = fadeHum w.sv (w.ptr .hum) := by
  unfold swapHum
  cases h : w.ptr .hum with
  | none =>
    simp only
    refine ⟨?_, ?_, ?_⟩
    · rw [free_ptrs, assign_ptrs]
    · rw [free_k, assign_k]
    · rw [free_sv, assign_sv]; rfl
  | some v =>
    simp only
    refine ⟨?_, ?_, ?_⟩
    · rw [free_ptrs, assign_ptrs, free_ptrs, setPtr_set, setPtr_ne _ _ (by decide)]; rfl
    · rw [free_k, assign_k, free_k]; rfl
    · rw [free_sv, assign_sv, free_sv, fade_sv]; rfl

theorem took_fade {w : W} {u : Nat} {o : Option Nat} (h : o ≠ some u) (x : SV) : setSV (fadeHum (took w u).sv o) u x = setSV (fadeHum w.sv o) u x := by
  rw [took_sv]
  cases o with
  | none => exact setSV_set _ _ _ _
  | some v =>
    have hv : v ≠ u := fun e => h (by rw [e])
    funext y
    unfold fadeHum
    by_cases h1 : y = u
    · subst h1; rw [setSV_at, setSV_at]
    · rw [setSV_ne _ _ h1, setSV_ne _ _ h1]
      by_cases h2 : y = v
      · subst h2; simp only [setSV_at, setSV_ne _ _ h1]
      · simp only [setSV_ne _ _ h2, setSV_ne _ _ h1]

/-- `PlayMonophonic` when a player is free -/
theorem playMono_spec {c : Cfg} {w w' : W} {u : Nat} {s : Snd} {has : Bool} {l : Option Snd} (hb : Bal w Z) (hf : freeOne c w = some u)
    (hn : w.ptr .next = none) (e : playMono c w s has l = some w') :
    w'.ptr = setPtr w.ptr .hum (some u) ∧ w'.k = w.k ∧
      w'.sv = monoSV w.sv w.ptr u ⟨some s, (match l with | some l => some l | none => w.fol s), false⟩ := by
  obtain ⟨g1, g2, g3⟩ := getNextHum_spec hf hn
  obtain ⟨s1, s2, s3⟩ := swapHum_spec (getNextHum c w)
  have hnx : (getNextHum c w).ptr .next = some u := by rw [g1]; exact setPtr_at _ _ _
  have hhm : (getNextHum c w).ptr .hum = w.ptr .hum := by rw [g1]; exact setPtr_ne _ _ (by decide)
  have hfresh := (fresh_of_free hb hf).1
  have p1 : (swapHum (getNextHum c w)).ptr = setPtr w.ptr .hum (some u) := by
    rw [s1, hnx, g1]
    funext t
    unfold setPtr
    by_cases h1 : t = .next
    · subst h1; simp [hn]
    · simp [h1]
  have p3 : ∀ x, setSV (swapHum (getNextHum c w)).sv u x = monoSV w.sv w.ptr u x := by
    intro x
    rw [s3, hhm, g3]
    exact took_fade (hfresh.2 .hum) x
  have pf : (swapHum (getNextHum c w)).fol = w.fol := congrArg K.fol (s2.trans g2)
  unfold playMono at e
  simp only [hnx] at e
  cases has with
  | false => simp at e
  | true =>
    cases l with
    | none =>
      simp only [if_true, Option.some.injEq] at e
      subst e
      refine ⟨?_, ?_, ?_⟩
      · exact p1
      · exact s2.trans g2
      · rw [playOnce_sv, p3, pf]
    | some l =>
      simp only [if_true, Option.some.injEq] at e
      subst e
      refine ⟨?_, ?_, ?_⟩
      · exact p1
      · exact s2.trans g2
      · rw [playLoop_sv, playOnce_sv, setSV_set, p3, setSV_at]

theorem endSwing_spec (w : W) :
    (endSwing w).ptr = setPtr w.ptr .swing none ∧ (endSwing w).k = w.k ∧ (endSwing w).sv = fadeHum w.sv (w.ptr .swing) := by
  unfold endSwing
  cases h : w.ptr .swing with
  | none =>
    have := (setPtr_self w.ptr .swing).symm
    rw [h] at this
    exact ⟨this, rfl, rfl⟩
  | some u =>
    simp only
    refine ⟨?_, ?_, ?_⟩
    · rw [free_ptrs]; rfl
    · rw [free_k]; rfl
    · rw [free_sv, fade_sv]; rfl

theorem inv_endSwing {c : Cfg} {w : W} (h : Inv c w.sv w.ptr w.k) : Inv c (endSwing w).sv (endSwing w).ptr (endSwing w).k := by
  obtain ⟨h1, h2, h3⟩ := endSwing_spec w
  rw [h1, h2, h3]
  cases e : w.ptr .swing with
  | none => exact h.dropSwing
  | some u => exact (h.fade (fun e2 => h.hs u e2 e)).dropSwing

end Verif.Font
