import Verif.Style.Model
/-! # Which styles may switch off the LEDs -/
namespace Verif.Style

open Verif.Color (Color Ch)

/-- `g` (latest first) is what may follow after `h` without waking the blade: no ignition, no effect, the
same number of LEDs -/
def Quiet (h : Hist) : Hist → Prop
  | [] => True
  | f :: g => Quiet h g ∧ (f.on = true → lastOn (g ++ h) = true) ∧ f.n = lastN (g ++ h) ∧ ∀ e, f.eff e = false

theorem Quiet.n {h : Hist} : ∀ {g : Hist}, Quiet h g → lastN (g ++ h) = lastN h
  | [], _ => rfl
  | f :: g, q => by
    have := q.1.n
    show f.n = _
    rw [q.2.2.1, this]

theorem Quiet.off {h : Hist} (ho : lastOn h = false) : ∀ {g : Hist}, Quiet h g → lastOn (g ++ h) = false
  | [], _ => ho
  | f :: g, q => by
    have := q.1.off ho
    cases hf : f.on with
    | false => exact hf
    | true => rw [q.2.1 hf] at this; exact absurd this (by decide)

/-- a pixel that looks black whatever is beneath -/
def IsBlack (p : Pix) : Prop := (∀ ch, p.c ch = 0) ∧ p.alpha = 32768

/-- a pixel that lets everything beneath through -/
def IsClear (p : Pix) : Prop := p.kind ≠ .opaque ∧ p.alpha = 0 ∧ (p.kind = .pm → ∀ ch, p.c ch = 0)

/-- the promise a function makes -/
def SoundF (F : Hist → FOut) : Prop :=
  ∀ h g, Quiet h g →
    ((F h).res = .zero → ∀ led, led < lastN h → (F (g ++ h)).val led = 0) ∧
    ((F h).res = .one → ∀ led, led < lastN h → (F (g ++ h)).val led = 32768)

/-- the number of LEDs has always been the same -/
def Fixed (h : Hist) : Prop := ∀ f ∈ h, f.n = lastN h

/-- the promise a layer makes; when not `strict`, only results given while the blade is off count -/
def SoundL (strict : Bool) (L : Hist → LOut) : Prop :=
  ∀ h g, (strict = false → lastOn h = false) → Fixed h → Quiet h g →
    ((L h).res = .black → ∀ led, led < lastN h → IsBlack ((L (g ++ h)).col led)) ∧
    ((L h).res = .transparent → ∀ led, led < lastN h → IsClear ((L (g ++ h)).col led))

/-! ## Which expressions are covered -/

/-- functions that are never negative -/
def Fn.nonneg : Fn → Prop
  | .const v => 0 ≤ v
  | .source _ nn => nn = true
  | .intSelect _ vs => ∀ v ∈ vs, 0 ≤ v
  | _ => False

/-- functions that never claim to be 32768 until ignition -/
def Fn.neverOne : Fn → Prop
  | .const v => v ≠ 32768
  | .source _ _ => True
  | .inOut _ _ => True
  | .inOutHelper _ allow => allow = false
  | .circular _ f => f.neverOne
  | .linear _ f => f.neverOne
  | .intSelect _ vs => ∀ v ∈ vs, v ≠ 32768

/-- functions whose promises hold: retraction times are not negative, and a `LinearSectionF` does not have
a fraction which claims to be 32768 -/
def Fn.ok : Fn → Prop
  | .const _ => True
  | .source _ _ => True
  | .inOut _ i => i.nonneg
  | .inOutHelper e _ => e.ok
  | .circular _ f => f.ok
  | .linear _ f => f.ok ∧ f.neverOne
  | .intSelect f _ => f.ok

/-- the colour black: `Rgb<0,0,0>` -/
def black : Sty := .rgb fun _ => 0

/-- styles whose promises hold; `strict` excludes those which may break them while the blade is on -/
def Sty.ok : Bool → Sty → Prop
  | _, .rgb _ => True
  | _, .any _ _ => True
  | s, .alpha c f => c.ok s ∧ f.ok
  | _, .alphaMix f _ => f.ok
  | s, .compose b l => b.ok s ∧ l.ok s
  | s, .composeBlack l => l.ok s
  | s, .inOutTr _ _ off _ => off.ok s
  | _, .effect _ _ => True
  | s, .byteOrder _ c => c.ok s
  | s, .rotate _ c => c.ok s
  | s, .remap _ c => c.ok s
  | s, .ignitionDelay _ c => s = false ∧ c.ok false
  | _, .retractionDelay _ c => c.ok true
  | s, .sparkTip _ e _ off offBlack _ => s = false ∧ (∃ o i, e = .inOut o i ∧ i.nonneg) ∧ (offBlack = true → off = black)
  | s, .cycle p _ _ base => s = false ∧ (p.black = true → base = black) ∧ (p.offPercent = 0 ∨ 0 < p.onPercent)
  | s, .fire _ _ speed _ _ _ _ offc => s = false ∧ offc.base = 0 ∧ offc.rand = 0 ∧ 1 ≤ speed

/-! ## Functions -/

theorem Fn.nonneg_val {F : Fn} (hn : F.nonneg) (h : Hist) (led : Nat) : 0 ≤ (F.den h).val led := by
  cases F with
  | const v => exact hn
  | source k nn =>
    simp only [Fn.nonneg] at hn
    subst hn
    cases h with
    | nil => simp [Fn.den]
    | cons f h => simp only [Fn.den, if_true]; omega
  | intSelect f vs =>
    simp only [Fn.nonneg] at hn
    simp only [Fn.den]
    generalize ((f.den h).val 0 % vs.length).toNat = k
    by_cases hk : k < vs.length
    · have : vs.getD k 0 = vs[k] := by simp [List.getD, List.getElem?_eq_getElem hk]
      rw [this]; exact hn _ (List.getElem_mem hk)
    · have : vs.getD k 0 = 0 := by simp [List.getD, List.getElem?_eq_none (Nat.le_of_not_lt hk)]
      rw [this]; exact Int.le_refl 0
  | inOut _ _ => exact hn.elim
  | inOutHelper _ _ => exact hn.elim
  | circular _ _ => exact hn.elim
  | linear _ _ => exact hn.elim

theorem Fn.neverOne_res {F : Fn} (hn : F.neverOne) (h : Hist) : (F.den h).res ≠ .one := by
  induction F with
  | const v =>
    simp only [Fn.neverOne] at hn
    simp only [Fn.den, constRes]
    split
    · simp
    · simp
  | source k nn => simp [Fn.den]
  | inOut o i _ _ => simp only [Fn.den]; split <;> simp
  | inOutHelper e allow _ =>
    simp only [Fn.neverOne] at hn
    subst hn
    simp [Fn.den]
  | circular p f _ ih => exact ih hn
  | linear p f _ ih => exact ih hn
  | intSelect f vs _ =>
    simp only [Fn.neverOne] at hn
    simp only [Fn.den]
    split
    · simp
    · generalize ((f.den h).val 0 % vs.length).toNat = k
      by_cases hk : k < vs.length
      · have e : vs.getD k 0 = vs[k] := by simp [List.getD, List.getElem?_eq_getElem hk]
        have := hn _ (List.getElem_mem hk)
        rw [e]
        simp only [constRes]
        split
        · simp
        · simp
      · have e : vs.getD k 0 = 0 := by simp [List.getD, List.getElem?_eq_none (Nat.le_of_not_lt hk)]
        rw [e]; simp [constRes]

theorem div_nonneg {a b : Rat} (ha : 0 ≤ a) (hb : 0 ≤ b) : 0 ≤ a / b := by
  by_cases h : b = 0
  · subst h; simp [Rat.div_def]
  have h : 0 < b := by grind
  rw [Rat.div_def]; exact Rat.mul_nonneg ha (Rat.le_of_lt (Rat.inv_pos.mpr h))

theorem extension_off (o i : Hist → Int) (hi : ∀ h, 0 ≤ i h) (f : Frame) (h : Hist) (hf : f.on = false) :
    0 ≤ extension o i (f :: h) ∧ (0 ≤ extension o i h → extension o i (f :: h) ≤ extension o i h) := by
  have key : ∀ (e d : Rat) (z : Int), 0 ≤ d → 0 ≤ z →
      0 ≤ (if z = 0 then (0 : Rat) else max (e - d / (z * 1000)) 0) ∧
      (0 ≤ e → (if z = 0 then (0 : Rat) else max (e - d / (z * 1000)) 0) ≤ e) := by
    intro e d z hd hz
    by_cases h0 : z = 0
    · rw [if_pos h0]; exact ⟨by grind, fun h => h⟩
    · rw [if_neg h0]
      have hz' : (0 : Rat) ≤ (z : Rat) := Rat.intCast_nonneg.mpr hz
      have : 0 ≤ d / (z * 1000) := div_nonneg hd (Rat.mul_nonneg hz' (by decide))
      generalize d / (z * 1000) = q at this ⊢
      grind
  simp only [extension, hf]
  exact key _ _ _ (by exact_mod_cast Nat.zero_le _) (hi _)

theorem extension_quiet (o i : Hist → Int) (hi : ∀ h, 0 ≤ i h) (h : Hist) (ho : lastOn h = false) (h0 : 0 ≤ extension o i h) :
    ∀ g, Quiet h g → 0 ≤ extension o i (g ++ h) ∧ extension o i (g ++ h) ≤ extension o i h
  | [], _ => ⟨h0, Rat.le_refl⟩
  | f :: g, q => by
    obtain ⟨a, b⟩ := extension_quiet o i hi h ho h0 g q.1
    have hf : f.on = false := q.off ho
    obtain ⟨c, d⟩ := extension_off o i hi f (g ++ h) hf
    exact ⟨c, Rat.le_trans (d a) b⟩

theorem extension_nonneg (o i : Hist → Int) (hi : ∀ h, 0 ≤ i h) (h : Hist) (ho : lastOn h = false) : 0 ≤ extension o i h := by
  cases h with
  | nil => simp [extension]
  | cons f h => exact (extension_off o i hi f h ho).1

/-- the integer value of the extension never grows while the blade is off -/
theorem inOut_quiet {o i : Fn} (hi : i.nonneg) {h g : Hist} (ho : lastOn h = false) (q : Quiet h g) (led : Nat) :
    0 ≤ ((Fn.inOut o i).den (g ++ h)).val led ∧ ((Fn.inOut o i).den (g ++ h)).val led ≤ ((Fn.inOut o i).den h).val led := by
  have hi' : ∀ h, 0 ≤ (fun h => (i.den h).val 0) h := fun h => Fn.nonneg_val hi h 0
  obtain ⟨a, b⟩ := extension_quiet (fun h => (o.den h).val 0) _ hi' h ho (extension_nonneg _ _ hi' h ho) g q
  simp only [Fn.den]
  constructor
  · rw [Rat.le_floor_iff]
    exact Rat.mul_nonneg a (by decide)
  · exact Rat.floor_monotone (Rat.mul_le_mul_of_nonneg_right b (by decide))

theorem clampI_nonneg {x b : Int} (hb : 0 ≤ b) : 0 ≤ clampI x 0 b := by unfold clampI; split <;> (try split) <;> omega

theorem Fn.sound : ∀ (F : Fn), F.ok → SoundF F.den := by
  intro F
  induction F with
  | const v =>
    intro _ h g _
    simp only [Fn.den, constRes]
    refine ⟨fun hr led _ => ?_, fun hr led _ => ?_⟩
    · split at hr
      · assumption
      · split at hr <;> simp at hr
    · split at hr
      · simp at hr
      · split at hr
        · assumption
        · simp at hr
  | source k nn =>
    intro _ h g _
    exact ⟨fun hr => by simp [Fn.den] at hr, fun hr => by simp [Fn.den] at hr⟩
  | inOut o i _ _ =>
    intro hok h g q
    refine ⟨fun hr led _ => ?_, fun hr => by simp only [Fn.den] at hr; split at hr <;> simp at hr⟩
    have hz : lastOn h = false ∧ ((Fn.inOut o i).den h).val led = 0 := by
      simp only [Fn.den] at hr ⊢
      split at hr
      · assumption
      · simp at hr
    obtain ⟨a, b⟩ := inOut_quiet (o := o) hok hz.1 q led
    rw [hz.2] at b
    exact Int.le_antisymm b a
  | inOutHelper e allow ih =>
    intro hok h g q
    have s := ih hok h g q
    have hn := q.n
    constructor
    · intro hr led hl
      have he : (e.den h).res = .one := by
        simp only [Fn.den] at hr
        cases allow with
        | false => simp at hr
        | true => cases hx : (e.den h).res <;> rw [hx] at hr <;> simp at hr <;> rfl
      have hv := s.2 he 0 (by omega)
      simp only [Fn.den, hv, hn]
      unfold clampI
      split <;> (try split) <;> omega
    · intro hr led hl
      have he : (e.den h).res = .zero := by
        simp only [Fn.den] at hr
        cases allow with
        | false => simp at hr
        | true => cases hx : (e.den h).res <;> rw [hx] at hr <;> simp at hr <;> rfl
      have hv := s.1 he 0 (by omega)
      simp only [Fn.den, hv, hn]
      unfold clampI
      split <;> (try split) <;> omega
  | circular p f _ ih =>
    intro hok h g q
    have s := ih hok h g q
    have hn := q.n
    constructor
    · intro hr led hl
      have hv := s.1 hr 0 (by omega)
      simp only [Fn.den, hv, hn]
      have e1 : ¬((0 : Int) = 32768) := by decide
      simp only [if_neg e1, if_true, Nat.le_refl, rangeSize]
      omega
    · intro hr led hl
      have hv := s.2 hr 0 (by omega)
      simp only [Fn.den, hv, hn]
      simp only [if_true, Nat.zero_le, rangeSize]
      omega
  | linear p f _ ih =>
    intro hok h g q
    have s := ih hok.1 h g q
    have hn := q.n
    constructor
    · intro hr led hl
      have hv := s.1 hr 0 (by omega)
      simp only [Fn.den, hv, hn, rangeSize]
      have e1 : Int.tdiv 0 2 = 0 := rfl
      rw [e1, Int.sub_zero, Int.add_zero]
      generalize (clampI _ 0 _).toNat = z
      omega
    · intro hr
      exact absurd hr (Fn.neverOne_res hok.2 h)
  | intSelect f vs ih =>
    intro hok h g q
    have s := ih hok h g q
    have hval : (f.den h).res ≠ .unknown → 0 < lastN h → (f.den (g ++ h)).val 0 = (f.den h).val 0 := by
      intro hr hp
      have s0 := ih hok h [] trivial
      rw [List.nil_append] at s0
      cases hx : (f.den h).res with
      | unknown => exact absurd hx hr
      | zero => rw [s.1 hx 0 hp, s0.1 hx 0 hp]
      | one => rw [s.2 hx 0 hp, s0.2 hx 0 hp]
    constructor
    · intro hr led hl
      simp only [Fn.den] at hr ⊢
      split at hr
      · simp at hr
      · rename_i hu
        rw [hval hu (by omega)]
        unfold constRes at hr
        split at hr
        · assumption
        · split at hr <;> simp at hr
    · intro hr led hl
      simp only [Fn.den] at hr ⊢
      split at hr
      · simp at hr
      · rename_i hu
        rw [hval hu (by omega)]
        unfold constRes at hr
        split at hr
        · simp at hr
        · split at hr
          · assumption
          · simp at hr

end Verif.Style
