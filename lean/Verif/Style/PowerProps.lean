import Verif.Style.PowerOff
/-! # C85: the main theorem -/
namespace Verif.Style

open Verif.Color (Color Ch)

theorem viaBool_black {r : LR} : viaBool r = .black ↔ r = .black := by cases r <;> simp [viaBool]
theorem viaBool_transparent {r : LR} : viaBool r ≠ .transparent := by cases r <;> simp [viaBool]

theorem Fixed.delayed {st : Int → Frame → Delay → Delay} {d : Hist → Int} : ∀ {h : Hist}, ∀ N, (∀ f ∈ h, f.n = N) → ∀ f ∈ delayed st d h, f.n = N
  | [], _, _ => by intro f hf; simp [Verif.Style.delayed] at hf
  | f :: h, N, hf => by
    intro f' hf'
    simp only [Verif.Style.delayed, List.mem_cons] at hf'
    rcases hf' with rfl | h'
    · exact hf f List.mem_cons_self
    · exact Fixed.delayed N (fun f h => hf f (List.mem_cons_of_mem _ h)) f' h'

theorem black_isBlack (h : Hist) (led : Nat) : IsBlack ((black.den h).col led) := ⟨fun _ => rfl, rfl⟩

theorem Sty.sound : ∀ (S : Sty) (strict : Bool), S.ok strict → SoundL strict S.den := by
  intro S
  induction S with
  | rgb c =>
    intro s _ h g _ _ _
    simp only [Sty.den]
    constructor
    · intro hr led _
      split at hr
      · rename_i hc
        exact ⟨fun ch => by cases ch; exact hc.1; exact hc.2.1; exact hc.2.2, rfl⟩
      · simp at hr
    · intro hr; split at hr <;> simp at hr
  | any k p =>
    intro s _ h g _ _ _
    exact ⟨fun hr => by simp [Sty.den] at hr, fun hr => by simp [Sty.den] at hr⟩
  | alpha c f ih =>
    intro s hok h g ho hN q
    obtain ⟨l1, l2⟩ := ih s hok.1 h g ho hN q
    obtain ⟨f1, f2⟩ := Fn.sound f hok.2 h g q
    have h0 : ¬((32768 : Int) = 0) := by decide
    simp only [Sty.den]
    cases hx : (f.den h).res with
    | unknown => exact ⟨fun hr => by simp at hr, fun hr => by simp at hr⟩
    | zero =>
      refine ⟨fun hr => by simp at hr, fun _ led hl => ?_⟩
      rw [if_pos (f1 hx led hl)]
      exact clear_clear
    | one =>
      refine ⟨fun hr led hl => ?_, fun hr led hl => ?_⟩
      · rw [f2 hx led hl, if_neg h0]
        exact fade_one_black (l1 hr led hl)
      · rw [f2 hx led hl, if_neg h0]
        exact fade_one_clear (l2 hr led hl)
  | alphaMix f c _ =>
    intro s hok h g ho hN q
    obtain ⟨f1, _⟩ := Fn.sound f hok (twice h) (twice g) q.twice
    simp only [Sty.den]
    refine ⟨fun hr => by split at hr <;> simp at hr, fun hr led hl => ?_⟩
    have hz : (f.den (twice h)).res = .zero := by
      split at hr
      · assumption
      · simp at hr
    have := f1 hz led (by rw [lastN_twice]; exact hl)
    rw [← twice_append] at this
    rw [if_pos this]
    exact clear_clear
  | compose b l ihb ihl =>
    intro s hok h g ho hN q
    obtain ⟨b1, b2⟩ := ihb s hok.1 h g ho hN q
    obtain ⟨l1, l2⟩ := ihl s hok.2 h g ho hN q
    simp only [Sty.den]
    cases hx : (l.den h).res with
    | unknown => exact ⟨fun hr => by simp at hr, fun hr => by simp at hr⟩
    | black => exact ⟨fun _ led hl => over_black _ (l1 hx led hl), fun hr => by simp at hr⟩
    | transparent =>
      exact ⟨fun hr led hl => black_over_clear (b1 hr led hl) (l2 hx led hl), fun hr led hl => clear_over_clear (b2 hr led hl) (l2 hx led hl)⟩
  | composeBlack l ih =>
    intro s hok h g ho hN q
    obtain ⟨l1, l2⟩ := ih s hok h g ho hN q
    simp only [Sty.den]
    cases hx : (l.den h).res with
    | unknown => exact ⟨fun hr => by simp at hr, fun hr => by simp at hr⟩
    | black => exact ⟨fun _ led hl => dealpha_black (.inl (l1 hx led hl)), fun hr => by simp at hr⟩
    | transparent => exact ⟨fun _ led hl => dealpha_black (.inr (l2 hx led hl)), fun hr => by simp at hr⟩
  | inOutTr o i off allow ih =>
    intro s hok h g ho hN q
    obtain ⟨l1, l2⟩ := ih s hok h g ho hN q
    have key : (((Sty.inOutTr o i off allow).den h).res ≠ .unknown) →
        ((Sty.inOutTr o i off allow).den h).res = (off.den h).res ∧
        ∀ led, ((Sty.inOutTr o i off allow).den (g ++ h)).col led = (off.den (g ++ h)).col led := by
      intro hr
      simp only [Sty.den] at hr ⊢
      split at hr
      · rename_i hc
        simp only [Bool.and_eq_true, Bool.not_eq_true', Option.isSome_eq_false_iff, Option.isNone_iff_eq_none] at hc
        obtain ⟨⟨⟨_, hoff⟩, hoa⟩, hia⟩ := hc
        have q' := q.off hoff
        have e1 : active o goesOn (g ++ h) = none := active_quiet _ _ hoa (by
          rintro f g' ⟨g'', e⟩
          have : Quiet h (f :: g') := (e ▸ q).suffix
          have := this.off hoff
          simp only [List.cons_append, lastOn] at this
          simp [goesOn, this])
        have e2 : active i goesOff (g ++ h) = none := active_quiet _ _ hia (by
          rintro f g' ⟨g'', e⟩
          have : Quiet h (f :: g') := (e ▸ q).suffix
          have := this.1.off hoff
          simp [goesOff, this])
        simp only [e1, e2, q', hoff, hoa, hia, Option.isSome_none, Bool.not_false, Bool.and_self, Bool.and_true, if_true, Bool.false_eq_true, if_false]
        rename_i ha
        simp [ha]
      · simp at hr
    constructor
    · intro hr led hl
      obtain ⟨e, c⟩ := key (by rw [hr]; simp)
      rw [c]; exact l1 (e ▸ hr) led hl
    · intro hr led hl
      obtain ⟨e, c⟩ := key (by rw [hr]; simp)
      rw [c]; exact l2 (e ▸ hr) led hl
  | effect e t =>
    intro s _ h g ho hN q
    have key : ((Sty.effect e t).den h).res ≠ .unknown → ((Sty.effect e t).den h).res = .transparent ∧ ∀ led, ((Sty.effect e t).den (g ++ h)).col led = .clear := by
      intro hr
      simp only [Sty.den] at hr ⊢
      cases hx : active t (detects e) h with
      | some s => rw [hx] at hr; simp at hr
      | none =>
        have : active t (detects e) (g ++ h) = none := active_quiet _ _ hx (by
          rintro f g' ⟨g'', e'⟩
          have : Quiet h (f :: g') := (e' ▸ q).suffix
          exact this.2.2.2 e)
        rw [this]
        exact ⟨rfl, fun _ => rfl⟩
    constructor
    · intro hr
      have := (key (by rw [hr]; simp)).1
      rw [hr] at this; simp at this
    · intro hr led hl
      rw [(key (by rw [hr]; simp)).2]; exact clear_clear
  | byteOrder o c ih =>
    intro s hok h g ho hN q
    obtain ⟨l1, _⟩ := ih s hok h g ho hN q
    refine ⟨fun hr led hl => ?_, fun hr => absurd hr viaBool_transparent⟩
    have hb := l1 (viaBool_black.mp hr) led hl
    simp only [Sty.den]
    exact ⟨fun ch => by cases ch <;> exact getByte_black hb.1 _ _, hb.2⟩
  | rotate f c ih =>
    intro s hok h g ho hN q
    obtain ⟨l1, _⟩ := ih s hok h g ho hN q
    refine ⟨fun hr led hl => ?_, fun hr => absurd hr viaBool_transparent⟩
    have hb := l1 (viaBool_black.mp hr) led hl
    simp only [Sty.den]
    exact ⟨fun ch => rotate_black hb.1 _ ch, hb.2⟩
  | remap f c ih =>
    intro s hok h g ho hN q
    obtain ⟨l1, l2⟩ := ih s hok h g ho hN q
    have hn := q.n
    have hx : ∀ led, led < lastN h → ((clampI ((f.den (g ++ h)).val led * (lastN (g ++ h) : Int)) 0 ((lastN (g ++ h) : Int) * 32768 - 1)).toNat) / 32768 < lastN h ∧
        min (((clampI ((f.den (g ++ h)).val led * (lastN (g ++ h) : Int)) 0 ((lastN (g ++ h) : Int) * 32768 - 1)).toNat) / 32768 + 1) (lastN (g ++ h) - 1) < lastN h := by
      intro led hl
      rw [hn]
      generalize (f.den (g ++ h)).val led * (lastN h : Int) = z
      have : (clampI z 0 ((lastN h : Int) * 32768 - 1)).toNat < lastN h * 32768 := by
        unfold clampI
        split <;> (try split) <;> omega
      generalize (clampI z 0 ((lastN h : Int) * 32768 - 1)).toNat = y at this ⊢
      omega
    simp only [Sty.den]
    refine ⟨fun hr led hl => ?_, fun hr led hl => ?_⟩
    · exact mix_black (l1 hr _ (hx led hl).1) (l1 hr _ (hx led hl).2) (by
        have : (2 : Nat) ^ 15 = 32768 := rfl
        rw [this]; exact Nat.le_of_lt (Nat.mod_lt _ (by decide)))
    · exact mix_clear (l2 hr _ (hx led hl).1) (l2 hr _ (hx led hl).2)
  | ignitionDelay d c ih =>
    intro s hok h g ho hN q
    have hoff := ho hok.1
    obtain ⟨g1, e, q1⟩ := delayed_quiet ignStep (fun h => (d.den h).val 0) q (by
      rintro f g' ⟨g'', e'⟩ hon
      have : Quiet h (f :: g') := (e' ▸ q).suffix
      have := delayState_ign_off (fun h => (d.den h).val 0) _ (this.off hoff)
      rw [this] at hon; exact absurd hon (by decide))
    obtain ⟨l1, _⟩ := ih false hok.2 _ g1 (fun _ => by rw [lastOn_delayed]; exact delayState_ign_off _ _ hoff)
      (by intro f hf; rw [lastN_delayed]; exact Fixed.delayed _ hN f hf) q1
    refine ⟨fun hr led hl => ?_, fun hr => absurd hr viaBool_transparent⟩
    have hb := l1 (viaBool_black.mp hr) led (by rw [lastN_delayed]; exact hl)
    rw [← e] at hb
    exact hb
  | retractionDelay d c ih =>
    intro s hok h g ho hN q
    obtain ⟨g1, e, q1⟩ := delayed_quiet retStep (fun h => (d.den h).val 0) q (by
      rintro f g' ⟨g'', e'⟩ hon
      have q2 : Quiet h (f :: g') := (e' ▸ q).suffix
      cases hf : f.on with
      | true => exact delayState_ret_on _ _ (q2.2.1 hf)
      | false => exact retStep_mono _ f _ hf hon)
    obtain ⟨l1, _⟩ := ih true hok _ g1 (fun h => by simp at h)
      (by intro f hf; rw [lastN_delayed]; exact Fixed.delayed _ hN f hf) q1
    refine ⟨fun hr led hl => ?_, fun hr => absurd hr viaBool_transparent⟩
    have hb := l1 (viaBool_black.mp hr) led (by rw [lastN_delayed]; exact hl)
    rw [← e] at hb
    exact hb
  | sparkTip base ext spark off offBlack allow _ _ _ =>
    intro s hok h g ho hN q
    obtain ⟨hs, ⟨o, i, he, hi⟩, hblack⟩ := hok
    have hoff := ho hs
    subst he
    obtain ⟨v1, v2⟩ := inOut_quiet (o := o) hi hoff q 0
    obtain ⟨v0, _⟩ := inOut_quiet (o := o) (g := []) hi hoff trivial 0
    rw [List.nil_append] at v0
    have hn := q.n
    constructor
    · intro hr led hl
      have hc : offBlack = true ∧ (((Fn.inOut o i).den h).val 0 * (lastN h + 4)) / 128 = 0 := by
        simp only [Sty.den] at hr
        split at hr
        · rename_i hc
          simp only [Bool.and_eq_true, beq_iff_eq] at hc
          exact ⟨hc.1.2, hc.2⟩
        · simp at hr
      have ht : (((Fn.inOut o i).den (g ++ h)).val 0 * (lastN h + 4)) / 128 = 0 := by
        have h1 : 0 ≤ ((Fn.inOut o i).den (g ++ h)).val 0 * ((lastN h : Int) + 4) := Int.mul_nonneg v1 (by omega)
        have h2 : ((Fn.inOut o i).den (g ++ h)).val 0 * ((lastN h : Int) + 4) ≤ ((Fn.inOut o i).den h).val 0 * ((lastN h : Int) + 4) :=
          Int.mul_le_mul_of_nonneg_right v2 (by omega)
        have := hc.2
        generalize ((Fn.inOut o i).den (g ++ h)).val 0 * ((lastN h : Int) + 4) = a at *
        generalize ((Fn.inOut o i).den h).val 0 * ((lastN h : Int) + 4) = b at *
        omega
      have hx : (clampI (0 - (led : Int) * 256) 0 255).toNat = 0 := by
        unfold clampI
        split <;> (try split) <;> omega
      rw [hblack hc.1]
      simp only [Sty.den, hn, ht, hx]
      exact mix_black_first (black_isBlack _ led) _ _
    · intro hr
      simp only [Sty.den] at hr
      split at hr <;> simp at hr
  | cycle p off on base _ _ _ =>
    intro s hok h g ho hN q
    obtain ⟨hs, hb, hp⟩ := hok
    have hoff := ho hs
    constructor
    · intro hr led hl
      have hc : cycPercent p h = 0 ∧ p.black = true := by
        simp only [Sty.den] at hr
        split at hr
        · assumption
        · simp at hr
      have h0 := cycPercent_zero p hp hoff q hc.1
      rw [hb hc.2]
      simp only [Sty.den, h0, if_true]
      exact mix_black_first (black_isBlack _ led) _ _
    · intro hr
      simp only [Sty.den] at hr
      split at hr <;> simp at hr
  | fire c1 c2 speed delay norm clash lock offc _ _ =>
    intro s hok h g ho hN q
    obtain ⟨hs, hb, hr0, hsp⟩ := hok
    have hoff := ho hs
    constructor
    · intro hr led hl
      have hc : ∀ i, i < lastN h → (fireHeat speed delay norm clash lock offc h).1 i = 0 := by
        simp only [Sty.den] at hr
        split at hr
        · rename_i hx
          simp only [Bool.and_eq_true, decide_eq_true_eq] at hx
          exact hx.2
        · simp at hr
      obtain ⟨z, _⟩ := fire_quiet speed delay norm clash lock offc hsp hb hr0 hoff hc (fire_top _ _ _ _ _ _ _ h hN) q
      have hn := q.n
      simp only [Sty.den, hn]
      rw [z (lastN h - 1 - led) (by omega)]
      refine ⟨fun ch => ?_, rfl⟩
      simp only [Pix.solid, fireColor]
      exact mixC_first
    · intro hr
      simp only [Sty.den] at hr
      split at hr <;> simp at hr

/-! ## C85 -/

/-- **C85** (partial: for the styles in `Sty.ok`; the exceptions are below).  Whatever the history of the
blade, when a style lets the blade cut the power of its LEDs while the blade is off, every LED is black,
and would be black in every later frame until the blade is woken by ignition or an effect: cutting the
power changes nothing that can be seen. -/
theorem C85_power_off_invisible_partial (S : Sty) (hok : S.ok false) (h : Hist) (hoff : lastOn h = false)
    (hN : ∀ f ∈ h, f.n = lastN h) (ha : S.allowsOff h = true) (g : Hist) (q : Quiet h g) (led : Nat) (hl : led < lastN h) (ch : Ch) :
    S.shown (g ++ h) led ch = 0 := by
  have hr : (S.den h).res = .black := by
    unfold Sty.allowsOff at ha
    exact eq_of_beq ha
  exact ((Sty.sound S false hok h g (fun _ => hoff) hN q).1 hr led hl).1 ch

/-- a blade with `InOutHelper` over any colour, styles/inout_helper.h:22-44 -/
def saber (base : Sty) (outMs inMs : Nat) : Sty :=
  .compose base (.alpha black (.inOutHelper (.inOut (.const outMs) (.const inMs)) true))

/-- the time that passes in the frames `g` after `h`, by the 32-bit microsecond clock -/
def elapsed (h : Hist) : Hist → Nat
  | [] => 0
  | f :: g => elapsed h g + (f.us + 4294967296 - lastUs (g ++ h)) % 4294967296

theorem extension_le_one (o i : Hist → Int) (hi : ∀ h, 0 ≤ i h) : ∀ h, extension o i h ≤ 1
  | [] => by simp only [extension]; decide
  | f :: h => by
    have ih := extension_le_one o i hi h
    by_cases hf : f.on = true
    · simp only [extension, hf, if_true]
      split
      · decide +kernel
      · split
        · decide
        · generalize extension o i h + _ = z
          grind
    · have hf : f.on = false := by simpa using hf
      have := extension_off o i hi f h hf
      have key : ∀ (e d : Rat) (z : Int), 0 ≤ d → 0 ≤ z → e ≤ 1 → (if z = 0 then (0 : Rat) else max (e - d / (z * 1000)) 0) ≤ 1 := by
        intro e d z hd hz he
        split
        · decide
        · have hz' : (0 : Rat) ≤ (z : Rat) := Rat.intCast_nonneg.mpr hz
          have : 0 ≤ d / (z * 1000) := div_nonneg hd (Rat.mul_nonneg hz' (by decide))
          generalize d / (z * 1000) = q at this ⊢
          grind
      simp only [extension, hf]
      exact key _ _ _ (by exact_mod_cast Nat.zero_le _) (hi _) ih

theorem add_div {a b c : Rat} : (a + b) / c = a / c + b / c := by simp only [Rat.div_def, Rat.add_mul]

/-- while off, the extension goes down at the given speed -/
theorem extension_falls (o : Hist → Int) (T : Nat) (hT : 0 < T) (h : Hist) :
    ∀ g : Hist, g ≠ [] → (∀ f ∈ g, f.on = false) →
      extension o (fun _ => (T : Int)) (g ++ h) ≤ max 0 (1 - (elapsed h g : Rat) / ((T : Int) * 1000))
  | [], hne, _ => absurd rfl hne
  | [f], _, hf => by
    have h1 := extension_le_one o (fun _ => (T : Int)) (fun _ => by simp) h
    have hf : f.on = false := hf f List.mem_cons_self
    have hT0 : ¬((T : Int) = 0) := by omega
    simp only [List.cons_append, List.nil_append, extension, hf, if_neg hT0, elapsed, Nat.zero_add]
    generalize ((_ : Rat) / (((T : Int) : Rat) * 1000)) = z at *
    simp only [Bool.false_eq_true, if_false]
    grind
  | f :: f' :: g, _, hf => by
    have ih := extension_falls o T hT h (f' :: g) (by simp) (fun x hx => hf x (List.mem_cons_of_mem _ hx))
    have hf0 : f.on = false := hf f List.mem_cons_self
    have hT0 : ¬((T : Int) = 0) := by omega
    rw [List.cons_append]
    generalize hg : f' :: g = G at *
    have e1 : extension o (fun _ => (T : Int)) (f :: (G ++ h)) =
        max (extension o (fun _ => (T : Int)) (G ++ h) - (((f.us + 4294967296 - lastUs (G ++ h)) % 4294967296 : Nat) : Rat) / ((T : Int) * 1000)) 0 := by
      simp only [extension, hf0, if_neg hT0, Bool.false_eq_true, if_false]
    have e2 : (elapsed h (f :: G) : Rat) / ((T : Int) * 1000) = (elapsed h G : Rat) / ((T : Int) * 1000) +
        (((f.us + 4294967296 - lastUs (G ++ h)) % 4294967296 : Nat) : Rat) / ((T : Int) * 1000) := by
      rw [← add_div]
      congr 1
      simp only [elapsed]
      exact_mod_cast rfl
    have hd : (0 : Rat) ≤ (((f.us + 4294967296 - lastUs (G ++ h)) % 4294967296 : Nat) : Rat) / ((T : Int) * 1000) :=
      div_nonneg (by exact_mod_cast Nat.zero_le _) (Rat.mul_nonneg (Rat.intCast_nonneg.mpr (by simp)) (by decide))
    rw [e1, e2]
    generalize ((((f.us + 4294967296 - lastUs (G ++ h)) % 4294967296 : Nat) : Rat) / (((T : Int) : Rat) * 1000)) = z at *
    generalize ((elapsed h G : Rat) / (((T : Int) : Rat) * 1000)) = y at *
    generalize extension o (fun _ => (T : Int)) (G ++ h) = e at *
    grind

theorem extension_zero (o i : Hist → Int) (f : Frame) (h : Hist) (hf : f.on = false) (hi : i (f :: h) = 0) : extension o i (f :: h) = 0 := by
  simp only [extension, hf, hi, if_true, Bool.false_eq_true, if_false]

theorem cast_ms {a b : Nat} (h : a * 1000 ≤ b) : (((a : Int) : Rat) * 1000) ≤ (b : Rat) := by
  have h1 : ((a * 1000 : Nat) : Rat) ≤ (b : Rat) := Rat.natCast_le_natCast.mpr h
  rw [Rat.natCast_mul] at h1
  rw [Rat.intCast_natCast]
  exact h1

/-- **C85**, the other direction for the usual kind of style: after retraction, once the retraction time
has passed, the style lets the blade cut the power, whatever the colour and the history. -/
theorem C85_powers_off (base : Sty) (outMs inMs : Nat) (h g : Hist) (hg : g ≠ []) (hf : ∀ f ∈ g, f.on = false)
    (ht : inMs * 1000 ≤ elapsed h g) : (saber base outMs inMs).allowsOff (g ++ h) = true := by
  have hoff : lastOn (g ++ h) = false := by
    cases g with
    | nil => exact absurd rfl hg
    | cons f g => exact hf f List.mem_cons_self
  have hle : extension (fun _ => (outMs : Int)) (fun _ => (inMs : Int)) (g ++ h) ≤ 0 := by
    by_cases h0 : inMs = 0
    · subst h0
      cases g with
      | nil => exact absurd rfl hg
      | cons f g =>
        have hf : f.on = false := hf f List.mem_cons_self
        rw [List.cons_append, extension_zero _ _ f _ hf rfl]
        exact Rat.le_refl
    · have := extension_falls (fun _ => (outMs : Int)) inMs (by omega) h g hg hf
      have hpos : (0 : Rat) < ((inMs : Int) * 1000 : Rat) := Rat.mul_pos (by exact_mod_cast (by omega : 0 < (inMs : Int))) (by decide)
      have h1 : 1 ≤ (elapsed h g : Rat) / ((inMs : Int) * 1000) := by
        rw [← Rat.not_lt, Rat.div_lt_iff hpos, Rat.not_lt, Rat.one_mul]
        exact cast_ms ht
      generalize ((elapsed h g : Rat) / (((inMs : Int) : Rat) * 1000)) = y at *
      grind
  have hge : 0 ≤ extension (fun _ => (outMs : Int)) (fun _ => (inMs : Int)) (g ++ h) :=
    extension_nonneg _ _ (fun _ => by simp) _ hoff
  have he : extension (fun _ => (outMs : Int)) (fun _ => (inMs : Int)) (g ++ h) = 0 := by grind
  have hfl : ((0 : Rat) * 32768).floor = 0 := by decide +kernel
  simp only [saber, Sty.allowsOff, Sty.den, Fn.den, he, hfl, hoff, black]
  rfl

/-! ### Styles with transitions -/

/-- a transition that is over once it has run for `T` milliseconds, like the transitions of C67 and
Verif/Transition: `s` are the frames since it began -/
def Ends (t : Tr) (T : Nat) : Prop := ∀ f s all, (∃ f0, (f :: s).getLast? = some f0 ∧ f0.ms + T ≤ f.ms) → (t (f :: s) all).1 = true

/-- an active transition began at one of the frames, and is not done -/
theorem active_some (t : Tr) (b : Hist → Bool) : ∀ (h s : Hist), active t b h = some s →
    s ≠ [] ∧ (t s h).1 = false ∧ ∃ f a r, s = a ++ [f] ∧ h = s ++ r ∧ b (f :: r) = true
  | [], s, e => by simp [active] at e
  | f :: h, s, e => by
    simp only [active] at e
    by_cases hb : b (f :: h) = true
    · simp only [hb, if_true] at e
      split at e
      · exact absurd e (by simp)
      · injection e with e
        subst e
        rename_i hd
        exact ⟨by simp, by simpa using hd, f, [], h, rfl, rfl, hb⟩
    · simp only [hb] at e
      cases ha : active t b h with
      | none => simp [ha] at e
      | some s' =>
        obtain ⟨_, _, f0, a, r, e1, e2, e3⟩ := active_some t b h s' ha
        simp only [ha, Option.map_some, Bool.false_eq_true, if_false] at e
        split at e
        · exact absurd e (by simp)
        · injection e with e
          subst e
          rename_i hd
          exact ⟨by simp, by simpa using hd, f0, f :: a, r, by rw [e1]; rfl, by rw [e2]; rfl, e3⟩

/-- a transition that did not begin after the first of the frames `q` is over once these lasted long enough -/
theorem active_over (t : Tr) (b : Hist → Bool) (T : Nat) (ht : Ends t T) (f : Frame) (q r : Hist)
    (hsort : (f :: q ++ r).Pairwise (fun x y => y.ms ≤ x.ms))
    (hlong : ∃ f0, (f :: q).getLast? = some f0 ∧ f0.ms + T ≤ f.ms)
    (hb : ∀ a x y d, f :: q = a ++ x :: y :: d → b (x :: y :: (d ++ r)) = false) : active t b (f :: q ++ r) = none := by
  cases h : active t b (f :: q ++ r) with
  | none => rfl
  | some s =>
    exfalso
    obtain ⟨hne, hd, x, a, c, e1, e2, e3⟩ := active_some t b _ s h
    obtain ⟨f0, hf0, hT⟩ := hlong
    -- either it began within `q` after its first frame, or it has run at least as long as `q`
    subst e1
    have hhead : ∃ w, a ++ [x] = f :: w := by
      cases a with
      | nil => rw [List.nil_append, List.cons_append] at e2; injection e2 with e2; exact ⟨[], by rw [e2]; rfl⟩
      | cons y a => rw [List.cons_append, List.cons_append] at e2; injection e2 with e2; exact ⟨a ++ [x], by rw [e2]; rfl⟩
    obtain ⟨w, hw⟩ := hhead
    by_cases hlen : (a ++ [x]).length < (f :: q).length
    · have : ∃ y d, f :: q = (a ++ [x]) ++ y :: d ∧ c = y :: d ++ r := by
        rcases List.append_eq_append_iff.mp e2 with ⟨z, h1, h2⟩ | ⟨z, h1, h2⟩
        · rw [h1] at hlen
          simp only [List.length_append] at hlen
          omega
        · cases z with
          | nil => rw [List.append_nil] at h1; rw [h1] at hlen; omega
          | cons y d => exact ⟨y, d, h1, h2⟩
      obtain ⟨y, d, h1, h2⟩ := this
      have := hb a x y d (by rw [h1]; simp)
      rw [h2] at e3
      rw [List.cons_append] at e3
      rw [this] at e3
      simp at e3
    · have hx : x.ms ≤ f0.ms := by
        have : ∃ q', f :: q = q' ++ [f0] := List.getLast?_eq_some_iff.mp hf0
        obtain ⟨q', hq'⟩ := this
        rw [hq'] at e2 hlen hsort
        rcases List.append_eq_append_iff.mp e2 with ⟨z, h1, h2⟩ | ⟨z, h1, h2⟩
        · cases hz : z.reverse with
          | nil =>
            have : z = [] := by simpa using hz
            subst this
            rw [List.append_nil] at h1
            have := List.append_inj_right' h1 rfl
            injection this with this
            subst this
            exact Nat.le_refl _
          | cons z1 z2 =>
            have : z = z2.reverse ++ [z1] := by
              have := congrArg List.reverse hz
              simpa using this
            subst this
            have h3 : x = z1 := by
              rw [← List.append_assoc] at h1
              have := List.append_inj_right' h1 rfl
              injection this
            subst h3
            rw [h2] at hsort
            rw [List.pairwise_append] at hsort
            exact hsort.2.2 f0 (by simp) x (by simp)
        · have : z = [] := by
            have h4 := congrArg List.length h1
            simp only [List.length_append] at h4 hlen
            cases z with
            | nil => rfl
            | cons => simp at h4 hlen; omega
          subst this
          rw [List.append_nil] at h1
          have := List.append_inj_right' h1 rfl
          injection this with this
          subst this
          exact Nat.le_refl _
      rw [hw] at hd
      have := ht f w (f :: q ++ r) ⟨x, by rw [← hw]; simp, by omega⟩
      rw [this] at hd
      simp at hd

/-- **C85**, the other direction for styles with transitions: after retraction, once the transitions are
over, the style lets the blade cut the power, whatever its other layers below and the history. -/
theorem C85_transition_powers_off (base : Sty) (out inn : Tr) (T : Nat) (ho : Ends out T) (hi : Ends inn T)
    (f : Frame) (q r : Hist) (hoff : ∀ x ∈ f :: q, x.on = false)
    (hsort : (f :: q ++ r).Pairwise (fun x y => y.ms ≤ x.ms))
    (hlong : ∃ f0, (f :: q).getLast? = some f0 ∧ f0.ms + T ≤ f.ms) :
    (Sty.compose base (.inOutTr out inn black true)).allowsOff (f :: q ++ r) = true := by
  have h1 : active out goesOn (f :: q ++ r) = none := by
    refine active_over out goesOn T ho f q r hsort hlong fun a x y d e => ?_
    have : x.on = false := hoff x (by rw [e]; simp)
    simp [goesOn, this]
  have h2 : active inn goesOff (f :: q ++ r) = none := by
    refine active_over inn goesOff T hi f q r hsort hlong fun a x y d e => ?_
    have : y.on = false := hoff y (by rw [e]; simp)
    simp [goesOff, lastOn, this]
  have h3 : lastOn (f :: q ++ r) = false := hoff f List.mem_cons_self
  simp only [Sty.allowsOff, Sty.den, h1, h2, h3, black]
  rfl

/-- the hypotheses can be met: a 300 ms fade (`TrFade<300>` without colours), off for 400 ms after being on -/
example :
    let fr (on : Bool) (ms : Nat) : Frame := ⟨on, ms * 1000, ms, 4, fun _ => false, fun _ _ => 0⟩
    let t : Tr := fun s _ => (match s.head?, s.getLast? with
      | some f, some f0 => decide (f0.ms + 300 ≤ f.ms)
      | _, _ => false, fun a _ _ => a)
    Ends t 300
    ∧ (Sty.compose (.rgb fun _ => 65535) (.inOutTr t t black true)).allowsOff [fr false 1400, fr false 1200, fr false 1000, fr true 900] = true
    ∧ (Sty.compose (.rgb fun _ => 65535) (.inOutTr t t black true)).allowsOff [fr false 1200, fr false 1000, fr true 900] = false := by
  refine ⟨fun f s all ⟨f0, h1, h2⟩ => ?_, by decide +kernel, by decide +kernel⟩
  simp [h1, h2]

/-! ### Examples and exceptions -/

/-- a frame of a blade with 4 LEDs -/
def fr (on : Bool) (ms : Nat) (inp : Nat → Nat → Int := fun _ _ => 0) : Frame := ⟨on, ms * 1000, ms, 4, fun _ => false, inp⟩

/-- a colour with only red -/
def red : Sty := .rgb fun | .r => 65535 | _ => 0

example : (saber red 300 800).ok false := ⟨trivial, trivial, show (0 : Int) ≤ 800 by decide⟩

/-- on for a second, then off for a second: the power may go; in between it may not -/
example : (saber red 300 800).allowsOff [fr false 2000, fr false 1100, fr true 1000, fr true 100] = true
    ∧ (saber red 300 800).allowsOff [fr false 1100, fr true 1000, fr true 100] = false
    ∧ (saber red 300 800).shown [fr false 1100, fr true 1000, fr true 100] 0 .r = 65535 := by decide +kernel

/-- `LinearSectionF` with a fraction of 100 percent around a position other than the middle does not cover
the blade, but says that it does: the LEDs are switched off although half of the blade is red. -/
theorem C85_linear_section_counterexample :
    let S : Sty := .compose red (.alpha black (.linear (.const 0) (.const 32768)))
    S.allowsOff [fr false 0] = true ∧ S.shown [fr false 0] 3 .r = 65535 := by decide +kernel

/-- `Cylon` looks at the wrong colour: with 0 percent while off, the whole blade shows BASE_COLOR, but it is
OFF_COLOR that decides whether the LEDs are switched off. -/
theorem C85_cylon_counterexample :
    let S : Sty := .cycle { offPercent := 0, onPercent := 20, fadeMs := 500, black := true } black red red
    S.allowsOff [fr false 0] = true ∧ S.shown [fr false 0] 0 .r = 65535 := by decide +kernel

/-- `StyleFire` with a fire that burns while off (`StaticFire`) switches the LEDs off when the random
numbers leave all LEDs dark for one update, although the fire would go on. -/
theorem C85_fire_counterexample :
    let c : FireCfg := ⟨0, 2000, 5⟩
    let S : Sty := .fire red red 2 0 c c c c
    let burn : Frame := fr false 30 (fun k _ => if k = 6 then 0 else 1999 - 1500 * (5 - k))
    S.allowsOff [fr false 20] = true ∧ S.shown [burn, fr false 20] 0 .r ≠ 0 := by decide +kernel

/-- `InOutSparkTipX` with an extension that is not tied to ignition: it is off for one frame, and the LEDs are
switched off until ignition. -/
theorem C85_spark_tip_counterexample :
    let S : Sty := .sparkTip red (.source 0 true) red black true true
    let swing : Frame := fr false 30 (fun _ _ => 32768)
    S.allowsOff [fr false 20] = true ∧ S.shown [swing, fr false 20] 0 .r ≠ 0 := by decide +kernel

/-- An ignition delay inside a retraction delay: retracting during the ignition delay switches the LEDs off,
although the inner style is still going to ignite. -/
theorem C85_nested_delays_counterexample :
    let S : Sty := .retractionDelay (.const 2000) (.ignitionDelay (.const 1000) (saber red 0 0))
    S.allowsOff [fr false 1500, fr true 1000] = true
    ∧ S.shown [fr false 2300, fr false 2200, fr false 2100, fr false 1500, fr true 1000] 0 .r = 65535 := by decide +kernel

/-- each of the two delays alone is covered -/
example : (Sty.ignitionDelay (.const 1000) (.retractionDelay (.const 2000) (saber red 300 800))).ok false :=
  ⟨rfl, trivial, trivial, show (0 : Int) ≤ 800 by decide⟩

end Verif.Style
