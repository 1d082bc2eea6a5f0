import Verif.Style.Sound
/-! # C85: the LEDs are switched off only when they are black -/
namespace Verif.Style

open Verif.Color (Color Ch)

/-! ## Pixels -/

theorem clear_clear : IsClear .clear := ⟨by simp [Pix.clear], rfl, fun h => by simp [Pix.clear] at h⟩

theorem toPm_black {p : Pix} (h : IsBlack p) : IsBlack p.toPm := by
  obtain ⟨k, c, a⟩ := p
  obtain ⟨h1, h2⟩ := h
  cases k
  · exact ⟨h1, rfl⟩
  · exact ⟨fun ch => by have := h1 ch; simp only [Pix.toPm] at *; simp [this], h2⟩
  · exact ⟨h1, h2⟩

theorem toPm_clear {p : Pix} (h : IsClear p) : (∀ ch, p.toPm.c ch = 0) ∧ p.toPm.alpha = 0 := by
  obtain ⟨k, c, a⟩ := p
  obtain ⟨h1, h2, h3⟩ := h
  cases k
  · exact absurd rfl h1
  · simp only at h2; subst h2
    exact ⟨fun ch => by simp [Pix.toPm], rfl⟩
  · exact ⟨h3 rfl, h2⟩

theorem up0 : 32767 / 32768 = 0 := by decide

theorem over_black (b : Pix) {t : Pix} (h : IsBlack t) : IsBlack (b.over t) := by
  obtain ⟨bk, bc, ba⟩ := b
  obtain ⟨tk, tc, ta⟩ := t
  obtain ⟨h1, h2⟩ := h
  simp only at h1 h2
  subst h2
  have h0 : ¬(32768 = 0) := by decide
  cases bk <;> cases tk <;>
    simp only [Pix.over, IsBlack, h1, Nat.sub_self, Nat.mul_zero, Nat.zero_mul, Nat.zero_div, Nat.add_zero, Nat.zero_add, up0, h0, if_false,
      implies_true, and_self]

theorem black_over_clear {b t : Pix} (hb : IsBlack b) (h : IsClear t) : IsBlack (b.over t) := by
  obtain ⟨bk, bc, ba⟩ := b
  obtain ⟨tk, tc, ta⟩ := t
  obtain ⟨h1, h2, h3⟩ := h
  obtain ⟨b1, b2⟩ := hb
  have h1' : tk ≠ .opaque := h1
  have h2' : ta = 0 := h2
  have h3' : tk = .pm → ∀ ch, tc ch = 0 := h3
  have b1' : ∀ ch, bc ch = 0 := b1
  have b2' : ba = 32768 := b2
  clear h1 h2 h3 b1 b2
  cases bk <;> cases tk <;> (try exact absurd rfl h1') <;> simp only [Pix.over]
  · rw [if_pos h2']; exact ⟨b1', b2'⟩
  · rw [if_pos h2']; exact ⟨b1', b2'⟩
  · exact ⟨fun ch => by simp only [b1', h2', Nat.zero_mul, Nat.mul_zero, Nat.add_zero, Nat.zero_div], by simp only [h2', Nat.sub_zero]; omega⟩
  · exact ⟨fun ch => by simp only [b1', h3' rfl, Nat.zero_mul, Nat.add_zero, Nat.zero_div], by simp only [h2', Nat.sub_zero]; omega⟩
  · exact ⟨fun ch => by simp only [b1', h2', Nat.zero_mul, Nat.mul_zero, Nat.add_zero, Nat.zero_div], by simp only [h2', Nat.sub_zero]; omega⟩
  · exact ⟨fun ch => by simp only [b1', h3' rfl, Nat.zero_mul, Nat.add_zero, Nat.zero_div], by simp only [h2', Nat.sub_zero]; omega⟩

theorem clear_over_clear {b t : Pix} (hb : IsClear b) (h : IsClear t) : IsClear (b.over t) := by
  obtain ⟨bk, bc, ba⟩ := b
  obtain ⟨tk, tc, ta⟩ := t
  obtain ⟨h1, h2, h3⟩ := h
  obtain ⟨b1, b2, b3⟩ := hb
  simp only at b2 h2
  subst b2 h2
  have h3' : tk = .pm → ∀ ch, tc ch = 0 := h3
  have b3' : bk = .pm → ∀ ch, bc ch = 0 := b3
  have h1' : tk ≠ .opaque := h1
  have b1' : bk ≠ .opaque := b1
  cases bk <;> (try exact absurd rfl b1') <;> cases tk <;> (try exact absurd rfl h1') <;>
    refine ⟨by simp [Pix.over], ?_, fun _ ch => ?_⟩ <;>
    simp only [Pix.over, Nat.sub_zero, Nat.mul_zero, Nat.zero_mul, Nat.zero_div, Nat.add_zero, Nat.zero_add, up0]
  · exact h3' rfl ch
  · simp only [b3' rfl ch, Nat.zero_mul, Nat.zero_div]
  · simp only [b3' rfl ch, h3' rfl ch, Nat.zero_mul, Nat.zero_div]

theorem x32768 : ((32768 : Int) % 65536).toNat = 32768 := by decide

theorem fade_one_black {p : Pix} (h : IsBlack p) : IsBlack (p.fade 32768) := by
  obtain ⟨k, c, a⟩ := p
  obtain ⟨h1, h2⟩ := h
  have h2' : a = 32768 := h2
  have h1' : ∀ ch, c ch = 0 := h1
  clear h1 h2
  unfold Pix.fade
  rw [x32768]
  cases k
  · exact ⟨h1', rfl⟩
  · exact ⟨h1', by simp only []; omega⟩
  · exact ⟨fun ch => by simp only [h1', Nat.zero_mul, Nat.zero_div], by simp only []; omega⟩

theorem fade_one_clear {p : Pix} (h : IsClear p) : IsClear (p.fade 32768) := by
  obtain ⟨k, c, a⟩ := p
  obtain ⟨h1, h2, h3⟩ := h
  simp only at h2
  subst h2
  have h3' : k = .pm → ∀ ch, c ch = 0 := h3
  have h1' : k ≠ .opaque := h1
  cases k
  · exact absurd rfl h1'
  · exact ⟨by simp [Pix.fade], by simp only [Pix.fade, Nat.zero_mul, Nat.zero_div], fun h => by simp [Pix.fade] at h⟩
  · exact ⟨by simp [Pix.fade], by simp only [Pix.fade, Nat.zero_mul, Nat.zero_add, up0], fun _ ch => by simp only [Pix.fade, h3' rfl ch, Nat.zero_mul, Nat.zero_div]⟩

theorem mixC_zero {x s : Nat} : mixC 0 0 x s = 0 := by simp [mixC]

theorem mixC_first {a b s : Nat} : mixC a b 0 s = a := by
  simp only [mixC, Nat.sub_zero, Nat.mul_zero, Nat.add_zero]
  exact Nat.mul_div_cancel _ (Nat.two_pow_pos s)

theorem up_div {m : Nat} (hm : 0 < m) (k : Nat) : (k * m + (m - 1)) / m = k := by
  rw [Nat.add_comm, Nat.add_mul_div_right _ _ hm, Nat.div_eq_of_lt (by omega), Nat.zero_add]

theorem mix_black {a b : Pix} (ha : IsBlack a) (hb : IsBlack b) {x s : Nat} (hx : x ≤ 2 ^ s) : IsBlack (a.mix b x s) := by
  unfold Pix.mix
  split
  · exact ⟨fun ch => by simp only [ha.1, hb.1]; exact mixC_zero, rfl⟩
  · refine ⟨fun ch => by simp only [(toPm_black ha).1, (toPm_black hb).1]; exact mixC_zero, ?_⟩
    simp only [(toPm_black ha).2, (toPm_black hb).2]
    have : 32768 * (2 ^ s - x) + 32768 * x = 32768 * 2 ^ s := by rw [← Nat.mul_add]; congr 1; omega
    rw [this]
    exact up_div (Nat.two_pow_pos s) _

theorem mix_clear {a b : Pix} (ha : IsClear a) (hb : IsClear b) {x s : Nat} : IsClear (a.mix b x s) := by
  unfold Pix.mix
  split
  · rename_i h; exact absurd h.1 ha.1
  · refine ⟨by simp, ?_, fun _ ch => by simp only [(toPm_clear ha).1, (toPm_clear hb).1]; exact mixC_zero⟩
    simp only [(toPm_clear ha).2, (toPm_clear hb).2, Nat.zero_mul, Nat.zero_add]
    exact Nat.div_eq_of_lt (by have := Nat.two_pow_pos s; omega)

/-- mixing in nothing of the second colour leaves black -/
theorem mix_black_first {a : Pix} (ha : IsBlack a) (b : Pix) (s : Nat) : IsBlack (a.mix b 0 s) := by
  unfold Pix.mix
  split
  · exact ⟨fun ch => by simp only [mixC_first]; exact ha.1 ch, rfl⟩
  · refine ⟨fun ch => by simp only [mixC_first]; exact (toPm_black ha).1 ch, ?_⟩
    simp only [(toPm_black ha).2, Nat.sub_zero, Nat.mul_zero, Nat.add_zero]
    exact up_div (Nat.two_pow_pos s) _

theorem dealpha_black {p : Pix} (h : IsBlack p ∨ IsClear p) : IsBlack p.dealpha := by
  refine ⟨fun ch => ?_, rfl⟩
  rcases h with h | h
  · exact (toPm_black h).1 ch
  · exact (toPm_clear h).1 ch

theorem getByte_black {c : Color} (h : ∀ ch, c ch = 0) (o b : Nat) : Color.getByte c o b = 0 := by
  unfold Color.getByte
  split <;> (try simp only [h, Color.minCh]) <;> rfl

theorem rotate_black {c : Color} (h : ∀ ch, c ch = 0) (a : Int) (ch : Ch) : ((Color.rotate c a).getD c) ch = 0 := by
  have : Color.rotate c a = some c := by
    unfold Color.rotate
    split
    · rfl
    · simp [h]
  rw [this]; exact h ch

/-! ## Histories -/

theorem active_quiet (t : Tr) (b : Hist → Bool) {h : Hist} (h0 : active t b h = none) :
    ∀ {g : Hist}, (∀ f g', (∃ g'', g = g'' ++ f :: g') → b (f :: g' ++ h) = false) → active t b (g ++ h) = none
  | [], _ => h0
  | f :: g, hb => by
    have ih : active t b (g ++ h) = none := active_quiet t b h0 (fun f' g' ⟨g'', e⟩ => hb f' g' ⟨f :: g'', by rw [e]; rfl⟩)
    have := hb f g ⟨[], rfl⟩
    simp only [List.cons_append] at this
    simp only [List.cons_append, active, this, ih]
    simp

theorem Quiet.suffix {h : Hist} : ∀ {g'' g' : Hist}, Quiet h (g'' ++ g') → Quiet h g'
  | [], _, q => q
  | _ :: _, _, q => Quiet.suffix q.1

theorem twice_append : ∀ g h, twice (g ++ h) = twice g ++ twice h
  | [], _ => rfl
  | f :: g, h => by simp only [List.cons_append, twice, twice_append g h]

theorem lastN_twice : ∀ h, lastN (twice h) = lastN h
  | [] => rfl
  | _ :: _ => rfl

theorem lastOn_twice : ∀ h, lastOn (twice h) = lastOn h
  | [] => rfl
  | _ :: _ => rfl

theorem Quiet.twice {h : Hist} : ∀ {g : Hist}, Quiet h g → Quiet (twice h) (twice g)
  | [], _ => trivial
  | f :: g, q => by
    have := q.1.twice
    have e : Verif.Style.twice g ++ Verif.Style.twice h = Verif.Style.twice (g ++ h) := (twice_append g h).symm
    refine ⟨⟨this, ?_, ?_, q.2.2.2⟩, fun h => h, rfl, q.2.2.2⟩
    · rw [e, lastOn_twice]; exact q.2.1
    · rw [e, lastN_twice]; exact q.2.2.1

theorem lastN_delayed (st : Int → Frame → Delay → Delay) (d : Hist → Int) : ∀ h, lastN (delayed st d h) = lastN h
  | [] => rfl
  | _ :: _ => rfl

theorem lastOn_delayed (st : Int → Frame → Delay → Delay) (d : Hist → Int) : ∀ h, lastOn (delayed st d h) = (delayState st d h).isOn
  | [] => rfl
  | _ :: _ => rfl

/-- a wrapper that does not ignite the wrapped style by itself keeps quiet histories quiet -/
theorem delayed_quiet (st : Int → Frame → Delay → Delay) (d : Hist → Int) {h : Hist} :
    ∀ {g : Hist}, Quiet h g →
      (∀ f g', (∃ g'', g = g'' ++ f :: g') → (delayState st d (f :: g' ++ h)).isOn = true → (delayState st d (g' ++ h)).isOn = true) →
      ∃ g1, delayed st d (g ++ h) = g1 ++ delayed st d h ∧ Quiet (delayed st d h) g1
  | [], _, _ => ⟨[], rfl, trivial⟩
  | f :: g, q, hs => by
    obtain ⟨g1, e, q1⟩ := delayed_quiet st d q.1 (fun f' g' ⟨g'', e⟩ => hs f' g' ⟨f :: g'', by rw [e]; rfl⟩)
    refine ⟨{ f with on := (delayState st d (f :: g ++ h)).isOn } :: g1, by simp only [List.cons_append, delayed, e], q1, ?_, ?_, q.2.2.2⟩
    · intro hf
      rw [← e, lastOn_delayed]
      exact hs f g ⟨[], rfl⟩ hf
    · rw [← e, lastN_delayed]; exact q.2.2.1

theorem retStep_mono (d : Int) (f : Frame) (s : Delay) (hf : f.on = false) : (retStep d f s).isOn = true → s.isOn = true := by
  unfold retStep
  rw [hf]
  simp only [Bool.false_eq_true, if_false]
  intro h
  by_cases c : (((f.ms + 4294967296 - if s.waiting = true then s.start else f.ms) % 4294967296 : Nat) : Int) > d % 4294967296
  · rw [if_pos c] at h; exact absurd h Bool.false_ne_true
  · rw [if_neg c] at h; exact h

theorem delayState_ret_on (d : Hist → Int) : ∀ h, lastOn h = true → (delayState retStep d h).isOn = true
  | [], h => by simp [lastOn] at h
  | f :: h, ho => by
    have : f.on = true := ho
    simp only [delayState, retStep, this, if_true]

theorem delayState_ign_off (d : Hist → Int) : ∀ h, lastOn h = false → (delayState ignStep d h).isOn = false
  | [], _ => rfl
  | f :: h, ho => by
    have : f.on = false := ho
    simp [delayState, ignStep, this]

/-! ## Cylon and ColorCycle -/

theorem cycFade_range (p : Cyc) (h : Hist) : 0 ≤ cycFade p h ∧ cycFade p h ≤ 1 := by
  cases h with
  | nil => simp only [cycFade]; constructor <;> decide
  | cons f h =>
    simp only [cycFade]
    generalize cycFade p h + _ = z
    grind

theorem cycFade_quiet (p : Cyc) {h : Hist} (ho : lastOn h = false) (h0 : cycFade p h = 0) :
    ∀ {g : Hist}, Quiet h g → cycFade p (g ++ h) = 0
  | [], _ => h0
  | f :: g, q => by
    have ih := cycFade_quiet p ho h0 q.1
    have hf : f.on = false := q.off ho
    simp only [List.cons_append, cycFade, ih, hf]
    have : 0 ≤ (((if (f.us + 4294967296 - lastUs (g ++ h)) % 4294967296 > 1000000 then 1 else (f.us + 4294967296 - lastUs (g ++ h)) % 4294967296 : Nat) : Rat) / 1000 / (p.fadeMs : Rat)) := by
      refine div_nonneg (div_nonneg (by exact_mod_cast Nat.zero_le _) (by decide)) (by exact_mod_cast Nat.zero_le _)
    generalize ((_ : Rat) / (p.fadeMs : Rat)) = z at this ⊢
    simp only [Bool.false_eq_true, if_false]
    grind

theorem cycPercent_zero (p : Cyc) (hp : p.offPercent = 0 ∨ 0 < p.onPercent) {h g : Hist} (ho : lastOn h = false) (q : Quiet h g)
    (h0 : cycPercent p h = 0) : cycPercent p (g ++ h) = 0 := by
  obtain ⟨r1, r2⟩ := cycFade_range p h
  unfold cycPercent at h0 ⊢
  have ha : (0 : Rat) ≤ (p.offPercent : Rat) := by exact_mod_cast Nat.zero_le _
  have hb : (0 : Rat) ≤ (p.onPercent : Rat) := by exact_mod_cast Nat.zero_le _
  have m1 := Rat.mul_nonneg ha (show 0 ≤ 1 - cycFade p h by grind)
  have m2 := Rat.mul_nonneg hb r1
  have z1 : (p.offPercent : Rat) * (1 - cycFade p h) = 0 := by grind
  have z2 : (p.onPercent : Rat) * cycFade p h = 0 := by grind
  by_cases hon : p.onPercent = 0
  · have hoff : p.offPercent = 0 := by omega
    simp only [hon, hoff]
    grind
  · have hf : cycFade p h = 0 := by
      have : (p.onPercent : Rat) ≠ 0 := by
        intro c
        apply hon
        exact_mod_cast c
      rcases Rat.mul_eq_zero.mp z2 with h | h
      · exact absurd h this
      · exact h
    rw [hf] at z1
    rw [cycFade_quiet p ho hf q]
    grind

/-! ## Fire -/

theorem fireOn_off (delay : Nat) : ∀ h, lastOn h = false → (fireOn delay h).1 = false
  | [], _ => rfl
  | f :: h, ho => by
    have : f.on = false := ho
    simp [fireOn, this]

theorem fire_quiet (speed delay : Nat) (norm clash lock offc : FireCfg) (hs : 1 ≤ speed) (hb : offc.base = 0) (hr : offc.rand = 0)
    {h : Hist} (ho : lastOn h = false)
    (hz : ∀ i, i < lastN h → (fireHeat speed delay norm clash lock offc h).1 i = 0)
    (ht : ∀ i, lastN h + speed ≤ i → (fireHeat speed delay norm clash lock offc h).1 i = 0) :
    ∀ {g : Hist}, Quiet h g →
      (∀ i, i < lastN h → (fireHeat speed delay norm clash lock offc (g ++ h)).1 i = 0) ∧
      (∀ i, lastN h + speed ≤ i → (fireHeat speed delay norm clash lock offc (g ++ h)).1 i = 0)
  | [], _ => ⟨hz, ht⟩
  | f :: g, q => by
    obtain ⟨a, b⟩ := fire_quiet speed delay norm clash lock offc hs hb hr ho hz ht q.1
    have hf : f.on = false := q.off ho
    have hc : fireCfg delay norm clash lock offc (f :: (g ++ h)) = offc := by
      have e1 : f.eff 0 = false := q.2.2.2 0
      have e2 := fireOn_off delay (f :: (g ++ h)) hf
      simp only [fireCfg, e1, e2]
      simp
    have hn : f.n = lastN h := q.n
    simp only [List.cons_append, fireHeat]
    split
    · rw [hc]
      have hw : ∀ i, lastN h ≤ i → fuel speed offc f (fireHeat speed delay norm clash lock offc (g ++ h)).1 i = 0 := by
        intro i hi
        unfold fuel
        split
        · simp [hb, hr, rnd]
        · rename_i hne
          exact b i (by rw [hn] at hne; omega)
      have hw' : ∀ i, fuel speed offc f (fireHeat speed delay norm clash lock offc (g ++ h)).1 i = 0 := by
        intro i
        by_cases hi : lastN h ≤ i
        · exact hw i hi
        · unfold fuel
          rw [if_neg (by rw [hn]; omega)]
          exact a i (by omega)
      constructor
      · intro i hi
        simp only [hn, if_pos hi, hw']
        unfold clampI
        split
        · rfl
        · split <;> omega
      · intro i hi
        simp only [hn]
        rw [if_neg (by omega)]
        exact hw' i
    · exact ⟨a, b⟩

/-- beyond the fuel the heat array is never written -/
theorem fire_top (speed delay : Nat) (norm clash lock offc : FireCfg) (N : Nat) :
    ∀ h : Hist, (∀ f ∈ h, f.n = N) → ∀ i, N + speed ≤ i → (fireHeat speed delay norm clash lock offc h).1 i = 0
  | [], _, _, _ => rfl
  | f :: h, hN, i, hi => by
    have ih := fire_top speed delay norm clash lock offc N h (fun f' h' => hN f' (List.mem_cons_of_mem _ h')) i hi
    have hn := hN f List.mem_cons_self
    simp only [fireHeat]
    split
    · simp only [hn]
      rw [if_neg (by omega)]
      unfold fuel
      rw [if_neg (by rw [hn]; omega)]
      exact ih
    · exact ih

end Verif.Style
