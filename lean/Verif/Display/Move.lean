import Verif.Display.Mono
/-! # Following the cycles of a permutation (`ConvertLandscape`) -/
namespace Verif.Display

/-- the number of `i < W` with `p i` -/
def cnt (p : Nat → Bool) : Nat → Nat
  | 0 => 0
  | k + 1 => cnt p k + if p k then 1 else 0

theorem cnt_le (p : Nat → Bool) : ∀ k, cnt p k ≤ k
  | 0 => Nat.le_refl _
  | k + 1 => by have := cnt_le p k; simp only [cnt]; split <;> omega

theorem cnt_congr (p q : Nat → Bool) : ∀ k, (∀ i, i < k → p i = q i) → cnt p k = cnt q k
  | 0, _ => rfl
  | k + 1, h => by simp only [cnt, cnt_congr p q k (fun i hi => h i (by omega)), h k (by omega)]

theorem cnt_remove (p : Nat → Bool) (d : Nat) (hp : p d = true) : ∀ k, d < k → cnt (fun i => if i = d then false else p i) k + 1 = cnt p k
  | 0, h => by omega
  | k + 1, h => by
    simp only [cnt]
    by_cases e : d = k
    · subst e
      have := cnt_congr (fun i => if i = d then false else p i) p d (fun i hi => by
        have : i ≠ d := by omega
        simp [this])
      rw [this]
      simp [hp]
    · have := cnt_remove p d hp k (by omega)
      have h2 : ¬ k = d := fun h => e h.symm
      simp only [h2, if_false]
      omega

/-- a permutation of the numbers below `W` -/
structure PermOn (W : Nat) (dest : Nat → Nat) : Prop where
  lt : ∀ y, y < W → dest y < W
  inj : ∀ y z, y < W → z < W → dest y = dest z → y = z

/-- the state within a cycle that started at `w` with frame `F0`: `O` are the places written since -/
structure Cyc {α : Type} (W : Nat) (g : α → α) (dest : Nat → Nat) (w : Nat) (F0 : Nat → α) (moved0 : Nat → Bool)
    (O : Nat → Prop) (from_ : Nat) (F : Nat → α) (moved : Nat → Bool) : Prop where
  hw : w < W
  start : moved0 w = false
  fromIn : from_ = w ∨ O from_
  notW : ¬ O w
  lt : ∀ i, O i → i < W
  fresh : ∀ i, O i → moved0 i = false
  mv : ∀ i, moved i = true ↔ moved0 i = true ∨ O i
  pre : ∀ i, O i → ∃ y, y < W ∧ y ≠ from_ ∧ (y = w ∨ O y) ∧ dest y = i ∧ F i = g (F0 y)
  rest : ∀ i, ¬ O i → F i = F0 i
  fwd : ∀ y, (y = w ∨ O y) → y ≠ from_ → O (dest y)

/-- what a finished cycle leaves -/
structure Done {α : Type} (W : Nat) (g : α → α) (dest : Nat → Nat) (w : Nat) (F0 : Nat → α) (moved0 : Nat → Bool)
    (F : Nat → α) (moved : Nat → Bool) : Prop where
  keep : ∀ i, moved0 i = true → moved i = true
  got : moved w = true
  lt : ∀ i, moved i = true → moved0 i = false → i < W
  closed : ∀ y, y < W → moved0 y = false → (moved y = true ↔ moved (dest y) = true)
  out : ∀ y, y < W → moved0 y = false → moved y = true → F (dest y) = g (F0 y)
  rest : ∀ i, (moved0 i = true ∨ moved i = false) → F i = F0 i

theorem cycle_spec {α : Type} {W : Nat} {g : α → α} {dest : Nat → Nat} {w : Nat} {F0 : Nat → α} {moved0 : Nat → Bool}
    (hp : PermOn W dest) (hcl : ∀ y, y < W → (moved0 y = true ↔ moved0 (dest y) = true)) :
    ∀ (fuel : Nat) (O : Nat → Prop) (from_ : Nat) (F : Nat → α) (moved : Nat → Bool),
      Cyc W g dest w F0 moved0 O from_ F moved → cnt (fun i => !moved i) W ≤ fuel →
      ∃ F' moved', cycleLoop W g dest w fuel from_ (F0 from_) F moved = some (F', moved') ∧ Done W g dest w F0 moved0 F' moved' := by
  intro fuel
  induction fuel with
  | zero =>
    intro O from_ F moved c hf
    exfalso
    -- the place to be written next is not moved yet
    have := cnt_remove (fun i => !moved i) w (by
      have : ¬ moved w = true := fun h => by
        rcases (c.mv w).mp h with h | h
        · rw [c.start] at h; simp at h
        · exact c.notW h
      simpa using this) W c.hw
    omega
  | succ fuel ih =>
    intro O from_ F moved c hf
    have hfl : from_ < W := by
      rcases c.fromIn with h | h
      · rw [h]; exact c.hw
      · exact c.lt _ h
    have hd := hp.lt from_ hfl
    have hfm : moved0 from_ = false := by
      rcases c.fromIn with h | h
      · rw [h]; exact c.start
      · exact c.fresh _ h
    have hdm : moved0 (dest from_) = false := by
      cases h : moved0 (dest from_) with
      | false => rfl
      | true => rw [(hcl from_ hfl).mpr h] at hfm; simp at hfm
    have hdO : ¬ O (dest from_) := by
      intro h
      obtain ⟨y, h1, h2, _, h4, _⟩ := c.pre _ h
      exact h2 (hp.inj y from_ h1 hfl h4)
    obtain ⟨O', hO'⟩ : ∃ O' : Nat → Prop, O' = fun i => O i ∨ i = dest from_ := ⟨_, rfl⟩
    have hmv' : ∀ i, (if i = dest from_ then true else moved i) = true ↔ moved0 i = true ∨ O' i := by
      intro i
      rw [hO']
      by_cases h : i = dest from_
      · simp [h]
      · rw [if_neg h, c.mv]; simp [h]
    have hF'd : (fun i => if i = dest from_ then g (F0 from_) else F i) (dest from_) = g (F0 from_) := if_pos rfl
    have hrest' : ∀ i, ¬ O' i → (if i = dest from_ then g (F0 from_) else F i) = F0 i := by
      intro i hi
      rw [hO'] at hi
      rw [if_neg (fun h => hi (.inr h))]
      exact c.rest i fun h => hi (.inl h)
    simp only [cycleLoop, if_pos hd]
    by_cases hdw : dest from_ = w
    · rw [if_pos hdw]
      refine ⟨_, _, rfl, fun i h => (hmv' i).mpr (.inl h), (hmv' w).mpr (.inr (by rw [hO']; exact .inr hdw.symm)), fun i h h0 => ?_, fun y hy h0 => ?_, fun y hy h0 h => ?_, fun i h => hrest' i ?_⟩
      · rcases (hmv' i).mp h with h | h
        · rw [h0] at h; simp at h
        · rw [hO'] at h
          rcases h with h | h
          · exact c.lt i h
          · rw [h]; exact hd
      · have h0' : ¬ moved0 (dest y) = true := fun h => by rw [(hcl y hy).mpr h] at h0; simp at h0
        rw [hmv', hmv', hO']
        simp only [h0, h0', false_or, Bool.false_eq_true]
        constructor
        · intro h
          by_cases e : y = from_
          · exact .inr (by rw [e])
          · refine .inl (c.fwd y ?_ e)
            rcases h with h | h
            · exact .inr h
            · exact .inl (h.trans hdw)
        · rintro (h | h)
          · obtain ⟨z, h1, h2, h3, h4, _⟩ := c.pre _ h
            have : z = y := hp.inj z y h1 hy h4
            subst this
            rcases h3 with h3 | h3
            · exact .inr (h3.trans hdw.symm)
            · exact .inl h3
          · have : y = from_ := hp.inj y from_ hy hfl h
            subst this
            rcases c.fromIn with h | h
            · exact .inr (h.trans hdw.symm)
            · exact .inl h
      · have hy' : y = w ∨ O y := by
          rcases (hmv' y).mp h with h | h
          · rw [h0] at h; simp at h
          · rw [hO'] at h
            rcases h with h | h
            · exact .inr h
            · exact .inl (h.trans hdw)
        by_cases e : y = from_
        · rw [e]; exact hF'd
        · have h1 := c.fwd y hy' e
          obtain ⟨z, h2, _, _, h5, h6⟩ := c.pre _ h1
          have : z = y := hp.inj z y h2 hy h5
          subst this
          show (if dest z = dest from_ then g (F0 from_) else F (dest z)) = _
          rw [if_neg (fun h => e (hp.inj z from_ hy hfl h))]
          exact h6
      · intro ho
        rcases h with h | h
        · rw [hO'] at ho
          rcases ho with ho | ho
          · rw [c.fresh i ho] at h; simp at h
          · rw [ho, hdm] at h; simp at h
        · have := (hmv' i).mpr (.inr ho)
          rw [h] at this; simp at this
    · rw [if_neg hdw, c.rest _ hdO]
      refine ih O' (dest from_) _ _ ⟨c.hw, c.start, .inr (by rw [hO']; exact .inr rfl), ?_, ?_, ?_, hmv', ?_, hrest', ?_⟩ ?_
      · rw [hO']
        rintro (h | h)
        · exact c.notW h
        · exact hdw h.symm
      · rw [hO']
        rintro i (h | h)
        · exact c.lt i h
        · rw [h]; exact hd
      · rw [hO']
        rintro i (h | h)
        · exact c.fresh i h
        · rw [h]; exact hdm
      · rw [hO']
        rintro i (h | h)
        · obtain ⟨y, h1, h2, h3, h4, h5⟩ := c.pre i h
          refine ⟨y, h1, ?_, ?_, h4, ?_⟩
          · rintro rfl
            rcases h3 with h3 | h3
            · exact hdw h3
            · exact hdO h3
          · rcases h3 with h3 | h3
            · exact .inl h3
            · exact .inr (.inl h3)
          · show (if i = dest from_ then g (F0 from_) else F i) = _
            rw [if_neg (fun e : i = dest from_ => hdO (e ▸ h))]
            exact h5
        · subst h
          refine ⟨from_, hfl, ?_, ?_, rfl, hF'd⟩
          · intro e
            rcases c.fromIn with h | h
            · exact hdw (e.symm.trans h)
            · rw [e] at h; exact hdO h
          · rcases c.fromIn with h | h
            · exact .inl h
            · exact .inr (.inl h)
      · rw [hO']
        rintro y h e
        by_cases e2 : y = from_
        · exact .inr (by rw [e2])
        · refine .inl (c.fwd y ?_ e2)
          rcases h with h | h | h
          · exact .inl h
          · exact .inr h
          · exact absurd h e
      · have hm : (!moved (dest from_)) = true := by
          have : ¬ moved (dest from_) = true := fun h => by
            rcases (c.mv _).mp h with h | h
            · rw [hdm] at h; simp at h
            · exact hdO h
          simpa using this
        have h1 := cnt_remove (fun i => !moved i) (dest from_) hm W hd
        have h2 := cnt_congr (fun i => !(if i = dest from_ then true else moved i)) (fun i => if i = dest from_ then false else !moved i) W
          (fun i _ => by by_cases e : i = dest from_ <;> simp [e])
        omega

/-- after the loop over the first `count` words -/
theorem move_spec {α : Type} {W : Nat} (g : α → α) {dest : Nat → Nat} (hp : PermOn W dest) (F : Nat → α) :
    ∀ count, count ≤ W → ∃ G moved, moveLoop W g dest F count = some (G, moved) ∧
      (∀ y, y < W → (moved y = true ↔ moved (dest y) = true)) ∧
      (∀ y, y < W → moved y = true → G (dest y) = g (F y)) ∧
      (∀ i, moved i = false → G i = F i) ∧ (∀ i, moved i = true → i < W) ∧ ∀ i, i < count → moved i = true
  | 0, _ => ⟨F, fun _ => false, rfl, fun y _ => by simp, fun y _ h => by simp at h, fun _ _ => rfl, fun _ h => by simp at h, fun i h => by omega⟩
  | count + 1, hc => by
    obtain ⟨G, moved, e, h1, h2, h3, h4, h5⟩ := move_spec g hp F count (by omega)
    cases hm : moved count with
    | true =>
      refine ⟨G, moved, by simp only [moveLoop, e, hm, if_true], h1, h2, h3, h4, fun i hi => ?_⟩
      by_cases h : i = count
      · rw [h]; exact hm
      · exact h5 i (by omega)
    | false =>
      obtain ⟨G', moved', e', d⟩ := cycle_spec (g := g) (F0 := G) hp h1 W (fun _ => False) count G moved
        ⟨by omega, hm, .inl rfl, id, fun _ h => h.elim, fun _ h => h.elim, fun i => by simp, fun _ h => h.elim, fun _ _ => rfl, fun y h1 h2 => by
          rcases h1 with h1 | h1
          · exact h2 h1
          · exact h1⟩ (cnt_le _ _)
      refine ⟨G', moved', by simp only [moveLoop, e, hm, Bool.false_eq_true, if_false]; exact e', fun y hy => ?_, fun y hy hy' => ?_, fun i hi => ?_, fun i hi => ?_, fun i hi => ?_⟩
      · cases h0 : moved y with
        | false => exact d.closed y hy h0
        | true =>
          have := (h1 y hy).mp h0
          exact ⟨fun _ => d.keep _ this, fun _ => d.keep _ h0⟩
      · cases h0 : moved y with
        | false => rw [d.out y hy h0 hy', h3 y h0]
        | true => rw [d.rest _ (.inl ((h1 y hy).mp h0)), h2 y hy h0]
      · have h0 : moved i = false := by
          cases h0 : moved i with
          | false => rfl
          | true => rw [d.keep i h0] at hi; simp at hi
        rw [d.rest i (.inr hi), h3 i h0]
      · cases h0 : moved i with
        | false => exact d.lt i hi h0
        | true => exact h4 i h0
      · by_cases h : i = count
        · rw [h]; exact d.got
        · exact d.keep i (h5 i (by omega))

/-- all words are moved to their places, each changed by `g` once -/
theorem move_all {α : Type} {W : Nat} (g : α → α) {dest : Nat → Nat} (hp : PermOn W dest) (F : Nat → α) :
    ∃ G moved, moveLoop W g dest F W = some (G, moved) ∧ (∀ y, y < W → G (dest y) = g (F y)) ∧ ∀ i, W ≤ i → G i = F i := by
  obtain ⟨G, moved, e, _, h2, h3, h4, h5⟩ := move_spec g hp F W (Nat.le_refl _)
  refine ⟨G, moved, e, fun y hy => h2 y hy (h5 y hy), fun i hi => h3 i ?_⟩
  cases h : moved i with
  | false => rfl
  | true => have := h4 i h; omega

end Verif.Display
