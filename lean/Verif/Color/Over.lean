import Verif.Color.Mix
set_option linter.unusedSimpArgs false
/-!
# C28: painting layers over each other

Alpha 32768 is opaque.  The exact value of painting `over` on `base` is
`base * (1 - alpha) + over * alpha` (with premultiplied colours the factors are already included).
-/
namespace Verif.Color

/-- a layer that is not premultiplied, as produced by the styles -/
def UmOk (c : Color) (alpha : Nat) : Prop := c.ok 16 ∧ alpha ≤ 32768

/-- a premultiplied layer: no channel is brighter than its alpha allows -/
def PmOk (c : Color) (alpha : Nat) : Prop := alpha ≤ 32768 ∧ ∀ ch, c ch * 32768 ≤ 65535 * alpha

theorem PmOk.ok {c : Color} {alpha : Nat} (h : PmOk c alpha) : c.ok 16 := by
  intro ch
  have h1 := h.2 ch
  have h2 := h.1
  omega

theorem compl_eq {alpha : Nat} (h : alpha ≤ 32768) : compl alpha = 32768 - alpha := by
  unfold compl
  exact toU16_sub (T := 32768) (by omega) h

theorem mulShr15_eq {a b : Nat} (ha : a ≤ 32768) (hb : b ≤ 32768) : mulShr15 a b = some (a * b / 32768) := by
  have h : a * b ≤ 32768 * 32768 := Nat.mul_le_mul ha hb
  unfold mulShr15
  generalize a * b = p at *
  rw [i32_some (by omega) (by omega), Option.map_some]
  have e : (p : Int) / 32768 = ((p / 32768 : Nat) : Int) := by rw [Int.natCast_ediv]; rfl
  rw [e, toU_small (by omega)]

theorem mulShr15Up_eq {a b : Nat} (ha : a ≤ 32768) (hb : b ≤ 32768) : mulShr15Up a b = some (((a * b + 32767) / 32768 : Nat) : Int) := by
  have h : a * b ≤ 32768 * 32768 := Nat.mul_le_mul ha hb
  unfold mulShr15Up
  generalize a * b = p at *
  rw [bind_i32 (by omega) (by omega), bind_i32 (by omega) (by omega)]
  have e : ((p : Int) + 0x7fff) / 32768 = (((p + 32767) / 32768 : Nat) : Int) := by
    rw [Int.natCast_ediv, Int.natCast_add]; rfl
  rw [e]

theorem premul_eq {c : Color} (hc : c.ok 16) {x : Nat} (hx : x ≤ 32768) : premul c x = some (fun ch => c ch * x / 32768) := by
  have h : ∀ ch, c ch * x ≤ 65535 * 32768 := fun ch => Nat.mul_le_mul (by have := hc ch; omega) hx
  unfold premul
  rw [mul32_eq (fun ch => by have := h ch; omega), Option.map_some, Option.some.injEq]
  funext ch
  have := h ch
  show c ch * x / 2 ^ 15 % 65536 = _
  omega

theorem blendUm_eq {base over : Color} (hb : base.ok 16) (ho : over.ok 16) {ac alpha : Nat} (h : ac + alpha ≤ 32768) :
    blendUm base over ac alpha = some (fun ch => (base ch * ac + over ch * alpha) / 32768) := by
  have h1 : ∀ ch, base ch * ac ≤ 65535 * ac := fun ch => Nat.mul_le_mul_right _ (by have := hb ch; omega)
  have h2 : ∀ ch, over ch * alpha ≤ 65535 * alpha := fun ch => Nat.mul_le_mul_right _ (by have := ho ch; omega)
  unfold blendUm
  rw [mul32_eq (fun ch => by have := h1 ch; omega), bind_some, mul32_eq (fun ch => by have := h2 ch; omega), bind_some, Option.some.injEq]
  funext ch
  have := h1 ch
  have := h2 ch
  show (base ch * ac + over ch * alpha) % 4294967296 / 2 ^ 15 % 65536 = _
  omega

theorem blendPm_eq {base over : Color} (hb : base.ok 16) {ac alpha : Nat} (ho : PmOk over alpha) (h : ac + alpha ≤ 32768) :
    blendPm base over ac = some (fun ch => base ch * ac / 32768 + over ch) := by
  have h1 : ∀ ch, base ch * ac ≤ 65535 * ac := fun ch => Nat.mul_le_mul_right _ (by have := hb ch; omega)
  unfold blendPm
  rw [mul32_eq (fun ch => by have := h1 ch; omega), bind_some, Option.some.injEq]
  funext ch
  have := h1 ch
  have := ho.2 ch
  show (base ch * ac / 2 ^ 15 % 65536 + over ch) % 65536 = _
  omega

/-- What painting a layer on a layer has to deliver.  `P` is the exact premultiplied base (times 32768),
`Q` the exact premultiplied upper layer (times 32768); `c`, `alpha` the result. -/
structure Painted (P Q : Ch → Nat) (baseAlpha overAlpha : Nat) (c : Color) (alpha : Nat) : Prop where
  /-- the result is a proper premultiplied layer -/
  valid : PmOk c alpha
  /-- no channel exceeds the exact value -/
  le : ∀ ch, c ch * 1073741824 ≤ P ch * (32768 - overAlpha) + Q ch * 32768
  /-- and it is less than 3 steps (of 65536) below it -/
  gt : ∀ ch, P ch * (32768 - overAlpha) + Q ch * 32768 < (c ch + 3) * 1073741824
  /-- alpha is exact up to one step (of 32768) -/
  alphaNear : baseAlpha * (32768 - overAlpha) + overAlpha * 32768 < alpha * 32768 + 32768 ∧
    alpha * 32768 < baseAlpha * (32768 - overAlpha) + overAlpha * 32768 + 32768

theorem fl (u : Nat) : ∃ z, u / 32768 = z ∧ 32768 * z ≤ u ∧ u < 32768 * z + 32768 := ⟨_, rfl, by omega, by omega⟩
theorem aux1 {u v Y oa : Nat} (h: u ≤ 65535*Y)(h2: v*32768 ≤ 65535*oa): (u/32768+v)*32768 ≤ 65535*(Y+oa) := by
  obtain ⟨z, e, h3, _⟩ := fl u
  rw [e, Nat.add_mul, Nat.mul_add]
  exact Nat.add_le_add (Nat.le_trans (Nat.mul_comm 32768 z ▸ h3) h) h2
theorem aux4 {p q : Nat} (h : p * 32768 ≤ 65535 * q) : p / 32768 * 32768 ≤ 65535 * ((q+32767)/32768) := by
  have e : p ≤ 65535 * ((q + 32767)/32768) := by omega
  obtain ⟨z, e2, h3, _⟩ := fl p
  rw [e2]
  exact Nat.le_trans (Nat.mul_comm 32768 z ▸ h3) e
theorem aux2 {s X v oa : Nat} (h: s*32768 ≤ 65535*X) (h2: v*32768 ≤ 65535*oa): (s/32768+v)*32768 ≤ 65535*((X+32767)/32768+oa) := by
  have e : s ≤ 65535 * ((X + 32767)/32768) := by omega
  exact aux1 e h2
theorem aux3 {s v : Nat} : (s/32768+v)*1073741824 ≤ s*32768 + v*32768*32768 := by
  obtain ⟨z, e, h3, _⟩ := fl s
  rw [e]
  omega

theorem paint_um_um {bc oc : Color} {ba oa : Nat} (hb : UmOk bc ba) (ho : UmOk oc oa) :
    Painted (fun ch => bc ch * ba) (fun ch => oc ch * oa) ba oa
      (fun ch => (bc ch * (ba * (32768 - oa) / 32768) + oc ch * oa) / 32768) (ba * (32768 - oa) / 32768 + oa) := by
  obtain ⟨hbc, hba⟩ := hb
  obtain ⟨hoc, hoa⟩ := ho
  have hX : ba * (32768 - oa) ≤ 32768 * (32768 - oa) := Nat.mul_le_mul_right _ hba
  have key : ∀ ch, bc ch * ba * (32768 - oa) = bc ch * (ba * (32768 - oa)) := fun ch => Nat.mul_assoc _ _ _
  generalize hXe : ba * (32768 - oa) = X at *
  generalize hY : X / 32768 = Y
  have hYX : Y * 32768 ≤ X ∧ X ≤ Y * 32768 + 32767 := by omega
  have f : ∀ ch, bc ch * Y ≤ 65535 * Y ∧ oc ch * oa ≤ 65535 * oa ∧ (bc ch * Y) * 32768 ≤ bc ch * X ∧ bc ch * X ≤ (bc ch * Y) * 32768 + bc ch * 32767 := by
    intro ch
    refine ⟨Nat.mul_le_mul_right _ (by have := hbc ch; omega), Nat.mul_le_mul_right _ (by have := hoc ch; omega), ?_, ?_⟩
    · rw [Nat.mul_assoc]; exact Nat.mul_le_mul_left _ hYX.1
    · rw [Nat.mul_assoc, ← Nat.mul_add]; exact Nat.mul_le_mul_left _ hYX.2
  refine ⟨⟨by omega, fun ch => ?_⟩, fun ch => ?_, fun ch => ?_, by omega⟩
  · have := f ch; (try dsimp only); omega
  · have := f ch; (try dsimp only); rw [key]; omega
  · have := f ch; have := hbc ch; (try dsimp only); rw [key]; omega

theorem paint_um_pm {bc oc : Color} {ba oa : Nat} (hb : UmOk bc ba) (ho : PmOk oc oa) :
    Painted (fun ch => bc ch * ba) (fun ch => oc ch * 32768) ba oa
      (fun ch => bc ch * (ba * (32768 - oa) / 32768) / 32768 + oc ch) (ba * (32768 - oa) / 32768 + oa) := by
  obtain ⟨hbc, hba⟩ := hb
  obtain ⟨hoa, hoc⟩ := ho
  have hX : ba * (32768 - oa) ≤ 32768 * (32768 - oa) := Nat.mul_le_mul_right _ hba
  have key : ∀ ch, bc ch * ba * (32768 - oa) = bc ch * (ba * (32768 - oa)) := fun ch => Nat.mul_assoc _ _ _
  generalize hXe : ba * (32768 - oa) = X at *
  generalize hY : X / 32768 = Y
  have hYX : Y * 32768 ≤ X ∧ X ≤ Y * 32768 + 32767 := by omega
  have f : ∀ ch, bc ch * Y ≤ 65535 * Y ∧ (bc ch * Y) * 32768 ≤ bc ch * X ∧ bc ch * X ≤ (bc ch * Y) * 32768 + bc ch * 32767 := by
    intro ch
    refine ⟨Nat.mul_le_mul_right _ (by have := hbc ch; omega), ?_, ?_⟩
    · rw [Nat.mul_assoc]; exact Nat.mul_le_mul_left _ hYX.1
    · rw [Nat.mul_assoc, ← Nat.mul_add]; exact Nat.mul_le_mul_left _ hYX.2
  refine ⟨⟨by omega, fun ch => ?_⟩, fun ch => ?_, fun ch => ?_, by omega⟩
  · exact aux1 (f ch).1 (hoc ch)
  · have := f ch; (try dsimp only); rw [key]; omega
  · have := f ch; have := hbc ch; (try dsimp only); rw [key]; omega

theorem paint_pm_um {bc oc : Color} {ba oa : Nat} (hb : PmOk bc ba) (ho : UmOk oc oa) :
    Painted (fun ch => bc ch * 32768) (fun ch => oc ch * oa) ba oa
      (fun ch => (bc ch * (32768 - oa) + oc ch * oa) / 32768) ((ba * (32768 - oa) + 32767) / 32768 + oa) := by
  obtain ⟨hba, hbc⟩ := hb
  obtain ⟨hoc, hoa⟩ := ho
  have hX : ba * (32768 - oa) ≤ 32768 * (32768 - oa) := Nat.mul_le_mul_right _ hba
  have key : ∀ ch, bc ch * 32768 * (32768 - oa) = bc ch * (32768 - oa) * 32768 := fun ch => Nat.mul_right_comm _ _ _
  have f : ∀ ch, (bc ch * (32768 - oa)) * 32768 ≤ 65535 * (ba * (32768 - oa)) ∧ oc ch * oa ≤ 65535 * oa := by
    intro ch
    refine ⟨?_, Nat.mul_le_mul_right _ (by have := hoc ch; omega)⟩
    rw [← key, ← Nat.mul_assoc]
    exact Nat.mul_le_mul_right _ (hbc ch)
  generalize hXe : ba * (32768 - oa) = X at *
  refine ⟨⟨by omega, fun ch => ?_⟩, fun ch => ?_, fun ch => ?_, by omega⟩
  · have := f ch; (try dsimp only); omega
  · have := f ch; (try dsimp only); rw [key]; omega
  · have := f ch; (try dsimp only); rw [key]; omega

theorem paint_pm_pm {bc oc : Color} {ba oa : Nat} (hb : PmOk bc ba) (ho : PmOk oc oa) :
    Painted (fun ch => bc ch * 32768) (fun ch => oc ch * 32768) ba oa
      (fun ch => bc ch * (32768 - oa) / 32768 + oc ch) ((ba * (32768 - oa) + 32767) / 32768 + oa) := by
  obtain ⟨hba, hbc⟩ := hb
  obtain ⟨hoa, hoc⟩ := ho
  have hX : ba * (32768 - oa) ≤ 32768 * (32768 - oa) := Nat.mul_le_mul_right _ hba
  have key : ∀ ch, bc ch * 32768 * (32768 - oa) = bc ch * (32768 - oa) * 32768 := fun ch => Nat.mul_right_comm _ _ _
  have f : ∀ ch, (bc ch * (32768 - oa)) * 32768 ≤ 65535 * (ba * (32768 - oa)) := by
    intro ch
    rw [← key, ← Nat.mul_assoc]
    exact Nat.mul_le_mul_right _ (hbc ch)
  generalize hXe : ba * (32768 - oa) = X at *
  refine ⟨⟨by omega, fun ch => ?_⟩, fun ch => ?_, fun ch => ?_, by omega⟩
  · exact aux2 (f ch) (hoc ch)
  · (try dsimp only); rw [key]; exact aux3
  · have := f ch; (try dsimp only); rw [key]; omega

theorem mul_compl_le {ba oa : Nat} (h : ba ≤ 32768) : ba * (32768 - oa) / 32768 ≤ 32768 - oa := by
  have : ba * (32768 - oa) ≤ 32768 * (32768 - oa) := Nat.mul_le_mul_right _ h
  omega

theorem mul_compl_le' {ba oa : Nat} (h : ba ≤ 32768) : (ba * (32768 - oa) + 32767) / 32768 ≤ 32768 - oa := by
  have : ba * (32768 - oa) ≤ 32768 * (32768 - oa) := Nat.mul_le_mul_right _ h
  omega

theorem umUm_eq {base over : Layer} (hb : UmOk base.c base.alpha) (ho : UmOk over.c over.alpha) :
    umUm base over = some ⟨fun ch => (base.c ch * (base.alpha * (32768 - over.alpha) / 32768) + over.c ch * over.alpha) / 32768,
      base.alpha * (32768 - over.alpha) / 32768 + over.alpha, if over.alpha > 16384 then over.overdrive else base.overdrive⟩ := by
  unfold umUm
  have h1 := mul_compl_le (oa := over.alpha) hb.2
  have h2 := ho.2
  rw [compl_eq ho.2, mulShr15_eq hb.2 (by omega), bind_some, blendUm_eq hb.1 ho.1 (by omega), bind_some, Nat.mod_eq_of_lt (by omega)]

theorem umRgba_eq {base over : Layer} (hb : UmOk base.c base.alpha) (ho : PmOk over.c over.alpha) :
    umRgba base over = some ⟨fun ch => base.c ch * (base.alpha * (32768 - over.alpha) / 32768) / 32768 + over.c ch,
      base.alpha * (32768 - over.alpha) / 32768 + over.alpha, if over.alpha > 16384 then over.overdrive else base.overdrive⟩ := by
  unfold umRgba
  have h1 := mul_compl_le (oa := over.alpha) hb.2
  have h2 := ho.1
  rw [compl_eq ho.1, mulShr15_eq hb.2 (by omega), bind_some, blendPm_eq hb.1 ho (by omega), bind_some, Nat.mod_eq_of_lt (by omega)]

theorem rgbaUm_eq {base over : Layer} (hb : PmOk base.c base.alpha) (ho : UmOk over.c over.alpha) :
    rgbaUm base over = some ⟨fun ch => (base.c ch * (32768 - over.alpha) + over.c ch * over.alpha) / 32768,
      (base.alpha * (32768 - over.alpha) + 32767) / 32768 + over.alpha, if over.alpha ≥ 16384 then over.overdrive else base.overdrive⟩ := by
  unfold rgbaUm
  have h1 := mul_compl_le' (oa := over.alpha) hb.1
  have h2 := ho.2
  rw [compl_eq ho.2, blendUm_eq hb.ok ho.1 (by omega), bind_some, mulShr15Up_eq hb.1 (by omega), bind_some, ← Int.natCast_add, toU_small (by omega)]

theorem rgbaRgba_eq {base over : Layer} (hb : PmOk base.c base.alpha) (ho : PmOk over.c over.alpha) :
    rgbaRgba base over = some ⟨fun ch => base.c ch * (32768 - over.alpha) / 32768 + over.c ch,
      (base.alpha * (32768 - over.alpha) + 32767) / 32768 + over.alpha, if over.alpha ≥ 16384 then over.overdrive else base.overdrive⟩ := by
  unfold rgbaRgba
  have h1 := mul_compl_le' (oa := over.alpha) hb.1
  have h2 := ho.1
  rw [compl_eq ho.1, blendPm_eq hb.ok ho (by omega), bind_some, mulShr15Up_eq hb.1 (by omega), bind_some, ← Int.natCast_add, toU_small (by omega)]

/-- the same operation without the overdrive flag -/
def Layer.nod (l : Layer) : LayerNod := ⟨l.c, l.alpha⟩

theorem map_bind2 {A B C D : Type} (x : Option A) (f : A → Option B) (g : A → B → C) (k : C → D) :
    (x >>= fun a => f a >>= fun b => some (g a b)).map k = (x >>= fun a => f a >>= fun b => some (k (g a b))) := by
  cases x with
  | none => rfl
  | some a =>
    show (f a >>= fun b => some (g a b)).map k = (f a >>= fun b => some (k (g a b)))
    cases f a <;> rfl

theorem nod_ops {base over : Layer} :
    umnodUmnod base.nod over.nod = (umUm base over).map Layer.nod ∧
    umnodNod base.nod over.nod = (umRgba base over).map Layer.nod ∧
    nodUmnod base.nod over.nod = (rgbaUm base over).map Layer.nod ∧
    nodNod base.nod over.nod = (rgbaRgba base over).map Layer.nod := by
  unfold umnodUmnod umnodNod nodUmnod nodNod umUm umRgba rgbaUm rgbaRgba
  rw [map_bind2, map_bind2, map_bind2, map_bind2]
  exact ⟨rfl, rfl, rfl, rfl⟩

/-- **C28** (layer on layer).  For each combination of premultiplied and not premultiplied layers (with
and without overdrive flag): no overflow, the result is again a proper premultiplied layer (no channel
wraps around or exceeds what its alpha allows), and colour and alpha are the exact values up to
rounding. -/
theorem C28_layers (base over : Layer) :
    (UmOk base.c base.alpha → UmOk over.c over.alpha → ∃ m, umUm base over = some m ∧ umnodUmnod base.nod over.nod = some m.nod ∧
      Painted (fun ch => base.c ch * base.alpha) (fun ch => over.c ch * over.alpha) base.alpha over.alpha m.c m.alpha) ∧
    (UmOk base.c base.alpha → PmOk over.c over.alpha → ∃ m, umRgba base over = some m ∧ umnodNod base.nod over.nod = some m.nod ∧
      Painted (fun ch => base.c ch * base.alpha) (fun ch => over.c ch * 32768) base.alpha over.alpha m.c m.alpha) ∧
    (PmOk base.c base.alpha → UmOk over.c over.alpha → ∃ m, rgbaUm base over = some m ∧ nodUmnod base.nod over.nod = some m.nod ∧
      Painted (fun ch => base.c ch * 32768) (fun ch => over.c ch * over.alpha) base.alpha over.alpha m.c m.alpha) ∧
    (PmOk base.c base.alpha → PmOk over.c over.alpha → ∃ m, rgbaRgba base over = some m ∧ nodNod base.nod over.nod = some m.nod ∧
      Painted (fun ch => base.c ch * 32768) (fun ch => over.c ch * 32768) base.alpha over.alpha m.c m.alpha) := by
  obtain ⟨n1, n2, n3, n4⟩ := nod_ops (base := base) (over := over)
  refine ⟨fun hb ho => ?_, fun hb ho => ?_, fun hb ho => ?_, fun hb ho => ?_⟩
  · have h := umUm_eq hb ho
    rw [h] at n1
    exact ⟨_, h, n1, paint_um_um hb ho⟩
  · have h := umRgba_eq hb ho
    rw [h] at n2
    exact ⟨_, h, n2, paint_um_pm hb ho⟩
  · have h := rgbaUm_eq hb ho
    rw [h] at n3
    exact ⟨_, h, n3, paint_pm_um hb ho⟩
  · have h := rgbaRgba_eq hb ho
    rw [h] at n4
    exact ⟨_, h, n4, paint_pm_pm hb ho⟩

/-- **C28** (overdrive flag).  The flag of the result is that of the layer which contributes more. -/
theorem C28_flag (base over m : Layer) :
    (UmOk base.c base.alpha → UmOk over.c over.alpha → umUm base over = some m →
      (over.alpha > 16384 → m.overdrive = over.overdrive) ∧ (over.alpha < 16384 → m.overdrive = base.overdrive)) ∧
    (UmOk base.c base.alpha → PmOk over.c over.alpha → umRgba base over = some m →
      (over.alpha > 16384 → m.overdrive = over.overdrive) ∧ (over.alpha < 16384 → m.overdrive = base.overdrive)) ∧
    (PmOk base.c base.alpha → UmOk over.c over.alpha → rgbaUm base over = some m →
      (over.alpha > 16384 → m.overdrive = over.overdrive) ∧ (over.alpha < 16384 → m.overdrive = base.overdrive)) ∧
    (PmOk base.c base.alpha → PmOk over.c over.alpha → rgbaRgba base over = some m →
      (over.alpha > 16384 → m.overdrive = over.overdrive) ∧ (over.alpha < 16384 → m.overdrive = base.overdrive)) := by
  refine ⟨fun hb ho h => ?_, fun hb ho h => ?_, fun hb ho h => ?_, fun hb ho h => ?_⟩
  · rw [umUm_eq hb ho, Option.some.injEq] at h
    subst h
    exact ⟨fun h => if_pos h, fun h => if_neg (by omega)⟩
  · rw [umRgba_eq hb ho, Option.some.injEq] at h
    subst h
    exact ⟨fun h => if_pos h, fun h => if_neg (by omega)⟩
  · rw [rgbaUm_eq hb ho, Option.some.injEq] at h
    subst h
    exact ⟨fun h => if_pos (by omega), fun h => if_neg (by omega)⟩
  · rw [rgbaRgba_eq hb ho, Option.some.injEq] at h
    subst h
    exact ⟨fun h => if_pos (by omega), fun h => if_neg (by omega)⟩

theorem odUm_eq {base : OD} {over : Layer} (hb : base.c.ok 16) (ho : UmOk over.c over.alpha) :
    odUm base over = some ⟨fun ch => (base.c ch * (32768 - over.alpha) + over.c ch * over.alpha) / 32768,
      if over.alpha ≥ 16384 then over.overdrive else base.overdrive⟩ := by
  unfold odUm
  split
  · rename_i h0
    rw [h0, if_neg (by omega)]
    show some (⟨base.c, base.overdrive⟩ : OD) = _
    congr 2
    funext ch; omega
  · have h2 := ho.2
    rw [compl_eq ho.2, blendUm_eq hb ho.1 (by omega)]; rfl

theorem odRgba_eq {base : OD} {over : Layer} (hb : base.c.ok 16) (ho : PmOk over.c over.alpha) :
    odRgba base over = some ⟨fun ch => base.c ch * (32768 - over.alpha) / 32768 + over.c ch,
      if over.alpha ≥ 16384 then over.overdrive else base.overdrive⟩ := by
  unfold odRgba
  split
  · rename_i h0
    rw [h0, if_neg (by omega)]
    show some (⟨base.c, base.overdrive⟩ : OD) = _
    congr 2
    funext ch
    have := ho.2 ch
    rw [h0] at this
    omega
  · have h2 := ho.1
    rw [compl_eq ho.1, blendPm_eq hb ho (by omega)]; rfl

theorem simple_ops {base : OD} {over : Layer} :
    simpleUmNod base.c over.nod = (odUm base over).map OD.c ∧ simpleNod base.c over.nod = (odRgba base over).map OD.c := by
  unfold simpleUmNod simpleNod odUm odRgba Layer.nod
  constructor
  · by_cases h : over.alpha = 0
    · simp [h]
    · simp only [h, if_false]
      cases h1 : blendUm base.c over.c (compl over.alpha) over.alpha <;> simp [h1]
  · by_cases h : over.alpha = 0
    · simp [h]
    · simp only [h, if_false]
      cases h1 : blendPm base.c over.c (compl over.alpha) <;> simp [h1]

/-- **C28** (layer on an opaque colour).  No overflow; every channel of the result is the exact value
`base * (1 - alpha) + over` rounded down by less than one step, and fits in 16 bits; the overdrive flag
is that of the layer if it covers at least half. -/
theorem C28_opaque_base (base : OD) (over : Layer) (hb : base.c.ok 16) :
    (UmOk over.c over.alpha → ∃ m, odUm base over = some m ∧ simpleUmNod base.c over.nod = some m.c ∧ m.c.ok 16 ∧
      (∀ ch, m.c ch * 32768 ≤ base.c ch * (32768 - over.alpha) + over.c ch * over.alpha ∧
        base.c ch * (32768 - over.alpha) + over.c ch * over.alpha < m.c ch * 32768 + 32768) ∧
      m.overdrive = if over.alpha ≥ 16384 then over.overdrive else base.overdrive) ∧
    (PmOk over.c over.alpha → ∃ m, odRgba base over = some m ∧ simpleNod base.c over.nod = some m.c ∧ m.c.ok 16 ∧
      (∀ ch, m.c ch * 32768 ≤ base.c ch * (32768 - over.alpha) + over.c ch * 32768 ∧
        base.c ch * (32768 - over.alpha) + over.c ch * 32768 < m.c ch * 32768 + 32768) ∧
      m.overdrive = if over.alpha ≥ 16384 then over.overdrive else base.overdrive) := by
  obtain ⟨s1, s2⟩ := simple_ops (base := base) (over := over)
  have h1 : ∀ ch, base.c ch * (32768 - over.alpha) ≤ 65535 * (32768 - over.alpha) := fun ch => Nat.mul_le_mul_right _ (by have := hb ch; omega)
  constructor
  · intro ho
    have h := odUm_eq hb ho
    rw [h] at s1
    have h2 : ∀ ch, over.c ch * over.alpha ≤ 65535 * over.alpha := fun ch => Nat.mul_le_mul_right _ (by have := ho.1 ch; omega)
    have h3 := ho.2
    refine ⟨_, h, s1, fun ch => ?_, fun ch => ?_, rfl⟩
    · have := h1 ch; have := h2 ch; (try dsimp only); omega
    · (try dsimp only); omega
  · intro ho
    have h := odRgba_eq hb ho
    rw [h] at s2
    have h3 := ho.1
    refine ⟨_, h, s2, fun ch => ?_, fun ch => ?_, rfl⟩
    · have := h1 ch; have := ho.2 ch; (try dsimp only); omega
    · (try dsimp only); omega

/-- premultiplying a layer: `RGBA(const RGBA_um&)` -/
def Layer.premul (l : Layer) : Option Layer := (Color.premul l.c l.alpha).map fun c => ⟨c, l.alpha, l.overdrive⟩

/-- **C28** (transparent layer).  A layer with alpha 0 leaves an opaque colour, a premultiplied layer and
(up to premultiplying it) any layer exactly as it is, overdrive flag included. -/
theorem C28_transparent (od : OD) (base over : Layer) (h0 : over.alpha = 0) :
    odUm od over = some od ∧ odRgba od over = some od ∧
    (UmOk over.c 0 → UmOk base.c base.alpha → umUm base over = base.premul) ∧
    (PmOk over.c 0 → UmOk base.c base.alpha → umRgba base over = base.premul) ∧
    (UmOk over.c 0 → PmOk base.c base.alpha → rgbaUm base over = some base) ∧
    (PmOk over.c 0 → PmOk base.c base.alpha → rgbaRgba base over = some base) := by
  refine ⟨by unfold odUm; rw [if_pos h0], by unfold odRgba; rw [if_pos h0], ?_, ?_, ?_, ?_⟩
  · intro ho hb
    rw [umUm_eq hb (h0 ▸ ho), h0, if_neg (by omega)]
    unfold Layer.premul
    rw [premul_eq hb.1 hb.2, Option.map_some]
    congr 2
    · funext ch; (try dsimp only); rw [Nat.mul_zero, Nat.add_zero, Nat.sub_zero, Nat.mul_div_cancel _ (by omega)]
    · omega
  · intro ho hb
    rw [umRgba_eq hb (h0 ▸ ho), h0, if_neg (by omega)]
    unfold Layer.premul
    rw [premul_eq hb.1 hb.2, Option.map_some]
    congr 2
    · funext ch
      have := ho.2 ch
      have : over.c ch = 0 := by omega
      (try dsimp only); rw [this, Nat.add_zero, Nat.sub_zero, Nat.mul_div_cancel _ (by omega)]
    · omega
  · intro ho hb
    rw [rgbaUm_eq hb (h0 ▸ ho), h0, if_neg (by omega)]
    show some (⟨_, _, _⟩ : Layer) = some ⟨base.c, base.alpha, base.overdrive⟩
    congr 2
    · funext ch; omega
    · omega
  · intro ho hb
    rw [rgbaRgba_eq hb (h0 ▸ ho), h0, if_neg (by omega)]
    show some (⟨_, _, _⟩ : Layer) = some ⟨base.c, base.alpha, base.overdrive⟩
    congr 2
    · funext ch
      have := ho.2 ch
      omega
    · omega

/-- **C28** (opaque layer).  A layer with alpha 32768 hides what is below completely: the result is the
layer itself, and an opaque base stays opaque whatever is painted on it. -/
theorem C28_opaque (od : OD) (base over : Layer) (h1 : over.alpha = 32768) (hod : od.c.ok 16) (ho : over.c.ok 16) :
    odUm od over = some ⟨over.c, over.overdrive⟩ ∧ odRgba od over = some ⟨over.c, over.overdrive⟩ ∧
    (UmOk base.c base.alpha → umUm base over = some over ∧ umRgba base over = some over) ∧
    (PmOk base.c base.alpha → rgbaUm base over = some over ∧ rgbaRgba base over = some over) := by
  have hum : UmOk over.c over.alpha := ⟨ho, by omega⟩
  have hpm : PmOk over.c over.alpha := ⟨by omega, fun ch => by have := ho ch; omega⟩
  have hov : over = ⟨over.c, over.alpha, over.overdrive⟩ := rfl
  refine ⟨?_, ?_, fun hb => ⟨?_, ?_⟩, fun hb => ⟨?_, ?_⟩⟩
  · rw [odUm_eq hod hum, h1, if_pos (by omega)]
    congr 2; funext ch; omega
  · rw [odRgba_eq hod hpm, h1, if_pos (by omega)]
    congr 2; funext ch; omega
  · rw [umUm_eq hb hum, h1, if_pos (by omega), Nat.sub_self, Nat.mul_zero, Nat.zero_div]
    conv => rhs; rw [hov, h1]
    congr 2
    funext ch; (try dsimp only); omega
  · rw [umRgba_eq hb hpm, h1, if_pos (by omega), Nat.sub_self, Nat.mul_zero, Nat.zero_div]
    conv => rhs; rw [hov, h1]
    congr 2
    funext ch; (try dsimp only); simp
  · rw [rgbaUm_eq hb hum, h1, if_pos (by omega), Nat.sub_self, Nat.mul_zero]
    conv => rhs; rw [hov, h1]
    congr 2
    funext ch; (try dsimp only); omega
  · rw [rgbaRgba_eq hb hpm, h1, if_pos (by omega), Nat.sub_self, Nat.mul_zero]
    conv => rhs; rw [hov, h1]
    congr 2
    funext ch; (try dsimp only); omega

/-- **C28** (opaque base stays opaque). -/
theorem C28_stays_opaque (base over : Layer) (h1 : base.alpha = 32768) (hb : base.c.ok 16) :
    (UmOk over.c over.alpha → (umUm base over).map Layer.alpha = some 32768 ∧ (rgbaUm base over).map Layer.alpha = some 32768) ∧
    (PmOk over.c over.alpha → (umRgba base over).map Layer.alpha = some 32768 ∧ (rgbaRgba base over).map Layer.alpha = some 32768) := by
  have hum : UmOk base.c base.alpha := ⟨hb, by omega⟩
  have hpm : PmOk base.c base.alpha := ⟨by omega, fun ch => by have := hb ch; omega⟩
  refine ⟨fun ho => ⟨?_, ?_⟩, fun ho => ⟨?_, ?_⟩⟩
  · have := ho.2; rw [umUm_eq hum ho, Option.map_some]; congr 1; (try dsimp only); rw [h1]; omega
  · have := ho.2; rw [rgbaUm_eq hpm ho, Option.map_some]; congr 1; (try dsimp only); rw [h1]; omega
  · have := ho.1; rw [umRgba_eq hum ho, Option.map_some]; congr 1; (try dsimp only); rw [h1]; omega
  · have := ho.1; rw [rgbaRgba_eq hpm ho, Option.map_some]; congr 1; (try dsimp only); rw [h1]; omega

/-- concrete: a half-transparent white layer (premultiplied) on red -/
example : UmOk (fun _ => 65535) 16384 ∧ PmOk (fun _ => 32767) 16384 ∧
    (odRgba ⟨fun | .r => 65535 | _ => 0, false⟩ ⟨fun _ => 32767, 16384, true⟩).map (fun m => (m.c .r, m.c .g, m.overdrive)) = some (65534, 32767, true) := by
  refine ⟨⟨fun _ => by (try dsimp only); omega, by omega⟩, ⟨by omega, fun _ => by (try dsimp only); omega⟩, by decide +kernel⟩

/-- **C28** (premultiplying and fading).  Premultiplying a layer, and fading a premultiplied layer by any
factor, give proper premultiplied layers; fading by the full factor changes nothing. -/
theorem C28_fade (l : Layer) :
    (UmOk l.c l.alpha → ∃ m, l.premul = some m ∧ PmOk m.c m.alpha ∧ m.alpha = l.alpha) ∧
    (PmOk l.c l.alpha → ∀ x, x ≤ 32768 → ∃ m, fadeRgba l x = some m ∧ PmOk m.c m.alpha ∧ m.alpha ≤ l.alpha ∧ (∀ ch, m.c ch ≤ l.c ch) ∧
      (x = 32768 → m = l)) ∧
    (UmOk l.c l.alpha → ∀ x, x ≤ 32768 → ∃ m, fadeUm l x = some m ∧ UmOk m.c m.alpha ∧ m.c = l.c ∧ m.alpha ≤ l.alpha ∧ (x = 32768 → m = l)) := by
  refine ⟨fun h => ?_, fun h x hx => ?_, fun h x hx => ?_⟩
  · unfold Layer.premul
    rw [premul_eq h.1 h.2]
    refine ⟨_, rfl, ⟨h.2, fun ch => ?_⟩, rfl⟩
    have : l.c ch * l.alpha ≤ 65535 * l.alpha := Nat.mul_le_mul_right _ (by have := h.1 ch; omega)
    (try dsimp only); omega
  · unfold fadeRgba
    have hal : l.alpha * x ≤ 32768 * l.alpha := by rw [Nat.mul_comm]; exact Nat.mul_le_mul_right _ hx
    have hal2 := h.1
    rw [premul_eq h.ok hx, bind_some, mulShr15Up_eq h.1 hx, bind_some, toU_small (by omega)]
    have f : ∀ ch, (l.c ch * x) * 32768 ≤ 65535 * (l.alpha * x) := by
      intro ch
      rw [Nat.mul_right_comm, ← Nat.mul_assoc]
      exact Nat.mul_le_mul_right _ (h.2 ch)
    refine ⟨_, rfl, ⟨?_, fun ch => ?_⟩, ?_, fun ch => ?_, ?_⟩
    · (try dsimp only); omega
    · exact aux4 (f ch)
    · (try dsimp only); omega
    · have : l.c ch * x ≤ l.c ch * 32768 := Nat.mul_le_mul_left _ hx
      (try dsimp only); omega
    · rintro rfl
      show (⟨_, _, _⟩ : Layer) = ⟨l.c, l.alpha, l.overdrive⟩
      congr 1
      · funext ch; omega
      · omega
  · unfold fadeUm
    have hal : l.alpha * x ≤ 32768 * l.alpha := by rw [Nat.mul_comm]; exact Nat.mul_le_mul_right _ hx
    have hal2 := h.2
    rw [mulShr15_eq h.2 hx]
    refine ⟨_, rfl, ⟨h.1, ?_⟩, rfl, ?_, ?_⟩
    · (try dsimp only); omega
    · (try dsimp only); omega
    · rintro rfl
      show (⟨_, _, _⟩ : Layer) = ⟨l.c, l.alpha, l.overdrive⟩
      congr 1
      omega

/-- Converting a premultiplied layer without overdrive flag into one with the flag multiplies by alpha a
second time: a half-transparent white layer painted on black gives a quarter of the brightness instead
of half when the base has an overdrive flag. -/
theorem C28_double_multiply_counterexample :
    (simpleNod (fun _ => 0) ⟨fun _ => 32767, 16384⟩).map (· .r) = some 32767 ∧
    ((rgbaOfNod ⟨fun _ => 32767, 16384⟩).bind (odRgba ⟨fun _ => 0, false⟩)).map (·.c .r) = some 16383 := by decide +kernel

end Verif.Color
