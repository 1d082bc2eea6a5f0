/-!
# C37: volume ramps

Model of sound/click_avoider_lin.h and of `VolumeOverlay::read` in sound/volume_overlay.h.
-/
set_option linter.unusedSimpArgs false
namespace Verif.Audio

/-! ## Model -/

/-- `ClickAvoiderLin`, sound/click_avoider_lin.h:31-33 -/
structure Ramp where
  speed : Nat
  current : Nat
  target : Nat
deriving DecidableEq

/-- `advance`, sound/click_avoider_lin.h:16-26; no subtraction is below zero -/
def Ramp.advance (r : Ramp) : Ramp :=
  if r.current > r.target then { r with current := r.current - min r.speed (r.current - r.target) }
  else if r.current < r.target then { r with current := r.current + min r.speed (r.target - r.current) }
  else r

/-- `isConstant`, sound/click_avoider_lin.h:27-29 -/
def Ramp.isConstant (r : Ramp) : Bool := r.current == r.target

/-- several calls of `advance` -/
def Ramp.steps (r : Ramp) : Nat → Ramp
  | 0 => r
  | n + 1 => r.advance.steps n

/-- `clamptoi16`, common/math.h:19-26 -/
def clamp16 (x : Int) : Int := if x < -32768 then -32768 else if x > 32767 then 32767 else x

/-- a 32-bit product or sum; `none` if it overflows -/
def chk32 (x : Int) : Option Int := if -2147483648 ≤ x ∧ x < 2147483648 then some x else none

/-- `VolumeOverlay`, sound/volume_overlay.h:91-92 -/
structure Overlay where
  ramp : Ramp
  stopWhenZero : Bool
deriving DecidableEq

/-- sound/volume_overlay.h:4-8, for 44100 samples a second -/
def kMaxVolume : Nat := 16384

/-- one sample at the given volume, sound/volume_overlay.h:34 and 39-40 -/
def scale (d : Int) (vol : Nat) : Option Int := do
  let p ← chk32 (d * vol)
  some (clamp16 (p / 16384))

/-- the loop of sound/volume_overlay.h:38-42: each sample at the current volume, then `advance` -/
def rampLoop (r : Ramp) : List Int → Option (Ramp × List Int)
  | [] => some (r, [])
  | d :: ds => do
    let v ← scale d r.current
    let q ← rampLoop r.advance ds
    some (q.1, v :: q.2)

/-- `VolumeOverlay::read`, sound/volume_overlay.h:18-45, the lower stream having delivered `data`: the
object afterwards, the samples, and whether the lower stream was told to stop.  500 * 16384 / 44100 = 185
(`kDefaultSpeed`). -/
def Overlay.read (o : Overlay) (data : List Int) : Option (Overlay × List Int × Bool) :=
  if o.ramp.isConstant then
    if o.ramp.current = kMaxVolume then some (o, data, false)
    else if o.ramp.current = 0 then
      if o.stopWhenZero then some ({ o with ramp := { o.ramp with speed := 185 } }, data.map (fun _ => 0), true)
      else some (o, data.map (fun _ => 0), false)
    else do
      let out ← data.mapM (fun d => scale d o.ramp.current)
      some (o, out, false)
  else do
    let q ← rampLoop o.ramp data
    some ({ o with ramp := q.1 }, q.2, false)

/-- `FadeAndStop`, sound/volume_overlay.h:82-85 -/
def Overlay.fadeAndStop (o : Overlay) : Overlay := { ramp := { o.ramp with target := 0 }, stopWhenZero := true }

/-- several calls of `read`, for buffers of any sizes: the object, all samples, and whether the lower stream was told to stop -/
def Overlay.reads (o : Overlay) : List (List Int) → Option (Overlay × List Int × Bool)
  | [] => some (o, [], false)
  | b :: bs => do
    let q ← o.read b
    let t ← q.1.reads bs
    some (t.1, q.2.1 ++ t.2.1, q.2.2 || t.2.2)

/-! ## C37: the ramp -/

/-- C37: one step goes towards the target, by the speed, and does not pass it: closed form -/
theorem advance_eq (r : Ramp) : r.advance = { r with current := if r.current ≤ r.target then min r.target (r.current + r.speed) else max r.target (r.current - r.speed) } := by
  obtain ⟨s, c, t⟩ := r
  unfold Ramp.advance
  simp only
  have e : ∀ a b : Nat, a = b → (⟨s, a, t⟩ : Ramp) = ⟨s, b, t⟩ := fun _ _ h => by rw [h]
  split
  · apply e; split <;> omega
  · split
    · apply e; split <;> omega
    · apply e; split <;> omega

/-- C37: the ramp after any number of samples, for every start, target and speed: it has moved by `n` times
the speed towards the target, and stands on the target from then on. -/
theorem C37_ramp : ∀ (n : Nat) (r : Ramp),
    r.steps n = { r with current := if r.current ≤ r.target then min r.target (r.current + n * r.speed) else max r.target (r.current - n * r.speed) }
  | 0, r => by
    obtain ⟨s, c, t⟩ := r
    simp only [Ramp.steps, Nat.zero_mul]
    congr 1
    split <;> omega
  | n + 1, r => by
    obtain ⟨s, c, t⟩ := r
    rw [Ramp.steps, C37_ramp n, advance_eq]
    simp only
    rw [Nat.succ_mul]
    generalize n * s = m
    congr 1
    split <;> split <;> omega

/-- C37: never passes the target: every later value lies between an earlier one and the target -/
theorem C37_no_overshoot (r : Ramp) (m n : Nat) (h : m ≤ n) :
    (r.current ≤ r.target → r.current ≤ (r.steps m).current ∧ (r.steps m).current ≤ (r.steps n).current ∧ (r.steps n).current ≤ r.target) ∧
    (r.target ≤ r.current → r.target ≤ (r.steps n).current ∧ (r.steps n).current ≤ (r.steps m).current ∧ (r.steps m).current ≤ r.current) := by
  rw [C37_ramp, C37_ramp]
  obtain ⟨s, c, t⟩ := r
  simp only
  have : m * s ≤ n * s := Nat.mul_le_mul_right s h
  generalize m * s = a at *
  generalize n * s = b at *
  constructor
  · intro h; rw [if_pos h, if_pos h]; omega
  · intro h; split <;> omega

/-- C37: the target is reached exactly, after the distance divided by the speed (rounded up) samples and
not before -/
theorem C37_reaches (r : Ramp) (n : Nat) (hs : 0 < r.speed) :
    (r.steps n).isConstant = true ↔ r.target - r.current + (r.current - r.target) ≤ n * r.speed := by
  rw [C37_ramp]
  obtain ⟨s, c, t⟩ := r
  simp only [Ramp.isConstant, beq_iff_eq]
  generalize n * s = b at *
  split <;> omega

/-- C37: each step changes the volume by at most the speed, also when the target is changed in between -/
theorem C37_step_size (r : Ramp) : r.advance.current ≤ r.current + r.speed ∧ r.current ≤ r.advance.current + r.speed := by
  rw [advance_eq]
  obtain ⟨s, c, t⟩ := r
  simp only
  split <;> omega

example : (Ramp.mk 185 8192 0).steps 44 = ⟨185, 52, 0⟩ ∧ (Ramp.mk 185 8192 0).steps 45 = ⟨185, 0, 0⟩ := by decide +kernel

/-! ## The overlay -/

/-- the samples have 16 bits -/
def Is16 (l : List Int) : Prop := ∀ x ∈ l, -32768 ≤ x ∧ x ≤ 32767

/-- sample `d` at volume `v`: the exact product, rounded down, limited to 16 bits -/
theorem scale_eq (d : Int) (v : Nat) (hd1 : -32768 ≤ d) (hd2 : d ≤ 32767) (hv : v ≤ 65535) :
    scale d v = some (clamp16 (d * v / 16384)) := by
  have h1 : -32768 * (65535 : Int) ≤ d * v := by
    have a : -32768 * (v : Int) ≤ d * v := Int.mul_le_mul_of_nonneg_right hd1 (by omega)
    have b : (-32768 : Int) * 65535 ≤ -32768 * (v : Int) := by omega
    omega
  have h2 : d * v ≤ 32767 * (65535 : Int) := by
    have a : d * (v : Int) ≤ 32767 * v := Int.mul_le_mul_of_nonneg_right hd2 (by omega)
    have b : (32767 : Int) * (v : Int) ≤ 32767 * 65535 := by omega
    omega
  unfold scale chk32
  generalize d * (v : Int) = p at *
  rw [if_pos (by omega)]
  rfl

/-- the volume of the `i`-th of the next samples -/
def Ramp.volumeAt (r : Ramp) (i : Nat) : Nat := (r.steps i).current

theorem volumeAt_le (r : Ramp) (b : Nat) (h1 : r.current ≤ b) (h2 : r.target ≤ b) (i : Nat) : r.volumeAt i ≤ b := by
  unfold Ramp.volumeAt
  rw [C37_ramp]
  simp only
  generalize i * r.speed = m
  split <;> omega

/-- the specification of the output: sample `i` scaled by the volume of that moment -/
def scaled (r : Ramp) (data : List Int) : List Int := data.mapIdx fun i d => clamp16 (d * (r.volumeAt i : Int) / 16384)

theorem scaled_cons (r : Ramp) (d : Int) (ds : List Int) : scaled r (d :: ds) = clamp16 (d * (r.current : Int) / 16384) :: scaled r.advance ds := by
  unfold scaled
  rw [List.mapIdx_cons]
  rfl

theorem rampLoop_eq : ∀ (data : List Int) (r : Ramp), Is16 data → r.current ≤ 65535 → r.target ≤ 65535 →
    rampLoop r data = some (r.steps data.length, scaled r data)
  | [], r, _, _, _ => rfl
  | d :: ds, r, h, h1, h2 => by
    have hd := h d List.mem_cons_self
    have ha : r.advance.current ≤ 65535 := volumeAt_le r 65535 h1 h2 1
    have ht : r.advance.target = r.target := by rw [advance_eq]
    rw [rampLoop, scale_eq d r.current hd.1 hd.2 h1, rampLoop_eq ds r.advance (fun x hx => h x (List.mem_cons_of_mem _ hx)) ha (by omega), scaled_cons]
    rfl

theorem steps_const (r : Ramp) (h : r.current = r.target) (n : Nat) : r.steps n = r := by
  rw [C37_ramp]
  obtain ⟨s, c, t⟩ := r
  simp only at *
  congr 1
  rw [if_pos (by omega)]; omega

theorem mapM_scale (v : Nat) (hv : v ≤ 65535) : ∀ (data : List Int), Is16 data → data.mapM (fun d => scale d v) = some (data.map fun d => clamp16 (d * (v : Int) / 16384))
  | [], _ => rfl
  | d :: ds, h => by
    have hd := h d List.mem_cons_self
    rw [List.mapM_cons, scale_eq d v hd.1 hd.2 hv, mapM_scale v hv ds (fun x hx => h x (List.mem_cons_of_mem _ hx))]
    rfl

theorem scaled_const (r : Ramp) (h : r.current = r.target) (data : List Int) : scaled r data = data.map fun d => clamp16 (d * (r.current : Int) / 16384) := by
  unfold scaled
  rw [List.mapIdx_eq_zipIdx_map]
  have : ∀ (l : List Int) (k : Nat), (l.zipIdx k).map (fun x => clamp16 (x.1 * (r.volumeAt x.2 : Int) / 16384)) = l.map fun d => clamp16 (d * (r.current : Int) / 16384) := by
    intro l
    induction l with
    | nil => intro k; rfl
    | cons d ds ih =>
      intro k
      rw [List.zipIdx_cons, List.map_cons, List.map_cons, ih]
      congr 1
      simp only [Ramp.volumeAt, steps_const r h]
  exact this data 0

/-- C37: the limit used in `scaled` and by the mixer: the nearest number with 16 bits -/
theorem C37_limit (x : Int) : clamp16 x = max (-32768) (min 32767 x) := by
  unfold clamp16
  split
  · omega
  · split <;> omega

/-- C37: reading never overflows, keeps the number of samples, gives every sample scaled by the volume of
that moment (rounded down, limited to 16 bits), and advances the ramp by one step per sample; the lower stream is told to stop
exactly when the volume rests at zero after `FadeAndStop`. -/
theorem C37_read (o : Overlay) (data : List Int) (hd : Is16 data) (h1 : o.ramp.current ≤ 65535) (h2 : o.ramp.target ≤ 65535) :
    ∃ o', o.read data = some (o', scaled o.ramp data, decide (o.ramp.current = 0 ∧ o.ramp.target = 0 ∧ o.stopWhenZero = true)) ∧
      o'.stopWhenZero = o.stopWhenZero ∧ o'.ramp.current = (o.ramp.steps data.length).current ∧ o'.ramp.target = o.ramp.target ∧
      (o'.ramp.speed = o.ramp.speed ∨ o.ramp.current = 0 ∧ o.ramp.target = 0) := by
  unfold Overlay.read
  by_cases hc : o.ramp.isConstant = true
  · rw [if_pos hc]
    have he : o.ramp.current = o.ramp.target := by simpa [Ramp.isConstant] using hc
    have hsc := scaled_const o.ramp he data
    rw [steps_const o.ramp he]
    by_cases hm : o.ramp.current = kMaxVolume
    · rw [if_pos hm]
      have hk : kMaxVolume = 16384 := rfl
      refine ⟨o, ?_, rfl, rfl, rfl, Or.inl rfl⟩
      rw [decide_eq_false (by omega), hsc, hm]
      have : data.map (fun d => clamp16 (d * ((kMaxVolume : Nat) : Int) / 16384)) = data := by
        rw [List.map_congr_left (g := id)]
        · simp
        · intro d hmem
          have := hd d hmem
          rw [hk]
          show clamp16 (d * 16384 / 16384) = d
          rw [Int.mul_ediv_cancel d (by decide)]
          unfold clamp16
          split
          · omega
          · split <;> omega
      rw [this]
    · rw [if_neg hm]
      by_cases h0 : o.ramp.current = 0
      · rw [if_pos h0]
        have hz : scaled o.ramp data = data.map (fun _ => 0) := by
          rw [hsc, h0]
          apply List.map_congr_left
          intro d _; simp [clamp16]
        by_cases hs : o.stopWhenZero = true
        · rw [if_pos hs, hz, decide_eq_true ⟨h0, by omega, hs⟩]
          exact ⟨_, rfl, rfl, rfl, rfl, Or.inr ⟨h0, by omega⟩⟩
        · rw [if_neg hs, hz, decide_eq_false (by intro h; exact hs h.2.2)]
          exact ⟨_, rfl, rfl, rfl, rfl, Or.inl rfl⟩
      · rw [if_neg h0, mapM_scale o.ramp.current h1 data hd, hsc, decide_eq_false (by omega)]
        exact ⟨o, rfl, rfl, rfl, rfl, Or.inl rfl⟩
  · rw [if_neg hc, rampLoop_eq data o.ramp hd h1 h2]
    have he : o.ramp.current ≠ o.ramp.target := by simpa [Ramp.isConstant] using hc
    rw [decide_eq_false (by omega)]
    refine ⟨{ o with ramp := o.ramp.steps data.length }, rfl, rfl, rfl, ?_, Or.inl ?_⟩ <;> rw [C37_ramp]

/-- C37: up to full volume no sample gets louder, and none changes sign (rounding down may make a negative one -1) -/
theorem C37_not_louder (o : Overlay) (h1 : o.ramp.current ≤ 16384) (h2 : o.ramp.target ≤ 16384) (i : Nat) (d : Int) (hd16 : -32768 ≤ d ∧ d ≤ 32767) :
    (0 ≤ d → 0 ≤ clamp16 (d * (o.ramp.volumeAt i : Int) / 16384) ∧ clamp16 (d * (o.ramp.volumeAt i : Int) / 16384) ≤ d) ∧
    (d ≤ 0 → d ≤ clamp16 (d * (o.ramp.volumeAt i : Int) / 16384) ∧ clamp16 (d * (o.ramp.volumeAt i : Int) / 16384) ≤ 0) := by
  have hv := volumeAt_le o.ramp _ h1 h2 i
  generalize o.ramp.volumeAt i = v at *
  constructor
  · intro hd
    have a : 0 ≤ d * (v : Int) := Int.mul_nonneg hd (by omega)
    have b : d * (v : Int) ≤ d * 16384 := Int.mul_le_mul_of_nonneg_left (by omega) hd
    unfold clamp16
    split
    · omega
    · split <;> omega
  · intro hd
    have a : d * (v : Int) ≤ 0 := Int.mul_nonpos_of_nonpos_of_nonneg hd (by omega)
    have b : d * 16384 ≤ d * (v : Int) := Int.mul_le_mul_of_nonpos_left hd (by omega)
    unfold clamp16
    split
    · omega
    · split <;> omega

theorem scaled_append (r : Ramp) (a b : List Int) : scaled r (a ++ b) = scaled r a ++ scaled (r.steps a.length) b := by
  induction a generalizing r with
  | nil => rfl
  | cons d ds ih => rw [List.cons_append, scaled_cons, scaled_cons, ih]; rfl

theorem is16_flatten {bufs : List (List Int)} {b : List Int} (h : Is16 bufs.flatten) (hb : b ∈ bufs) : Is16 b :=
  fun x hx => h x (List.mem_flatten.mpr ⟨b, hb, hx⟩)

/-- C37: fading out.  After `FadeAndStop`, however the reading is divided into buffers, the samples follow
the ramp down to zero; and when the ramp is at zero, the next read tells the lower stream to stop. -/
theorem C37_fade_and_stop (o : Overlay) (hc : o.ramp.current ≤ 65535) : ∀ (bufs : List (List Int)) (last : List Int), Is16 (bufs.flatten) → Is16 last →
    o.ramp.current ≤ bufs.flatten.length * o.ramp.speed →
    ∃ o' p out, o.fadeAndStop.reads (bufs ++ [last]) = some (o', out, true) ∧ p = o.fadeAndStop.ramp ∧ out = scaled p (bufs.flatten) ++ last.map (fun _ => 0) := by
  -- generalize over the state: once at zero the speed may be reset, which does not matter
  suffices H : ∀ (bufs : List (List Int)) (last : List Int) (q : Overlay), Is16 (bufs.flatten) → Is16 last → q.ramp.current ≤ 65535 → q.ramp.target = 0 → q.stopWhenZero = true →
      q.ramp.current ≤ bufs.flatten.length * q.ramp.speed →
      ∃ o' out, q.reads (bufs ++ [last]) = some (o', out, true) ∧ out = scaled q.ramp (bufs.flatten) ++ last.map (fun _ => 0) by
    intro bufs last h1 h2 h3
    obtain ⟨o', out, g1, g2⟩ := H bufs last o.fadeAndStop h1 h2 hc rfl rfl h3
    exact ⟨o', _, out, g1, rfl, g2⟩
  intro bufs
  induction bufs with
  | nil =>
    intro last q _ hl hq ht hs hz
    have h0 : q.ramp.current = 0 := by simpa using hz
    obtain ⟨o', g1, g2⟩ := C37_read q last hl hq (by omega)
    rw [decide_eq_true ⟨h0, ht, hs⟩] at g1
    refine ⟨o', scaled q.ramp last ++ [], ?_, ?_⟩
    · simp only [List.nil_append, Overlay.reads, g1]; rfl
    · rw [scaled_const q.ramp (by omega), h0]
      simp [scaled, clamp16]
  | cons b bs ih =>
    intro last q hb hl hq ht hs hz
    obtain ⟨q', g1, g2, g3, g4, g5⟩ := C37_read q b (is16_flatten hb List.mem_cons_self) hq (by omega)
    have hcur : q'.ramp.current = q.ramp.current - b.length * q.ramp.speed := by
      rw [g3, C37_ramp]
      simp only [ht]
      split <;> omega
    have hb' : Is16 bs.flatten := fun x hx => hb x (by rw [List.flatten_cons]; exact List.mem_append_right _ hx)
    have hle : q'.ramp.current ≤ bs.flatten.length * q'.ramp.speed := by
      rw [List.flatten_cons, List.length_append, Nat.add_mul] at hz
      rcases g5 with g5 | g5
      · rw [g5, hcur]; omega
      · rw [hcur, g5.1]; omega
    obtain ⟨o', out, k1, k2⟩ := ih last q' hb' hl (by omega) (by omega) (by rw [g2, hs]) hle
    refine ⟨o', scaled q.ramp b ++ out, ?_, ?_⟩
    · simp only [List.cons_append, Overlay.reads, g1, Option.bind_eq_bind, Option.bind_some, k1, Bool.or_true]
    · rw [k2, List.flatten_cons, scaled_append, List.append_assoc]
      congr 2
      -- same volumes, whatever the speed, once at zero
      rcases g5 with g5 | g5
      · have : q'.ramp = q.ramp.steps b.length := by
          have h1 : (q.ramp.steps b.length).speed = q.ramp.speed := by rw [C37_ramp]
          have h2 : (q.ramp.steps b.length).target = q.ramp.target := by rw [C37_ramp]
          obtain ⟨⟨a1, a2, a3⟩, a4⟩ := q'
          cases hst : q.ramp.steps b.length
          rw [hst] at h1 h2 g3
          simp only at *
          subst g3; rw [g5, ← h1, g4, ← h2]
        rw [this]
      · have z1 : q'.ramp.current = q'.ramp.target := by rw [hcur, g4]; omega
        have z2 : (q.ramp.steps b.length).current = (q.ramp.steps b.length).target := by
          rw [steps_const _ (by omega)]; omega
        rw [scaled_const _ z1, scaled_const _ z2, g3]

/-- a fade from half volume: 45 samples down to zero, then the stream is stopped -/
example : ∃ o', (Overlay.mk ⟨185, 8192, 8192⟩ false).fadeAndStop.reads [List.replicate 44 100, [100], [7]] =
    some (o', scaled ⟨185, 8192, 0⟩ (List.replicate 45 100) ++ [0], true) ∧ (scaled ⟨185, 8192, 0⟩ (List.replicate 45 100)).take 3 = [50, 48, 47] := by
  obtain ⟨o', p, out, h1, h2, h3⟩ := C37_fade_and_stop (Overlay.mk ⟨185, 8192, 8192⟩ false) (by decide) [List.replicate 44 100, [100]] [7]
    (by intro x hx; simp at hx; omega) (by intro x hx; simp at hx; omega) (by decide +kernel)
  refine ⟨o', ?_, by decide +kernel⟩
  have e : [List.replicate 44 (100 : Int), [100]].flatten = List.replicate 45 100 := by decide +kernel
  rw [e] at h3
  rw [h3, h2] at h1
  exact h1

end Verif.Audio
