import Verif.Audio.Volume
/-!
# C38: the mixer

Model of the 16-bit `AudioDynamicMixer::read` and of `my_sqrt` in sound/dynamic_mixer.h (the version for
boards without fast floating point).  Signed 32-bit overflow is `none`.  Not modelled: the statistics
(`num_samples_`, which overflows after 2^31 samples, `peak_`, underflow counts) and the floating point `read`.
-/
set_option linter.unusedSimpArgs false
namespace Verif.Audio

/-! ## Model -/

/-- the first loop, sound/dynamic_mixer.h:30-35: result is (under, over) -/
def sqrtDown (x : Int) : Nat → Int → Int → Int → Option (Int × Int)
  | 0, _, _, _ => none
  | f + 1, under, over, step => do
    let p ← chk32 (under * under)
    if p > x then
      let over := under
      let under := under - step
      let step ← chk32 (step + step)
      if under ≤ 0 then some (0, over) else sqrtDown x f under over step
    else some (under, over)

/-- the second loop, sound/dynamic_mixer.h:39-44 -/
def sqrtUp (x : Int) : Nat → Int → Int → Int → Option (Int × Int)
  | 0, _, _, _ => none
  | f + 1, under, over, step => do
    let p ← chk32 (over * over)
    if p ≤ x then
      let under := over
      let over ← chk32 (over + step)
      let step ← chk32 (step + step)
      if over < 0 then some (under, x) else sqrtUp x f under over step
    else some (under, over)

/-- the third loop, sound/dynamic_mixer.h:46-53 -/
def sqrtBisect (x : Int) : Nat → Int → Int → Option Int
  | 0, _, _ => none
  | f + 1, under, over =>
    if under + 1 < over then do
      let s ← chk32 (over + under)
      let mid := s / 2
      let p ← chk32 (mid * mid)
      if p > x then sqrtBisect x f under mid else sqrtBisect x f mid over
    else some under

/-- sound/dynamic_mixer.h:27-45 -/
def sqrtBracket (x last p : Int) (fuel : Nat) : Option (Int × Int) := if p > x then sqrtDown x fuel (last - 1) last 1 else sqrtUp x fuel last (last + 1) 1

/-- `my_sqrt`, sound/dynamic_mixer.h:24-55: the result and the new `last_square_`.  The last argument
bounds the number of times round each loop; the theorems show that enough always gives a result. -/
def mySqrt (x last : Int) (fuel : Nat) : Option (Int × Int) := do
  if x ≤ 0 then some (0, last)
  else
    let p ← chk32 (last * last)
    let uo ← sqrtBracket x last p fuel
    let r ← sqrtBisect x fuel uo.1 uo.2
    some (r, r)

/-- `AudioDynamicMixer`, sound/dynamic_mixer.h:56, 187, 193 -/
structure Mixer where
  vol : Nat
  lastSquare : Int
  volume : Int

/-- sound/dynamic_mixer.h:74-76: the samples of one stream are added to the sums -/
def addStream : List Int → List Int → Option (List Int)
  | s, [] => some s
  | [], _ :: _ => none
  | s :: ss, d :: ds => do
    let v ← chk32 (s + d)
    let t ← addStream ss ds
    some (v :: t)

/-- sound/dynamic_mixer.h:68-77: all streams; `none` in the list is a null pointer, otherwise it is what the stream delivered -/
def addStreams (sums : List Int) : List (Option (List Int)) → Option (List Int)
  | [] => some sums
  | none :: r => addStreams sums r
  | some d :: r => do
    let s ← addStream sums d
    addStreams s r

/-- sound/dynamic_mixer.h:82-83: `vol_` is unsigned with 32 bits -/
def newVol (vol a : Nat) : Nat :=
  let vol1 := (vol + a) % 4294967296
  (vol1 + 4294967296 - (vol1 + 255) % 4294967296 / 256) % 4294967296

/-- sound/dynamic_mixer.h:80-86: one sample, in terms of the checked 32-bit arithmetic `c`, the update `nv` of `vol_` and the square root `sq` -/
def Mixer.sampleWith (c : Int → Option Int) (nv : Nat → Nat → Nat) (sq : Int → Int → Option (Int × Int)) (m : Mixer) (v : Int) : Option (Mixer × Int) := do
  let a ← c v.natAbs
  let x ← c (nv m.vol a.toNat : Int)   -- conversion to the `int` parameter; larger values would be negative
  let q ← sq x m.lastSquare
  let p ← c (v * m.volume)
  some (⟨nv m.vol a.toNat, q.2, m.volume⟩, clamp16 (p.tdiv (q.1 + 100)))

/-- sound/dynamic_mixer.h:80-86: one sample -/
def Mixer.sample (m : Mixer) (v : Int) (fuel : Nat) : Option (Mixer × Int) := m.sampleWith chk32 newVol (fun x l => mySqrt x l fuel) v

/-- sound/dynamic_mixer.h:79-89 -/
def Mixer.samples (m : Mixer) (fuel : Nat) : List Int → Option (Mixer × List Int)
  | [] => some (m, [])
  | v :: vs => do
    let q ← m.sample v fuel
    let t ← q.1.samples fuel vs
    some (t.1, q.2 :: t.2)

/-- one round of `while (elements)`, sound/dynamic_mixer.h:65-92: the streams delivered `streams` when asked for `toDo` samples -/
def Mixer.round (m : Mixer) (fuel toDo : Nat) (streams : List (Option (List Int))) : Option (Mixer × List Int) := do
  let sums ← addStreams (List.replicate toDo 0) streams
  m.samples fuel sums

/-- any number of rounds, of one or many calls of `read` -/
def Mixer.rounds (m : Mixer) (fuel : Nat) : List (Nat × List (Option (List Int))) → Option (Mixer × List Int)
  | [] => some (m, [])
  | (n, s) :: r => do
    let q ← m.round fuel n s
    let t ← q.1.rounds fuel r
    some (t.1, q.2 ++ t.2)

/-! ## Specification -/

/-- `r` is the square root of `x`, rounded down -/
def IsSqrt (x r : Int) : Prop := 0 ≤ r ∧ r * r ≤ x ∧ x < (r + 1) * (r + 1)

/-- the sum of what the streams delivered for sample `j`; missing samples count as silence -/
def sumAt (streams : List (Option (List Int))) (j : Nat) : Int := (streams.map fun s => (s.getD []).getD j 0).sum

/-- loudness: every sample adds its absolute value, then 1/256 (rounded up) leaks away -/
def loudness : Nat → List Int → Nat
  | l, [] => l
  | l, v :: vs => loudness (l + v.natAbs - (l + v.natAbs + 255) / 256) vs

/-- the output of the compressor for the mixed samples `vs`, when the loudness was `l` -/
def Compressed (volume : Int) : Nat → List Int → List Int → Prop
  | _, [], out => out = []
  | l, v :: vs, out => ∃ r o os, out = o :: os ∧ IsSqrt (loudness l [v]) r ∧ o = clamp16 ((v * volume).tdiv (r + 100)) ∧ Compressed volume (loudness l [v]) vs os

/-! ## Square root -/

theorem chk32_some {x : Int} (h1 : -2147483648 ≤ x) (h2 : x < 2147483648) : chk32 x = some x := by
  unfold chk32; rw [if_pos ⟨h1, h2⟩]

theorem sq_mono {a b : Int} (ha : 0 ≤ a) (h : a ≤ b) : a * a ≤ b * b := Int.mul_le_mul h h ha (by omega)

theorem lt_of_sq_lt {a b : Int} (hb : 0 ≤ b) (h : a * a < b * b) : a < b := by
  by_cases hab : a < b
  · exact hab
  · have := sq_mono hb (show b ≤ a by omega); omega

theorem le_46340 {a : Int} (h : a * a < 2147483648) : a ≤ 46340 := by
  by_cases hab : a ≤ 46340
  · exact hab
  · have := sq_mono (show (0 : Int) ≤ 46341 by decide) (show 46341 ≤ a by omega); omega

theorem sqrtBisect_ok (x : Int) : ∀ (f : Nat) (u o : Int), 0 ≤ u → u < o → o * o < 2147483648 → u * u ≤ x → x < o * o → o - u ≤ f →
    ∃ r, sqrtBisect x f u o = some r ∧ IsSqrt x r
  | 0, u, o, _, _, _, _, _, _ => by omega
  | f + 1, u, o, h0, h1, hm, hu, ho, hf => by
    have h4 := le_46340 hm
    rw [sqrtBisect]
    by_cases h : u + 1 < o
    · rw [if_pos h, chk32_some (by omega) (by omega)]
      simp only [Option.bind_eq_bind, Option.bind_some]
      have hmid1 : u < (o + u) / 2 := by omega
      have hmid2 : (o + u) / 2 < o := by omega
      generalize (o + u) / 2 = mid at *
      have hfit := sq_mono (show 0 ≤ mid by omega) (show mid ≤ o by omega)
      have hnn : 0 ≤ mid * mid := Int.mul_nonneg (by omega) (by omega)
      rw [chk32_some (by omega) (by omega)]
      simp only [Option.bind_some]
      by_cases hp : mid * mid > x
      · rw [if_pos hp]; exact sqrtBisect_ok x f u mid h0 hmid1 (by omega) hu hp (by omega)
      · rw [if_neg hp]; exact sqrtBisect_ok x f mid o (by omega) hmid2 hm (by omega) ho (by omega)
    · rw [if_neg h]
      have : o = u + 1 := by omega
      subst this
      exact ⟨u, rfl, h0, hu, ho⟩

/-- what the first two loops establish -/
def Bracket (x : Int) (uo : Int × Int) : Prop := 0 ≤ uo.1 ∧ uo.1 < uo.2 ∧ uo.2 * uo.2 < 2147483648 ∧ uo.1 * uo.1 ≤ x ∧ x < uo.2 * uo.2

theorem sqrtDown_ok (x : Int) (hx : 0 < x) (last : Int) (hl : last ≤ 46340) : ∀ (f : Nat) (u o st : Int), 0 ≤ u → u < o → o * o < 2147483648 → x < o * o → 0 < st → u = last - st → u < f →
    ∃ uo, sqrtDown x f u o st = some uo ∧ Bracket x uo
  | 0, u, o, st, h0, _, _, _, _, _, hf => by omega
  | f + 1, u, o, st, h0, h1, hm, ho, hst, hu, hf => by
    have hfit := sq_mono h0 (show u ≤ o by omega)
    have hnn : 0 ≤ u * u := Int.mul_nonneg h0 h0
    rw [sqrtDown, chk32_some (by omega) (by omega)]
    simp only [Option.bind_eq_bind, Option.bind_some]
    by_cases hp : u * u > x
    · rw [if_pos hp, chk32_some (by omega) (by omega)]
      simp only [Option.bind_some]
      by_cases hz : u - st ≤ 0
      · rw [if_pos hz]
        have : 0 < u := by
          by_cases h : 0 < u
          · exact h
          · have : u = 0 := by omega
            subst this; omega
        exact ⟨_, rfl, by simp only [Bracket]; omega⟩
      · rw [if_neg hz]
        exact sqrtDown_ok x hx last hl f (u - st) u (st + st) (by omega) (by omega) (by omega) hp (by omega) (by omega) (by omega)
    · rw [if_neg hp]; exact ⟨_, rfl, h0, h1, hm, by simp only; omega, ho⟩

theorem sqrtUp_ok (x : Int) (hx : 0 < x) (h4x : 4 * x < 2147483648) (last : Int) (hl : 0 ≤ last) : ∀ (f : Nat) (u o st : Int), 0 ≤ u → u < o → (o ≤ 2 * u ∨ o = 1) → u * u ≤ x → 0 < st → o = last + st → 46342 - o ≤ f → 0 < f →
    ∃ uo, sqrtUp x f u o st = some uo ∧ Bracket x uo
  | 0, u, o, st, _, _, _, _, _, _, hf, _ => by omega
  | f + 1, u, o, st, h0, h1, h2, hu, hst, ho, hf, _ => by
    have hfit : o * o < 2147483648 := by
      rcases h2 with h2 | h2
      · have := sq_mono (show 0 ≤ o by omega) h2
        rw [show 2 * u * (2 * u) = 4 * (u * u) by rw [Int.mul_assoc, Int.mul_left_comm u 2 u, ← Int.mul_assoc]; rfl] at this
        omega
      · subst h2; decide
    have h46 := le_46340 hfit
    have hnn : 0 ≤ o * o := Int.mul_nonneg (by omega) (by omega)
    rw [sqrtUp, chk32_some (by omega) hfit]
    simp only [Option.bind_eq_bind, Option.bind_some]
    by_cases hp : o * o ≤ x
    · rw [if_pos hp, chk32_some (by omega) (by omega)]
      simp only [Option.bind_some]
      rw [chk32_some (by omega) (by omega)]
      simp only [Option.bind_some]
      rw [if_neg (by omega)]
      exact sqrtUp_ok x hx h4x last hl f o (o + st) (st + st) (by omega) (by omega) (by omega) hp (by omega) (by omega) (by omega) (by omega)
    · rw [if_neg hp]; exact ⟨_, rfl, h0, h1, hfit, hu, by simp only; omega⟩

/-- C38: the square root is exact for every argument up to 2^29, whatever the previous result (used as a
guess) was; nothing overflows and all loops end. -/
theorem C38_sqrt (x last : Int) (fuel : Nat) (hx : 4 * x < 2147483648) (h0 : 0 ≤ x) (hl0 : 0 ≤ last) (hl : last ≤ 46340) (hf : 46342 ≤ fuel) :
    ∃ r last', mySqrt x last fuel = some (r, last') ∧ IsSqrt x r ∧ 0 ≤ last' ∧ last' ≤ 46340 := by
  unfold mySqrt
  by_cases hz : x ≤ 0
  · rw [if_pos hz]
    exact ⟨0, last, rfl, ⟨by omega, by omega, by omega⟩, hl0, hl⟩
  · rw [if_neg hz]
    have hsq := sq_mono hl0 hl
    have hnn : 0 ≤ last * last := Int.mul_nonneg hl0 hl0
    have hfit : last * last < 2147483648 := by omega
    rw [chk32_some (by omega) hfit]
    simp only [Option.bind_eq_bind, Option.bind_some]
    have hbr : ∃ uo, sqrtBracket x last (last * last) fuel = some uo ∧ Bracket x uo := by
      unfold sqrtBracket
      by_cases hp : last * last > x
      · rw [if_pos hp]
        have : 0 < last := by
          by_cases h : 0 < last
          · exact h
          · have : last = 0 := by omega
            subst this; omega
        exact sqrtDown_ok x (by omega) last hl fuel _ _ _ (by omega) (by omega) hfit hp (by omega) rfl (by omega)
      · rw [if_neg hp]
        exact sqrtUp_ok x (by omega) hx last hl0 fuel _ _ _ hl0 (by omega) (by omega) (by omega) (by omega) rfl (by omega) (by omega)
    obtain ⟨uo, e1, b1, b2, b3, b4, b5⟩ := hbr
    rw [e1]
    simp only [Option.bind_some]
    have h46 := le_46340 b3
    obtain ⟨r, e2, hr⟩ := sqrtBisect_ok x fuel uo.1 uo.2 b1 b2 b3 b4 b5 (by omega)
    rw [e2]
    refine ⟨r, r, rfl, hr, hr.1, le_46340 ?_⟩
    have := hr.2.1; omega

theorem isSqrt_unique {x r r' : Int} (h : IsSqrt x r) (h' : IsSqrt x r') : r = r' := by
  have a : r < r' + 1 := lt_of_sq_lt (by have := h'.1; omega) (by have := h.2.1; have := h'.2.2; omega)
  have b : r' < r + 1 := lt_of_sq_lt (by have := h.1; omega) (by have := h'.2.1; have := h.2.2; omega)
  omega

/-- guesses above, below and at the root -/
example : mySqrt 1000000 46340 100 = some (1000, 1000) ∧ mySqrt 999999 1000 100 = some (999, 999) ∧ mySqrt 536870911 0 100 = some (23170, 23170) := by decide +kernel

/-! ## The sums -/

theorem addStream_ok (b : Int) (hb : b + 32768 < 2147483648) : ∀ (s d : List Int), d.length ≤ s.length → (∀ x ∈ s, -b ≤ x ∧ x ≤ b) → (∀ x ∈ d, -32768 ≤ x ∧ x ≤ 32767) →
    ∃ t, addStream s d = some t ∧ t.length = s.length ∧ (∀ x ∈ t, -(b + 32768) ≤ x ∧ x ≤ b + 32768) ∧ ∀ j, j < s.length → t.getD j 0 = s.getD j 0 + d.getD j 0
  | s, [], _, hs, _ => by
    refine ⟨s, by cases s <;> rfl, rfl, fun x hx => by have := hs x hx; omega, fun j _ => by simp⟩
  | [], _ :: _, h, _, _ => by simp at h
  | s :: ss, d :: ds, h, hs, hd => by
    have h1 := hs s List.mem_cons_self
    have h2 := hd d List.mem_cons_self
    obtain ⟨t, e, hl, hbd, hv⟩ := addStream_ok b hb ss ds (by simpa using h) (fun x hx => hs x (List.mem_cons_of_mem _ hx)) (fun x hx => hd x (List.mem_cons_of_mem _ hx))
    rw [addStream, chk32_some (by omega) (by omega)]
    simp only [Option.bind_eq_bind, Option.bind_some, e]
    refine ⟨_, rfl, by simp [hl], ?_, ?_⟩
    · intro x hx
      rcases List.mem_cons.mp hx with rfl | hx
      · omega
      · exact hbd x hx
    · intro j hj
      cases j with
      | zero => simp
      | succ j => simpa using hv j (by simpa using hj)

theorem addStreams_ok : ∀ (streams : List (Option (List Int))) (s : List Int) (b : Int), 0 ≤ b → b + 32768 * streams.length < 2147483648 →
    (∀ d, some d ∈ streams → d.length ≤ s.length ∧ ∀ x ∈ d, -32768 ≤ x ∧ x ≤ 32767) → (∀ x ∈ s, -b ≤ x ∧ x ≤ b) →
    ∃ t, addStreams s streams = some t ∧ t.length = s.length ∧ (∀ x ∈ t, -(b + 32768 * streams.length) ≤ x ∧ x ≤ b + 32768 * streams.length) ∧ ∀ j, j < s.length → t.getD j 0 = s.getD j 0 + sumAt streams j
  | [], s, b, _, _, _, hs => ⟨s, rfl, rfl, by intro x hx; have := hs x hx; simp; omega, by intro j _; simp [sumAt]⟩
  | none :: r, s, b, h0, hb, hd, hs => by
    rw [List.length_cons] at hb
    obtain ⟨t, e, hl, hbd, hv⟩ := addStreams_ok r s b h0 (by omega) (fun d hd' => hd d (List.mem_cons_of_mem _ hd')) hs
    refine ⟨t, e, hl, ?_, ?_⟩
    · intro x hx; have := hbd x hx; rw [List.length_cons]; omega
    · intro j hj; rw [hv j hj]; simp [sumAt]
  | some d :: r, s, b, h0, hb, hd, hs => by
    rw [List.length_cons] at hb
    obtain ⟨h1, h2⟩ := hd d List.mem_cons_self
    obtain ⟨u, e1, hl1, hbd1, hv1⟩ := addStream_ok b (by omega) s d h1 hs h2
    obtain ⟨t, e, hl, hbd, hv⟩ := addStreams_ok r u (b + 32768) (by omega) (by omega) (fun d' hd' => by rw [hl1]; exact hd d' (List.mem_cons_of_mem _ hd')) hbd1
    refine ⟨t, by rw [addStreams, e1]; exact e, by omega, ?_, ?_⟩
    · intro x hx; have := hbd x hx; rw [List.length_cons]; omega
    · intro j hj
      rw [hv j (by omega), hv1 j hj]
      simp only [sumAt, List.map_cons, List.sum_cons, Option.getD_some]
      omega

/-! ## The compressor -/

/-- the loudness and the guess stay in range -/
structure Mixer.Ok (M : Nat) (m : Mixer) : Prop where
  vol : m.vol ≤ 255 * M
  sq0 : 0 ≤ m.lastSquare
  sq1 : m.lastSquare ≤ 46340

theorem vol_arith {vol a M : Nat} (hv : vol ≤ 255 * M) (ha : a ≤ M) (hM : 4 * (255 * M) < 2147483648) :
    newVol vol a = vol + a - (vol + a + 255) / 256 ∧ vol + a - (vol + a + 255) / 256 ≤ 255 * M := by
  have h1 : vol + a < 4294967296 := by omega
  refine ⟨?_, by omega⟩
  have : vol + a + 4294967296 - (vol + a + 255) / 256 = vol + a - (vol + a + 255) / 256 + 4294967296 := by omega
  unfold newVol
  simp only
  rw [Nat.mod_eq_of_lt h1, Nat.mod_eq_of_lt (show vol + a + 255 < 4294967296 by omega), this, Nat.add_mod_right, Nat.mod_eq_of_lt (by omega)]

theorem mul_fits {v w : Int} {M V : Nat} (hv : v.natAbs ≤ M) (hw : w.natAbs ≤ V) (h : M * V < 2147483648) : -2147483648 ≤ v * w ∧ v * w < 2147483648 := by
  have := Int.natAbs_mul v w
  have h2 := Nat.mul_le_mul hv hw
  omega

theorem sampleWith_eq {c : Int → Option Int} {nv : Nat → Nat → Nat} {sq : Int → Int → Option (Int × Int)} {m : Mixer} {v a x p : Int} {q : Int × Int}
    (h1 : c v.natAbs = some a) (h2 : c (nv m.vol a.toNat : Int) = some x) (h3 : sq x m.lastSquare = some q) (h4 : c (v * m.volume) = some p) :
    m.sampleWith c nv sq v = some (⟨nv m.vol a.toNat, q.2, m.volume⟩, clamp16 (p.tdiv (q.1 + 100))) := by
  unfold Mixer.sampleWith
  simp only [h1, h2, h3, h4, Option.bind_eq_bind, Option.bind_some]

theorem sample_eq {m : Mixer} {v a x p : Int} {q : Int × Int} {fuel : Nat} (h1 : chk32 v.natAbs = some a) (h2 : chk32 (newVol m.vol a.toNat : Int) = some x)
    (h3 : mySqrt x m.lastSquare fuel = some q) (h4 : chk32 (v * m.volume) = some p) :
    m.sample v fuel = some (⟨newVol m.vol a.toNat, q.2, m.volume⟩, clamp16 (p.tdiv (q.1 + 100))) :=
  sampleWith_eq (sq := fun x l => mySqrt x l fuel) h1 h2 h3 h4

theorem sample_ok {m : Mixer} {M : Nat} {v : Int} {fuel : Nat} (h : m.Ok M) (hM : 4 * (255 * M) < 2147483648) (hV : M * m.volume.natAbs < 2147483648)
    (hv : v.natAbs ≤ M) (hf : 46342 ≤ fuel) :
    ∃ m' r, m.sample v fuel = some (m', clamp16 ((v * m.volume).tdiv (r + 100))) ∧ m'.Ok M ∧ m'.volume = m.volume ∧ m'.vol = loudness m.vol [v] ∧ IsSqrt (loudness m.vol [v]) r := by
  obtain ⟨a3, a4⟩ := vol_arith h.vol hv hM
  have hl : loudness m.vol [v] = m.vol + v.natAbs - (m.vol + v.natAbs + 255) / 256 := rfl
  have h5 := h.vol
  rw [← hl] at a3 a4
  generalize loudness m.vol [v] = L at *
  obtain ⟨r, last', e, hr, q1, q2⟩ := C38_sqrt (L : Int) m.lastSquare fuel (by omega) (by omega) h.sq0 h.sq1 hf
  obtain ⟨p1, p2⟩ := mul_fits hv (Nat.le_refl m.volume.natAbs) hV
  have t : (v.natAbs : Int).toNat = v.natAbs := Int.toNat_natCast _
  have h1 : chk32 v.natAbs = some (v.natAbs : Int) := chk32_some (by omega) (by omega)
  have h2 : chk32 (newVol m.vol (v.natAbs : Int).toNat : Int) = some (L : Int) := by rw [t, a3]; exact chk32_some (by omega) (by omega)
  have e1 := sample_eq h1 h2 e (chk32_some p1 p2)
  rw [t, a3] at e1
  exact ⟨⟨L, last', m.volume⟩, r, e1, ⟨a4, q1, q2⟩, rfl, rfl, hr⟩

theorem samples_ok {M fuel : Nat} (hM : 4 * (255 * M) < 2147483648) (hf : 46342 ≤ fuel) : ∀ (vs : List Int) (m : Mixer), m.Ok M → M * m.volume.natAbs < 2147483648 →
    (∀ v ∈ vs, v.natAbs ≤ M) → ∃ m' out, m.samples fuel vs = some (m', out) ∧ m'.Ok M ∧ m'.volume = m.volume ∧ m'.vol = loudness m.vol vs ∧ Compressed m.volume m.vol vs out
  | [], m, h, _, _ => ⟨m, [], rfl, h, rfl, rfl, rfl⟩
  | v :: vs, m, h, hV, hv => by
    obtain ⟨m1, r, e1, h1, v1, l1, s1⟩ := sample_ok h hM hV (hv v List.mem_cons_self) hf
    obtain ⟨m2, out, e2, h2, v2, l2, c2⟩ := samples_ok hM hf vs m1 h1 (by rw [v1]; exact hV) (fun x hx => hv x (List.mem_cons_of_mem _ hx))
    refine ⟨m2, _, by rw [Mixer.samples, e1]; simp only [Option.bind_eq_bind, Option.bind_some]; rw [e2]; rfl, h2, by rw [v2, v1], ?_, r, _, out, rfl, s1, rfl, ?_⟩
    · rw [l2, l1]; rfl
    · rw [v1, l1] at c2; exact c2

/-- the mixed samples of all rounds -/
def mixed : List (Nat × List (Option (List Int))) → List Int
  | [] => []
  | (n, s) :: r => (List.range n).map (sumAt s) ++ mixed r

theorem loudness_append : ∀ (a b : List Int) (l : Nat), loudness l (a ++ b) = loudness (loudness l a) b
  | [], _, _ => rfl
  | _ :: a, b, _ => loudness_append a b _

theorem compressed_append {volume : Int} : ∀ (a b : List Int) (l : Nat) (o p : List Int), Compressed volume l a o → Compressed volume (loudness l a) b p → Compressed volume l (a ++ b) (o ++ p)
  | [], _, _, o, p, h1, h2 => by
    have : o = [] := h1
    subst this; exact h2
  | v :: a, b, l, o, p, h1, h2 => by
    obtain ⟨r, x, xs, rfl, hs, hx, hc⟩ := h1
    exact ⟨r, x, xs ++ p, rfl, hs, hx, compressed_append a b _ xs p hc h2⟩

theorem list_eq_range {l : List Int} {n : Nat} (f : Nat → Int) (hl : l.length = n) (h : ∀ j, j < n → l.getD j 0 = f j) : l = (List.range n).map f := by
  apply List.ext_getElem
  · simp [hl]
  · intro i h1 h2
    have := h i (by omega)
    rw [List.getD_eq_getElem?_getD, List.getElem?_eq_getElem h1] at this
    simpa using this

/-- C38: for any number of streams up to 64, whatever they deliver (also too little), over any number of
buffers of any size: nothing overflows; the output has one sample per sample asked for; and it is the sum
of the streams, times the volume, divided by 100 plus the exact square root of the loudness of everything
so far, limited to 16 bits. -/
theorem C38_mix {N fuel : Nat} (hN : N ≤ 64) (hf : 46342 ≤ fuel) : ∀ (rounds : List (Nat × List (Option (List Int)))) (m : Mixer), m.Ok (32768 * N) → 32768 * N * m.volume.natAbs < 2147483648 →
    (∀ q ∈ rounds, q.2.length = N ∧ ∀ d, some d ∈ q.2 → d.length ≤ q.1 ∧ ∀ x ∈ d, -32768 ≤ x ∧ x ≤ 32767) →
    ∃ m' out, m.rounds fuel rounds = some (m', out) ∧ m'.Ok (32768 * N) ∧ m'.vol = loudness m.vol (mixed rounds) ∧ Compressed m.volume m.vol (mixed rounds) out
  | [], m, h, _, _ => ⟨m, [], rfl, h, rfl, rfl⟩
  | (n, s) :: r, m, h, hV, hd => by
    obtain ⟨hl, hs⟩ := hd (n, s) List.mem_cons_self
    simp only at hl hs
    obtain ⟨t, e1, l1, b1, v1⟩ := addStreams_ok s (List.replicate n 0) 0 (by omega) (by omega) (by simpa using hs) (by intro x hx; have := List.eq_of_mem_replicate hx; omega)
    rw [List.length_replicate] at l1 v1
    have ht : t = (List.range n).map (sumAt s) := list_eq_range _ l1 (fun j hj => by rw [v1 j hj]; simp [hj])
    obtain ⟨m1, o1, e2, h1, vo1, lo1, c1⟩ := samples_ok (M := 32768 * N) (by omega) hf t m h hV (fun v hv => by have := b1 v hv; omega)
    obtain ⟨m2, o2, e3, h2, lo2, c2⟩ := C38_mix hN hf r m1 h1 (by rw [vo1]; exact hV) (fun q hq => hd q (List.mem_cons_of_mem _ hq))
    refine ⟨m2, o1 ++ o2, ?_, h2, ?_, ?_⟩
    · have : m.round fuel n s = some (m1, o1) := by
        unfold Mixer.round
        rw [e1]; exact e2
      rw [Mixer.rounds, this]
      simp only [Option.bind_eq_bind, Option.bind_some]
      rw [e3]; rfl
    · rw [lo2, lo1, mixed, loudness_append, ← ht]
    · rw [mixed, ← ht]
      rw [vo1, lo1] at c2
      exact compressed_append _ _ _ _ _ c1 c2

/-- C38: every output sample fits in 16 bits, and there are as many as asked for -/
theorem C38_fits {volume : Int} : ∀ (vs out : List Int) (l : Nat), Compressed volume l vs out → Is16 out ∧ out.length = vs.length
  | [], out, _, h => by
    have : out = [] := h
    subst this
    exact ⟨fun x hx => by simp at hx, rfl⟩
  | v :: vs, out, l, ⟨r, o, os, e, _, ho, hc⟩ => by
    obtain ⟨h1, h2⟩ := C38_fits vs os _ hc
    subst e
    refine ⟨fun x hx => ?_, by simp [h2]⟩
    rcases List.mem_cons.mp hx with rfl | hx
    · rw [ho]; unfold clamp16; split
      · omega
      · split <;> omega
    · exact h1 x hx

theorem tdiv_nonneg_of {a b : Int} (ha : 0 ≤ a) (hb : 0 < b) : 0 ≤ a.tdiv b := Int.tdiv_nonneg ha (by omega)

/-- C38: a sample keeps its sign, silence stays silence, and of two mixed samples at the same moment the
larger gives the larger output -/
theorem C38_monotone {volume : Int} (hv : 0 ≤ volume) {r v w : Int} (hr : 0 ≤ r) (h : v ≤ w) :
    clamp16 ((v * volume).tdiv (r + 100)) ≤ clamp16 ((w * volume).tdiv (r + 100)) ∧ clamp16 ((0 * volume).tdiv (r + 100)) = 0 := by
  have h1 : v * volume ≤ w * volume := Int.mul_le_mul_of_nonneg_right h hv
  have h2 : (v * volume).tdiv (r + 100) ≤ (w * volume).tdiv (r + 100) := Int.tdiv_le_tdiv (by omega) h1
  refine ⟨?_, by simp [clamp16]⟩
  generalize (v * volume).tdiv (r + 100) = a at *
  generalize (w * volume).tdiv (r + 100) = b at *
  unfold clamp16
  repeat' split
  all_goals omega

/-- C38: in silence the loudness dies away completely: after as many silent samples as the loudness was -/
theorem C38_silence : ∀ (n l : Nat), l ≤ n → loudness l (List.replicate n 0) = 0
  | 0, l, h => by simp only [List.replicate_zero, loudness]; omega
  | n + 1, l, h => by
    rw [List.replicate_succ, loudness]
    exact C38_silence n _ (by simp only [Int.natAbs_zero]; omega)

/-- nine streams at the default volume satisfy the hypotheses; two streams, one missing, one too short -/
example : (Mixer.mk 0 0 3000).Ok (32768 * 9) ∧ 32768 * 9 * (3000 : Int).natAbs < 2147483648 := ⟨⟨by decide, by decide, by decide⟩, by decide⟩
example : ((Mixer.mk 0 0 1000).rounds 60000 [(3, [some [30000, -20000, 5], none, some [1000]])]).map (fun q => (q.1.vol, q.1.lastSquare, q.2)) =
    some (50486, 224, [32767, -32768, 15]) := by decide +kernel

end Verif.Audio
