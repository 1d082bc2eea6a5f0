import Mathlib.Tactic.Linarith
import Mathlib.Tactic.Ring
import Mathlib.Algebra.Order.Field.Basic
/-!
# Swing sounds

Model of sound/smooth_swing_v2.h: two sounds are played, and while the saber is swung their volumes cross over at
certain angles.  Floating point numbers are replaced by rationals.  Accent swings, the starting and stopping of players and the
value of `powf` (a fraction `strength`) are inputs or left out; `SetSwingVolume` of the font is the identity.
Both players exist (without them the volumes go nowhere).  Also sound/looped_swing_wrapper.h, the older way.
-/
namespace Verif.Swing

/-- `Data`, sound/smooth_swing_v2.h:215-260: where the transition away from a sound is (relative to where the
saber is now), how wide, how far the next one is, and which player it is -/
structure Data where
  midpoint : Rat
  width : Rat
  separation : Rat
  player : Bool
deriving DecidableEq

/-- sound/smooth_swing_v2.h:252 -/
def Data.begin_ (d : Data) : Rat := d.midpoint - d.width / 2
/-- sound/smooth_swing_v2.h:253 -/
def Data.end_ (d : Data) : Rat := d.midpoint + d.width / 2
/-- sound/smooth_swing_v2.h:254-256 -/
def Data.rotate (d : Data) (degrees : Rat) : Data := { d with midpoint := d.midpoint + degrees }

/-- the loop that moves on to the next transition, sound/smooth_swing_v2.h:150-153; `none`: not finished after `fuel` rounds -/
def settle : Nat → Data × Data → Option (Data × Data)
  | 0, _ => none
  | fuel + 1, (a, b) => if a.end_ < 0 then settle fuel ({ b with midpoint := a.midpoint + a.separation }, a) else some (a, b)

/-- `clamp`, common/math.h -/
def clamp01 (x : Rat) : Rat := if x < 0 then 0 else if 1 < x then 1 else x

/-- `mixab`, sound/smooth_swing_v2.h:154-156: how much is heard of `a` -/
def mixab (a : Data) : Rat := if a.begin_ < 0 then clamp01 (-a.begin_ / a.width) else 0

/-- turning by an angle and moving on, sound/smooth_swing_v2.h:146-153 -/
def turn (fuel : Nat) (s : Data × Data) (degrees : Rat) : Option (Data × Data) := settle fuel (s.1.rotate (-degrees), s.2)

/-- the part of the swing sound that comes from player `p`, sound/smooth_swing_v2.h:188-189 -/
def share (s : Data × Data) (p : Bool) : Rat :=
  (if s.1.player = p then mixab s.1 else 0) + (if s.2.player = p then 1 - mixab s.1 else 0)

/-- `SwingState`, sound/smooth_swing_v2.h:98-102 -/
inductive SwingState where
  | off | on | out
deriving DecidableEq

/-- the configuration, sound/smooth_swing_config.h -/
structure Config where
  threshold : Rat
  ducking : Rat
  maxVolume : Rat
  width1 : Rat
  width2 : Rat

structure St where
  ab : Data × Data
  state : SwingState
  on : Bool

/-- what a call of `SB_Motion` does: the volumes it sets for the two players, whether it picks a new pair of sounds, and the volume of the hum -/
structure Out where
  volume : Option (Bool → Rat)
  picked : Bool
  hum : Rat

/-- `PickRandomSwing`, sound/smooth_swing_v2.h:62-84; `pick` is `none` if it returns early (off, no hum, or picked less than a second
ago), and else the two random numbers -/
def pickSwing (c : Config) (ab : Data × Data) : Option (Rat × Bool) → Data × Data
  | none => ab
  | some (offset, swap) =>
    let (a, b) := if swap then (ab.2, ab.1) else ab
    ({ a with midpoint := offset, width := c.width1 }, { b with midpoint := offset + a.separation, width := c.width2 })

/-- the part of `SB_Motion` for `SwingState::OUT`, sound/smooth_swing_v2.h:198-205 -/
def motionOut (c : Config) (s : St) (pick : Option (Rat × Bool)) (volume : Option (Bool → Rat)) : St × Out :=
  ({ s with ab := pickSwing c s.ab pick, state := .off }, ⟨volume, pick.isSome, 1⟩)

/-- the part for `SwingState::ON`, sound/smooth_swing_v2.h:137-197 -/
def motionOn (fuel : Nat) (c : Config) (s : St) (speed degrees strength : Rat) (pick : Option (Rat × Bool)) : Option (St × Out) :=
  if c.threshold * (9 / 10) ≤ speed then
    match turn fuel s.ab degrees with
    | none => none
    | some ab =>
      let m := strength * c.maxVolume
      some ({ s with ab := ab, state := .on },
        ⟨if s.on then some (fun p => m * share ab p) else none, false, 1 - strength * c.ducking / 100⟩)
  else some (motionOut c s pick (some fun _ => 0))

/-- `SB_Motion`, sound/smooth_swing_v2.h:104-208 -/
def motion (fuel : Nat) (c : Config) (s : St) (speed degrees strength : Rat) (pick : Option (Rat × Bool)) : Option (St × Out) :=
  match s.state with
  | .off => if speed < c.threshold then some (s, ⟨none, false, 1⟩) else motionOn fuel c { s with state := .on } speed degrees strength pick
  | .on => motionOn fuel c s speed degrees strength pick
  | .out => some (motionOut c s pick none)

/-- `clamp`, common/math.h -/
def clamp (x lo hi : Rat) : Rat := if x < lo then lo else if hi < x then hi else x

/-- `LoopedSwingWrapper::SB_Motion`, sound/looped_swing_wrapper.h:69-85: the volumes of the low sound, the high sound and the hum;
`c` and `s` come from the sine table, `gyroY`, `gyroZ`, `speed` from the motion sensor -/
def looped (c s gyroY gyroZ speed : Rat) : Rat × Rat × Rat :=
  let blend := clamp ((c * gyroZ + s * gyroY) / 150) (-1) 1
  let vol := 99 / 100 + clamp (speed / 200) 0 (23 / 10)
  (vol * max 0 blend, vol * max 0 (-blend), vol * (1 - |blend|))

/-! ## Specification -/

/-- one transition ends before the next begins: widths are positive and the distances at least the average of the widths -/
structure Apart (s : Data × Data) : Prop where
  w1 : 0 < s.1.width
  w2 : 0 < s.2.width
  s1 : (s.1.width + s.2.width) / 2 ≤ s.1.separation
  s2 : (s.1.width + s.2.width) / 2 ≤ s.2.separation
  players : s.1.player ≠ s.2.player

/-- the saber is before the end of the next transition -/
def Settled (s : Data × Data) : Prop := 0 ≤ s.1.end_

/-- the same apart from the midpoint of the second transition, which is set when its turn comes -/
def Same (s t : Data × Data) : Prop := s.1 = t.1 ∧ { s.2 with midpoint := 0 } = { t.2 with midpoint := 0 }

/-! ## Proofs -/

theorem settle_mono {n : Nat} : ∀ {s r : Data × Data}, settle n s = some r → ∀ m, n ≤ m → settle m s = some r := by
  induction n with
  | zero => intro s r h; simp [settle] at h
  | succ n ih =>
    intro s r h m hm
    obtain ⟨m, rfl⟩ : ∃ k, m = k + 1 := ⟨m - 1, by omega⟩
    obtain ⟨a, b⟩ := s
    simp only [settle] at h ⊢
    split
    · rename_i h1; rw [if_pos h1] at h; exact ih h m (by omega)
    · rename_i h1; rw [if_neg h1] at h; exact h

theorem nat_gt (x : Rat) : ∃ n : Nat, x < (n : Rat) := by
  refine ⟨x.num.natAbs + 1, ?_⟩
  have h1 : x ≤ (x.num.natAbs : Rat) := by
    by_cases h0 : 0 ≤ x.num
    · have h2 : (x.num.natAbs : Rat) = (x.num : Rat) := by
        have : ((x.num.natAbs : Int) : Rat) = (x.num : Rat) := by rw [Int.natAbs_of_nonneg h0]
        rw [← this, Int.cast_natCast]
      have h3 : x * (x.den : Rat) = x.num := Rat.mul_den_eq_num x
      have h4 : (1 : Rat) ≤ (x.den : Rat) := by exact_mod_cast x.den_pos
      have h5 : 0 ≤ x := Rat.num_nonneg.mp h0
      rw [h2, ← h3]
      have := mul_le_mul_of_nonneg_left h4 h5
      linarith
    · have h5 : x < 0 := Rat.num_neg.mp (by omega)
      have : (0 : Rat) ≤ (x.num.natAbs : Rat) := by exact_mod_cast Nat.zero_le _
      linarith
  push_cast
  linarith

theorem settle_total (ab : Data × Data) (h1 : 0 < ab.1.separation) (h2 : 0 < ab.2.separation) (w1 : 0 ≤ ab.1.width) (w2 : 0 ≤ ab.2.width) :
    ∃ n r, settle n ab = some r := by
  -- the least separation
  obtain ⟨d, hd, d1, d2⟩ : ∃ d, 0 < d ∧ d ≤ ab.1.separation ∧ d ≤ ab.2.separation :=
    ⟨min ab.1.separation ab.2.separation, lt_min h1 h2, min_le_left _ _, min_le_right _ _⟩
  have key : ∀ (n : Nat) (a b : Data), d ≤ a.separation → d ≤ b.separation → 0 ≤ a.width → 0 ≤ b.width → 0 ≤ a.midpoint + n * d →
      ∃ m r, settle m (a, b) = some r := by
    intro n
    induction n with
    | zero =>
      intro a b _ _ ha _ hm
      refine ⟨1, (a, b), ?_⟩
      have : ¬ a.end_ < 0 := by
        simp only [Data.end_]
        have : (0 : Rat) ≤ a.midpoint := by simpa using hm
        linarith
      simp [settle, this]
    | succ n ih =>
      intro a b ha hb wa wb hm
      by_cases he : a.end_ < 0
      · obtain ⟨m, r, hr⟩ := ih { b with midpoint := a.midpoint + a.separation } a hb ha wb wa (by
          simp only
          have : ((n + 1 : Nat) : Rat) = (n : Rat) + 1 := by push_cast; ring
          rw [this] at hm
          linarith)
        exact ⟨m + 1, r, by rw [settle, if_pos he]; exact hr⟩
      · exact ⟨1, (a, b), by rw [settle, if_neg he]⟩
  obtain ⟨n, hn⟩ := nat_gt (-ab.1.midpoint / d)
  refine key n ab.1 ab.2 d1 d2 w1 w2 ?_
  rw [div_lt_iff₀ hd] at hn
  linarith

theorem settle_settled {n : Nat} : ∀ {s r : Data × Data}, settle n s = some r → Settled r := by
  induction n with
  | zero => intro s r h; simp [settle] at h
  | succ n ih =>
    rintro ⟨a, b⟩ r h
    simp only [settle] at h
    split at h
    · exact ih h
    · simp only [Option.some.injEq] at h; subst h
      rename_i h1; exact not_lt.mp h1

theorem settle_apart {n : Nat} : ∀ {s r : Data × Data}, settle n s = some r → Apart s → Apart r := by
  induction n with
  | zero => intro s r h; simp [settle] at h
  | succ n ih =>
    rintro ⟨a, b⟩ r h ⟨h1, h2, h3, h4, h5⟩
    simp only [settle] at h
    split at h
    · exact ih h ⟨h2, h1, by simp only at *; linarith, by simp only at *; linarith, fun e => h5 e.symm⟩
    · simp only [Option.some.injEq] at h; subst h; exact ⟨h1, h2, h3, h4, h5⟩

/-- the loop does not look at the midpoint of the second transition -/
theorem settle_same {n : Nat} : ∀ {s t r : Data × Data}, Same s t → settle n s = some r → ∃ q, settle n t = some q ∧ Same r q := by
  induction n with
  | zero => intro s t r _ h; simp [settle] at h
  | succ n ih =>
    rintro ⟨a, b⟩ ⟨a', b'⟩ r ⟨h1, h2⟩ h
    simp only at h1 h2
    subst h1
    simp only [settle] at h ⊢
    split at h
    · rename_i he
      rw [if_pos he]
      refine ih (t := ({ b' with midpoint := a.midpoint + a.separation }, a)) (s := ({ b with midpoint := a.midpoint + a.separation }, a)) ⟨?_, rfl⟩ h
      have := congrArg (fun d : Data => { d with midpoint := a.midpoint + a.separation }) h2
      exact this
    · rename_i he
      rw [if_neg he]
      simp only [Option.some.injEq] at h
      subst h
      exact ⟨_, rfl, rfl, h2⟩

/-- moving on and then turning further is the same as turning all at once -/
theorem settle_turn {n : Nat} : ∀ {s r : Data × Data} {d : Rat}, 0 ≤ d → settle n s = some r → ∀ {m : Nat} {q : Data × Data}, turn m r d = some q →
    ∃ k q', turn k s d = some q' ∧ Same q q' := by
  induction n with
  | zero => intro s r d _ h; simp [settle] at h
  | succ n ih =>
    rintro ⟨a, b⟩ r d hd h m q hq
    simp only [settle] at h
    split at h
    · rename_i he
      obtain ⟨k, q', h1, h2⟩ := ih hd h hq
      have he2 : (a.rotate (-d)).end_ < 0 := by simp only [Data.end_, Data.rotate] at *; linarith
      -- the same after moving on
      have hs : Same (Data.rotate { b with midpoint := a.midpoint + a.separation } (-d), a)
          ({ b with midpoint := (a.rotate (-d)).midpoint + (a.rotate (-d)).separation }, a.rotate (-d)) := by
        refine ⟨?_, rfl⟩
        simp only [Data.rotate]
        congr 1
        ring
      obtain ⟨q2, e1, e2⟩ := settle_same hs h1
      refine ⟨k + 1, q2, ?_, ⟨h2.1.trans e2.1, h2.2.trans e2.2⟩⟩
      simp only [turn, settle]
      rw [if_pos he2]
      exact e1
    · simp only [Option.some.injEq] at h; subst h
      exact ⟨m, q, hq, rfl, rfl⟩

theorem rotate_rotate (d : Data) (x y : Rat) : (d.rotate x).rotate y = d.rotate (x + y) := by
  simp only [Data.rotate]; congr 1; ring

/-- **C91**: how the sounds are mixed depends on the angle turned, not on how often the motion is sampled: turning in two parts gives
the same as turning at once, and each turn is finished -/
theorem C91_schedule (s : Data × Data) (hs : 0 < s.1.separation ∧ 0 < s.2.separation ∧ 0 ≤ s.1.width ∧ 0 ≤ s.2.width) (d1 d2 : Rat) (h2 : 0 ≤ d2) :
    (∃ n r, turn n s d1 = some r) ∧
    ∀ n1 r1 n2 r2, turn n1 s d1 = some r1 → turn n2 r1 d2 = some r2 →
      ∃ n r, turn n s (d1 + d2) = some r ∧ Same r2 r ∧ ∀ p, share r2 p = share r p := by
  refine ⟨settle_total _ hs.1 hs.2.1 hs.2.2.1 hs.2.2.2, fun n1 r1 n2 r2 e1 e2 => ?_⟩
  obtain ⟨k, q, h3, h4⟩ := settle_turn h2 e1 e2
  refine ⟨k, q, ?_, h4, fun p => ?_⟩
  · have e : turn k s (d1 + d2) = turn k (s.1.rotate (-d1), s.2) d2 := by
      simp only [turn, rotate_rotate]
      congr 3; ring
    rw [e]; exact h3
  · have hp : r2.2.player = q.2.player := by have := congrArg Data.player h4.2; simpa using this
    simp only [share, h4.1, hp]

theorem clamp_range (x : Rat) : 0 ≤ clamp01 x ∧ clamp01 x ≤ 1 := by
  unfold clamp01
  split
  · exact ⟨le_refl _, by linarith⟩
  · split
    · exact ⟨by linarith, le_refl _⟩
    · constructor <;> linarith

theorem mixab_range (a : Data) : 0 ≤ mixab a ∧ mixab a ≤ 1 := by
  unfold mixab
  split
  · exact clamp_range _
  · exact ⟨le_refl _, by linarith⟩

/-- the two shares make up the whole -/
theorem share_sum (s : Data × Data) (hp : s.1.player ≠ s.2.player) : share s true + share s false = 1 ∧ ∀ p, 0 ≤ share s p ∧ share s p ≤ 1 := by
  obtain ⟨h1, h2⟩ := mixab_range s.1
  have hcase : (s.1.player = true ∧ s.2.player = false) ∨ (s.1.player = false ∧ s.2.player = true) := by
    cases ha : s.1.player <;> cases hb : s.2.player <;> simp_all
  refine ⟨?_, fun p => ?_⟩
  · rcases hcase with ⟨a, b⟩ | ⟨a, b⟩ <;> simp [share, a, b]
  · rcases hcase with ⟨a, b⟩ | ⟨a, b⟩ <;> cases p <;> simp [share, a, b] <;> constructor <;> linarith

/-! ### No sudden changes -/

/-- the fraction in terms of how far the saber is into the transition -/
theorem mixab_lip (a : Data) (hw : 0 < a.width) (d : Rat) (hd : 0 ≤ d) :
    mixab a ≤ mixab (a.rotate (-d)) ∧ (mixab (a.rotate (-d)) - mixab a) * a.width ≤ d := by
  have hb : (a.rotate (-d)).begin_ = a.begin_ - d := by simp only [Data.begin_, Data.rotate]; ring
  have hwd : (a.rotate (-d)).width = a.width := rfl
  have m1 : ∀ x : Rat, mixab { a with midpoint := x } = if 0 ≤ x - a.width / 2 then 0 else if x - a.width / 2 < -a.width then 1 else -(x - a.width / 2) / a.width := by
    intro x
    have e0 : mixab { a with midpoint := x } = if x - a.width / 2 < 0 then clamp01 (-(x - a.width / 2) / a.width) else 0 := rfl
    rw [e0]
    unfold clamp01
    by_cases h0 : 0 ≤ x - a.width / 2
    · rw [if_neg (show ¬ x - a.width / 2 < 0 from not_lt.mpr h0), if_pos h0]
    · rw [if_pos (show x - a.width / 2 < 0 from not_le.mp h0), if_neg h0, if_neg]
      · by_cases h1 : x - a.width / 2 < -a.width
        · rw [if_pos h1, if_pos]
          rw [lt_div_iff₀ hw]; linarith
        · rw [if_neg h1, if_neg]
          rw [not_lt, div_le_iff₀ hw]; linarith
      · rw [not_lt]
        exact div_nonneg (by linarith [not_le.mp h0]) (le_of_lt hw)
  have e1 := m1 a.midpoint
  have e2 := m1 (a.midpoint + -d)
  have e3 : ({ a with midpoint := a.midpoint } : Data) = a := rfl
  rw [e3] at e1
  have e4 : ({ a with midpoint := a.midpoint + -d } : Data) = a.rotate (-d) := rfl
  rw [e4] at e2
  rw [e1, e2]
  clear e1 e2 e3 e4 m1 hb hwd
  generalize a.midpoint = x
  generalize hw2 : a.width = w at *
  have hdiv : ∀ y : Rat, y / w * w = y := fun y => div_mul_cancel₀ y (ne_of_gt hw)
  by_cases c1 : 0 ≤ x - w / 2
  · rw [if_pos c1]
    by_cases c2 : 0 ≤ x + -d - w / 2
    · rw [if_pos c2]; constructor <;> linarith
    · rw [if_neg c2]
      by_cases c3 : x + -d - w / 2 < -w
      · rw [if_pos c3]; constructor <;> linarith
      · rw [if_neg c3]
        have := hdiv (-(x + -d - w / 2))
        constructor
        · exact div_nonneg (by linarith [not_le.mp c2]) (le_of_lt hw)
        · rw [sub_zero, this]; linarith
  · rw [if_neg c1, if_neg (show ¬ 0 ≤ x + -d - w / 2 from fun h => c1 (by linarith))]
    by_cases c4 : x - w / 2 < -w
    · rw [if_pos c4, if_pos (by linarith)]; constructor <;> linarith
    · rw [if_neg c4]
      by_cases c3 : x + -d - w / 2 < -w
      · rw [if_pos c3]
        have := hdiv (-(x - w / 2))
        constructor
        · rw [div_le_iff₀ hw]; linarith [not_lt.mp c4]
        · rw [sub_mul, this]; linarith [not_lt.mp c4]
      · rw [if_neg c3]
        constructor
        · rw [div_le_div_iff_of_pos_right hw]; linarith
        · rw [sub_mul, hdiv, hdiv]; linarith

/-- the change of the share of each sound, with `w` the lesser width -/
theorem settle_cont {n : Nat} : ∀ {s r : Data × Data} {d : Rat} {w : Rat}, Apart s → Settled s → 0 ≤ d → 0 < w → w ≤ s.1.width → w ≤ s.2.width →
    settle n (s.1.rotate (-d), s.2) = some r → ∀ p, |share r p - share s p| * w ≤ d := by
  induction n with
  | zero => intro s r d w _ _ _ _ _ _ h; simp [settle] at h
  | succ n ih =>
    rintro ⟨a, b⟩ r d w ha hs hd hw hwa hwb h p
    simp only [Settled] at hs hwa hwb
    -- the share in terms of the mix
    have hsh : ∀ (a' b' : Data), a'.player = a.player → b'.player = b.player → |share (a', b') p - share (a, b) p| = |mixab a' - mixab a| := by
      intro a' b' e1 e2
      have hne := ha.players
      simp only at hne
      simp only [share, e1, e2]
      by_cases c1 : a.player = p
      · have c2 : ¬ b.player = p := fun c2 => hne (c1.trans c2.symm)
        rw [if_pos c1, if_pos c1, if_neg c2, if_neg c2]; congr 1; ring
      · have c2 : b.player = p := by
          cases hh1 : a.player <;> cases hh2 : b.player <;> cases p <;> simp_all
        rw [if_neg c1, if_neg c1, if_pos c2, if_pos c2, ← abs_neg]; congr 1; ring
    -- turning without moving on
    have hlip : ∀ e, 0 ≤ e → |share (a.rotate (-e), b) p - share (a, b) p| * w ≤ e := by
      intro e he
      rw [hsh (a.rotate (-e)) b rfl rfl]
      obtain ⟨l1, l2⟩ := mixab_lip a ha.w1 e he
      rw [abs_of_nonneg (by linarith)]
      have := mul_le_mul_of_nonneg_left hwa (show 0 ≤ mixab (a.rotate (-e)) - mixab a by linarith)
      linarith
    simp only [settle] at h
    split at h
    · rename_i he
      -- up to the end of the transition
      have hend : 0 ≤ a.end_ := hs
      have hrest : 0 ≤ d - a.end_ := by simp only [Data.end_, Data.rotate] at he ⊢; linarith
      have h1 := hlip a.end_ hend
      obtain ⟨b', hb'⟩ : ∃ b' : Data, b' = { b with midpoint := (a.rotate (-a.end_)).midpoint + a.separation } := ⟨_, rfl⟩
      have hap : Apart (b', a.rotate (-a.end_)) := by
        obtain ⟨q1, q2, q3, q4, q5⟩ := ha
        refine ⟨by rw [hb']; exact q2, q1, ?_, ?_, by rw [hb']; exact fun e => q5 e.symm⟩
        · rw [hb']; simp only [Data.rotate] at *; linarith
        · rw [hb']; simp only [Data.rotate] at *; linarith
      have hset : Settled (b', a.rotate (-a.end_)) := by
        have := ha.s1
        have := ha.w2
        have := ha.w1
        simp only [Settled, hb', Data.end_, Data.rotate] at *
        linarith
      have hbeg : 0 ≤ b'.begin_ := by
        have := ha.s1
        simp only [hb', Data.begin_, Data.end_, Data.rotate] at *
        linarith
      -- at that point the first sound is all there is, and it still is after moving on
      have hm1 : mixab (a.rotate (-a.end_)) = 1 := by
        have hbg : (a.rotate (-a.end_)).begin_ = -a.width := by simp only [Data.begin_, Data.end_, Data.rotate]; ring
        have hwp := ha.w1
        simp only at hwp
        simp only [mixab, hbg]
        rw [if_pos (by linarith)]
        have : - -a.width / (a.rotate (-a.end_)).width = 1 := by
          rw [neg_neg]; exact div_self (ne_of_gt hwp)
        rw [this]; simp [clamp01]
      have hm2 : mixab b' = 0 := by simp only [mixab]; rw [if_neg (not_lt.mpr hbeg)]
      have hsame : share (b', a.rotate (-a.end_)) p = share (a.rotate (-a.end_), b) p := by
        simp only [share, hm1, hm2]
        have : b'.player = b.player := by rw [hb']
        rw [this]
        have : (a.rotate (-a.end_)).player = a.player := rfl
        rw [this]
        by_cases c1 : a.player = p <;> by_cases c2 : b.player = p <;> simp [c1, c2]
      -- the rest
      have e : settle n (b'.rotate (-(d - a.end_)), a.rotate (-a.end_)) = settle n (b'.rotate (-(d - a.end_)), a.rotate (-a.end_)) := rfl
      have hs2 : Same ({ b with midpoint := (a.rotate (-d)).midpoint + (a.rotate (-d)).separation }, a.rotate (-d))
          (b'.rotate (-(d - a.end_)), a.rotate (-a.end_)) := by
        refine ⟨?_, rfl⟩
        rw [hb']
        simp only [Data.rotate]
        congr 1
        ring
      obtain ⟨q, e1, e2⟩ := settle_same hs2 h
      have h2 := ih hap hset hrest hw (by rw [hb']; exact hwb) hwa e1 p
      have hrq : share r p = share q p := by
        have hp : r.2.player = q.2.player := by have := congrArg Data.player e2.2; simpa using this
        simp only [share, e2.1, hp]
      rw [hrq]
      rw [hsame] at h2
      have htri : |share q p - share (a, b) p| ≤ |share q p - share (a.rotate (-a.end_), b) p| + |share (a.rotate (-a.end_), b) p - share (a, b) p| := by
        have := abs_add_le (share q p - share (a.rotate (-a.end_), b) p) (share (a.rotate (-a.end_), b) p - share (a, b) p)
        have e : share q p - share (a.rotate (-a.end_), b) p + (share (a.rotate (-a.end_), b) p - share (a, b) p) = share q p - share (a, b) p := by ring
        rw [e] at this
        exact this
      have := mul_le_mul_of_nonneg_right htri (le_of_lt hw)
      rw [add_mul] at this
      linarith
    · simp only [Option.some.injEq] at h
      subst h
      exact hlip d hd

/-- **C91**: no clicks: if transitions do not overlap, turning by a small angle changes the share of each sound a little, at most by the angle
divided by the lesser width of the transitions, also across the end of a transition -/
theorem C91_continuous {n : Nat} {s r : Data × Data} {d w : Rat} (ha : Apart s) (hs : Settled s) (hd : 0 ≤ d) (hw : 0 < w) (h1 : w ≤ s.1.width)
    (h2 : w ≤ s.2.width) (h : turn n s d = some r) : Apart r ∧ Settled r ∧ ∀ p, |share r p - share s p| ≤ d / w := by
  refine ⟨settle_apart h ⟨ha.w1, ha.w2, ha.s1, ha.s2, ha.players⟩, settle_settled h, fun p => ?_⟩
  rw [le_div_iff₀ hw]
  exact settle_cont ha hs hd hw h1 h2 h p

/-- **C91**: the volumes: those of the two sounds are not negative and add up to the volume of the swing, at most the configured one; the hum is ducked by at
most the configured percentage; nothing is set while the blade is off unless the swing ends; a swing begins at the threshold and lasts to
90 percent of it -/
theorem C91_volumes (fuel : Nat) (c : Config) (s : St) (speed degrees strength : Rat) (pick : Option (Rat × Bool)) (s' : St) (o : Out)
    (hp : s.ab.1.player ≠ s.ab.2.player) (hst : 0 ≤ strength ∧ strength ≤ 1) (hc : 0 ≤ c.maxVolume ∧ 0 ≤ c.ducking) (ht : 0 ≤ c.threshold)
    (h : motion fuel c s speed degrees strength pick = some (s', o)) :
    (∀ v, o.volume = some v → (∀ p, 0 ≤ v p) ∧ v true + v false ≤ c.maxVolume ∧ (s'.state = .on → v true + v false = strength * c.maxVolume)) ∧
    1 - c.ducking / 100 ≤ o.hum ∧ o.hum ≤ 1 ∧
    (s'.state = .on → s.on = false → o.volume = none) ∧
    (s'.state = .on ↔ (s.state = .off ∧ c.threshold ≤ speed) ∨ (s.state = .on ∧ c.threshold * (9 / 10) ≤ speed)) ∧
    s'.ab.1.player ≠ s'.ab.2.player ∧ s'.on = s.on := by
  have hsettle : ∀ {n : Nat} {x r : Data × Data}, settle n x = some r → x.1.player ≠ x.2.player → r.1.player ≠ r.2.player := by
    intro n
    induction n with
    | zero => intro x r h; simp [settle] at h
    | succ n ih =>
      rintro ⟨a, b⟩ r h hne
      simp only [settle] at h
      split at h
      · exact ih h (fun e => hne e.symm)
      · simp only [Option.some.injEq] at h; subst h; exact hne
  have hpk : (pickSwing c s.ab pick).1.player ≠ (pickSwing c s.ab pick).2.player := by
    cases pick with
    | none => exact hp
    | some x =>
      obtain ⟨off, sw⟩ := x
      cases sw
      · simpa [pickSwing] using hp
      · simpa [pickSwing] using fun e => hp e.symm
  have hdk : 0 ≤ c.ducking / 100 := div_nonneg hc.2 (by linarith)
  -- the part for swinging
  have hon : ∀ (s0 : St), s0.ab = s.ab → s0.on = s.on → ∀ s' o, motionOn fuel c s0 speed degrees strength pick = some (s', o) →
      (∀ v, o.volume = some v → (∀ p, 0 ≤ v p) ∧ v true + v false ≤ c.maxVolume ∧ (s'.state = .on → v true + v false = strength * c.maxVolume)) ∧
      1 - c.ducking / 100 ≤ o.hum ∧ o.hum ≤ 1 ∧ (s'.state = .on → s.on = false → o.volume = none) ∧
      (s'.state = .on ↔ c.threshold * (9 / 10) ≤ speed) ∧ s'.ab.1.player ≠ s'.ab.2.player ∧ s'.on = s.on := by
    intro s0 e1 e2 s' o h
    simp only [motionOn] at h
    by_cases hsp : c.threshold * (9 / 10) ≤ speed
    · rw [if_pos hsp] at h
      cases ht : turn fuel s0.ab degrees with
      | none => rw [ht] at h; simp at h
      | some ab =>
        rw [ht] at h
        simp only [Option.some.injEq, Prod.mk.injEq] at h
        obtain ⟨h1, h2⟩ := h
        subst h1; subst h2
        have hne : ab.1.player ≠ ab.2.player := hsettle ht (by rw [e1]; exact hp)
        obtain ⟨q1, q2⟩ := share_sum ab hne
        refine ⟨fun v hv => ?_, ?_, ?_, fun _ hoff => ?_, by simp [hsp], hne, e2⟩
        · simp only at hv
          split at hv
          · simp only [Option.some.injEq] at hv
            subst hv
            have hsum : strength * c.maxVolume * share ab true + strength * c.maxVolume * share ab false = strength * c.maxVolume := by
              rw [← mul_add, q1, mul_one]
            refine ⟨fun p => mul_nonneg (mul_nonneg hst.1 hc.1) (q2 p).1, ?_, fun _ => hsum⟩
            rw [hsum]
            have := mul_le_mul_of_nonneg_right hst.2 hc.1
            linarith
          · simp at hv
        · have := mul_le_mul_of_nonneg_right hst.2 hdk
          rw [mul_div_assoc]; linarith
        · have := mul_nonneg hst.1 hdk
          rw [mul_div_assoc]; linarith
        · rw [e2, hoff]; rfl
    · rw [if_neg hsp] at h
      simp only [motionOut, Option.some.injEq, Prod.mk.injEq] at h
      obtain ⟨h1, h2⟩ := h
      subst h1; subst h2
      refine ⟨fun v hv => ?_, by linarith, le_refl _, fun h => by simp at h, by simp [hsp], by rw [e1]; exact hpk, e2⟩
      simp only [Option.some.injEq] at hv
      subst hv
      exact ⟨fun _ => le_refl _, by simpa using hc.1, fun h => by simp at h⟩
  unfold motion at h
  cases hs : s.state with
  | off =>
    rw [hs] at h
    simp only at h
    by_cases hsp : speed < c.threshold
    · rw [if_pos hsp] at h
      simp only [Option.some.injEq, Prod.mk.injEq] at h
      obtain ⟨h1, h2⟩ := h
      subst h1; subst h2
      exact ⟨fun v hv => by simp at hv, by linarith, le_refl _, fun _ _ => rfl, by simp [hs, hsp], hp, rfl⟩
    · rw [if_neg hsp] at h
      obtain ⟨a1, a2, a3, a4, a5, a6⟩ := hon _ rfl rfl s' o h
      refine ⟨a1, a2, a3, a4, ?_, a6⟩
      rw [a5]
      have := not_lt.mp hsp
      simp only [true_and, reduceCtorEq, false_and, or_false, this, iff_true]
      linarith
  | on =>
    rw [hs] at h
    obtain ⟨a1, a2, a3, a4, a5, a6⟩ := hon s rfl rfl s' o h
    refine ⟨a1, a2, a3, a4, ?_, a6⟩
    rw [a5]; simp
  | out =>
    rw [hs] at h
    simp only [motionOut, Option.some.injEq, Prod.mk.injEq] at h
    obtain ⟨h1, h2⟩ := h
    subst h1; subst h2
    exact ⟨fun v hv => by simp at hv, by linarith, le_refl _, fun _ _ => rfl, by simp, hpk, rfl⟩

/-- **C91**: the older way of making swing sounds: the three volumes are not negative, at most one of low and high is heard, and
together they are as loud as the speed asks for, between 0.99 and 3.29 -/
theorem C91_looped (c s y z speed : Rat) :
    let r := looped c s y z speed
    0 ≤ r.1 ∧ 0 ≤ r.2.1 ∧ 0 ≤ r.2.2 ∧ (r.1 = 0 ∨ r.2.1 = 0) ∧
    r.1 + r.2.1 + r.2.2 = 99 / 100 + (if speed < 0 then 0 else if 460 < speed then 23 / 10 else speed / 200) ∧
    (150 ≤ c * z + s * y → r.2.2 = 0 ∧ r.2.1 = 0) ∧ (c * z + s * y ≤ -150 → r.2.2 = 0 ∧ r.1 = 0) ∧ (c * z + s * y = 0 → r.1 = 0 ∧ r.2.1 = 0) := by
  simp only [looped]
  generalize hx : c * z + s * y = x
  have hb : -1 ≤ clamp (x / 150) (-1) 1 ∧ clamp (x / 150) (-1) 1 ≤ 1 ∧ (150 ≤ x → clamp (x / 150) (-1) 1 = 1) ∧
      (x ≤ -150 → clamp (x / 150) (-1) 1 = -1) ∧ (x = 0 → clamp (x / 150) (-1) 1 = 0) := by
    unfold clamp
    by_cases h1 : x / 150 < -1
    · rw [if_pos h1]
      refine ⟨by linarith, by linarith, fun h => ?_, fun _ => rfl, fun h => ?_⟩ <;> exfalso <;> linarith
    · rw [if_neg h1]
      have h1' := not_lt.mp h1
      by_cases h2 : 1 < x / 150
      · rw [if_pos h2]
        refine ⟨by linarith, by linarith, fun h => rfl, fun h => ?_, fun h => ?_⟩ <;> exfalso <;> linarith
      · rw [if_neg h2]
        have h2' := not_lt.mp h2
        exact ⟨h1', h2', fun h => by linarith, fun h => by linarith, fun h => by rw [h]; simp⟩
  have hv : clamp (speed / 200) 0 (23 / 10) = if speed < 0 then 0 else if 460 < speed then 23 / 10 else speed / 200 := by
    unfold clamp
    by_cases h1 : speed < 0
    · rw [if_pos h1, if_pos (by linarith)]
    · rw [if_neg h1, if_neg (by have := not_lt.mp h1; rw [not_lt]; linarith)]
      by_cases h2 : 460 < speed
      · rw [if_pos h2, if_pos (by linarith)]
      · rw [if_neg h2, if_neg (by have := not_lt.mp h2; rw [not_lt]; linarith)]
  have hv0 : 0 ≤ clamp (speed / 200) 0 (23 / 10) := by
    rw [hv]
    by_cases h1 : speed < 0
    · rw [if_pos h1]
    · rw [if_neg h1]
      by_cases h2 : 460 < speed
      · rw [if_pos h2]; linarith
      · rw [if_neg h2]; have := not_lt.mp h1; linarith
  rw [← hv]
  generalize clamp (speed / 200) 0 (23 / 10) = v at hv0
  generalize clamp (x / 150) (-1) 1 = b at hb
  obtain ⟨b1, b2, b3, b4, b5⟩ := hb
  have hvol : 0 ≤ 99 / 100 + v := by linarith
  generalize 99 / 100 + v = w at hvol
  rcases le_total 0 b with h | h
  · rw [max_eq_right h, max_eq_left (by linarith), abs_of_nonneg h]
    refine ⟨mul_nonneg hvol h, by simp, mul_nonneg hvol (by linarith), Or.inr (by simp), by ring, fun g => ?_, fun g => ?_, fun g => ?_⟩
    · rw [b3 g]; constructor <;> ring
    · have := b4 g; exfalso; linarith
    · rw [b5 g]; constructor <;> ring
  · rw [max_eq_left h, max_eq_right (by linarith), abs_of_nonpos h]
    refine ⟨by simp, mul_nonneg hvol (by linarith), mul_nonneg hvol (by linarith), Or.inl (by simp), by ring, fun g => ?_, fun g => ?_, fun g => ?_⟩
    · have := b3 g; exfalso; linarith
    · rw [b4 g]; constructor <;> ring
    · rw [b5 g]; constructor <;> ring

/-- with separations of 0 in the configuration file the loop never ends -/
theorem C91_hang_counterexample (a b : Data) (ha : a.separation = 0) (hb : b.separation = 0) (he : a.end_ < 0) (hw : b.width = a.width) :
    ∀ fuel, settle fuel (a, b) = none := by
  intro fuel
  induction fuel generalizing a b with
  | zero => rfl
  | succ n ih =>
    rw [settle, if_pos he]
    exact ih _ _ hb ha (by simp only [Data.end_] at *; rw [ha, hw]; linarith) hw.symm

/-- sounds are cut: when a swing ends the volume is only asked to go to zero, but new sounds are picked in the same call, without waiting -/
theorem C91_cut_counterexample (fuel : Nat) (c : Config) (s : St) (speed degrees strength : Rat) (x : Rat × Bool) (hs : s.state = .on)
    (h : ¬ c.threshold * (9 / 10) ≤ speed) :
    ∃ s' o v, motion fuel c s speed degrees strength (some x) = some (s', o) ∧ o.volume = some v ∧ (∀ p, v p = 0) ∧ o.picked = true := by
  simp only [motion, hs, motionOn, if_neg h, motionOut]
  exact ⟨_, _, _, rfl, rfl, fun _ => rfl, rfl⟩

/-- transitions that overlap jump: both sounds change by a quarter without any turning between -/
theorem C91_overlap_counterexample : ∃ (a b : Data) (n : Nat) (r : Data × Data), a.player ≠ b.player ∧ Settled (a, b) ∧ turn n (a, b) (1 / 1000000) = some r ∧
    1 / 5 ≤ |share r true - share (a, b) true| :=
  ⟨⟨-50, 100, 75, true⟩, ⟨0, 100, 75, false⟩, 2, (⟨-50 - 1 / 1000000 + 75, 100, 75, false⟩, ⟨-50 - 1 / 1000000, 100, 75, true⟩),
    by decide, by simp [Settled, Data.end_]; decide +kernel, by decide +kernel, by decide +kernel⟩

/-- the default configuration -/
example : Apart (⟨30, 45, 180, true⟩, ⟨210, 160, 180, false⟩) ∧ Settled (⟨30, 45, 180, true⟩, ⟨210, 160, 180, false⟩) ∧
    turn 5 (⟨30, 45, 180, true⟩, ⟨210, 160, 180, false⟩) 300 = some (⟨90, 45, 180, true⟩, ⟨-90, 160, 180, false⟩) := by
  refine ⟨⟨?_, ?_, ?_, ?_, ?_⟩, ?_, ?_⟩
  · simp
  · simp
  · simp only; decide +kernel
  · simp only; decide +kernel
  · simp
  · simp only [Settled, Data.end_]; decide +kernel
  · decide +kernel

end Verif.Swing
