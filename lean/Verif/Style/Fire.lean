/-!
# Fire (C109)

Model of the heat array of `StyleFireBase::run` (styles/fire.h:57-92) with its loops as they are
written, of `On` (styles/fire.h:40-54) and of the colours (styles/fire.h:118-133).  Random numbers
are inputs.  (Verif/Style/Model.lean has the same style as a value inside other styles.)
-/
namespace Verif.Style.Fire

/-- `heat_`. -/
abbrev Arr := Nat → Nat

/-- Write one element. -/
def upd (h : Arr) (i v : Nat) : Arr := fun j => if j = i then v else h j

/-- Read one element of an array of `size`; `none` is out of bounds. -/
def rd (size : Nat) (h : Arr) (i : Int) : Option Nat := if 0 ≤ i ∧ i < size then some (h i.toNat) else none

/-- The size of the array, styles/fire.h:62: `speed` is the template argument `SPEED`. -/
def sizeOf_ (n speed : Nat) : Nat := n + speed + 3

/-- The fuel loop, styles/fire.h:78-81: `fuel i` is `intensity_base + random(..)`; the array has 16 bits. -/
def fill (n : Nat) (fuel : Nat → Nat) : Nat → Arr → Arr
  | 0, h => h
  | k+1, h => upd (fill n fuel k h) (n + k) (fuel k % 65536)

/-- The body of the second loop, styles/fire.h:84-87: `cool i` is `random(config.cooling)`. -/
def cell (size speed : Nat) (cool : Nat → Nat) (h : Arr) (i : Nat) : Option Nat :=
  match rd size h ((i : Int) + speed - 1), rd size h ((i : Int) + speed), rd size h ((i : Int) + speed + 1) with
  | some a, some b, some c => some (min ((a * 3 + b * 10 + c * 3) / 16 - cool i) 65535)
  | _, _, _ => none

/-- The second loop, styles/fire.h:83-89, from `i` on with `k` to go. -/
def sweep (size speed : Nat) (cool : Nat → Nat) : Nat → Nat → Arr → Option Arr
  | 0, _, h => some h
  | k+1, i, h =>
    match cell size speed cool h i with
    | some v => sweep size speed cool k (i + 1) (upd h i v)
    | none => none

/-- One update, styles/fire.h:77-89. -/
def update (n speed : Nat) (fuel cool : Nat → Nat) (h : Arr) : Option Arr :=
  sweep (sizeOf_ n speed) speed cool n 0 (fill n fuel speed h)

/-! ## The loops -/

theorem fill_eq (n : Nat) (fuel : Nat → Nat) (k : Nat) (h : Arr) (j : Nat) :
    fill n fuel k h j = if n ≤ j ∧ j < n + k then fuel (j - n) % 65536 else h j := by
  induction k with
  | zero => simp only [fill]; rw [if_neg (by omega)]
  | succ k ih =>
    simp only [fill, upd]
    by_cases hj : j = n + k
    · subst hj
      rw [if_pos rfl, if_pos (by omega)]
      congr 2; omega
    · rw [if_neg hj, ih]
      by_cases hc : n ≤ j ∧ j < n + k
      · rw [if_pos hc, if_pos (by omega)]
      · rw [if_neg hc, if_neg (by omega)]

/-- The new heat of LED `i` from the old heats, for `speed ≥ 1`. -/
def warm (speed : Nat) (cool : Nat → Nat) (h : Arr) (i : Nat) : Nat :=
  min ((h (i + speed - 1) * 3 + h (i + speed) * 10 + h (i + speed + 1) * 3) / 16 - cool i) 65535

theorem rd_some (size : Nat) (h : Arr) (i : Int) (j : Nat) (e : i = j) (hj : j < size) : rd size h i = some (h j) := by
  unfold rd
  rw [if_pos (by omega), e]
  rfl

theorem sweep_eq (size speed : Nat) (cool : Nat → Nat) (hs : 1 ≤ speed) (k : Nat) :
    ∀ (i : Nat) (h : Arr), i + k + speed < size →
      ∃ h', sweep size speed cool k i h = some h' ∧
        ∀ j, h' j = if i ≤ j ∧ j < i + k then warm speed cool h j else h j := by
  induction k with
  | zero => intro i h _; exact ⟨h, rfl, fun j => by rw [if_neg (by omega)]⟩
  | succ k ih =>
    intro i h hb
    have hc : cell size speed cool h i = some (warm speed cool h i) := by
      unfold cell
      rw [rd_some size h _ (i + speed - 1) (by omega) (by omega), rd_some size h _ (i + speed) (by omega) (by omega),
        rd_some size h _ (i + speed + 1) (by omega) (by omega)]
      rfl
    obtain ⟨h', e, he⟩ := ih (i + 1) (upd h i (warm speed cool h i)) (by omega)
    refine ⟨h', by unfold sweep; rw [hc]; exact e, fun j => ?_⟩
    rw [he j]
    by_cases h1 : i + 1 ≤ j ∧ j < i + 1 + k
    · rw [if_pos h1, if_pos (by omega)]
      unfold warm upd
      rw [if_neg (show ¬ j + speed - 1 = i by omega), if_neg (show ¬ j + speed = i by omega),
        if_neg (show ¬ j + speed + 1 = i by omega)]
    · rw [if_neg h1]
      by_cases h2 : j = i
      · subst h2
        rw [if_pos (by omega)]
        simp [upd]
      · rw [if_neg (by omega)]
        simp [upd, h2]

/-- The heats after an update. -/
theorem update_eq (n speed : Nat) (fuel cool : Nat → Nat) (h : Arr) (hs : 1 ≤ speed) :
    ∃ h', update n speed fuel cool h = some h' ∧
      ∀ j, h' j = if j < n then warm speed cool (fill n fuel speed h) j else fill n fuel speed h j := by
  obtain ⟨h', e, he⟩ := sweep_eq (sizeOf_ n speed) speed cool hs n 0 (fill n fuel speed h) (by unfold sizeOf_; omega)
  refine ⟨h', e, fun j => ?_⟩
  rw [he j]
  simp

/-! ## The claims -/

/-- An update stays inside the array, and computes the new heats from the old ones only, though it
overwrites them on the way. -/
theorem C109_safe (n speed : Nat) (fuel cool : Nat → Nat) (h : Arr) (hs : 1 ≤ speed) :
    let old : Arr := fun i => if n ≤ i ∧ i < n + speed then fuel (i - n) % 65536 else h i
    ∃ h', update n speed fuel cool h = some h' ∧ ∀ j, j < n →
      h' j = min ((3 * old (j + speed - 1) + 10 * old (j + speed) + 3 * old (j + speed + 1)) / 16 - cool j) 65535 := by
  intro old
  obtain ⟨h', e, he⟩ := update_eq n speed fuel cool h hs
  refine ⟨h', e, fun j hj => ?_⟩
  rw [he j, if_pos hj]
  have : fill n fuel speed h = old := by
    funext i; exact fill_eq n fuel speed h i
  rw [this]
  unfold warm
  rw [Nat.mul_comm (old _) 3, Nat.mul_comm (old _) 10, Nat.mul_comm (old _) 3]

/-- With `SPEED` 0 it reads before the array. -/
theorem C109_speed_counterexample (n : Nat) (fuel cool : Nat → Nat) (h : Arr) : update (n + 1) 0 fuel cool h = none := by
  unfold update sweep
  have : cell (sizeOf_ (n + 1) 0) 0 cool (fill (n + 1) fuel 0 h) 0 = none := by
    unfold cell rd
    simp
  rw [this]

/-- A history of updates. -/
def burn (n speed : Nat) : List ((Nat → Nat) × (Nat → Nat)) → Arr → Option Arr
  | [], h => some h
  | (fuel, cool) :: us, h => (update n speed fuel cool h).bind (burn n speed us)

theorem burn_cons (n speed : Nat) (u : (Nat → Nat) × (Nat → Nat)) (us) (h h1 : Arr) (e : update n speed u.1 u.2 h = some h1) :
    burn n speed (u :: us) h = burn n speed us h1 := by
  simp only [burn]
  rw [e]; rfl

theorem warm_le (speed : Nat) (cool : Nat → Nat) (h : Arr) (B : Nat) (hb : ∀ j, h j ≤ B) (i : Nat) : warm speed cool h i ≤ B := by
  have h1 := hb (i + speed - 1)
  have h2 := hb (i + speed)
  have h3 := hb (i + speed + 1)
  unfold warm
  omega

/-- The fire is never hotter than its fuel: if no fuel is above `B`, no LED ever is, over any number
of updates. -/
theorem C109_bounded (n speed B : Nat) (hs : 1 ≤ speed) (us : List ((Nat → Nat) × (Nat → Nat))) (h : Arr)
    (hb : ∀ j, h j ≤ B) (hf : ∀ u ∈ us, ∀ i, u.1 i ≤ B) : ∃ h', burn n speed us h = some h' ∧ ∀ j, h' j ≤ B := by
  induction us generalizing h with
  | nil => exact ⟨h, rfl, hb⟩
  | cons u us ih =>
    obtain ⟨h1, e, he⟩ := update_eq n speed u.1 u.2 h hs
    have hfill : ∀ j, fill n u.1 speed h j ≤ B := by
      intro j
      rw [fill_eq]
      split
      · exact Nat.le_trans (Nat.mod_le _ _) (hf u (by simp) _)
      · exact hb j
    have h1b : ∀ j, h1 j ≤ B := by
      intro j
      rw [he j]
      split
      · exact warm_le speed u.2 _ B hfill j
      · exact hfill j
    obtain ⟨h', e', he'⟩ := ih h1 h1b (fun v hv => hf v (by simp [hv]))
    exact ⟨h', by rw [burn_cons n speed u us h h1 e]; exact e', he'⟩

/-- The array behind the fuel is never written. -/
theorem behind (n speed : Nat) (hs : 1 ≤ speed) (us : List ((Nat → Nat) × (Nat → Nat))) (h : Arr)
    (hz : ∀ j, n + speed ≤ j → h j = 0) (h' : Arr) (e : burn n speed us h = some h') : ∀ j, n + speed ≤ j → h' j = 0 := by
  induction us generalizing h with
  | nil => cases e; exact hz
  | cons u us ih =>
    obtain ⟨h1, e1, he1⟩ := update_eq n speed u.1 u.2 h hs
    rw [burn_cons n speed u us h h1 e1] at e
    apply ih h1 _ e
    intro j hj
    rw [he1 j, if_neg (by omega), fill_eq, if_neg (by omega)]
    exact hz j hj

/-- Without fuel one update moves the dark part by `speed - 1` LEDs. -/
theorem dark_step (n speed k : Nat) (hs : 1 ≤ speed) (fuel cool : Nat → Nat) (hf : ∀ i, fuel i = 0) (h : Arr)
    (hz : ∀ j, n + speed ≤ j → h j = 0) (hd : ∀ j, n ≤ j + k → j < n → h j = 0) :
    ∃ h', update n speed fuel cool h = some h' ∧ (∀ j, n + speed ≤ j → h' j = 0) ∧
      ∀ j, n ≤ j + (k + (speed - 1)) → j < n → h' j = 0 := by
  obtain ⟨h', e, he⟩ := update_eq n speed fuel cool h hs
  have hfill : ∀ j, n ≤ j + k → fill n fuel speed h j = 0 := by
    intro j hj
    rw [fill_eq]
    split
    · rw [hf]
    · by_cases hjn : j < n
      · exact hd j hj hjn
      · exact hz j (by omega)
  refine ⟨h', e, ?_, ?_⟩
  · intro j hj
    rw [he j, if_neg (by omega), fill_eq, if_neg (by omega)]
    exact hz j hj
  · intro j hj hjn
    rw [he j, if_pos hjn]
    unfold warm
    rw [hfill _ (by omega), hfill _ (by omega), hfill _ (by omega)]
    omega

/-- Without fuel the fire goes out: `n / (speed - 1)` updates suffice, whatever the cooling. -/
theorem C109_dies (n speed : Nat) (hs : 2 ≤ speed) (us : List ((Nat → Nat) × (Nat → Nat))) (h : Arr)
    (hz : ∀ j, n + speed ≤ j → h j = 0) (hf : ∀ u ∈ us, ∀ i, u.1 i = 0) (hlen : n ≤ us.length * (speed - 1)) :
    ∃ h', burn n speed us h = some h' ∧ ∀ j, j < n → h' j = 0 := by
  have key : ∀ (us : List ((Nat → Nat) × (Nat → Nat))) (k : Nat) (h : Arr), (∀ j, n + speed ≤ j → h j = 0) →
      (∀ j, n ≤ j + k → j < n → h j = 0) → (∀ u ∈ us, ∀ i, u.1 i = 0) →
      ∃ h', burn n speed us h = some h' ∧ ∀ j, n ≤ j + (k + us.length * (speed - 1)) → j < n → h' j = 0 := by
    intro us
    induction us with
    | nil => intro k h _ hd _; exact ⟨h, rfl, by simpa using hd⟩
    | cons u us ih =>
      intro k h hz hd hf
      obtain ⟨h1, e1, z1, d1⟩ := dark_step n speed k (by omega) u.1 u.2 (hf u (by simp)) h hz hd
      obtain ⟨h', e', d'⟩ := ih (k + (speed - 1)) h1 z1 d1 (fun v hv => hf v (by simp [hv]))
      refine ⟨h', by rw [burn_cons n speed u us h h1 e1]; exact e', ?_⟩
      intro j hj hjn
      apply d' j _ hjn
      simp only [List.length_cons, Nat.succ_mul] at hj
      omega
  obtain ⟨h', e, d⟩ := key us 0 h hz (by intro j h1 h2; omega) hf
  exact ⟨h', e, fun j hj => d j (by omega) hj⟩

/-- The same for `speed` 1, where the heat of an LED goes out by itself in seven updates after those
below it. -/
theorem C109_dies_slow (n : Nat) (us : List ((Nat → Nat) × (Nat → Nat))) (h : Arr) (h16 : ∀ j, h j ≤ 65535)
    (hz : ∀ j, n + 1 ≤ j → h j = 0) (hf : ∀ u ∈ us, ∀ i, u.1 i = 0) (hlen : n * 7 ≤ us.length) :
    ∃ h', burn n 1 us h = some h' ∧ ∀ j, j < n → h' j = 0 := by
  -- dark from n - k on, and LED n - k - 1 has less than the given heat
  have one : ∀ (k b : Nat) (u : (Nat → Nat) × (Nat → Nat)) (h : Arr), (∀ i, u.1 i = 0) → (∀ j, h j ≤ 65535) → (∀ j, n + 1 ≤ j → h j = 0) →
      (∀ j, n ≤ j + k → j < n → h j = 0) → (∀ j, n = j + k + 1 → h j ≤ b) →
      ∃ h', update n 1 u.1 u.2 h = some h' ∧ (∀ j, h' j ≤ 65535) ∧ (∀ j, n + 1 ≤ j → h' j = 0) ∧
        (∀ j, n ≤ j + k → j < n → h' j = 0) ∧ (∀ j, n = j + k + 1 → h' j ≤ b * 3 / 16) := by
    intro k b u h hf h16 hz hd hb
    obtain ⟨h', e, z, d⟩ := dark_step n 1 k (by omega) u.1 u.2 hf h hz hd
    obtain ⟨h'', e2, he⟩ := update_eq n 1 u.1 u.2 h (by omega)
    rw [e] at e2
    cases e2
    have hfill : ∀ j, fill n u.1 1 h j ≤ 65535 ∧ (n ≤ j + k → fill n u.1 1 h j = 0) ∧ (n = j + k + 1 → fill n u.1 1 h j ≤ b) := by
      intro j
      rw [fill_eq]
      by_cases hc : n ≤ j ∧ j < n + 1
      · rw [if_pos hc, hf]
        exact ⟨by omega, fun _ => rfl, fun _ => by omega⟩
      · rw [if_neg hc]
        refine ⟨h16 j, fun h1 => ?_, hb j⟩
        by_cases hjn : j < n
        · exact hd j h1 hjn
        · exact hz j (by omega)
    refine ⟨h', e, ?_, z, by simpa using d, ?_⟩
    · intro j
      rw [he j]
      split
      · exact warm_le 1 u.2 _ 65535 (fun i => (hfill i).1) j
      · exact (hfill j).1
    · intro j hj
      rw [he j, if_pos (by omega)]
      have a1 := (hfill (j + 1)).2.1 (by omega)
      have a2 := (hfill (j + 1 + 1)).2.1 (by omega)
      have a3 := (hfill j).2.2 hj
      unfold warm
      rw [show j + 1 - 1 = j by omega, a1, a2]
      omega
  have key : ∀ (m k : Nat), m + k = n → ∀ (us : List ((Nat → Nat) × (Nat → Nat))) (h : Arr), (∀ u ∈ us, ∀ i, u.1 i = 0) →
      (∀ j, h j ≤ 65535) → (∀ j, n + 1 ≤ j → h j = 0) → (∀ j, n ≤ j + k → j < n → h j = 0) → m * 7 ≤ us.length →
      ∃ h', burn n 1 us h = some h' ∧ ∀ j, j < n → h' j = 0 := by
    intro m
    induction m with
    | zero =>
      intro k hk us
      induction us with
      | nil => intro h _ _ _ hd _; exact ⟨h, rfl, fun j hj => hd j (by omega) hj⟩
      | cons u us ih =>
        intro h hf h16 hz hd _
        obtain ⟨h1, e1, a1, a2, a3, _⟩ := one k 0 u h (hf u (by simp)) h16 hz hd (fun j hj => by omega)
        obtain ⟨h', e', d'⟩ := ih h1 (fun v hv => hf v (by simp [hv])) a1 a2 a3 (by omega)
        exact ⟨h', by rw [burn_cons n 1 u us h h1 e1]; exact e', d'⟩
    | succ m ihm =>
      intro k hk us h hf h16 hz hd hl
      -- seven updates
      have pop : ∀ (l : List ((Nat → Nat) × (Nat → Nat))), 1 ≤ l.length → ∃ u v, l = u :: v := by
        intro l hl
        cases l with
        | nil => simp at hl
        | cons a b => exact ⟨a, b, rfl⟩
      obtain ⟨u1, us, rfl⟩ := pop us (by omega)
      obtain ⟨u2, us, rfl⟩ := pop us (by simp only [List.length_cons] at hl; omega)
      obtain ⟨u3, us, rfl⟩ := pop us (by simp only [List.length_cons] at hl; omega)
      obtain ⟨u4, us, rfl⟩ := pop us (by simp only [List.length_cons] at hl; omega)
      obtain ⟨u5, us, rfl⟩ := pop us (by simp only [List.length_cons] at hl; omega)
      obtain ⟨u6, us, rfl⟩ := pop us (by simp only [List.length_cons] at hl; omega)
      obtain ⟨u7, us, rfl⟩ := pop us (by simp only [List.length_cons] at hl; omega)
      · skip
        obtain ⟨g1, e1, a1, b1, c1, d1⟩ := one k 65535 u1 h (hf u1 (by simp)) h16 hz hd (fun j _ => h16 j)
        obtain ⟨g2, e2, a2, b2, c2, d2⟩ := one k _ u2 g1 (hf u2 (by simp)) a1 b1 c1 d1
        obtain ⟨g3, e3, a3, b3, c3, d3⟩ := one k _ u3 g2 (hf u3 (by simp)) a2 b2 c2 d2
        obtain ⟨g4, e4, a4, b4, c4, d4⟩ := one k _ u4 g3 (hf u4 (by simp)) a3 b3 c3 d3
        obtain ⟨g5, e5, a5, b5, c5, d5⟩ := one k _ u5 g4 (hf u5 (by simp)) a4 b4 c4 d4
        obtain ⟨g6, e6, a6, b6, c6, d6⟩ := one k _ u6 g5 (hf u6 (by simp)) a5 b5 c5 d5
        obtain ⟨g7, e7, a7, b7, c7, d7⟩ := one k _ u7 g6 (hf u7 (by simp)) a6 b6 c6 d6
        obtain ⟨h', e', d'⟩ := ihm (k + 1) (by omega) us g7 (fun v hv => hf v (by simp [hv])) a7 b7
          (by
            intro j h1 h2
            by_cases hjk : n ≤ j + k
            · exact c7 j hjk h2
            · have := d7 j (by omega)
              simp only [show (65535 * 3 / 16 * 3 / 16 * 3 / 16 * 3 / 16 * 3 / 16 * 3 / 16 * 3 / 16) = 0 by decide] at this
              omega)
          (by simp only [List.length_cons] at hl; omega)
        refine ⟨h', ?_, d'⟩
        rw [burn_cons n 1 u1 _ h g1 e1, burn_cons n 1 u2 _ g1 g2 e2, burn_cons n 1 u3 _ g2 g3 e3, burn_cons n 1 u4 _ g3 g4 e4,
          burn_cons n 1 u5 _ g4 g5 e5, burn_cons n 1 u6 _ g5 g6 e6, burn_cons n 1 u7 _ g6 g7 e7]
        exact e'
  exact key n 0 (by omega) us h hf h16 hz (fun j h1 h2 => by omega) hlen

/-- The colour of a channel, styles/fire.h:118-133. -/
def colour (c1 c2 h : Nat) : Nat :=
  if h < 256 then (0 * (256 - h) + c1 * h) / 256
  else if h < 512 then (c1 * (256 - (h - 256)) + c2 * (h - 256)) / 256
  else if h < 768 then (c2 * (256 - (h - 512)) + 65535 * (h - 512)) / 256
  else 65535

/-- A clash (fuel 3000 without cooling) makes the LED at the hilt white at once, whatever burnt
before. -/
theorem C109_clash (n speed c1 c2 : Nat) (hn : 1 ≤ n) (hs : 1 ≤ speed) (fuel cool : Nat → Nat) (hf : ∀ i, fuel i = 3000)
    (hc : ∀ i, cool i = 0) (h : Arr) :
    ∃ h', update n speed fuel cool h = some h' ∧ colour c1 c2 (h' (n - 1)) = 65535 := by
  obtain ⟨h', e, he⟩ := update_eq n speed fuel cool h hs
  refine ⟨h', e, ?_⟩
  have h1 : fill n fuel speed h (n - 1 + speed) = 3000 := by
    rw [fill_eq, if_pos (by omega), hf]
  have : 768 ≤ h' (n - 1) := by
    rw [he, if_pos (by omega)]
    unfold warm
    rw [h1, hc]
    omega
  unfold colour
  rw [if_neg (by omega), if_neg (by omega), if_neg (by omega)]

/-- Without heat the LED is black, at 256 it has the first colour, at 512 the second one, from 768 on
it is white; between these the channel lies between the neighbouring colours. -/
theorem C109_colours (c1 c2 h : Nat) (h1 : c1 ≤ 65535) (h2 : c2 ≤ 65535) :
    colour c1 c2 0 = 0 ∧ colour c1 c2 256 = c1 ∧ colour c1 c2 512 = c2 ∧ (768 ≤ h → colour c1 c2 h = 65535) ∧
    (h ≤ 256 → colour c1 c2 h ≤ c1) ∧
    (256 ≤ h → h ≤ 512 → min c1 c2 ≤ colour c1 c2 h ∧ colour c1 c2 h ≤ max c1 c2) ∧
    (512 ≤ h → c2 ≤ colour c1 c2 h ∧ colour c1 c2 h ≤ 65535) := by
  have between : ∀ a b x : Nat, x ≤ 256 → min a b ≤ (a * (256 - x) + b * x) / 256 ∧ (a * (256 - x) + b * x) / 256 ≤ max a b := by
    intro a b x hx
    have e : ∀ m : Nat, m * (256 - x) + m * x = m * 256 := by
      intro m; rw [← Nat.mul_add]; congr 1; omega
    constructor
    · have p1 : min a b * (256 - x) ≤ a * (256 - x) := Nat.mul_le_mul_right _ (by omega)
      have p2 : min a b * x ≤ b * x := Nat.mul_le_mul_right _ (by omega)
      have := e (min a b)
      omega
    · have p1 : a * (256 - x) ≤ max a b * (256 - x) := Nat.mul_le_mul_right _ (by omega)
      have p2 : b * x ≤ max a b * x := Nat.mul_le_mul_right _ (by omega)
      have := e (max a b)
      omega
  unfold colour
  refine ⟨by simp, by simp, by simp, ?_, ?_, ?_, ?_⟩
  · intro hh; rw [if_neg (by omega), if_neg (by omega), if_neg (by omega)]
  · intro hh
    by_cases h3 : h < 256
    · rw [if_pos h3]; have := (between 0 c1 h (by omega)).2; omega
    · have : h = 256 := by omega
      subst this; simp
  · intro h3 h4
    rw [if_neg (by omega)]
    by_cases h5 : h < 512
    · rw [if_pos h5]; exact between c1 c2 (h - 256) (by omega)
    · have : h = 512 := by omega
      subst this
      simp
      omega
  · intro h3
    rw [if_neg (by omega), if_neg (by omega)]
    by_cases h5 : h < 768
    · rw [if_pos h5]; have := between c2 65535 (h - 512) (by omega); omega
    · rw [if_neg h5]; omega

/-! ## Delay -/

/-- `state_ != STATE_OFF`, `state_ == STATE_ON`, `on_time_`. -/
structure Ign where
  started : Bool
  burning : Bool
  onTime : Nat
deriving DecidableEq, Repr

/-- `On`, styles/fire.h:40-54, at time `ms` (32 bits). -/
def on (delay : Nat) (s : Ign) (isOn : Bool) (ms : Nat) : Bool × Ign :=
  if isOn = false then (false, { s with started := false, burning := false })
  else if s.burning then (true, s)
  else
    let t := if s.started then s.onTime else ms
    if (ms + 4294967296 - t) % 4294967296 < delay then (false, ⟨true, false, t⟩) else (true, ⟨true, true, t⟩)

/-- Answers over frames at real times. -/
def answers (delay : Nat) : Ign → List (Bool × Nat) → List Bool
  | _, [] => []
  | s, (b, t) :: fs => (on delay s b (t % 4294967296)).1 :: answers delay (on delay s b (t % 4294967296)).2 fs

/-- Times do not decrease, and frames are not more than `g` apart. -/
def Times (g : Nat) : Nat → List (Bool × Nat) → Prop
  | _, [] => True
  | p, (_, t) :: fs => p ≤ t ∧ t ≤ p + g ∧ Times g t fs

/-- What is expected: burning from the first frame on which is `delay` after the first frame of this
ignition. -/
def expected (delay : Nat) : Option Nat → List (Bool × Nat) → List Bool
  | _, [] => []
  | _, (false, _) :: fs => false :: expected delay none fs
  | none, (true, t) :: fs => decide (delay ≤ 0) :: expected delay (some t) fs
  | some t0, (true, t) :: fs => decide (t0 + delay ≤ t) :: expected delay (some t0) fs

/-- The fire starts exactly after its delay, at each ignition, for frames at most an hour apart and
delays of up to an hour. -/
theorem C109_delay (delay : Nat) (hd : delay ≤ 3600000) (p : Nat) (fs : List (Bool × Nat)) (ht : Times 3600000 p fs) :
    answers delay ⟨false, false, 0⟩ fs = expected delay none fs := by
  have key : ∀ (fs : List (Bool × Nat)) (p : Nat) (s : Ign) (o : Option Nat), Times 3600000 p fs →
      (match o with
        | none => s.started = false ∧ s.burning = false
        | some t0 => s.started = true ∧ t0 ≤ p ∧ (s.burning = true → t0 + delay ≤ p) ∧
            (s.burning = false → s.onTime = t0 % 4294967296 ∧ p < t0 + delay)) →
      answers delay s fs = expected delay o fs := by
    intro fs
    induction fs with
    | nil => intro p s o _ _; cases o <;> rfl
    | cons f fs ih =>
      intro p s o ht ho
      obtain ⟨b, t⟩ := f
      obtain ⟨t1, t2, t3⟩ := ht
      cases b with
      | false =>
        have e : on delay s false (t % 4294967296) = (false, { s with started := false, burning := false }) := by
          unfold on; rw [if_pos rfl]
        cases o <;> simp only [answers, expected, e] <;> exact congrArg _ (ih t _ none t3 ⟨rfl, rfl⟩)
      | true =>
        cases o with
        | none =>
          obtain ⟨s1, s2⟩ := ho
          have hz : (t % 4294967296 + 4294967296 - t % 4294967296) % 4294967296 = 0 := by omega
          by_cases h0 : delay = 0
          · have e : on delay s true (t % 4294967296) = (true, ⟨true, true, t % 4294967296⟩) := by
              unfold on
              simp only [s1, s2, Bool.true_eq_false, Bool.false_eq_true, if_false, hz]
              rw [if_neg (by omega)]
            simp only [answers, expected, e]
            rw [show decide (delay ≤ 0) = true by simp [h0]]
            exact congrArg _ (ih t _ (some t) t3 ⟨rfl, Nat.le_refl _, fun _ => by omega, fun h => nomatch h⟩)
          · have e : on delay s true (t % 4294967296) = (false, ⟨true, false, t % 4294967296⟩) := by
              unfold on
              simp only [s1, s2, Bool.true_eq_false, Bool.false_eq_true, if_false, hz]
              rw [if_pos (by omega)]
            simp only [answers, expected, e]
            rw [show decide (delay ≤ 0) = false by simp [h0]]
            exact congrArg _ (ih t _ (some t) t3 ⟨rfl, Nat.le_refl _, (fun h => nomatch h), fun _ => ⟨rfl, by omega⟩⟩)
        | some t0 =>
          obtain ⟨s1, s2, s3, s4⟩ := ho
          cases hb : s.burning with
          | true =>
            have e : on delay s true (t % 4294967296) = (true, s) := by
              unfold on
              simp only [hb, Bool.true_eq_false, if_false, if_true]
            have h3 := s3 hb
            simp only [answers, expected, e]
            rw [show decide (t0 + delay ≤ t) = true by simp; omega]
            exact congrArg _ (ih t s (some t0) t3 ⟨s1, by omega, fun _ => by omega, fun h => by rw [hb] at h; cases h⟩)
          | false =>
            obtain ⟨h4, h5⟩ := s4 hb
            have hz : (t % 4294967296 + 4294967296 - t0 % 4294967296) % 4294967296 = t - t0 := by omega
            by_cases hc : t - t0 < delay
            · have e : on delay s true (t % 4294967296) = (false, ⟨true, false, t0 % 4294967296⟩) := by
                unfold on
                simp only [hb, s1, h4, Bool.true_eq_false, Bool.false_eq_true, if_false, if_true, hz]
                rw [if_pos hc]
              simp only [answers, expected, e]
              rw [show decide (t0 + delay ≤ t) = false by simp; omega]
              exact congrArg _ (ih t _ (some t0) t3 ⟨rfl, by omega, (fun h => nomatch h), fun _ => ⟨rfl, by omega⟩⟩)
            · have e : on delay s true (t % 4294967296) = (true, ⟨true, true, t0 % 4294967296⟩) := by
                unfold on
                simp only [hb, s1, h4, Bool.true_eq_false, Bool.false_eq_true, if_false, if_true, hz]
                rw [if_neg hc]
              simp only [answers, expected, e]
              rw [show decide (t0 + delay ≤ t) = true by simp; omega]
              exact congrArg _ (ih t _ (some t0) t3 ⟨rfl, by omega, (fun _ => by omega), fun h => nomatch h⟩)
  exact key fs p _ none ht ⟨rfl, rfl⟩

example : answers 100 ⟨false, false, 0⟩ [(true, 4294967290), (true, 4294967380), (true, 4294967390), (false, 4294967400), (true, 4294967410)] =
    [false, false, true, false, false] := by decide +kernel

/-- Three LEDs at speed 2: a flare, then it goes out in three updates. -/
example : ((burn 3 2 [(fun _ => 3000, fun _ => 0), (fun _ => 0, fun _ => 0)] (fun _ => 0)).map (fun h => [h 0, h 1, h 2])) =
      some [1980, 456, 0] ∧
    ((burn 3 2 [(fun _ => 3000, fun _ => 0), (fun _ => 0, fun _ => 0), (fun _ => 0, fun _ => 0), (fun _ => 0, fun _ => 0)] (fun _ => 0)).map
      (fun h => [h 0, h 1, h 2])) = some [0, 0, 0] := by decide +kernel

end Verif.Style.Fire
