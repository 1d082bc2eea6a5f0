/-!
# Recording clashes (C152)

Model of scripts/clash_recorder.h: motion is kept in a ring of 256 places; some time after a clash recording stops and the ring is written to a new file,
whose number is searched for in growing and then shrinking steps.  Simplified: samples are of any type, files are known by their numbers, and the
speech and buttons in between are left out.
-/
namespace Verif.Prop.ClashRec

/-- `gyro_`, `pos_`, `save_countdown_`, `do_save_`, scripts/clash_recorder.h:152-157 -/
structure R (α : Type) where
  mem : Nat → α
  pos : Nat
  countdown : Nat
  save : Bool

/-- what comes in: acceleration, perhaps with a clash, and motion -/
inductive Ev (α : Type)
  | accel (clash : Bool)
  | motion (g : α)

/-- `DoAccel` and `DoMotion`, scripts/clash_recorder.h:9-29 -/
def step {α : Type} (r : R α) : Ev α → R α
  | .accel clash => if r.save then r else if r.countdown = 0 ∧ clash = true then { r with countdown := 256 * 3 / 4 } else r
  | .motion g =>
    if r.save then r
    else
      let mem := fun i => if i = r.pos then g else r.mem i
      let pos := if r.pos + 1 = 256 then 0 else r.pos + 1
      if r.countdown = 0 then ⟨mem, pos, 0, false⟩ else ⟨mem, pos, r.countdown - 1, r.countdown - 1 == 0⟩

/-- one after another -/
def run {α : Type} (l : List (Ev α)) (r : R α) : R α := l.foldl step r

/-- what is written, scripts/clash_recorder.h:121-122 -/
def dump {α : Type} (r : R α) : List α := (List.range 256).map fun j => r.mem ((r.pos + j) % 256)

/-- One turn of the search for a file, scripts/clash_recorder.h:95-116, with `last_file_` and `file_num`: on, or the number found. -/
def search (ex : Nat → Bool) (last num : Nat) : (Nat × Nat) ⊕ (Nat × Nat) :=
  if ex num then .inl (num, num + (num - last) * 2)
  else if num - last > 1 then .inl (last, last + (num - last) / 2)
  else .inr (last, num)

/-- `n` turns at most -/
def searches (ex : Nat → Bool) : Nat → Nat → Nat → Option (Nat × Nat)
  | 0, _, _ => none
  | n + 1, last, num => match search ex last num with
    | .inl (l, m) => searches ex n l m
    | .inr r => some r

/-! ## Lemmas -/

theorem searches_inv (ex : Nat → Bool) (n last num l m : Nat) (h : last < num) (hs : searches ex n last num = some (l, m)) :
    m = l + 1 ∧ ex m = false ∧ last ≤ l ∧ (l = last ∨ ex l = true) := by
  induction n generalizing last num with
  | zero => cases hs
  | succ n ih =>
    simp only [searches, search] at hs
    by_cases he : ex num = true
    · simp only [he, if_true] at hs
      obtain ⟨h1, h2, h3, h4⟩ := ih num (num + (num - last) * 2) (by omega) hs
      refine ⟨h1, h2, by omega, Or.inr ?_⟩
      rcases h4 with h4 | h4
      · rw [h4]; exact he
      · exact h4
    · simp only [he, Bool.false_eq_true, if_false] at hs
      by_cases hg : num - last > 1
      · simp only [hg, if_true] at hs
        exact ih last (last + (num - last) / 2) (by omega) hs
      · simp only [hg, if_false] at hs
        cases hs
        exact ⟨by omega, by simpa using he, by omega, Or.inl rfl⟩

theorem searches_end (ex : Nat → Bool) (b : Nat) (hb : ∀ n, b < n → ex n = false) (k : Nat) :
    ∀ last num, last < num → b - last ≤ k → ∃ n r, searches ex n last num = some r := by
  induction k with
  | zero =>
    intro last num h hk
    generalize hg : num - last = g
    induction g using Nat.strongRecOn generalizing num with
    | _ g ih =>
      have he : ex num = false := hb num (by omega)
      by_cases h1 : num - last > 1
      · obtain ⟨n, r, hr⟩ := ih (last + (num - last) / 2 - last) (by omega) (last + (num - last) / 2) (by omega) rfl
        exact ⟨n + 1, r, by simp only [searches, search, he, Bool.false_eq_true, if_false, h1, if_true]; exact hr⟩
      · exact ⟨1, (last, num), by simp only [searches, search, he, Bool.false_eq_true, if_false, h1]⟩
  | succ k ihk =>
    intro last num h hk
    generalize hg : num - last = g
    induction g using Nat.strongRecOn generalizing num with
    | _ g ih =>
      by_cases he : ex num = true
      · have hnb : ¬ b < num := fun hlt => by rw [hb num hlt] at he; cases he
        obtain ⟨n, r, hr⟩ := ihk num (num + (num - last) * 2) (by omega) (by omega)
        exact ⟨n + 1, r, by simp only [searches, search, he, if_true]; exact hr⟩
      · by_cases h1 : num - last > 1
        · obtain ⟨n, r, hr⟩ := ih (last + (num - last) / 2 - last) (by omega) (last + (num - last) / 2) (by omega) rfl
          exact ⟨n + 1, r, by simp only [searches, search, he, Bool.false_eq_true, if_false, h1, if_true]; exact hr⟩
        · exact ⟨1, (last, num), by simp only [searches, search, he, Bool.false_eq_true, if_false, h1]⟩

/-- the motion taken in before recording stopped, newest first -/
def taken {α : Type} : List (Ev α) → R α → List α → List α
  | [], _, h => h
  | e :: l, r, h => taken l (step r e) (match e with
    | .accel _ => h
    | .motion g => if r.save then h else g :: h)

/-- what holds at every point -/
def Inv {α : Type} (r : R α) (h : List α) : Prop :=
  r.pos < 256 ∧ ∀ j x, j < 256 → h[j]? = some x → r.mem ((r.pos + 255 - j) % 256) = x

theorem push_inv {α : Type} (mem : Nat → α) (pos : Nat) (h : List α) (g : α) (hp : pos < 256)
    (hi : ∀ j x, j < 256 → h[j]? = some x → mem ((pos + 255 - j) % 256) = x) :
    (if pos + 1 = 256 then 0 else pos + 1) < 256 ∧
      ∀ j x, j < 256 → (g :: h)[j]? = some x →
        (if ((if pos + 1 = 256 then 0 else pos + 1) + 255 - j) % 256 = pos then g else mem (((if pos + 1 = 256 then 0 else pos + 1) + 255 - j) % 256)) = x := by
  constructor
  · split <;> omega
  · intro j x hj hx
    cases j with
    | zero =>
      rw [if_pos (by split <;> omega)]
      simpa using hx
    | succ j =>
      have e : ((if pos + 1 = 256 then 0 else pos + 1) + 255 - (j + 1)) % 256 = (pos + 255 - j) % 256 := by split <;> omega
      rw [e, if_neg (by omega)]
      exact hi j x (by omega) (by simpa using hx)

theorem step_inv {α : Type} (r : R α) (h : List α) (e : Ev α) (hi : Inv r h) :
    Inv (step r e) (match e with
      | .accel _ => h
      | .motion g => if r.save then h else g :: h) := by
  obtain ⟨hp, hm⟩ := hi
  cases e with
  | accel c =>
    simp only [step]
    split
    · exact ⟨hp, hm⟩
    · split
      · exact ⟨hp, hm⟩
      · exact ⟨hp, hm⟩
  | motion g =>
    by_cases hs : r.save = true
    · simp only [step, hs, if_true]; exact ⟨hp, hm⟩
    · simp only [step, hs, Bool.false_eq_true, if_false]
      have := push_inv r.mem r.pos h g hp hm
      by_cases hc : r.countdown = 0
      · simp only [hc, if_true]; exact this
      · simp only [hc, if_false]; exact this

theorem run_inv {α : Type} (l : List (Ev α)) (r : R α) (h : List α) (hi : Inv r h) : Inv (run l r) (taken l r h) := by
  induction l generalizing r h with
  | nil => exact hi
  | cons e l ih => exact ih (step r e) _ (step_inv r h e hi)

/-! ## Claims -/

/-- **C152.** Whatever files there are, in whatever gaps, the search ends with a number not used before and larger than where it began, right after one in use. -/
theorem C152_new (ex : Nat → Bool) (b : Nat) (hb : ∀ n, b < n → ex n = false) (last : Nat) :
    ∃ n l, searches ex n last (last + 1) = some (l, l + 1) ∧ ex (l + 1) = false ∧ last ≤ l ∧ (l = last ∨ ex l = true) := by
  obtain ⟨n, ⟨l, m⟩, h⟩ := searches_end ex b hb (b - last) last (last + 1) (by omega) (Nat.le_refl _)
  obtain ⟨h1, h2, h3, h4⟩ := searches_inv ex n last (last + 1) l m (by omega) h
  subst h1
  exact ⟨n, l, h, h2, h3, h4⟩

/-- **C152.** When the files so far are numbered from one without a gap, the next one is next to them. -/
theorem C152_next (ex : Nat → Bool) (b last : Nat) (hex : ∀ n, ex n = true ↔ 1 ≤ n ∧ n ≤ b) (hl : last ≤ b) (n l m : Nat)
    (h : searches ex n last (last + 1) = some (l, m)) : m = b + 1 := by
  obtain ⟨h1, h2, h3, h4⟩ := searches_inv ex n last (last + 1) l m (by omega) h
  have hm : ¬ (1 ≤ m ∧ m ≤ b) := fun hc => by rw [(hex m).mpr hc] at h2; cases h2
  rcases h4 with h4 | h4
  · omega
  · have := (hex l).mp h4; omega

/-- **C152.** What is written is the last 256 samples of motion before recording stopped, oldest first, whatever came in before. -/
theorem C152_dump {α : Type} (l : List (Ev α)) (r : R α) (hp : r.pos < 256) (h : 256 ≤ (taken l r []).length) :
    dump (run l r) = ((taken l r []).take 256).reverse := by
  obtain ⟨h1, h2⟩ := run_inv l r [] ⟨hp, fun j x _ hx => by (simp at hx)⟩
  generalize taken l r [] = t at *
  generalize run l r = q at *
  apply List.ext_getElem?
  intro i
  by_cases hi : i < 256
  · have hlen : (t.take 256).length = 256 := by rw [List.length_take]; omega
    rw [List.getElem?_reverse (by omega), hlen, List.getElem?_take, if_pos (by omega)]
    have hget : t[256 - 1 - i]? = some (t[256 - 1 - i]'(by omega)) := List.getElem?_eq_getElem (by omega)
    rw [hget, dump, List.getElem?_map, List.getElem?_range hi]
    have := h2 (256 - 1 - i) _ (by omega) hget
    simp only [Option.map_some, Option.some.injEq]
    rw [← this]
    congr 1
    omega
  · rw [List.getElem?_eq_none (by simp [dump]; omega), List.getElem?_eq_none (by rw [List.length_reverse, List.length_take]; omega)]

/-- the number of samples of motion -/
def motions {α : Type} (l : List (Ev α)) : Nat := l.countP fun e => match e with
  | .accel _ => false
  | .motion _ => true

/-- **C152.** After a clash recording goes on for exactly 192 samples of motion, whatever else comes in, further clashes included; so a quarter of what
is written is from before the clash. -/
theorem C152_stop {α : Type} (l : List (Ev α)) (r : R α) (hs : r.save = false) (hc : r.countdown = 0) :
    (run l (step r (.accel true))).save = true ↔ 192 ≤ motions l := by
  have key : ∀ (l : List (Ev α)) (r : R α), (r.save = true → (run l r).save = true) ∧
      (r.save = false → 0 < r.countdown → ((run l r).save = true ↔ r.countdown ≤ motions l)) := by
    intro l
    induction l with
    | nil => intro r; exact ⟨id, fun h hc => by simp [run, h, motions]; omega⟩
    | cons e l ih =>
      intro r
      constructor
      · intro h
        refine (ih (step r e)).1 ?_
        cases e <;> simp [step, h]
      · intro h hc
        cases e with
        | accel c =>
          have hst : step r (.accel c) = r := by simp [step, h, show r.countdown ≠ 0 by omega]
          have := (ih r).2 h hc
          show (run l (step r (.accel c))).save = true ↔ _
          rw [hst, this]
          simp [motions]
        | motion g =>
          show (run l (step r (.motion g))).save = true ↔ _
          have hm : motions (Ev.motion g :: l) = motions l + 1 := by simp [motions]
          rw [hm]
          have hne : r.countdown ≠ 0 := by omega
          have hcd : (step r (.motion g)).countdown = r.countdown - 1 := by simp [step, h, hne]
          by_cases h1 : r.countdown = 1
          · have hsv : (step r (.motion g)).save = true := by simp [step, h, h1]
            constructor
            · intro _; omega
            · intro _; exact (ih _).1 hsv
          · have hsv : (step r (.motion g)).save = false := by simp [step, h, hne]; omega
            rw [(ih _).2 hsv (by omega), hcd]
            omega
  have h1 : step r (.accel true) = { r with countdown := 192 } := by simp [step, hs, hc]
  rw [h1]
  exact (key l { r with countdown := 192 }).2 hs (by simp)

/-- **C152.** Once stopped nothing that comes in changes what is written. -/
theorem C152_kept {α : Type} (l : List (Ev α)) (r : R α) (hs : r.save = true) : run l r = r := by
  induction l with
  | nil => rfl
  | cons e l ih =>
    have : step r e = r := by cases e <;> simp [step, hs]
    show run l (step r e) = r
    rw [this]; exact ih

/-- The claims apply: with files 1 to 5 the search goes past them and comes back to 6. -/
example : searches (fun n => decide (1 ≤ n ∧ n ≤ 5)) 10 0 1 = some (5, 6) ∧ (∀ n, 5 < n → (fun n => decide (1 ≤ n ∧ n ≤ 5)) n = false) :=
  ⟨by decide, fun n hn => by (simp; omega)⟩

end Verif.Prop.ClashRec
