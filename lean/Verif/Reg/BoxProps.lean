import Verif.Reg.Model
set_option linter.unusedSimpArgs false
/-!
# C25: the moving average is the mean of the last N samples
-/
namespace Verif.Reg

/-- the samples in the filter, oldest first -/
def Box.window (b : Box) : List Int := b.data.drop b.pos ++ b.data.take b.pos

theorem push_window {N : Nat} {b : Box} (hl : b.data.length = N) (hp : b.pos < N) (v : Int) :
    (b.push N v).window = b.window.drop 1 ++ [v] ∧ (b.push N v).data.length = N ∧ (b.push N v).pos < N := by
  have hset : b.data.set b.pos v = b.data.take b.pos ++ v :: b.data.drop (b.pos + 1) :=
    List.set_eq_take_append_cons_drop.trans (by rw [if_pos (by omega)])
  have htl : (b.data.take b.pos).length = b.pos := by simp; omega
  have hw : b.window.drop 1 = b.data.drop (b.pos + 1) ++ b.data.take b.pos := by
    unfold Box.window
    rw [List.drop_append_of_le_length (by simp; omega), List.drop_drop]
  rw [hw]
  unfold Box.push
  simp only
  split
  · rename_i h
    refine ⟨?_, by simpa using hl, by show 0 < N; omega⟩
    unfold Box.window
    simp only [List.drop_zero, List.take_zero, List.append_nil]
    rw [hset]
    have : b.data.drop (b.pos + 1) = [] := List.drop_of_length_le (by omega)
    rw [this]; simp
  · rename_i h
    refine ⟨?_, by simpa using hl, by show b.pos + 1 < N; omega⟩
    unfold Box.window
    simp only
    rw [hset]
    have e1 : (b.data.take b.pos ++ v :: b.data.drop (b.pos + 1)).drop (b.pos + 1) = b.data.drop (b.pos + 1) := by
      rw [List.drop_append, htl, List.drop_of_length_le (by rw [htl]; omega)]
      simp
    have e2 : (b.data.take b.pos ++ v :: b.data.drop (b.pos + 1)).take (b.pos + 1) = b.data.take b.pos ++ [v] := by
      rw [List.take_append, htl, List.take_of_length_le (by rw [htl]; omega)]
      simp
    rw [e1, e2]; simp

theorem foldl_add_sum (l : List Int) (a : Int) : l.foldl (· + ·) a = a + l.sum := by
  induction l generalizing a with
  | nil => simp
  | cons x t ih => rw [List.foldl_cons, ih, List.sum_cons]; omega

theorem get_sum {N : Nat} (b : Box) : b.get N = Int.tdiv b.window.sum N := by
  unfold Box.get Box.window
  rw [foldl_add_sum]
  congr 1
  have h1 : b.data.headD 0 + (b.data.drop 1).sum = b.data.sum := by
    cases b.data <;> simp
  have h2 : (b.data.take b.pos).sum + (b.data.drop b.pos).sum = b.data.sum := by
    rw [← List.sum_append, List.take_append_drop]
  rw [h1, List.sum_append]; omega

theorem pushes_window {N : Nat} (xs : List Int) : ∀ {b : Box}, b.data.length = N → b.pos < N →
    (xs.foldl (Box.push N) b).window = (b.window ++ xs).drop xs.length ∧
      (xs.foldl (Box.push N) b).data.length = N ∧ (xs.foldl (Box.push N) b).pos < N := by
  induction xs with
  | nil => intro b hl hp; exact ⟨by simp, hl, hp⟩
  | cons x t ih =>
    intro b hl hp
    obtain ⟨h1, h2, h3⟩ := push_window hl hp x
    obtain ⟨k1, k2, k3⟩ := ih h2 h3
    refine ⟨?_, k2, k3⟩
    rw [List.foldl_cons, k1, h1]
    have hw : b.window.length = N := by unfold Box.window; simp; omega
    cases hb : b.window with
    | nil => rw [hb] at hw; simp at hw; omega
    | cons y w => simp

/-- the last `n` elements of a list -/
def lastN (n : Nat) (l : List Int) : List Int := l.drop (l.length - n)

/-- **C25** (general filter).  Whatever the filter held before, after at least `N` samples it reports the
sum of exactly the last `N` samples divided by `N` (rounded towards zero). -/
theorem C25_mean {N : Nat} (b : Box) (hl : b.data.length = N) (hp : b.pos < N) (xs : List Int) (hx : N ≤ xs.length) :
    (xs.foldl (Box.push N) b).get N = Int.tdiv (lastN N xs).sum N ∧ (lastN N xs).length = N := by
  obtain ⟨h1, _, _⟩ := pushes_window xs hl hp
  have hw : b.window.length = N := by unfold Box.window; simp; omega
  refine ⟨?_, by unfold lastN; simp; omega⟩
  rw [get_sum, h1]
  congr 2
  unfold lastN
  rw [List.drop_append, hw, List.drop_of_length_le (by omega)]
  simp

/-- **C25** (before the filter is full).  With `k < N` samples the report is the mean of these and the
newest `N - k` old contents. -/
theorem C25_partial_fill {N : Nat} (b : Box) (hl : b.data.length = N) (hp : b.pos < N) (xs : List Int) :
    (xs.foldl (Box.push N) b).get N = Int.tdiv (lastN N (b.window ++ xs)).sum N := by
  obtain ⟨h1, _, _⟩ := pushes_window xs hl hp
  have hw : b.window.length = N := by unfold Box.window; simp; omega
  rw [get_sum, h1]
  congr 2
  unfold lastN
  congr 1
  simp; omega

/-- concrete: five samples through a filter of three -/
example : (([5, 7, 9, 11, 13] : List Int).foldl (Box.push 3) ⟨[100, 200, 300], 1⟩).get 3 = 11 := by decide

/-- **C25** (specialisations for windows of 2 and 1): same claim. -/
theorem C25_small (d : Int × Int) (e : Int) (xs : List Int) :
    (2 ≤ xs.length → box2Get (xs.foldl box2Push d) = Int.tdiv (lastN 2 xs).sum 2) ∧
    (1 ≤ xs.length → box1Get (xs.foldl box1Push e) = Int.tdiv (lastN 1 xs).sum 1) := by
  have two : ∀ (xs : List Int) (d : Int × Int), 2 ≤ xs.length → lastN 2 xs = [(xs.foldl box2Push d).1, (xs.foldl box2Push d).2] := by
    intro xs
    induction xs with
    | nil => intro d h; simp at h
    | cons x t ih =>
      intro d h
      match t, ih, h with
      | [y], _, _ => simp [lastN, box2Push]
      | y :: z :: u, ih, _ =>
        rw [List.foldl_cons, ← ih (box2Push d x) (by simp)]
        unfold lastN
        have : (x :: y :: z :: u).length - 2 = ((y :: z :: u).length - 2) + 1 := by simp
        rw [this, List.drop_succ_cons]
  have one : ∀ (xs : List Int) (d : Int), 1 ≤ xs.length → lastN 1 xs = [xs.foldl box1Push d] := by
    intro xs
    induction xs with
    | nil => intro d h; simp at h
    | cons x t ih =>
      intro d h
      match t, ih with
      | [], _ => simp [lastN, box1Push]
      | y :: u, ih =>
        rw [List.foldl_cons, ← ih (box1Push d x) (by simp)]
        unfold lastN
        have : (x :: y :: u).length - 1 = ((y :: u).length - 1) + 1 := by simp
        rw [this, List.drop_succ_cons]
  constructor
  · intro h; rw [two xs d h]; simp [box2Get]
  · intro h; rw [one xs e h]; simp [box1Get]

example : box2Get (([5, 7, 9] : List Int).foldl box2Push (1, 1)) = 8 := by decide

/-- `clear` leaves the first sample: a cleared filter of three still reports the old value in part. -/
theorem C25_clear_counterexample : ((⟨[90, 60, 30], 0⟩ : Box).clear 0).get 3 = 30 := by decide

end Verif.Reg
