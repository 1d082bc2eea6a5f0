import Verif.Pqoi.Stream

set_option linter.unusedSimpArgs false
namespace Verif.Pqoi

attribute [local irreducible] hashPixel remember rawFinish lumaFinish action

/-- Erase `previous_byte` where it is dead. -/
def SState.norm (s : SState) : SState :=
  { s with prev := match s.pos with | .start => 0 | .raw1 => 0 | _ => s.prev }

def N (r : SState × List Pixel) : SState × List Pixel := (r.1.norm, r.2)

theorem streamLoop_indep (base hist need p y p' y' inp) :
    (streamLoop base hist need p y inp).map N = (streamLoop base hist need p' y' inp).map N := by
  fun_induction streamLoop base hist need p y inp generalizing y' with
  | case1 base hist byte inp => unfold streamLoop; simp [N, SState.norm]
  | case2 base hist need byte hn => unfold streamLoop; simp [N, SState.norm, hn]
  | case3 => conv => rhs; unfold streamLoop
             simp [*]
  | case4 base hist need byte hn b rest base' new ha ih =>
    conv => rhs; unfold streamLoop
    simp only [hn, if_false, ha]
    exact ih b
  | case5 base hist need byte hn b ha =>
    conv => rhs; unfold streamLoop
    simp only [hn, if_false, ha]
  | case6 base hist need byte hn b ha b2 =>
    conv => rhs; unfold streamLoop
    simp only [hn, if_false, ha]
  | case7 base hist need byte hn b ha b2 b3 rest' r ih =>
    conv => rhs; unfold streamLoop
    simp only [hn, if_false, ha]
    exact ih b3
  | case8 base hist need byte hn b ha =>
    conv => rhs; unfold streamLoop
    simp only [hn, if_false, ha]
  | case9 base hist need byte hn b ha b' rest' r ih =>
    conv => rhs; unfold streamLoop
    simp only [hn, if_false, ha]
    exact ih b'

theorem rawFinish_len (st b2 b3) : (rawFinish st b2 b3).2.length = 1 := by
  unfold rawFinish; rfl
theorem lumaFinish_len (st b2 b3) : (lumaFinish st b2 b3).2.length = 1 := by
  unfold lumaFinish; rfl

theorem streamLoop_len {base hist need p y inp s h} (e : streamLoop base hist need p y inp = some (s, h)) :
    hist.length ≤ h.length := by
  fun_induction streamLoop base hist need p y inp with
  | case1 => cases e; exact Nat.le_refl _
  | case2 => cases e; exact Nat.le_refl _
  | case3 => cases e
  | case4 base hist need byte hn b rest base' new ha ih => have := ih e; simp at this; omega
  | case5 => cases e; exact Nat.le_refl _
  | case6 => cases e; exact Nat.le_refl _
  | case7 base hist need byte hn b ha b2 b3 rest' r ih => have := ih e; simp at this; omega
  | case8 => cases e; exact Nat.le_refl _
  | case9 base hist need byte hn b ha b' rest' r ih => have := ih e; simp at this; omega

/-- What two consecutive buffers do, in terms of one. -/
def cont (hist : List Pixel) (need : Nat) (c2 : List Nat) (r : Option (SState × List Pixel)) :
    Option (SState × List Pixel) :=
  match r with
  | none => none
  | some (s1, h1) =>
    if need ≤ h1.length - hist.length then some (N ({ s1 with inp := s1.inp ++ c2 }, h1))
    else (read { s1 with inp := c2 } h1 (need - (h1.length - hist.length))).map N

theorem cont_shift (hist new : List Pixel) (need : Nat) (c2 : List Nat) (r)
    (hr : ∀ s h, r = some (s, h) → (new ++ hist).length ≤ h.length) :
    cont (new ++ hist) (need - new.length) c2 r = cont hist need c2 r := by
  cases r with
  | none => rfl
  | some sh =>
    obtain ⟨s, h⟩ := sh
    have := hr s h rfl
    simp at this
    simp only [cont, List.length_append]
    by_cases hc : need ≤ h.length - hist.length
    · rw [if_pos hc, if_pos (by omega)]
    · rw [if_neg hc, if_neg (by omega)]
      congr 2
      omega

theorem streamLoop_split (base hist need p y c1 c2) :
    (streamLoop base hist need p y (c1 ++ c2)).map N = cont hist need c2 (streamLoop base hist need p y c1) := by
  fun_induction streamLoop base hist need p y c1 with
  | case1 base hist byte inp => unfold streamLoop; simp [cont]
  | case2 base hist need byte hn =>
    simp only [List.nil_append, cont, Nat.sub_self, Nat.sub_zero, read]
    rw [if_neg (by omega)]
    exact streamLoop_indep ..
  | case3 => unfold streamLoop; simp [*, cont]
  | case4 base hist need byte hn b rest base' new ha ih =>
    conv => lhs; unfold streamLoop
    simp only [hn, if_false, ha, List.cons_append]
    rw [ih, cont_shift]
    intro s h e; exact streamLoop_len e
  | case5 base hist need byte hn b ha =>
    conv => lhs; unfold streamLoop
    simp only [hn, if_false, ha, List.cons_append, List.nil_append, cont, Nat.sub_self, Nat.sub_zero, read]
    rw [if_neg (by omega)]
    match c2 with
    | [] => rfl
    | [b2] => rfl
    | b2 :: b3 :: rest => exact streamLoop_indep ..
  | case6 base hist need byte hn b ha b2 =>
    conv => lhs; unfold streamLoop
    simp only [hn, if_false, ha, List.cons_append, List.nil_append, cont, Nat.sub_self, Nat.sub_zero, read]
    rw [if_neg (by omega)]
    match c2 with
    | [] => rfl
    | b3 :: rest => exact streamLoop_indep ..
  | case7 base hist need byte hn b ha b2 b3 rest' r ih =>
    conv => lhs; unfold streamLoop
    simp only [hn, if_false, ha, List.cons_append]
    rw [ih, cont_shift]
    intro s h e; exact streamLoop_len e
  | case8 base hist need byte hn b ha =>
    conv => lhs; unfold streamLoop
    simp only [hn, if_false, ha, List.cons_append, List.nil_append, cont, Nat.sub_self, Nat.sub_zero, read]
    rw [if_neg (by omega)]
    match c2 with
    | [] => rfl
    | b3 :: rest => exact streamLoop_indep ..
  | case9 base hist need byte hn b ha b' rest' r ih =>
    conv => lhs; unfold streamLoop
    simp only [hn, if_false, ha, List.cons_append]
    rw [ih, cont_shift]
    intro s h e; exact streamLoop_len e

/-- Splitting the input of `read` at any point. -/
theorem read_split (s : SState) (hist need c1 c2) (hn : 0 < need) :
    (read { s with inp := c1 ++ c2 } hist need).map N = cont hist need c2 (read { s with inp := c1 } hist need) := by
  obtain ⟨base, pos, prev, inp⟩ := s
  cases pos with
  | start => exact streamLoop_split ..
  | raw1 =>
    match c1 with
    | [] =>
      simp only [read, List.nil_append, cont, Nat.sub_self, Nat.sub_zero]
      rw [if_neg (by omega)]
    | [b2] =>
      simp only [read, List.nil_append, List.cons_append, cont, Nat.sub_self, Nat.sub_zero]
      rw [if_neg (by omega)]
      match c2 with
      | [] => rfl
      | b3 :: rest => exact streamLoop_indep ..
    | b2 :: b3 :: rest =>
      simp only [read, List.cons_append]
      rw [streamLoop_split, cont_shift]
      intro s h e; exact streamLoop_len e
  | raw2 =>
    match c1 with
    | [] =>
      simp only [read, List.nil_append, cont, Nat.sub_self, Nat.sub_zero]
      rw [if_neg (by omega)]
    | b3 :: rest =>
      simp only [read, List.cons_append]
      rw [streamLoop_split, cont_shift]
      intro s h e; exact streamLoop_len e
  | luma =>
    match c1 with
    | [] =>
      simp only [read, List.nil_append, cont, Nat.sub_self, Nat.sub_zero]
      rw [if_neg (by omega)]
    | b3 :: rest =>
      simp only [read, List.cons_append]
      rw [streamLoop_split, cont_shift]
      intro s h e; exact streamLoop_len e

theorem read_len {s hist need s' h} (e : read s hist need = some (s', h)) : hist.length ≤ h.length := by
  unfold read at e
  repeat' split at e
  all_goals first
    | (simp only [Option.some.injEq, Prod.mk.injEq] at e; obtain ⟨_, rfl⟩ := e; exact Nat.le_refl _)
    | (have := streamLoop_len e; (try simp at this); omega)

theorem read_norm (s : SState) (c hist need) :
    (read { s with inp := c } hist need).map N = (read { s.norm with inp := c } hist need).map N := by
  obtain ⟨base, pos, prev, inp⟩ := s
  cases pos <;> simp only [read, SState.norm]
  · exact streamLoop_indep ..
  · match c with
    | [] => rfl
    | [b2] => rfl
    | b2 :: b3 :: rest => exact streamLoop_indep ..

/-- Complete input, started fresh: same as the block decoder. -/
theorem streamLoop_block (base hist need p y inp st' h rest)
    (e : decodeBlock base hist need inp = some (st', h, rest)) :
    ∃ p', streamLoop base hist need p y inp = some (⟨st', .start, p', rest⟩, h) := by
  fun_induction decodeBlock base hist need inp generalizing y with
  | case1 st hist inp => cases e; exact ⟨p, by unfold streamLoop; simp⟩
  | case2 => cases e
  | case3 st hist need inp hn st1 new rest1 h1 ih =>
    unfold streamLoop
    rw [if_neg hn]
    unfold decodeOne at h1
    cases inp with
    | nil => cases h1
    | cons b tl =>
      simp only at h1 ⊢
      cases ha : action st hist b with
      | raw =>
        simp only [ha] at h1 ⊢
        match tl, h1 with
        | b2 :: b3 :: r, h1 => cases h1; exact ih b3 e
      | plain r =>
        cases r with
        | none => simp only [ha] at h1; cases h1
        | some r => simp only [ha] at h1 ⊢; cases h1; exact ih b e
      | luma =>
        simp only [ha] at h1 ⊢
        match tl, h1 with
        | b2 :: r, h1 => cases h1; exact ih b2 e

theorem decodeBlock_len {base hist need inp st' h rest}
    (e : decodeBlock base hist need inp = some (st', h, rest)) : hist.length + need ≤ h.length := by
  fun_induction decodeBlock base hist need inp with
  | case1 st hist inp => cases e; simp
  | case2 => cases e
  | case3 st hist need inp hn st1 new rest1 h1 ih => have := ih e; simp at this; omega

/-- `feed` over any list of buffers = `read` of the concatenation, if that completes. -/
theorem feed_read (s : SState) (hist need : _) (cs : List (List Nat)) (hn : 0 < need) (sf h)
    (e : (read { s with inp := cs.flatten } hist need).map N = some (sf, h))
    (hl : hist.length + need ≤ h.length) :
    ∃ s' rest, feed s hist need cs = some (s', h, rest) ∧
      N ({ s' with inp := s'.inp ++ rest.flatten }, h) = (sf, h) := by
  induction cs generalizing s hist need with
  | nil =>
    exfalso
    have : (read { s with inp := [] } hist need) = some ({ s with inp := [], prev := s.prev }, hist) ∨ True := Or.inr trivial
    obtain ⟨base, pos, prev, inp⟩ := s
    have h0 : ∀ s' h', read ⟨base, pos, prev, []⟩ hist need = some (s', h') → h' = hist := by
      intro s' h' e'
      cases pos <;> simp only [read] at e'
      · unfold streamLoop at e'
        rw [if_neg (by omega)] at e'
        simp at e'; exact e'.2.symm
      all_goals (simp at e'; exact e'.2.symm)
    simp only [List.flatten_nil] at e
    cases hr : read ⟨base, pos, prev, []⟩ hist need with
    | none => rw [hr] at e; cases e
    | some r =>
      obtain ⟨s', h'⟩ := r
      rw [hr] at e
      simp [N] at e
      have := h0 s' h' hr
      subst this
      rw [← e.2] at hl
      omega
  | cons c cs ih =>
    simp only [List.flatten_cons] at e
    rw [read_split s hist need c cs.flatten hn] at e
    unfold feed
    cases hr : read { s with inp := c } hist need with
    | none => rw [hr] at e; cases e
    | some r =>
      obtain ⟨s1, h1⟩ := r
      rw [hr] at e
      simp only [cont] at e
      simp only
      have hlen := read_len hr
      by_cases hc : need ≤ h1.length - hist.length
      · rw [if_pos hc] at e
        rw [if_pos hc]
        simp only [Option.some.injEq] at e
        have : h1 = h := by have := congrArg Prod.snd e; simpa [N] using this
        subst this
        exact ⟨s1, cs, rfl, e⟩
      · rw [if_neg hc] at e
        rw [if_neg hc]
        exact ih s1 h1 _ (by omega) e (by omega)

theorem action_len {st hist b st' new} (e : action st hist b = .plain (some (st', new))) :
    1 ≤ new.length ∧ new.length ≤ 33 := by
  unfold action at e
  repeat' split at e
  all_goals (try cases e)
  all_goals simp
  all_goals omega

theorem streamLoop_overshoot {base hist need p y inp s h} (e : streamLoop base hist need p y inp = some (s, h)) :
    h.length ≤ hist.length + need + 32 ∧ (need = 0 → h = hist) := by
  fun_induction streamLoop base hist need p y inp with
  | case1 => cases e; simp
  | case2 => cases e; exact ⟨by omega, by simp⟩
  | case3 => cases e
  | case4 base hist need byte hn b rest base' new ha ih =>
    have h1 := ih e
    have h2 := action_len ha
    simp only [List.length_append] at h1
    refine ⟨?_, fun h => absurd h hn⟩
    by_cases hz : need - new.length = 0
    · have := h1.2 hz; subst this; simp; omega
    · omega
  | case5 => cases e; exact ⟨by omega, fun _ => rfl⟩
  | case6 => cases e; exact ⟨by omega, fun _ => rfl⟩
  | case7 base hist need byte hn b ha b2 b3 rest' r ih =>
    have h1 := ih e
    have h2 : r.2.length = 1 := rawFinish_len ..
    simp only [List.length_append] at h1
    refine ⟨?_, fun h => absurd h hn⟩
    omega
  | case8 => cases e; exact ⟨by omega, fun _ => rfl⟩
  | case9 base hist need byte hn b ha b' rest' r ih =>
    have h1 := ih e
    have h2 : r.2.length = 1 := lumaFinish_len ..
    simp only [List.length_append] at h1
    refine ⟨?_, fun h => absurd h hn⟩
    omega

theorem read_overshoot {s hist need s' h} (hn : 0 < need) (e : read s hist need = some (s', h)) :
    h.length ≤ hist.length + need + 32 := by
  unfold read at e
  repeat' split at e
  all_goals first
    | (simp only [Option.some.injEq, Prod.mk.injEq] at e; obtain ⟨_, rfl⟩ := e; omega)
    | (have := streamLoop_overshoot e
       (try simp only [List.length_append, rawFinish_len, lumaFinish_len] at this); omega)

end Verif.Pqoi
