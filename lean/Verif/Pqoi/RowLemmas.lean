import Verif.Pqoi.StreamLemmas

set_option linter.unusedSimpArgs false
namespace Verif.Pqoi

attribute [local irreducible] hashPixel remember

/-- Operations look back at most four pixels. -/
theorem action_trunc (st : Base) (h t : List Pixel) (b : Nat) (ht : 4 ≤ h.length ∨ t = []) :
    action st (h ++ t) b = action st h b := by
  rcases ht with ht | rfl
  · unfold action
    have e1 : ¬ (h ++ t).length < 2 := by simp; omega
    have e2 : ¬ (h ++ t).length < 4 := by simp; omega
    have e3 : ¬ h.length < 2 := by omega
    have e4 : ¬ h.length < 4 := by omega
    simp only [e1, e2, e3, e4, if_false, List.take_append_of_le_length (show 2 ≤ h.length by omega),
      List.take_append_of_le_length ht]
  · simp

theorem decodeOne_trunc (st : Base) (h t : List Pixel) (inp : List Nat) (ht : 4 ≤ h.length ∨ t = []) :
    decodeOne st (h ++ t) inp = decodeOne st h inp := by
  unfold decodeOne
  cases inp with
  | nil => rfl
  | cons b r => simp only [action_trunc st h t b ht]

theorem decodeBlock_trunc (st : Base) (h t : List Pixel) (need : Nat) (inp : List Nat)
    (ht : 4 ≤ h.length ∨ t = []) :
    decodeBlock st (h ++ t) need inp = (decodeBlock st h need inp).map (fun r => (r.1, r.2.1 ++ t, r.2.2)) := by
  fun_induction decodeBlock st h need inp with
  | case1 st h inp => unfold decodeBlock; simp
  | case2 st h need inp hn hd =>
    unfold decodeBlock
    rw [if_neg hn]
    split
    · rfl
    · rename_i hd'; rw [decodeOne_trunc _ _ _ _ ht, hd] at hd'; cases hd'
  | case3 st h need inp hn st1 new rest1 h1 ih =>
    conv => lhs; unfold decodeBlock
    rw [if_neg hn]
    split
    · rename_i hd'; rw [decodeOne_trunc _ _ _ _ ht, h1] at hd'; cases hd'
    · rename_i hd'; rw [decodeOne_trunc _ _ _ _ ht, h1] at hd'; cases hd'
      rw [← List.append_assoc]
      exact ih (by rcases ht with ht | ht
                   · left; simp; omega
                   · right; exact ht)

theorem decodeBlock_suffix {st hist need inp st' h rest}
    (e : decodeBlock st hist need inp = some (st', h, rest)) : ∃ new, h = new ++ hist := by
  fun_induction decodeBlock st hist need inp with
  | case1 => cases e; exact ⟨[], rfl⟩
  | case2 => cases e
  | case3 st hist need inp hn st1 new rest1 h1 ih =>
    obtain ⟨n2, h2⟩ := ih e
    exact ⟨n2 ++ new, by rw [h2, List.append_assoc]⟩

theorem decodeBlock_compose (st hist n m inp) {st' H rest}
    (e : decodeBlock st hist (n + m) inp = some (st', H, rest)) :
    ∃ st1 h1 r1, decodeBlock st hist n inp = some (st1, h1, r1) ∧
      decodeBlock st1 h1 (hist.length + (n + m) - h1.length) r1 = some (st', H, rest) := by
  fun_induction decodeBlock st hist n inp with
  | case1 st hist inp =>
    refine ⟨st, hist, inp, rfl, ?_⟩
    rw [← e]; congr 1; omega
  | case2 st hist need inp hn hd =>
    unfold decodeBlock at e
    rw [if_neg (by omega)] at e
    split at e
    · cases e
    · rename_i h; rw [hd] at h; cases h
  | case3 st hist need inp hn st1 new rest1 h1 ih =>
    unfold decodeBlock at e
    rw [if_neg (by omega)] at e
    split at e
    · cases e
    · rename_i h; rw [h1] at h; cases h
      by_cases hl : new.length ≤ need
      · rw [show need + m - new.length = need - new.length + m by omega] at e
        obtain ⟨s2, h2, r2, g1, g2⟩ := ih e
        refine ⟨s2, h2, r2, g1, ?_⟩
        rw [← g2]; congr 1
        simp; omega
      · refine ⟨st1, new ++ hist, rest1, ?_, ?_⟩
        · rw [show need - new.length = 0 by omega]; unfold decodeBlock; simp
        · rw [← e]; congr 1; simp; omega

theorem rows_aux (C : Nat) (hC : 4 ≤ C) (n : Nat) (c : Chunk) (t : List Pixel) (st : Base) (inp : List Nat)
    (ht : 4 ≤ c.data.length + c.before.length ∨ t = []) {st' H rest}
    (e : decodeBlock st (c.data.reverse ++ c.before.reverse ++ t) (n * C - c.data.length) inp = some (st', H, rest)) :
    ∃ rows, decodeRows C n c st inp = some rows ∧ rows.length = n ∧ (∀ r ∈ rows, r.length = C) ∧
      rows.flatten = (H.reverse.drop (t.length + c.before.length)).take (n * C) := by
  induction n generalizing c t st inp with
  | zero => exact ⟨[], rfl, rfl, by simp, by simp⟩
  | succ n ih =>
    have hsplit : (n + 1) * C - c.data.length =
        (C - c.data.length) + ((n + 1) * C - c.data.length - (C - c.data.length)) := by
      have : (n + 1) * C = n * C + C := by rw [Nat.add_mul, Nat.one_mul]
      omega
    rw [hsplit] at e
    obtain ⟨s1, h1, r1, g1, g2⟩ := decodeBlock_compose _ _ _ _ _ e
    rw [← hsplit] at g2
    -- fill
    rw [decodeBlock_trunc st (c.data.reverse ++ c.before.reverse) t _ _ (by simpa using ht)] at g1
    cases hd : decodeBlock st (c.data.reverse ++ c.before.reverse) (C - c.data.length) inp with
    | none => rw [hd] at g1; simp at g1
    | some r =>
      obtain ⟨s2, h2, r2⟩ := r
      rw [hd] at g1
      simp only [Option.map_some, Option.some.injEq, Prod.mk.injEq] at g1
      obtain ⟨rfl, rfl, rfl⟩ := g1
      obtain ⟨new, hnew⟩ := decodeBlock_suffix hd
      have hlen := decodeBlock_len hd
      -- the filled chunk
      have hfill : c.fill C st inp = some (⟨c.before, c.data ++ new.reverse⟩, s2, r2) := by
        unfold Chunk.fill
        by_cases hfull : min c.data.length C ≥ C
        · rw [if_pos hfull]
          rw [show C - c.data.length = 0 by omega] at hd
          unfold decodeBlock at hd
          simp only [if_true, Option.some.injEq, Prod.mk.injEq] at hd
          obtain ⟨rfl, hh, rfl⟩ := hd
          have : new = [] := by
            have := congrArg List.length hh
            rw [hnew] at this
            simp at this
            exact this
          subst this
          simp
        · rw [if_neg hfull, hd]
          simp only [Option.some.injEq, Prod.mk.injEq, and_true, Chunk.mk.injEq, true_and]
          rw [hnew]
          have : (new ++ (c.data.reverse ++ c.before.reverse)).length - c.before.length = (new ++ c.data.reverse).length := by
            simp; omega
          rw [this, ← List.append_assoc, List.take_left]
          simp
      subst hnew
      have hdl : C ≤ (c.data ++ new.reverse).length := by simp at hlen ⊢; omega
      -- common facts about the final history
      obtain ⟨fin, hfin⟩ := decodeBlock_suffix g2
      have hshown : (c.data ++ new.reverse).take C = (H.reverse.drop (t.length + c.before.length)).take C := by
        rw [hfin]
        simp only [List.reverse_append, List.reverse_reverse, List.append_assoc]
        rw [← List.append_assoc t.reverse, List.drop_append_of_le_length (by simp),
          List.drop_of_length_le (by simp), List.nil_append, ← List.append_assoc c.data,
          List.take_append_of_le_length hdl]
      unfold decodeRows
      simp only [hfill, Option.bind_eq_bind, Option.bind_some]
      by_cases hn0 : n = 0
      · subst hn0
        simp only [if_true]
        refine ⟨_, rfl, rfl, ?_, ?_⟩
        · simp [Chunk.shown]; simp at hdl; omega
        · simp only [Chunk.shown, List.flatten_cons, List.flatten_nil, List.append_nil]
          rw [hshown, show (0 + 1) * C = C by omega]
      · rw [if_neg hn0]
        -- next chunk
        generalize hD : c.data ++ new.reverse = D at *
        have hDl : D.length = c.data.length + new.length := by rw [← hD]; simp
        generalize hh : (if D.length - C < 4 then 4 - (D.length - C) else 0) = hist
        have hk : hist + (D.length - C) ≤ D.length := by split at hh <;> omega
        have hk4 : 4 ≤ hist + (D.length - C) := by split at hh <;> omega
        generalize hcells : c.before ++ D = cells
        have hcl : cells.length = c.before.length + D.length := by rw [← hcells]; simp
        have hnext : Chunk.next C ⟨c.before, D⟩ = some
            ⟨(cells.drop (cells.length - (hist + (D.length - C)))).take hist,
             (cells.drop (cells.length - (hist + (D.length - C)))).drop hist⟩ := by
          unfold Chunk.next
          simp only [hh, hcells]
          rw [if_neg (by omega)]
        simp only [hnext, Option.bind_some]
        generalize hcop : cells.drop (cells.length - (hist + (D.length - C))) = copied
        have hcopl : copied.length = hist + (D.length - C) := by rw [← hcop]; simp; omega
        have hcd : (copied.drop hist).length = D.length - C := by simp; omega
        have hct : (copied.take hist).length = hist := by simp; omega
        -- the whole history split at the copied part
        have hall : new ++ (c.data.reverse ++ c.before.reverse) ++ t =
            (copied.drop hist).reverse ++ (copied.take hist).reverse ++
              ((cells.take (cells.length - (hist + (D.length - C)))).reverse ++ t) := by
          have a1 : (copied.drop hist).reverse ++ (copied.take hist).reverse = copied.reverse := by
            rw [← List.reverse_append, List.take_append_drop]
          have a2 : copied.reverse ++ (cells.take (cells.length - (hist + (D.length - C)))).reverse = cells.reverse := by
            rw [← hcop, ← List.reverse_append, List.take_append_drop]
          rw [a1, ← List.append_assoc copied.reverse, a2, ← hcells, ← hD]
          simp
        have hmul : (n + 1) * C = n * C + C := by rw [Nat.add_mul, Nat.one_mul]
        have g2' : decodeBlock s2 ((copied.drop hist).reverse ++ (copied.take hist).reverse ++
              ((cells.take (cells.length - (hist + (D.length - C)))).reverse ++ t))
            (n * C - (copied.drop hist).length) r2 = some (st', H, rest) := by
          rw [← g2, hall, hcd]
          congr 1
          rw [← hall]
          simp
          omega
        obtain ⟨rows, q1, q2, q3, q4⟩ := ih ⟨copied.take hist, copied.drop hist⟩ _ s2 r2
          (by left; simp only [hcd, hct]; omega) g2'
        refine ⟨D.take C :: rows, ?_, ?_, ?_, ?_⟩
        · simp only [q1, Option.bind_some]; rfl
        · simp [q2]
        · intro r hr
          simp only [List.mem_cons] at hr
          rcases hr with rfl | hr
          · simp; omega
          · exact q3 r hr
        · simp only [List.flatten_cons, q4]
          rw [hshown, hct]
          have : (List.take (cells.length - (hist + (D.length - C))) cells).reverse.length =
              cells.length - (hist + (D.length - C)) := by simp
          rw [List.length_append, this,
            show cells.length - (hist + (D.length - C)) + t.length + hist = C + (t.length + c.before.length) by omega,
            hmul, Nat.add_comm (n * C) C, List.take_add, List.drop_drop, Nat.add_comm C (t.length + _)]

end Verif.Pqoi
