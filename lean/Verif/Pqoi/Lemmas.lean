import Verif.Pqoi.Model

set_option linter.unusedSimpArgs false
namespace Verif.Pqoi

attribute [local irreducible] hashPixel remember

theorem decodeDeltas_eq : decodeDeltas = deltas.tail := by decide +kernel
theorem deltas_length : deltas.length = 125 := by decide +kernel

theorem foldl_writes (ws : List (Pixel × Nat)) (t : Pixel → Nat) (k : Pixel) :
    (ws.foldl (fun t w => fun k => if k = w.1 then w.2 else t k) t) k = t k ∨
    (k, (ws.foldl (fun t w => fun k => if k = w.1 then w.2 else t k) t) k) ∈ ws := by
  induction ws generalizing t with
  | nil => left; rfl
  | cons w ws ih =>
    simp only [List.foldl_cons]
    rcases ih (fun k => if k = w.1 then w.2 else t k) with h | h
    · by_cases hk : k = w.1
      · right
        rw [h]; simp only [hk, if_pos]
        exact List.mem_cons_self
      · left
        rw [h]; simp [hk]
    · right; exact List.mem_cons_of_mem _ h

theorem diffIndex_spec (d : Pixel) (h : diffIndex d ≠ 0) :
    (1 ≤ diffIndex d ∧ diffIndex d ≤ 124 ∧ decodeDeltas[diffIndex d - 1]? = some d) ∨
    (∃ gd rd bd, gd < 32 ∧ rd < 16 ∧ bd < 16 ∧ diffIndex d = (160 + gd) * 256 + rd * 16 + bd ∧
      lumaDiff gd rd bd = d) := by
  have := foldl_writes tableWrites (fun _ => 0) d
  change diffIndex d = 0 ∨ (d, diffIndex d) ∈ tableWrites at this
  rcases this with h' | h'
  · exact absurd h' h
  · unfold tableWrites at h'
    rw [List.mem_append] at h'
    rcases h' with h' | h'
    · right
      simp only [List.mem_flatMap, List.mem_map, List.mem_range, Prod.mk.injEq] at h'
      obtain ⟨gd, hgd, rd, hrd, bd, hbd, h1, h2⟩ := h'
      refine ⟨gd, rd, bd, hgd, hrd, hbd, ?_, h1⟩
      rw [← h2]; omega
    · left
      simp only [List.mem_map, List.mem_range, Prod.mk.injEq] at h'
      obtain ⟨i, hi, h1, h2⟩ := h'
      rw [← h2]
      refine ⟨by omega, by omega, ?_⟩
      rw [decodeDeltas_eq, List.getElem?_tail]
      have hl := deltas_length
      rw [List.getElem?_eq_getElem (by omega)] at h1 ⊢
      simpa using h1

theorem runLength_le_cap (p : Pixel) (n : Nat) (l : List Pixel) : runLength p n l ≤ n := by
  fun_induction runLength p n l <;> omega

theorem runLength_le (p : Pixel) (n : Nat) (l : List Pixel) : runLength p n l ≤ l.length := by
  fun_induction runLength p n l <;> simp <;> omega

theorem runLength_take (p : Pixel) (n : Nat) (l : List Pixel) :
    l.take (runLength p n l) = List.replicate (runLength p n l) p := by
  fun_induction runLength p n l with
  | case1 => simp
  | case2 => simp
  | case3 n xs ih => simp [List.replicate_succ, ih]
  | case4 => simp

/-- The possible outcomes of `chooseOp`. -/
inductive Chosen (di : Pixel → Nat) (st : Base) (prev rest : List Pixel) (pixel : Pixel) : Nat → Nat → Prop
  | stash (h : st.stash (hashPixel pixel) = pixel) : Chosen di st prev rest pixel ((hashPixel pixel).val + 192) 1
  | raw : Chosen di st prev rest pixel
      (rawOp pixel) 1
  | diff (h : di (pixel - st.pixel) ≠ 0) : Chosen di st prev rest pixel (di (pixel - st.pixel)) 1
  | copy2 (h1 : prev.length ≥ 2) (h2 : rest.length ≥ 2) (h : rest.take 2 = (prev.take 2).reverse) :
      Chosen di st prev rest pixel 125 2
  | copy4 (h1 : prev.length ≥ 4) (h2 : rest.length ≥ 4) (h : rest.take 4 = (prev.take 4).reverse) :
      Chosen di st prev rest pixel 126 4
  | copy8 (h1 : prev.length ≥ 4) (h2 : rest.length ≥ 8)
      (h : rest.take 8 = (prev.take 4).reverse ++ (prev.take 4).reverse) :
      Chosen di st prev rest pixel 127 8
  | run (n : Nat) (h1 : 2 ≤ n) (h2 : n ≤ 33) (h3 : n ≤ rest.length)
      (h : rest.take n = List.replicate n st.pixel) : Chosen di st prev rest pixel (n + 126) n

theorem chooseOp_chosen (di st prev rest pixel) :
    Chosen di st prev rest pixel (chooseOp di st prev rest pixel).1 (chooseOp di st prev rest pixel).2 := by
  have h0 : Chosen di st prev rest pixel (if st.stash (hashPixel pixel) = pixel then (hashPixel pixel).val + 192
    else if di (pixel - st.pixel) = 0 then rawOp pixel
    else di (pixel - st.pixel)) 1 := by
    split
    · exact .stash ‹_›
    · split
      · exact .raw
      · exact .diff ‹_›
  unfold chooseOp
  simp only
  generalize (if st.stash (hashPixel pixel) = pixel then (hashPixel pixel).val + 192
    else if di (pixel - st.pixel) = 0 then rawOp pixel
    else di (pixel - st.pixel)) = op0 at h0
  have h1 : ∀ r, r = (if prev.length ≥ 2 ∧ rest.length ≥ 2 ∧ rest.take 2 = (prev.take 2).reverse
    then (125, 2) else (op0, 1)) → Chosen di st prev rest pixel r.1 r.2 ∧ 1 ≤ r.2 := by
    rintro r rfl
    split
    · rename_i h; exact ⟨.copy2 h.1 h.2.1 h.2.2, by simp⟩
    · exact ⟨h0, by simp⟩
  generalize (if prev.length ≥ 2 ∧ rest.length ≥ 2 ∧ rest.take 2 = (prev.take 2).reverse
    then (125, 2) else (op0, 1)) = r1 at *
  obtain ⟨op1, l1⟩ := r1
  have h1 := h1 _ rfl
  simp only
  have h2 : ∀ r, r = (if prev.length ≥ 4 ∧ rest.length ≥ 4 ∧ rest.take 4 = (prev.take 4).reverse
    then (126, 4) else (op1, l1)) → Chosen di st prev rest pixel r.1 r.2 ∧ 1 ≤ r.2 := by
    rintro r rfl
    split
    · rename_i h; exact ⟨.copy4 h.1 h.2.1 h.2.2, by simp⟩
    · exact h1
  generalize (if prev.length ≥ 4 ∧ rest.length ≥ 4 ∧ rest.take 4 = (prev.take 4).reverse
    then (126, 4) else (op1, l1)) = r2 at *
  obtain ⟨op2, l2⟩ := r2
  have h2 := h2 _ rfl
  simp only
  have h3 : ∀ r, r = (if prev.length ≥ 8 ∧ rest.length ≥ 8 ∧
      rest.take 8 = (prev.take 4).reverse ++ (prev.take 4).reverse
    then (127, 8) else (op2, l2)) → Chosen di st prev rest pixel r.1 r.2 ∧ 1 ≤ r.2 := by
    rintro r rfl
    split
    · rename_i h; exact ⟨.copy8 (by omega) h.2.1 h.2.2, by simp⟩
    · exact h2
  generalize (if prev.length ≥ 8 ∧ rest.length ≥ 8 ∧
      rest.take 8 = (prev.take 4).reverse ++ (prev.take 4).reverse
    then (127, 8) else (op2, l2)) = r3 at *
  obtain ⟨op3, l3⟩ := r3
  have h3 := h3 _ rfl
  simp only at h3 ⊢
  split
  · split
    · exact .run _ (by omega) (runLength_le_cap _ _ _) (runLength_le _ _ _) (runLength_take _ _ _)
    · exact h3.1
  · exact h3.1

theorem remember_stash (st : Base) (p : Pixel) (h : st.stash (hashPixel p) = p) :
    remember st p = { st with pixel := p } := by
  unfold remember
  congr
  funext i
  split
  · rename_i e; rw [e, h]
  · rfl

theorem rawOp_eq (pixel : Pixel) :
    rawOp pixel = 16777216 + (pixel.toNat % 256) * 256 + pixel.toNat / 256 := by
  have hp := pixel.isLt
  unfold rawOp
  generalize pixel.toNat = n at *
  have a1 : n &&& 0xff = n % 256 := Nat.and_two_pow_sub_one_eq_mod n 8
  rw [a1, Nat.shiftRight_eq_div_pow]
  have hm := Nat.mod_lt n (show 0 < 256 by omega)
  have hlt : n / 2^8 < 2^8 := by omega
  have b1 : 0x1000000 ||| ((n % 256) <<< 8) = (65536 + n % 256) <<< 8 := by
    have h1 : 0x1000000 = 256 <<< 16 := by rw [Nat.shiftLeft_eq]
    have h2 := Nat.shiftLeft_add_eq_or_of_lt (i := 16) (b := (n % 256) <<< 8) (by rw [Nat.shiftLeft_eq]; omega) 256
    rw [h1, ← h2]
    simp only [Nat.shiftLeft_eq]; omega
  rw [b1, ← Nat.shiftLeft_add_eq_or_of_lt hlt, Nat.shiftLeft_eq]
  omega

theorem opBytes_raw (pixel : Pixel) :
    opBytes (rawOp pixel) = [0, pixel.toNat % 256, pixel.toNat / 256] := by
  rw [rawOp_eq]
  have hp := pixel.isLt
  generalize pixel.toNat = n at *
  obtain ⟨a, b, ha, hb, hn⟩ : ∃ a b, a < 256 ∧ b < 256 ∧ n = a * 256 + b := ⟨n/256, n%256, by omega, by omega, by omega⟩
  have e1 : n % 256 = b := by omega
  have e2 : n / 256 = a := by omega
  rw [e1, e2]
  clear e1 e2 hn hp
  have c1 : (16777216 + b * 256 + a) / 2^16 = 256 := by omega
  have c2 : (16777216 + b * 256 + a) / 2^8 = 65536 + b := by omega
  have c3 : (16777216 + b * 256 + a) % 256 = a := by omega
  have c4 : (65536 + b) % 256 = b := by omega
  simp only [opBytes, Nat.shiftRight_eq_div_pow]
  rw [if_pos (by omega), if_pos (by omega), c1, c2, c3, c4]
  rfl

theorem opBytes_small (op : Nat) (h : op < 256) : opBytes op = [op] := by
  simp only [opBytes]
  rw [if_neg (by omega), if_neg (by omega), Nat.mod_eq_of_lt h]
  rfl

theorem opBytes_mid (a b : Nat) (h : 0 < a) (ha : a < 256) (hb : b < 256) : opBytes (a * 256 + b) = [a, b] := by
  simp only [opBytes, Nat.shiftRight_eq_div_pow]
  rw [if_neg (by omega), if_pos (by omega)]
  have c1 : (a * 256 + b) / 2^8 % 256 = a := by omega
  have c2 : (a * 256 + b) % 256 = b := by omega
  rw [c1, c2]
  rfl

theorem decodeOne_stash (st : Base) (hist : List Pixel) (k : Fin 64) (more : List Nat) :
    decodeOne st hist ((k.val + 192) :: more) =
      some ({ st with pixel := st.stash k }, [st.stash k], more) := by
  have hl := k.isLt
  have hf : Fin.ofNat 64 (k.val + 192 - 192) = k := by
    apply Fin.ext
    show (k.val + 192 - 192) % 64 = k.val
    omega
  simp only [decodeOne, action]
  rw [if_neg (by omega), if_neg (by omega), if_neg (by omega), if_neg (by omega), if_neg (by omega),
    if_neg (by omega), if_neg (by omega)]
  simp only [hf]

theorem decodeOne_raw (st : Base) (hist : List Pixel) (b2 b3 : Nat) (more : List Nat) :
    decodeOne st hist (0 :: b2 :: b3 :: more) =
      some (remember st (BitVec.ofNat 16 (b3 * 256 + b2)), [BitVec.ofNat 16 (b3 * 256 + b2)], more) := by
  simp only [decodeOne, action, if_true, rawFinish]

theorem decodeOne_delta (st : Base) (hist : List Pixel) (op : Nat) (d : Pixel) (more : List Nat)
    (h1 : 1 ≤ op) (h2 : op ≤ 124) (h3 : decodeDeltas[op - 1]? = some d) :
    decodeOne st hist (op :: more) = some (remember st (st.pixel + d), [st.pixel + d], more) := by
  simp only [decodeOne, action]
  rw [if_neg (by omega), if_pos (by omega), h3]

theorem decodeOne_luma (st : Base) (hist : List Pixel) (gd rd bd : Nat) (more : List Nat)
    (h1 : gd < 32) (_h2 : rd < 16) (h3 : bd < 16) :
    decodeOne st hist ((160 + gd) :: (rd * 16 + bd) :: more) =
      some (remember st (st.pixel + lumaDiff gd rd bd), [st.pixel + lumaDiff gd rd bd], more) := by
  simp only [decodeOne, action]
  rw [if_neg (by omega), if_neg (by omega), if_neg (by omega), if_neg (by omega), if_neg (by omega),
    if_neg (by omega), if_pos (by omega)]
  simp only [lumaFinish]
  have r1 : (rd * 16 + bd) >>> 4 = rd := by rw [Nat.shiftRight_eq_div_pow]; omega
  have r2 : (rd * 16 + bd) &&& 0xf = bd := by
    rw [Nat.and_two_pow_sub_one_eq_mod _ 4]; omega
  have r3 : 160 + gd - 160 = gd := by omega
  rw [r1, r2, r3]

theorem decodeOne_copy2 (st : Base) (hist : List Pixel) (more : List Nat) (h : 2 ≤ hist.length) :
    decodeOne st hist (125 :: more) = some (st, hist.take 2, more) := by
  have hh : ¬ hist.length < 2 := by omega
  simp [decodeOne, action, hh]

theorem decodeOne_copy4 (st : Base) (hist : List Pixel) (more : List Nat) (h : 4 ≤ hist.length) :
    decodeOne st hist (126 :: more) = some (st, hist.take 4, more) := by
  have hh : ¬ hist.length < 4 := by omega
  simp [decodeOne, action, hh]

theorem decodeOne_copy8 (st : Base) (hist : List Pixel) (more : List Nat) (h : 4 ≤ hist.length) :
    decodeOne st hist (127 :: more) = some (st, hist.take 4 ++ hist.take 4, more) := by
  have hh : ¬ hist.length < 4 := by omega
  simp [decodeOne, action, hh]

theorem decodeOne_run (st : Base) (hist : List Pixel) (n : Nat) (more : List Nat) (h1 : 2 ≤ n) (h2 : n ≤ 33) :
    decodeOne st hist ((n + 126) :: more) = some (st, List.replicate n st.pixel, more) := by
  simp only [decodeOne, action]
  rw [if_neg (by omega), if_neg (by omega), if_neg (by omega), if_neg (by omega), if_neg (by omega),
    if_pos (by omega)]
  have e : n + 126 - 128 + 2 = n := by omega
  simp only [e]

/-- One encoder iteration is undone by one decoder operation. -/
theorem step_roundtrip (st : Base) (prev older rest : List Pixel) (pixel : Pixel) (op l : Nat) (more : List Nat)
    (hr : rest.head? = some pixel) (hc : Chosen diffIndex st prev rest pixel op l) :
    1 ≤ l ∧ l ≤ rest.length ∧
    decodeOne st (prev ++ older) (opBytes op ++ more) =
      some (encState st pixel l, (rest.take l).reverse, more) := by
  have hne : 1 ≤ rest.length := by
    cases rest with
    | nil => simp at hr
    | cons a t => simp
  have t1 : rest.take 1 = [pixel] := by
    cases rest with
    | nil => simp at hr
    | cons a t => simp at hr; simp [hr]
  have es1 : encState st pixel 1 = remember st pixel := by unfold encState remember; rw [if_pos rfl]
  have esn : ∀ n, 2 ≤ n → encState st pixel n = st := by
    intro n hn; unfold encState; rw [if_neg (by omega)]
  cases hc with
  | stash h =>
    refine ⟨by omega, by omega, ?_⟩
    rw [es1, t1, remember_stash st pixel h]
    have hl := (hashPixel pixel).isLt
    generalize hashPixel pixel = k at *
    rw [opBytes_small _ (by omega)]
    rw [List.cons_append, List.nil_append, decodeOne_stash, h]
    rfl
  | raw =>
    refine ⟨by omega, by omega, ?_⟩
    rw [es1, t1, opBytes_raw]
    have hp := pixel.isLt
    have : BitVec.ofNat 16 (pixel.toNat / 256 * 256 + pixel.toNat % 256) = pixel := by
      apply BitVec.eq_of_toNat_eq; rw [BitVec.toNat_ofNat]; omega
    simp only [List.cons_append, List.nil_append]
    rw [decodeOne_raw, this]
    rfl
  | diff h =>
    refine ⟨by omega, by omega, ?_⟩
    rw [es1, t1]
    have ep : st.pixel + (pixel - st.pixel) = pixel := by rw [BitVec.add_comm, BitVec.sub_add_cancel]
    rcases diffIndex_spec _ h with ⟨h1, h2, h3⟩ | ⟨gd, rd, bd, h1, h2, h3, h4, h5⟩
    · generalize diffIndex (pixel - st.pixel) = op at *
      rw [opBytes_small _ (by omega)]
      simp only [List.cons_append, List.nil_append]
      rw [decodeOne_delta _ _ _ _ _ h1 h2 h3, ep]
      rfl
    · rw [h4, Nat.add_assoc, opBytes_mid _ _ (by omega) (by omega) (by omega)]
      simp only [List.cons_append, List.nil_append]
      rw [decodeOne_luma _ _ _ _ _ _ h1 h2 h3, h5, ep]
      rfl
  | copy2 h1 h2 h =>
    refine ⟨by omega, by omega, ?_⟩
    rw [opBytes_small _ (by omega)]
    simp only [List.cons_append, List.nil_append]
    rw [decodeOne_copy2 _ _ _ (by simp; omega), h, esn _ (by omega), List.reverse_reverse,
      List.take_append_of_le_length h1]
  | copy4 h1 h2 h =>
    refine ⟨by omega, by omega, ?_⟩
    rw [opBytes_small _ (by omega)]
    simp only [List.cons_append, List.nil_append]
    rw [decodeOne_copy4 _ _ _ (by simp; omega), h, esn _ (by omega), List.reverse_reverse,
      List.take_append_of_le_length h1]
  | copy8 h1 h2 h =>
    refine ⟨by omega, by omega, ?_⟩
    rw [opBytes_small _ (by omega)]
    simp only [List.cons_append, List.nil_append]
    rw [decodeOne_copy8 _ _ _ (by simp; omega), h, esn _ (by omega), List.reverse_append, List.reverse_reverse,
      List.take_append_of_le_length h1]
  | run _ h1 h2 h3 h =>
    refine ⟨by omega, by omega, ?_⟩
    rw [opBytes_small _ (by omega), h, esn _ h1, List.reverse_replicate]
    simp only [List.cons_append, List.nil_append]
    rw [decodeOne_run _ _ _ _ h1 h2]

theorem encode_decode (st : Base) (prev older rest : List Pixel) (tail : List Nat) :
    decodeBlock st (prev ++ older) rest.length ((encodeLoop diffIndex st prev rest).2 ++ tail) =
      some ((encodeLoop diffIndex st prev rest).1, rest.reverse ++ (prev ++ older), tail) := by
  fun_induction encodeLoop diffIndex st prev rest with
  | case1 st prev => simp [decodeBlock]
  | case2 st prev pixel tl ol st' r ih =>
    have hs := step_roundtrip st prev older (pixel :: tl) pixel ol.1 ol.2 (r.2 ++ tail) rfl
      (chooseOp_chosen diffIndex st prev (pixel :: tl) pixel)
    obtain ⟨h1, h2, h3⟩ := hs
    unfold decodeBlock
    rw [if_neg (by simp)]
    rw [List.append_assoc]
    split
    · rename_i h; rw [h3] at h; cases h
    · rename_i a b c h
      rw [h3] at h
      cases h
      have e1 : (pixel :: tl).length - ((pixel :: tl).take ol.2).reverse.length = (tl.drop (ol.2 - 1)).length := by
        simp at h2 ⊢; omega
      rw [e1]
      rw [← List.append_assoc]
      have := ih
      rw [show r = encodeLoop diffIndex st' (((pixel :: tl).take ol.2).reverse ++ prev) (tl.drop (ol.2 - 1)) from rfl] at *
      rw [this]
      have e2 : (pixel :: tl) = (pixel :: tl).take ol.2 ++ (tl.drop (ol.2 - 1)) := by
        conv => lhs; rw [← List.take_append_drop ol.2 (pixel :: tl)]
        congr 1
        rw [show ol.2 = (ol.2 - 1) + 1 by omega]; simp
      congr 2
      congr 1
      conv => rhs; rw [e2]
      simp

end Verif.Pqoi
