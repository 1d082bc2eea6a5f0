import Verif.Pov.Rle
/-!
# C43: run length encoding
-/
set_option linter.unusedSimpArgs false
namespace Verif.Pov

theorem matchLen_spec : ∀ (n : Nat) (a b : List Nat), matchLen n a b ≤ n ∧ matchLen n a b ≤ a.length ∧ ∀ j, j < matchLen n a b → a[j]? = b[j]?
  | 0, a, b => by simp [matchLen]
  | n + 1, [], b => by simp [matchLen]
  | n + 1, x :: a, [] => by simp [matchLen]
  | n + 1, x :: a, y :: b => by
    unfold matchLen
    by_cases h : x = y
    · rw [if_neg (by simpa using h)]
      obtain ⟨h1, h2, h3⟩ := matchLen_spec n a b
      refine ⟨by omega, by simp; omega, ?_⟩
      intro j hj
      cases j with
      | zero => simp [h]
      | succ j => simp only [List.getElem?_cons_succ]; exact h3 j (by omega)
    · rw [if_pos h]; simp

theorem bestLoop_spec (inp : List Nat) (i : Nat) : ∀ (n p : Nat) (best off : Int), p + n ≤ 256 →
    (bestLoop inp i n p best off = (best, off)) ∨
    ∃ q : Nat, q < 256 ∧ q < i ∧ bestLoop inp i n p best off = ((matchLen 256 (inp.drop i) (inp.drop (i - 1 - q)) : Int), (q : Int))
  | 0, p, best, off, _ => Or.inl rfl
  | n + 1, p, best, off, hp => by
    unfold bestLoop
    by_cases h : i < p + 1
    · rw [if_pos h]; exact Or.inl rfl
    · rw [if_neg h]
      simp only
      split
      · rcases bestLoop_spec inp i n (p + 1) (matchLen 256 (inp.drop i) (inp.drop (i - 1 - p))) p (by omega) with h1 | h1
        · exact Or.inr ⟨p, by omega, by omega, h1⟩
        · exact Or.inr h1
      · exact bestLoop_spec inp i n (p + 1) best off (by omega)

theorem runLen_spec : ∀ (a : List Nat), a ≠ [] → 1 ≤ runLen a ∧ runLen a ≤ a.length ∧ (∀ j, j < runLen a → a[j]? = a[0]?) ∧
    (∀ m, m ≤ a.length → (∀ j, j < m → a[j]? = a[0]?) → m ≤ runLen a)
  | [], h => absurd rfl h
  | [x], _ => by
    refine ⟨by simp [runLen], by simp [runLen], ?_, fun m hm _ => by simpa [runLen] using hm⟩
    intro j hj
    have : j = 0 := by simp [runLen] at hj; omega
    subst this; rfl
  | x :: y :: a, _ => by
    unfold runLen
    by_cases h : x = y
    · rw [if_neg (by simpa using h)]
      obtain ⟨h1, h2, h3, h4⟩ := runLen_spec (y :: a) (by simp)
      subst h
      refine ⟨by omega, by simp at h2 ⊢; omega, ?_, ?_⟩
      · intro j hj
        cases j with
        | zero => rfl
        | succ j => rw [List.getElem?_cons_succ, h3 j (by omega)]; rfl
      · intro m hm hj
        cases m with
        | zero => omega
        | succ m =>
          have := h4 m (by simp at hm ⊢; omega) (fun j hj' => by have := hj (j + 1) (by omega); rw [List.getElem?_cons_succ] at this; rw [this]; rfl)
          omega
    · rw [if_pos h]
      refine ⟨by omega, by simp, ?_, ?_⟩
      · intro j hj; have : j = 0 := by omega
        subst this; rfl
      · intro m hm hj
        by_cases hm2 : m ≤ 1
        · exact hm2
        · have := hj 1 (by omega)
          simp at this
          exact absurd this.symm h

/-- C43: no 256 bytes are repeated at a distance of at most 256, unless they are all the same -/
def NoLongRepeat (inp : List Nat) : Prop :=
  ∀ i p, p < 256 → p < i → i + 256 ≤ inp.length → (∀ l, l < 256 → inp[i + l]? = inp[i - 1 - p + l]?) → ∀ l, l < 256 → inp[i + l]? = inp[i]?

/-- invariant of the encoder loop -/
structure EncInv (inp : List Nat) (s : Enc) (ts : List Tok) (k : Nat) : Prop where
  out : s.out = ts.flatMap Tok.bytes
  exp : Expands ts [] (inp.take s.i)
  le : s.i ≤ inp.length
  cnt : ∀ c, s.cnt = some c → c + s.out.getD c 0 + 2 ≤ s.out.length
  last : s.valid = true → ∃ us bs, ts = us ++ [.lit bs] ∧ s.cnt = some (us.flatMap Tok.bytes).length ∧ 128 * k + bs.length ≤ s.i
  full : 128 * k ≤ s.i
  size : s.out.length ≤ s.i + k + (if s.valid then 1 else 0)

theorem take_add_getD {inp : List Nat} {i : Nat} (h : i < inp.length) : inp.take (i + 1) = inp.take i ++ [inp.getD i 0] := by
  rw [List.take_add_one, List.getElem?_eq_getElem h, List.getD_eq_getElem?_getD, List.getElem?_eq_getElem h]
  rfl

/-- a token that is not literal is added -/
theorem EncInv.add {inp : List Nat} {s : Enc} {ts : List Tok} {k : Nat} (h : EncInv inp s ts k) (t : Tok) (ht : t.Ok) (n : Nat) (ha : t.Adds (inp.take s.i) (inp.take (s.i + n)))
    (hl : s.i + n ≤ inp.length) (hs : t.bytes.length + (if s.valid then 1 else 0) ≤ n) (bs : List Nat) (hb : bs = t.bytes) :
    EncInv inp { s with out := s.out ++ bs, i := s.i + n } (ts ++ [t]) k := by
  have hp := bytes_length_pos t
  have hc : ∀ c, s.cnt = some c → c + (s.out ++ bs).getD c 0 + 2 < (s.out ++ bs).length := by
    intro c hc
    have := h.cnt c hc
    rw [List.getD_eq_getElem?_getD] at this ⊢
    rw [List.getElem?_append_left (by omega), List.length_append, hb]
    omega
  have hv : ({ s with out := s.out ++ bs, i := s.i + n } : Enc).valid = false := by
    unfold Enc.valid
    cases hcn : s.cnt with
    | none => rfl
    | some c =>
      have := hc c hcn
      simp only [decide_eq_false_iff_not]
      omega
  refine ⟨?_, h.exp.snoc ht ha, hl, fun c e => Nat.le_of_lt (hc c e), ?_, ?_, ?_⟩
  · show s.out ++ bs = _
    rw [h.out, hb]; simp
  · intro hv'; rw [hv] at hv'; cases hv'
  · have := h.full
    show 128 * k ≤ s.i + n
    omega
  · rw [hv]
    have := h.size
    show (s.out ++ bs).length ≤ s.i + n + k + _
    rw [List.length_append, hb]
    simp only [Bool.false_eq_true, if_false]
    omega

theorem EncInv.step {inp : List Nat} (hyp : NoLongRepeat inp) {s : Enc} {ts : List Tok} {k : Nat} (h : EncInv inp s ts k) (hi : s.i < inp.length) :
    ∃ ts' k', EncInv inp (s.step inp) ts' k' ∧ s.i < (s.step inp).i := by
  have hne : inp.drop s.i ≠ [] := by
    intro e; have := congrArg List.length e; simp at this; omega
  obtain ⟨r1, r2, r3, r4⟩ := runLen_spec _ hne
  rw [List.length_drop] at r2
  unfold Enc.step
  simp only
  generalize hm : bestLoop inp s.i 256 0 (-1) (-1) = m
  generalize hl : runLen (inp.drop s.i) = l at *
  by_cases hcopy : m.1 > (l : Int) + 1 ∧ m.1 > (if s.valid = true then 3 else 2)
  · rw [if_pos hcopy]
    rcases bestLoop_spec inp s.i 256 0 (-1) (-1) (by omega) with h1 | ⟨q, hq, hqi, h1⟩
    · rw [hm] at h1; rw [h1] at hcopy; simp only at hcopy; omega
    rw [hm] at h1
    obtain ⟨m1, m2, m3⟩ := matchLen_spec 256 (inp.drop s.i) (inp.drop (s.i - 1 - q))
    generalize matchLen 256 (inp.drop s.i) (inp.drop (s.i - 1 - q)) = b at *
    rw [h1] at hcopy ⊢
    simp only at hcopy ⊢
    rw [List.length_drop] at m2
    have m3' : ∀ j, j < b → inp[s.i + j]? = inp[s.i - 1 - q + j]? := by
      intro j hj
      have := m3 j hj
      rwa [List.getElem?_drop, List.getElem?_drop] at this
    have hb : b ≤ 255 := by
      by_cases hb : b ≤ 255
      · exact hb
      · have hb : b = 256 := by omega
        subst hb
        have := hyp s.i q hq hqi (by omega) m3'
        have := r4 256 (by rw [List.length_drop]; omega) (fun j hj => by rw [List.getElem?_drop, List.getElem?_drop]; exact this j hj)
        omega
    have e1 : ((q : Int) % 256).toNat = q := by omega
    have e2 : ((b : Int) % 256).toNat = b := by omega
    have e3 : (b : Int).toNat = b := by omega
    rw [e1, e2, e3]
    refine ⟨ts ++ [.copy q b], k, h.add (.copy q b) ⟨by omega, by omega, hb⟩ b ?_ (by omega) ?_ [255, q, b] rfl, by show s.i < s.i + b; omega⟩
    · refine ⟨by rw [List.length_take]; omega, (inp.drop s.i).take b, ?_, by rw [List.length_take, List.length_drop]; omega, ?_⟩
      · exact List.take_add
      · intro j hj
        rw [List.getElem?_take_of_lt hj, List.getElem?_drop, List.length_take, Nat.min_eq_left (by omega), List.getElem?_take_of_lt (by omega)]
        exact m3' j hj
    · show 3 + _ ≤ b
      have := hcopy.2
      cases hv : s.valid <;> simp only [hv, Bool.false_eq_true, if_true, if_false] at this ⊢ <;> omega
  rw [if_neg hcopy]
  by_cases hrun : l ≥ (if s.valid = true then 3 else 2)
  · rw [if_pos hrun]
    generalize hl' : (if l > 127 then 127 else l) = l'
    have hl1 : l' ≤ 127 ∧ l' ≤ l ∧ (if s.valid = true then 3 else 2) ≤ l' := by
      subst hl'
      split
      · refine ⟨by omega, by omega, by split <;> omega⟩
      · exact ⟨by omega, by omega, hrun⟩
    have hl2 : 2 ≤ l' := by have := hl1.2.2; split at this <;> omega
    refine ⟨ts ++ [.run l' (inp.getD s.i 0)], k, h.add (.run l' (inp.getD s.i 0)) ⟨hl2, hl1.1⟩ l' ?_ (by omega) ?_ _ ?_, by show s.i < s.i + l'; omega⟩
    · show inp.take (s.i + l') = inp.take s.i ++ List.replicate l' (inp.getD s.i 0)
      rw [List.take_add]
      congr 1
      apply List.ext_getElem?
      intro j
      by_cases hj : j < l'
      · rw [List.getElem?_take_of_lt hj, List.getElem?_replicate_of_lt hj]
        rw [r3 j (by omega), List.getElem?_drop, Nat.add_zero, List.getD_eq_getElem?_getD, List.getElem?_eq_getElem hi]
        rfl
      · rw [List.getElem?_eq_none (by rw [List.length_take]; omega), List.getElem?_eq_none (by simp; omega)]
    · show 2 + _ ≤ l'
      have := hl1.2.2
      cases hv : s.valid <;> simp only [hv, Bool.false_eq_true, if_true, if_false] at this ⊢ <;> omega
    · show _ = [l' + 126, inp.getD s.i 0]
      congr 1; omega
  rw [if_neg hrun]
  have htk := take_add_getD hi
  by_cases hmore : s.valid = true ∧ s.count < 127
  · rw [if_pos hmore]
    obtain ⟨us, bs, rfl, hc, hk⟩ := h.last hmore.1
    obtain ⟨b, hb1, hb2, hb3⟩ := h.exp.inv_snoc
    obtain ⟨hb2, hb2'⟩ := hb2
    have hout : s.out = us.flatMap Tok.bytes ++ ((bs.length - 1) :: bs) := by rw [h.out]; simp [Tok.bytes]
    have hcount : s.count = bs.length - 1 := by
      unfold Enc.count
      rw [hc, hout, List.getD_eq_getElem?_getD, Option.getD_some, List.getElem?_append_right (by omega)]
      simp
    have hset : s.out.set (s.cnt.getD 0) (s.count + 1) ++ [inp.getD s.i 0] = (us ++ [Tok.lit (bs ++ [inp.getD s.i 0])]).flatMap Tok.bytes := by
      rw [hc, Option.getD_some, hout, List.set_append_right _ _ (by omega), hcount]
      simp [Tok.bytes]
      omega
    have hlen : (s.out.set (s.cnt.getD 0) (s.count + 1) ++ [inp.getD s.i 0]).length = (us.flatMap Tok.bytes).length + bs.length + 2 := by
      rw [hset]; simp [Tok.bytes]; omega
    have hget : (s.out.set (s.cnt.getD 0) (s.count + 1) ++ [inp.getD s.i 0]).getD (us.flatMap Tok.bytes).length 0 = bs.length := by
      rw [hset, List.flatMap_append, List.getD_eq_getElem?_getD, List.getElem?_append_right (by omega)]
      simp [Tok.bytes]
    have hbl : bs.length < 128 := by have := hmore.2; omega
    refine ⟨us ++ [.lit (bs ++ [inp.getD s.i 0])], k, ⟨hset, ?_, by show s.i + 1 ≤ _; omega, ?_, ?_, ?_, ?_⟩, by show s.i < s.i + 1; omega⟩
    · refine hb1.snoc ⟨by simp, by simp; omega⟩ ?_
      show inp.take (s.i + 1) = b ++ (bs ++ [inp.getD s.i 0])
      rw [htk, hb3]; simp
    · intro c hc'
      simp only at hc'
      rw [hc] at hc'; injection hc' with hc'; subst hc'
      show _ + (s.out.set (s.cnt.getD 0) (s.count + 1) ++ [inp.getD s.i 0]).getD _ 0 + 2 ≤ (s.out.set (s.cnt.getD 0) (s.count + 1) ++ [inp.getD s.i 0]).length
      rw [hget, hlen]; omega
    · intro _
      exact ⟨us, _, rfl, hc, by show _ ≤ s.i + 1; simp; omega⟩
    · have := h.full; show _ ≤ s.i + 1; omega
    · have hsz := h.size
      rw [hmore.1, if_pos rfl] at hsz
      have hv : ({ s with out := s.out.set (s.cnt.getD 0) (s.count + 1) ++ [inp.getD s.i 0], i := s.i + 1 } : Enc).valid = true := by
        unfold Enc.valid
        simp only [hc]
        rw [hc, Option.getD_some] at hget hlen
        rw [Option.getD_some, hget, hlen]
        simp; omega
      rw [hv, if_pos rfl]
      show (s.out.set (s.cnt.getD 0) (s.count + 1) ++ [inp.getD s.i 0]).length ≤ s.i + 1 + k + 1
      rw [List.length_append, List.length_set]; simp; omega
  · rw [if_neg hmore]
    have hget : (s.out ++ [0, inp.getD s.i 0]).getD s.out.length 0 = 0 := by
      rw [List.getD_eq_getElem?_getD, List.getElem?_append_right (by omega)]; simp
    have hv : ({ cnt := some s.out.length, out := s.out ++ [0, inp.getD s.i 0], i := s.i + 1 } : Enc).valid = true := by
      unfold Enc.valid
      simp only [hget]
      simp
    have hsz := h.size
    obtain ⟨k', hk1, hk2⟩ : ∃ k', 128 * k' ≤ s.i ∧ s.out.length ≤ s.i + k' := by
      by_cases hvalid : s.valid = true
      · rw [hvalid, if_pos rfl] at hsz
        obtain ⟨us, bs, rfl, hc, hk⟩ := h.last hvalid
        have hout : s.out = us.flatMap Tok.bytes ++ ((bs.length - 1) :: bs) := by rw [h.out]; simp [Tok.bytes]
        have hcount : s.count = bs.length - 1 := by
          unfold Enc.count
          rw [hc, hout, List.getD_eq_getElem?_getD, Option.getD_some, List.getElem?_append_right (by omega)]
          simp
        have : ¬ s.count < 127 := fun h => hmore ⟨hvalid, h⟩
        exact ⟨k + 1, by omega, by omega⟩
      · rw [if_neg hvalid] at hsz
        exact ⟨k, h.full, by omega⟩
    refine ⟨ts ++ [.lit [inp.getD s.i 0]], k', ⟨?_, ?_, by show s.i + 1 ≤ _; omega, ?_, ?_, ?_, ?_⟩, by show s.i < s.i + 1; omega⟩
    · show s.out ++ _ = _
      rw [h.out]; simp [Tok.bytes]
    · exact h.exp.snoc ⟨by simp, by simp⟩ htk
    · intro c hc
      simp only [Option.some.injEq] at hc
      subst hc
      rw [hget]; simp
    · intro _
      exact ⟨ts, _, rfl, by rw [h.out], by show _ ≤ s.i + 1; simp; omega⟩
    · show _ ≤ s.i + 1; omega
    · rw [hv, if_pos rfl]
      show (s.out ++ [0, inp.getD s.i 0]).length ≤ s.i + 1 + k' + 1
      simp; omega

theorem EncInv.loop {inp : List Nat} (hyp : NoLongRepeat inp) : ∀ (n : Nat) (s : Enc) (ts : List Tok) (k : Nat), EncInv inp s ts k → inp.length ≤ s.i + n →
    ∃ ts' k', EncInv inp (encLoop inp n s) ts' k' ∧ (encLoop inp n s).i = inp.length
  | 0, s, ts, k, h, hn => ⟨ts, k, h, by have := h.le; show s.i = _; omega⟩
  | n + 1, s, ts, k, h, hn => by
    unfold encLoop
    by_cases hi : s.i < inp.length
    · rw [if_pos hi]
      obtain ⟨ts', k', h', hlt⟩ := h.step hyp hi
      exact EncInv.loop hyp n _ ts' k' h' (by omega)
    · rw [if_neg hi]
      exact ⟨ts, k, h, by have := h.le; omega⟩

theorem encode_toks {inp : List Nat} (hyp : NoLongRepeat inp) : ∃ ts k, encode inp = ts.flatMap Tok.bytes ∧ Expands ts [] inp ∧ 128 * k ≤ inp.length ∧ (encode inp).length ≤ inp.length + k + 1 := by
  obtain ⟨ts, k, h, hi⟩ := EncInv.loop hyp inp.length ⟨0, [], none⟩ [] 0
    ⟨rfl, .nil _, by simp, by simp, by simp [Enc.valid], by simp, by simp⟩ (by simp)
  refine ⟨ts, k, h.out, ?_, ?_, ?_⟩
  · have := h.exp; rwa [hi, List.take_length] at this
  · have := h.full; omega
  · have := h.size
    unfold encode
    rw [hi] at this
    split at this <;> omega

/-- C43: decoding what the encoder made gives the original, whatever follows in memory -/
theorem C43_roundtrip_partial (inp : List Nat) (hyp : NoLongRepeat inp) (rest : List Nat) : decode inp.length (encode inp ++ rest) = some inp := by
  obtain ⟨ts, k, h1, h2, _⟩ := encode_toks hyp
  rw [h1]; exact decode_toks h2 rest

/-- C43: the output never needs more room than the encoder asks for (pov_tools/rle.h:63) -/
theorem C43_size (inp : List Nat) (hyp : NoLongRepeat inp) : (encode inp).length ≤ inp.length + 2 + inp.length / 128 := by
  obtain ⟨ts, k, _, _, h3, h4⟩ := encode_toks hyp
  omega

theorem adds_subset {t : Tok} {a b : List Nat} (ht : t.Ok) (h : t.Adds a b) (hb : ∀ x ∈ b, x < 256) : ∀ x ∈ t.bytes, x < 256 := by
  cases t with
  | lit bs =>
    simp only [Tok.Adds, Tok.Ok, Tok.bytes] at *
    subst h
    intro x hx
    rcases List.mem_cons.mp hx with rfl | hx
    · omega
    · exact hb x (by simp [hx])
  | run n v =>
    simp only [Tok.Adds, Tok.Ok, Tok.bytes] at *
    subst h
    have := hb v (by simp; omega)
    intro x hx
    simp at hx
    omega
  | copy o n =>
    simp only [Tok.Adds, Tok.Ok, Tok.bytes] at *
    intro x hx
    simp at hx
    omega

theorem expands_bytes {ts : List Tok} {a b : List Nat} (h : Expands ts a b) (hb : ∀ x ∈ b, x < 256) : ∀ x ∈ ts.flatMap Tok.bytes, x < 256 := by
  induction h with
  | nil => simp
  | cons h1 h2 h3 ih =>
    intro x hx
    rw [List.flatMap_cons] at hx
    rcases List.mem_append.mp hx with hx | hx
    · exact adds_subset h1 h2 (fun y hy => hb y (h3.prefix.subset hy)) x hx
    · exact ih hb x hx

/-- C43: everything stored fits in a byte -/
theorem C43_bytes (inp : List Nat) (hyp : NoLongRepeat inp) (hb : ∀ x ∈ inp, x < 256) : ∀ x ∈ encode inp, x < 256 := by
  obtain ⟨ts, k, h1, h2, _⟩ := encode_toks hyp
  rw [h1]; exact expands_bytes h2 hb

/-- short images have no long repeat -/
theorem short_ok (inp : List Nat) (h : inp.length ≤ 256) : NoLongRepeat inp := by
  intro i p _ hp hi; omega

example : NoLongRepeat [1, 2, 3, 1, 2, 3, 1, 2, 3, 9, 9, 9, 9] ∧ encode [1, 2, 3, 1, 2, 3, 1, 2, 3, 9, 9, 9, 9] = [2, 1, 2, 3, 255, 2, 6, 130, 9] :=
  ⟨short_ok _ (by decide), by decide +kernel⟩

/-- an image that repeats `1, 2` -/
def stripes (n : Nat) : List Nat := (List.replicate n [1, 2]).flatten

/-- C43: a repeat of 256 bytes is stored with length 0, and the image cannot be decoded -/
theorem C43_counterexample : encode (stripes 129) = [1, 1, 2, 255, 1, 0] ∧ decode (stripes 129).length (encode (stripes 129)) = none := by
  decide +kernel

end Verif.Pov
