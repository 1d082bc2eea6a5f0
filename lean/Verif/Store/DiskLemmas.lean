import Verif.Store.Disk

set_option linter.unusedSimpArgs false
namespace Verif.Store

/-! ### Writes -/

theorem putAll_append (f : File) (a b : List (Nat × Nat)) : f.putAll (a ++ b) = (f.putAll a).putAll b := by
  simp [File.putAll, List.foldl_append]

theorem seqWrites_length (p : Nat) (l : List Nat) : (seqWrites p l).length = l.length := by
  induction l generalizing p with
  | nil => rfl
  | cons b l ih => simp [seqWrites, ih]

theorem seqWrites_take (p k : Nat) (l : List Nat) : (seqWrites p l).take k = seqWrites p (l.take k) := by
  induction l generalizing p k with
  | nil => simp [seqWrites]
  | cons b l ih => cases k <;> simp [seqWrites, ih]

theorem put_get (f : File) (p b q : Nat) (h : p ≤ f.size) :
    (f.put (p, b)).get q = if q = p then b else f.get q := by
  unfold File.get File.put
  by_cases hq : q = p
  · subst hq
    have : q < max f.size (q + 1) := by omega
    simp [this]
  · have : (q < max f.size (p + 1)) ↔ q < f.size := by omega
    simp [hq, this]

theorem putAll_seq (f : File) (p : Nat) (l : List Nat) (h : p ≤ f.size) :
    (f.putAll (seqWrites p l)).size = max f.size (p + l.length) ∧
    ∀ q, (f.putAll (seqWrites p l)).get q = if p ≤ q then (l[q - p]?).getD (f.get q) else f.get q := by
  induction l generalizing f p with
  | nil => simp [seqWrites, File.putAll]; omega
  | cons b l ih =>
    have hs : p + 1 ≤ (f.put (p, b)).size := by simp [File.put]; omega
    obtain ⟨h1, h2⟩ := ih (f.put (p, b)) (p + 1) hs
    have e : f.putAll (seqWrites p (b :: l)) = (f.put (p, b)).putAll (seqWrites (p + 1) l) := rfl
    refine ⟨?_, ?_⟩
    · rw [e, h1]; simp [File.put]; omega
    · intro q
      rw [e, h2, put_get _ _ _ _ h]
      by_cases hq : q = p
      · subst hq; simp
        intro hh; omega
      · by_cases hlt : p ≤ q
        · have h3 : p + 1 ≤ q := by omega
          have h4 : q - p = (q - (p + 1)) + 1 := by omega
          simp [hlt, h3, h4, hq]
        · have h3 : ¬ p + 1 ≤ q := by omega
          simp [hlt, h3, hq]

/-- A file read only through `get` and `size`. -/
theorem from_get (f : File) (p : Nat) : f.from p = (List.range (f.size - p)).map fun i => f.get (p + i) := by
  unfold File.from
  apply List.map_congr_left
  intro i hi
  have : p + i < f.size := by have := List.mem_range.1 hi; omega
  simp [File.get, this]

theorem slice_eq {f g : File} {p n : Nat} (h : ∀ q, p ≤ q → q < p + n → f.get q = g.get q) :
    f.slice p n = g.slice p n := by
  unfold File.slice
  apply List.map_congr_left
  intro i hi
  have := List.mem_range.1 hi
  exact h _ (by omega) (by omega)

theorem slice_list {f : File} {p : Nat} {l : List Nat} (h : ∀ i (hi : i < l.length), f.get (p + i) = l[i]) :
    f.slice p l.length = l := by
  apply List.ext_getElem
  · simp [File.slice]
  · intro i h1 h2; simp [File.slice, h i h2]

theorem slice_get {f : File} {p : Nat} {l : List Nat} (h : f.slice p l.length = l) (i : Nat) (hi : i < l.length) :
    f.get (p + i) = l[i] := by
  have h1 : i < (f.slice p l.length).length := by simp [File.slice]; exact hi
  have : (f.slice p l.length)[i] = l[i] := by simp only [h]
  rw [← this]; simp [File.slice]

/-! ### Headers -/

theorem rd32_le32 (n : Nat) (h : n < 2^32) : rd32 (le32 n) = n := by
  unfold rd32 le32; simp only; omega

theorem hdr_bytes_length (h : Hdr) : h.bytes.length = 16 := by simp [Hdr.bytes, le32]

theorem parse_bytes (h : Hdr) (h1 : h.magic < 2^32) (h2 : h.checksum < 2^32) (h3 : h.iteration < 2^32)
    (h4 : h.length < 2^32) : Hdr.parse h.bytes = h := by
  have e : Hdr.parse h.bytes = ⟨rd32 (le32 h.magic), rd32 (le32 h.checksum), rd32 (le32 h.iteration), rd32 (le32 h.length)⟩ := by
    simp [Hdr.parse, Hdr.bytes, le32]
  rw [e, rd32_le32 _ h1, rd32_le32 _ h2, rd32_le32 _ h3, rd32_le32 _ h4]

theorem checksum_lt (l : List Nat) : checksum l < 2^32 := by
  unfold checksum
  have : ∀ (l : List Nat) a, a < 2^32 → l.foldl (fun t b => (t * 997 + b) % 2^32) a < 2^32 := by
    intro l
    induction l with
    | nil => intro a h; exact h
    | cons b l ih => intro a h; exact ih _ (Nat.mod_lt _ (by decide))
  exact this l 0 (by decide)

/-- first byte of a header with the magic number -/
theorem parse_magic_first (l : List Nat) (h : l[0]? = some 0) (hl : ∀ b ∈ l, True) : (Hdr.parse l).magic ≠ magic := by
  unfold Hdr.parse
  simp only
  cases l with
  | nil => simp at h
  | cons a l =>
    simp at h; subst h
    cases l with
    | nil => decide
    | cons b l => cases l with
      | nil => simp [rd32, magic]
      | cons c l => cases l with
        | nil => simp [rd32, magic]
        | cons d l => simp [rd32, magic]; omega

/-- The header a save of text `t` writes. -/
def newHdr (t : List Nat) (it : Nat) : Hdr := ⟨magic, checksum t, it, t.length⟩

theorem newHdr_parse (t : List Nat) (it : Nat) (hi : it < 2^31) (ht : t.length < 2^31) :
    Hdr.parse (newHdr t it).bytes = newHdr t it :=
  parse_bytes _ (by simp [newHdr, magic]) (checksum_lt _) (by simp [newHdr]; omega) (by simp [newHdr]; omega)

/-- The file holds a complete save of `t` with iteration `it`. -/
structure Good (inst : List Nat) (t : List Nat) (it : Nat) (f : File) : Prop where
  a : f.slice 0 16 = (newHdr t it).bytes
  b : f.slice 16 16 = (newHdr t it).bytes
  i : f.slice 32 inst.length = inst
  size : 512 + t.length ≤ f.size
  data : ∀ i (h : i < t.length), f.get (512 + i) = t[i]

/-- No header that could be accepted with an iteration of `it` or more. -/
def Clean (inst : List Nat) (it : Nat) (f : File) : Prop :=
  f.slice 32 inst.length ≠ inst ∨ (Hdr.parse (f.slice 16 16)).magic ≠ magic ∨
  (1 ≤ toInt32 (Hdr.parse (f.slice 16 16)).iteration ∧ toInt32 (Hdr.parse (f.slice 16 16)).iteration < it)

theorem Good.header {inst t it f} (g : Good inst t it f) (hi : it < 2^31) (ht : t.length < 2^31) :
    f.header inst = newHdr t it := by
  unfold File.header
  rw [g.a, g.b, g.i]; simp [newHdr_parse t it hi ht]

theorem Good.iter {inst t it f} (g : Good inst t it f) (hi : it < 2^31) (ht : t.length < 2^31) :
    (f.header inst).iter = it := by
  rw [g.header hi ht]; simp [Hdr.iter, Hdr.valid, newHdr, toInt32, hi]

theorem Good.checksumOk {inst t it f junk} (g : Good inst t it f) (hi : it < 2^31) (ht : t.length < 2^31) :
    f.checksumOk junk (f.header inst) = true := by
  rw [g.header hi ht]
  have hl : (toInt32 (newHdr t it).length).toNat = t.length := by
    simp only [newHdr, toInt32, ht, if_true]; omega
  unfold File.checksumOk
  rw [hl]
  have : ((List.range t.length).map fun i => if 512 + i < f.size then f.byte (512 + i) else junk i) = t := by
    apply List.ext_getElem
    · simp
    · intro i h1 h2
      have hs := g.size
      have hlt : 512 + i < f.size := by omega
      have := g.data i h2
      rw [File.get, if_pos hlt] at this
      simp [hlt, this]
  rw [this]
  simp [newHdr, Hdr.valid]

theorem Good.text {inst t it f} (g : Good inst t it f) : ∃ stale, f.from 512 = t ++ stale := by
  rw [from_get]
  have hs := g.size
  refine ⟨((List.range (f.size - 512)).map fun i => f.get (512 + i)).drop t.length, ?_⟩
  conv => lhs; rw [← List.take_append_drop t.length ((List.range (f.size - 512)).map fun i => f.get (512 + i))]
  congr 1
  apply List.ext_getElem
  · simp; omega
  · intro i h1 h2; simp [g.data i h2]

theorem Good.clean {inst t it f} (g : Good inst t it f) (h1 : 1 ≤ it) (hi : it < 2^31) (ht : t.length < 2^31) :
    Clean inst (it + 1) f := by
  refine Or.inr (Or.inr ?_)
  rw [g.b, newHdr_parse t it hi ht]
  simp only [newHdr, toInt32, hi, if_true]
  omega

theorem Clean.header {inst it f} (c : Clean inst it f) :
    (f.header inst).iter = 0 ∧ (f.header inst).valid = false ∨
    (1 ≤ (f.header inst).iter ∧ (f.header inst).iter < it) := by
  unfold File.header
  by_cases ha : f.slice 0 16 = f.slice 16 16
  · by_cases hi : f.slice 32 inst.length = inst
    · rw [if_neg (by simp [ha]), if_neg (by simp [hi]), ha]
      rcases c with c | c | c
      · exact absurd hi c
      · left; simp [Hdr.iter, Hdr.valid, c]
      · by_cases hm : (Hdr.parse (f.slice 16 16)).magic = magic
        · right; simpa [Hdr.iter, Hdr.valid, hm] using c
        · left; simp [Hdr.iter, Hdr.valid, hm]
    · rw [if_neg (by simp [ha]), if_pos hi]; left; decide
  · rw [if_pos ha]; left; decide

theorem Clean.mono {inst it it' f} (c : Clean inst it f) (h : it ≤ it') : Clean inst it' f := by
  rcases c with c | c | c
  · exact Or.inl c
  · exact Or.inr (Or.inl c)
  · exact Or.inr (Or.inr ⟨c.1, by omega⟩)

theorem Clean.congr {inst it f g} (c : Clean inst it f) (hb : g.slice 16 16 = f.slice 16 16)
    (hi : g.slice 32 inst.length = f.slice 32 inst.length) : Clean inst it g := by
  unfold Clean at *; rw [hb, hi]; exact c

theorem Clean.of_zero {inst it f} (h : f.get 16 = 0) : Clean inst it f := by
  refine Or.inr (Or.inl (parse_magic_first _ ?_ (by simp)))
  simp [File.slice, h]

/-! ### One save, interrupted or not -/

/-- zero filling of a file of size `s` -/
def zeros (s : Nat) : Nat := (maxSize - s + 511) / 512 * 512

theorem zeros_spec (s : Nat) : (zeros s = 0 ∧ maxSize ≤ s) ∨ (512 ≤ zeros s) := by
  unfold zeros maxSize; omega

/-- the position in `saveWrites` where the header begins -/
def headAt (f : File) (t : List Nat) : Nat := zeros f.size + t.length

/-- The file after `k` bytes of a save. -/
def after (inst : List Nat) (f : File) (t : List Nat) (it k : Nat) : File :=
  f.putAll ((saveWrites inst f t it).take k)

/-- Everything needed about an interrupted save, in terms of bytes `16..31`, the install time and
the complete file. -/
theorem after_cases (inst : List Nat) (hinst : 32 + inst.length ≤ 512) (f : File) (t : List Nat) (it k : Nat) :
    let g := after inst f t it k
    -- nothing relevant written, or the second header copy is dead
    (k ≤ headAt f t + 16 → (g.slice 16 16 = f.slice 16 16 ∧ g.slice 32 inst.length = f.slice 32 inst.length)
      ∨ g.get 16 = 0) ∧
    -- the first header copy and the data are complete
    (headAt f t + 16 ≤ k → g.slice 0 16 = (newHdr t it).bytes ∧ 512 + t.length ≤ g.size ∧
      ∀ i (h : i < t.length), g.get (512 + i) = t[i]) ∧
    -- both copies are complete
    (headAt f t + 32 ≤ k → g.slice 16 16 = (newHdr t it).bytes) ∧
    -- everything is complete
    (headAt f t + 32 + inst.length ≤ k → g.slice 32 inst.length = inst) := by
  have hz := zeros_spec f.size
  have hzl : (List.replicate (zeros f.size) 0).length = zeros f.size := by simp
  have hbl := hdr_bytes_length (newHdr t it)
  -- decompose
  have e : (saveWrites inst f t it).take k =
      seqWrites 0 (List.replicate (min k (zeros f.size)) 0) ++
      (seqWrites 512 (t.take (k - zeros f.size)) ++
      seqWrites 0 ((headerBlock inst (newHdr t it)).take (k - headAt f t))) := by
    unfold saveWrites
    rw [List.append_assoc, List.take_append, List.take_append, seqWrites_take, seqWrites_take, seqWrites_take,
      seqWrites_length, seqWrites_length]
    have : (maxSize - f.size + 511) / 512 * 512 = zeros f.size := rfl
    rw [this, List.take_replicate, hzl]
    unfold newHdr headAt
    rw [Nat.sub_sub]
  have hH : (headerBlock inst (newHdr t it)).length = 32 + inst.length := by simp [headerBlock, hbl]; omega
  obtain ⟨s1, g1⟩ := putAll_seq f 0 (List.replicate (min k (zeros f.size)) 0) (by omega)
  generalize hf1 : f.putAll (seqWrites 0 (List.replicate (min k (zeros f.size)) 0)) = f1 at s1 g1
  have g1' : ∀ q, f1.get q = if q < min k (zeros f.size) then 0 else f.get q := by
    intro q; rw [g1]; simp only [Nat.zero_le, if_true, Nat.sub_zero, List.getElem?_replicate]
    split <;> simp
  simp at s1
  by_cases hk1 : k ≤ zeros f.size
  · -- still zero-filling
    have ht0 : t.take (k - zeros f.size) = [] := by rw [Nat.sub_eq_zero_of_le hk1]; rfl
    have hh0 : (headerBlock inst (newHdr t it)).take (k - headAt f t) = [] := by
      rw [Nat.sub_eq_zero_of_le (by unfold headAt; omega)]; rfl
    have eg : after inst f t it k = f1 := by
      unfold after; rw [e, ht0, hh0, putAll_append, hf1]; rfl
    rw [eg]
    refine ⟨?_, ?_, ?_, ?_⟩
    · intro _
      by_cases h16 : k ≤ 16
      · left
        exact ⟨slice_eq (fun q h1 h2 => by rw [g1', if_neg (by omega)]),
               slice_eq (fun q h1 h2 => by rw [g1', if_neg (by omega)])⟩
      · right; rw [g1', if_pos (by omega)]
    · intro h; unfold headAt at h; omega
    · intro h; unfold headAt at h; omega
    · intro h; unfold headAt at h; omega
  · have h512 : 512 ≤ f1.size := by rw [s1]; unfold maxSize at hz; omega
    obtain ⟨s2, g2⟩ := putAll_seq f1 512 (t.take (k - zeros f.size)) h512
    generalize hf2 : f1.putAll (seqWrites 512 (t.take (k - zeros f.size))) = f2 at s2 g2
    obtain ⟨s3, g3⟩ := putAll_seq f2 0 ((headerBlock inst (newHdr t it)).take (k - headAt f t)) (by omega)
    generalize hf3 : f2.putAll (seqWrites 0 ((headerBlock inst (newHdr t it)).take (k - headAt f t))) = f3 at s3 g3
    have eg : after inst f t it k = f3 := by
      unfold after; rw [e, putAll_append, putAll_append, hf1, hf2, hf3]
    rw [eg]
    simp only [Nat.zero_le, if_true, Nat.sub_zero, List.length_take] at g3 s3
    -- low bytes before the header is written
    have low : ∀ q, q < 512 → f2.get q = f1.get q := by
      intro q hq; rw [g2, if_neg (by omega)]
    have f3low : ∀ q, k - headAt f t ≤ q → f3.get q = f2.get q := by
      intro q hq
      rw [g3, List.getElem?_eq_none (by rw [List.length_take]; omega)]; rfl
    have f3new : ∀ q, q < k - headAt f t → (hq : q < (headerBlock inst (newHdr t it)).length) →
        f3.get q = (headerBlock inst (newHdr t it))[q] := by
      intro q h1 h2
      rw [g3, List.getElem?_take_of_lt h1, List.getElem?_eq_getElem h2]; rfl
    refine ⟨?_, ?_, ?_, ?_⟩
    · intro hk
      rcases hz with ⟨hz0, hzm⟩ | hz
      · left
        refine ⟨slice_eq (fun q h1 h2 => ?_), slice_eq (fun q h1 h2 => ?_)⟩ <;>
          rw [f3low q (by omega), low q (by omega), g1', if_neg (by omega)]
      · right
        rw [f3low 16 (by omega), low 16 (by omega), g1', if_pos (by omega)]
    · intro hk
      have htl : t.take (k - zeros f.size) = t := List.take_of_length_le (by unfold headAt at hk; omega)
      rw [htl] at g2 s2
      refine ⟨?_, by omega, ?_⟩
      · have h := @slice_list f3 0 (newHdr t it).bytes (by
          intro i hi
          rw [Nat.zero_add, f3new i (by omega) (by omega)]
          simp only [headerBlock]
          rw [List.getElem_append_left (by simp [hbl]; omega), List.getElem_append_left hi])
        rwa [hbl] at h
      · intro i hi
        have h' : f3.get (512 + i) = f2.get (512 + i) := by
          rw [g3, List.getElem?_eq_none (by rw [List.length_take]; omega)]; rfl
        rw [h', g2, if_pos (by omega), Nat.add_sub_cancel_left, List.getElem?_eq_getElem hi]; rfl
    · intro hk
      have h := @slice_list f3 16 (newHdr t it).bytes (by
        intro i hi
        rw [f3new (16 + i) (by omega) (by omega)]
        simp only [headerBlock]
        rw [List.getElem_append_left (by simp [hbl]; omega), List.getElem_append_right (by omega)]
        simp [hbl])
      rwa [hbl] at h
    · intro hk
      apply slice_list
      intro i hi
      rw [f3new (32 + i) (by omega) (by omega)]
      simp only [headerBlock]
      rw [List.getElem_append_right (by simp [hbl])]
      simp [hbl]

/-- Crash points that do not tear the second header copy (bytes 16 to 31 of the file). -/
def Untorn (f : File) (t : List Nat) (k : Nat) : Prop := k ≤ headAt f t + 16 ∨ headAt f t + 32 ≤ k

/-- After an interrupted save the file is either as harmless as before or completely saved. -/
theorem after_untorn (inst : List Nat) (hinst : 32 + inst.length ≤ 512) (f : File) (t : List Nat) (it c k : Nat)
    (hc : Clean inst c f) (hk : Untorn f t k) :
    Clean inst c (after inst f t it k) ∨ Good inst t it (after inst f t it k) := by
  obtain ⟨h1, h2, h3, h4⟩ := after_cases inst hinst f t it k
  rcases hk with hk | hk
  · rcases h1 hk with ⟨hb, hi⟩ | h0
    · exact Or.inl (hc.congr hb hi)
    · exact Or.inl (Clean.of_zero h0)
  · by_cases hi : (after inst f t it k).slice 32 inst.length = inst
    · obtain ⟨ha, hs, hd⟩ := h2 (by omega)
      exact Or.inr ⟨ha, h3 hk, hi, hs, hd⟩
    · exact Or.inl (Or.inl hi)

/-- A save torn inside the second header copy: not accepted, or completely saved. -/
theorem after_torn (inst : List Nat) (hinst : 32 + inst.length ≤ 512) (f : File) (t : List Nat) (it k : Nat)
    (hk : headAt f t + 16 ≤ k) :
    (after inst f t it k).header inst = ⟨0, 0, 0, 0⟩ ∨ Good inst t it (after inst f t it k) := by
  obtain ⟨h1, h2, h3, h4⟩ := after_cases inst hinst f t it k
  obtain ⟨ha, hs, hd⟩ := h2 hk
  by_cases hab : (after inst f t it k).slice 0 16 = (after inst f t it k).slice 16 16
  · by_cases hi : (after inst f t it k).slice 32 inst.length = inst
    · exact Or.inr ⟨ha, by rw [← hab, ha], hi, hs, hd⟩
    · left; unfold File.header; rw [if_neg (by simp [hab]), if_pos hi]
  · left; unfold File.header; rw [if_pos hab]

theorem save_writes_length (inst f t it) : (saveWrites inst f t it).length = headAt f t + 32 + inst.length := by
  unfold saveWrites
  simp only [List.length_append, seqWrites_length, List.length_replicate, headerBlock, hdr_bytes_length]
  unfold headAt zeros; omega

theorem after_full (inst : List Nat) (hinst : 32 + inst.length ≤ 512) (f : File) (t : List Nat) (it : Nat) :
    Good inst t it (f.putAll (saveWrites inst f t it)) := by
  have e : f.putAll (saveWrites inst f t it) = after inst f t it (headAt f t + 32 + inst.length) := by
    unfold after; rw [List.take_of_length_le (by rw [save_writes_length]; omega)]
  rw [e]
  obtain ⟨h1, h2, h3, h4⟩ := after_cases inst hinst f t it (headAt f t + 32 + inst.length)
  obtain ⟨ha, hs, hd⟩ := h2 (by omega)
  exact ⟨ha, h3 (by omega), h4 (by omega), hs, hd⟩

end Verif.Store
