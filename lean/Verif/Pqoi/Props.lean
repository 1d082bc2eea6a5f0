import Verif.Pqoi.RowLemmas
import Verif.Pqoi.AlphaLemmas

/-! Properties C41 (PQOI round trip), C42 (streaming) and C57 (image transparency). -/
set_option linter.unusedSimpArgs false
namespace Verif.Pqoi

attribute [local irreducible] hashPixel remember encodePixels

/-! ### C41 -/

/-- C41: decoding what the encoder produced gives back exactly the pixels, whatever codec state both
sides start from, whatever was decoded before and whatever bytes follow; it consumes exactly the
encoded bytes and leaves decoder and encoder in the same state. -/
theorem C41_roundtrip (st : Base) (older px : List Pixel) (tail : List Nat) :
    decodeBlock st older px.length ((encodePixels st px).2 ++ tail) =
      some ((encodePixels st px).1, px.reverse ++ older, tail) :=
  encodePixels_decode st older px tail

/-- Encode several images one after the other with one encoder object. -/
def encodeImages (st : Base) : List (List Pixel) → List Nat
  | [] => []
  | im :: ims => (encodePixels st im).2 ++ encodeImages (encodePixels st im).1 ims

/-- Decode images of the given sizes one after the other with one decoder object,
each into its own buffer. -/
def decodeImages (st : Base) (inp : List Nat) : List Nat → Option (List (List Pixel))
  | [] => some []
  | n :: ns => do
    let (st', h, rest) ← decodeBlock st [] n inp
    let ims ← decodeImages st' rest ns
    pure (h.reverse :: ims)

/-- C41: a sequence of images encoded by one encoder decodes to the same sequence. -/
theorem C41_roundtrip_sequence (st : Base) (ims : List (List Pixel)) (tail : List Nat) :
    decodeImages st (encodeImages st ims ++ tail) (ims.map List.length) = some ims := by
  induction ims generalizing st with
  | nil => rfl
  | cons im ims ih =>
    simp only [encodeImages, decodeImages, List.map_cons, List.append_assoc, C41_roundtrip,
      Option.bind_eq_bind, Option.bind_some, ih]
    simp

/-- C41: every encoded byte is a byte. -/
theorem C41_bytes (st : Base) (px : List Pixel) : ∀ b ∈ (encodePixels st px).2, b < 256 := by
  unfold encodePixels
  generalize ([] : List Pixel) = prev
  fun_induction encodeLoop diffIndex st prev px with
  | case1 => simp
  | case2 st prev pixel tl ol st' r ih =>
    intro b hb
    simp only [List.mem_append] at hb
    rcases hb with hb | hb
    · unfold opBytes at hb
      simp only [List.mem_append, List.mem_singleton] at hb
      rcases hb with (hb | hb) | hb
      · split at hb
        · simp at hb; omega
        · simp at hb
      · split at hb
        · simp at hb; omega
        · simp at hb
      · omega
    · exact ih b hb

example : decodeImages reset ([0, 0x34, 0x12, 129] ++ [7]) [1, 3] = some [[0x1234], [0x1234, 0x1234, 0x1234]] := by
  unfold decodeImages decodeBlock decodeOne; decide +kernel

/-! ### C42 -/

/-- C42: whatever pieces the bytes of an image arrive in - any number, any sizes, empty pieces, cut in
the middle of an operation - the streaming decoder produces exactly the pixels that were encoded and
leaves exactly the bytes behind the image unread. -/
theorem C42_any_pieces (st : Base) (px : List Pixel) (prev : Nat) (pieces : List (List Nat)) (tail : List Nat)
    (hpx : px ≠ []) (hp : pieces.flatten = (encodePixels st px).2 ++ tail) :
    ∃ s' rest, feed ⟨st, .start, prev, []⟩ [] px.length pieces = some (s', px.reverse, rest) ∧
      s'.inp ++ rest.flatten = tail ∧ s'.base = (encodePixels st px).1 ∧ s'.pos = .start := by
  have hb := C41_roundtrip st [] px tail
  rw [List.append_nil] at hb
  obtain ⟨p', hs⟩ := streamLoop_block _ _ _ prev prev _ _ _ _ hb
  have hlen : 0 < px.length := by cases px with
    | nil => exact absurd rfl hpx
    | cons => simp
  have hr : (read { (⟨st, .start, prev, []⟩ : SState) with inp := pieces.flatten } [] px.length).map N =
      some (⟨(encodePixels st px).1, .start, 0, tail⟩, px.reverse) := by
    rw [hp]
    simp only [read, hs, Option.map_some, N, SState.norm]
  obtain ⟨s', rest, g1, g2⟩ := feed_read _ [] px.length pieces hlen _ _ hr (by simp)
  refine ⟨s', rest, g1, ?_⟩
  simp only [N, SState.norm, Prod.mk.injEq, SState.mk.injEq, and_true] at g2
  obtain ⟨h1, h2, _, h4⟩ := g2
  exact ⟨h4, h1, h2⟩

/-- C42: the same for an arbitrary valid byte stream (not only one made by this encoder), started in
the middle of a stream (`older` already decoded). -/
theorem C42_any_stream (st : Base) (older : List Pixel) (n prev : Nat) (pieces : List (List Nat)) (hn : 0 < n)
    {st' h rest} (hb : decodeBlock st older n pieces.flatten = some (st', h, rest)) :
    ∃ s' r, feed ⟨st, .start, prev, []⟩ older n pieces = some (s', h, r) ∧
      s'.inp ++ r.flatten = rest ∧ s'.base = st' ∧ s'.pos = .start := by
  obtain ⟨p', hs⟩ := streamLoop_block _ _ _ prev prev _ _ _ _ hb
  have hr : (read { (⟨st, .start, prev, []⟩ : SState) with inp := pieces.flatten } older n).map N =
      some (⟨st', .start, 0, rest⟩, h) := by
    simp only [read, hs, Option.map_some, N, SState.norm]
  obtain ⟨s', r, g1, g2⟩ := feed_read _ older n pieces hn _ _ hr (decodeBlock_len hb)
  refine ⟨s', r, g1, ?_⟩
  simp only [N, SState.norm, Prod.mk.injEq, SState.mk.injEq, and_true] at g2
  obtain ⟨h1, h2, _, h4⟩ := g2
  exact ⟨h4, h1, h2⟩

/-- C42: one `read` writes at most 32 pixels beyond the end it was given (the documented padding),
whatever the bytes are and whatever state it is in; asked for nothing between operations it writes nothing. -/
theorem C42_overshoot (s : SState) (hist : List Pixel) (need : Nat) {s' h} (e : read s hist need = some (s', h)) :
    (0 < need → h.length ≤ hist.length + need + 32) ∧ (need = 0 → s.pos = .start → h = hist) := by
  refine ⟨fun hn => read_overshoot hn e, fun hn hp => ?_⟩
  unfold read at e
  rw [hp] at e
  exact (streamLoop_overshoot e).2 hn

/-- C42: asking for pixels in two portions gives the same pixels as asking once. -/
theorem C42_output_portions (st : Base) (hist : List Pixel) (n m : Nat) (inp : List Nat) {st' H rest}
    (e : decodeBlock st hist (n + m) inp = some (st', H, rest)) :
    ∃ st1 h1 r1, decodeBlock st hist n inp = some (st1, h1, r1) ∧
      decodeBlock st1 h1 (hist.length + (n + m) - h1.length) r1 = some (st', H, rest) :=
  decodeBlock_compose st hist n m inp e

/-- C42: an image shown row by row through output chunks of width `C` (at least 4) shows consecutive
pieces of the image: concatenating the rows gives the encoded pixels. -/
theorem C42_rows (C : Nat) (hC : 4 ≤ C) (n : Nat) (st : Base) (px : List Pixel) (tail : List Nat)
    (hn : px.length = n * C) :
    ∃ rows, decodeRows C n Chunk.first st ((encodePixels st px).2 ++ tail) = some rows ∧
      rows.length = n ∧ (∀ r ∈ rows, r.length = C) ∧ rows.flatten = px := by
  have hb := C41_roundtrip st [] px tail
  rw [hn] at hb
  obtain ⟨rows, h1, h2, h3, h4⟩ := rows_aux C hC n Chunk.first [] st _ (Or.inr rfl)
    (by simpa [Chunk.first] using hb)
  refine ⟨rows, h1, h2, h3, ?_⟩
  rw [h4]
  simp [Chunk.first, ← hn]

/-- The image of `C42_rows` can be cut anywhere: rows need not end where operations end. -/
example : decodeRows 4 2 Chunk.first reset [1, 133, 0, 5, 6] = some [[1, 1, 1, 1], [1, 1, 1, 1]] := by
  unfold decodeRows Chunk.fill decodeBlock decodeOne; decide +kernel

example : feed ⟨reset, .start, 0, []⟩ [] 2 [[0], [], [0x34], [0x12, 1, 9]] =
    some (⟨remember (remember reset 0x1234) 0x1235, .start, 0x34, [9]⟩, [0x1235, 0x1234], []) := by
  simp [feed, read, streamLoop, action, rawFinish, decodeDeltas]
  have h : (remember reset 4660#16).pixel + 1#16 = 4661#16 := by decide +kernel
  rw [h]; exact ⟨rfl, rfl⟩

/-! ### C57 -/

/-- C57: an image with transparency decodes to exactly the alphas that were encoded, and to exactly the
colours except that pixels with alpha 32 (fully transparent) may have become 0.  This holds whatever lies
behind the alpha array (`junk`), although the encoder can look one element past it. -/
theorem C57_alpha_roundtrip (junk : Nat) (st : Base) (hist : List Pixel) (ahist : List Nat)
    (px : List Pixel) (al : List Nat) (tail : List Nat) (hl : px.length = al.length) :
    ∃ px' : List Pixel, px'.length = px.length ∧
      (∀ i, i < px.length → al[i]? = some 32 ∨ px'[i]? = px[i]?) ∧
      (∀ i, i < px.length → px'[i]? = px[i]? ∨ px'[i]? = some 0) ∧
      decodeAlpha st hist ahist px.length ((encodeAlpha junk st px al).2 ++ tail) =
        some ((encodeAlpha junk st px al).1, px'.reverse ++ hist, al.reverse ++ ahist, tail) :=
  alpha_roundtrip junk st hist ahist px al tail hl

/-- C57: exact round trip when transparent pixels carry no colour. -/
theorem C57_alpha_roundtrip_exact (junk : Nat) (st : Base) (px : List Pixel) (al : List Nat) (tail : List Nat)
    (hl : px.length = al.length) (hz : ∀ i : Nat, al[i]? = some 32 → px[i]? = some 0) :
    decodeAlpha st [] [] px.length ((encodeAlpha junk st px al).2 ++ tail) =
      some ((encodeAlpha junk st px al).1, px.reverse, al.reverse, tail) := by
  obtain ⟨px', h1, h2, h3, h4⟩ := alpha_roundtrip junk st [] [] px al tail hl
  have : px' = px := by
    apply List.ext_getElem? 
    intro i
    by_cases hi : i < px.length
    · rcases h2 i hi with h | h
      · rcases h3 i hi with h' | h'
        · exact h'
        · rw [h', hz i h]
      · exact h
    · rw [List.getElem?_eq_none (by omega), List.getElem?_eq_none (by omega)]
  rw [h4, this]
  simp

theorem div_lem (q r k : Nat) (h : r < k) : (q * k + r) / k = q := by
  rw [Nat.add_comm, Nat.add_mul_div_right _ _ (by omega), Nat.div_eq_of_lt h, Nat.zero_add]

theorem mod_lem (q r k : Nat) (h : r < k) : (q * k + r) % k = r := by
  rw [Nat.add_comm, Nat.add_mul_mod_self_right, Nat.mod_eq_of_lt h]

/-- A 16-bit colour from its red, green and blue parts. -/
def pack (r g b : Nat) : Pixel := BitVec.ofNat 16 (r * 2048 + g * 32 + b)

set_option maxRecDepth 4000 in
/-- C57: blending is channel-wise `old * alpha / 32 + new`, without leaking between channels, as long as
no channel of the result overflows. -/
theorem C57_blend (r g b ir ig ib alpha : Nat) (ha : alpha ≤ 32) (hr : r < 32) (hg : g < 64) (hb : b < 32)
    (hr' : r * alpha / 32 + ir < 32) (hg' : g * alpha / 32 + ig < 64) (hb' : b * alpha / 32 + ib < 32) :
    alphaBlend (pack r g b) (pack ir ig ib) alpha =
      pack (r * alpha / 32 + ir) (g * alpha / 32 + ig) (b * alpha / 32 + ib) := by
  have e1 : (pack r g b).toNat = r * 2048 + g * 32 + b := by
    unfold pack; rw [BitVec.toNat_ofNat]; omega
  have e2 : (pack ir ig ib).toNat = ir * 2048 + ig * 32 + ib := by
    unfold pack; rw [BitVec.toNat_ofNat]; omega
  unfold alphaBlend
  simp only [e1, e2, and_mask, Nat.shiftRight_eq_div_pow]
  have t1 : (r * 2048 + g * 32 + b) * 0x10001 % 2^32 = (r * 2048 + g * 32 + b) * 0x10001 := by
    apply Nat.mod_eq_of_lt; omega
  have t2 : (r * 2048 + g * 32 + b) * 0x10001 / 2^21 % 64 * 2^21 + (r * 2048 + g * 32 + b) * 0x10001 / 2^11 % 32 * 2^11
      + (r * 2048 + g * 32 + b) * 0x10001 % 32 = g * 2^21 + r * 2^11 + b := by
    clear t1 e1 e2 hr' hg' hb' ha
    have v1 : (r * 2048 + g * 32 + b) * 0x10001 = (r * 64 + g) * 2^21 + (b * 2^16 + (r * 2048 + g * 32 + b)) := by omega
    have v2 : (r * 2048 + g * 32 + b) * 0x10001 = ((r * 2048 + g * 32 + b) * 32 + r) * 2^11 + (g * 32 + b) := by clear v1; omega
    have hv : (r * 2048 + g * 32 + b) % 32 = b := by clear v1 v2; omega
    have u1 := div_lem (r * 64 + g) (b * 2^16 + (r * 2048 + g * 32 + b)) (2^21) (by clear v1 v2 hv; omega)
    have u2 := div_lem ((r * 2048 + g * 32 + b) * 32 + r) (g * 32 + b) (2^11) (by clear v1 v2 hv u1; omega)
    have w1 : (r * 2048 + g * 32 + b) * 0x10001 / 2^21 = r * 64 + g := by rw [v1]; exact u1
    have w2 : (r * 2048 + g * 32 + b) * 0x10001 / 2^11 = (r * 2048 + g * 32 + b) * 32 + r := by rw [v2]; exact u2
    have w3 : (r * 2048 + g * 32 + b) * 0x10001 % 32 = b := by
      rw [Nat.mul_mod, hv]
      have : (b * (0x10001 % 32)) = b := by simp
      rw [this, Nat.mod_eq_of_lt hb]
    rw [w1, w2, w3, mod_lem r g 64 hg, mod_lem (r * 2048 + g * 32 + b) r 32 hr]
  rw [t1, t2]
  have t3 : (g * 2^21 + r * 2^11 + b) * alpha = (g * alpha) * 2^21 + (r * alpha) * 2^11 + b * alpha := by
    rw [Nat.add_mul, Nat.add_mul, Nat.mul_right_comm g, Nat.mul_right_comm r]
  have hga : g * alpha ≤ 63 * 32 := Nat.mul_le_mul (by omega) ha
  have hra : r * alpha ≤ 31 * 32 := Nat.mul_le_mul (by omega) ha
  have hba : b * alpha ≤ 31 * 32 := Nat.mul_le_mul (by omega) ha
  rw [t3]
  generalize g * alpha = x at *
  generalize r * alpha = y at *
  generalize b * alpha = z at *
  have t4 : (x * 2^21 + y * 2^11 + z) % 2^32 = x * 2^21 + y * 2^11 + z := by
    apply Nat.mod_eq_of_lt; omega
  rw [t4]
  have t5 : (x * 2^21 + y * 2^11 + z) / 2^5 = x * 2^16 + y * 2^6 + z / 32 := by omega
  rw [t5]
  clear t1 t2 t3 t4 t5 e1 e2
  have t6 : (x * 2^16 + y * 2^6 + z / 32) / 2^21 % 64 = x / 32 := by
    have v : x * 2^16 + y * 2^6 + z / 32 = (x / 32) * 2^21 + (x % 32 * 2^16 + y * 2^6 + z / 32) := by omega
    rw [v, div_lem _ _ _ (by omega)]; omega
  have t7 : (x * 2^16 + y * 2^6 + z / 32) / 2^11 % 32 = y / 32 := by
    have v : x * 2^16 + y * 2^6 + z / 32 = (x * 32 + y / 32) * 2^11 + (y % 32 * 2^6 + z / 32) := by omega
    rw [v, div_lem _ _ _ (by omega), mod_lem _ _ _ (by omega)]
  have t8 : (x * 2^16 + y * 2^6 + z / 32) % 32 = z / 32 := by
    have v : x * 2^16 + y * 2^6 + z / 32 = (x * 2^11 + y * 2) * 32 + z / 32 := by omega
    rw [v]; exact mod_lem _ _ _ (by omega)
  rw [t6, t7, t8]
  have t9 : (x / 32 * 2^21 + y / 32 * 2^11 + z / 32) / 2^16 = x / 32 * 32 := by
    have v : x / 32 * 2^21 + y / 32 * 2^11 + z / 32 = (x / 32 * 32) * 2^16 + (y / 32 * 2^11 + z / 32) := by omega
    rw [v, div_lem _ _ _ (by omega)]
  rw [t9]
  clear t6 t7 t8 t9
  generalize x / 32 = X at *
  generalize y / 32 = Y at *
  generalize z / 32 = Z at *
  unfold pack
  apply BitVec.eq_of_toNat_eq
  rw [BitVec.toNat_ofNat, BitVec.toNat_ofNat]
  have v : X * 2^21 + Y * 2^11 + Z + X * 32 + (ir * 2048 + ig * 32 + ib) =
      ((Y + ir) * 2048 + (X + ig) * 32 + (Z + ib)) + 2^16 * (X * 32) := by omega
  rw [v, Nat.add_mul_mod_self_left]

example : alphaBlend (pack 31 40 20) (pack 3 4 5) 16 = pack 18 24 15 := by decide +kernel

/-- The hypotheses of `C57_alpha_roundtrip_exact` are met by an image using all four kinds of block. -/
example : ([1, 2, 3, 0, 0, 6, 7] : List Pixel).length = [0, 0, 5, 32, 32, 9, 9].length ∧
    ∀ i : Nat, [0, 0, 5, 32, 32, 9, 9][i]? = some 32 → ([1, 2, 3, 0, 0, 6, 7] : List Pixel)[i]? = some 0 := by
  refine ⟨rfl, fun i hi => ?_⟩
  match i with
  | 0 | 1 | 2 | 5 | 6 => simp at hi
  | 3 | 4 => rfl
  | n+7 => simp at hi

end Verif.Pqoi
