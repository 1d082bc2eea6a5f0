import Verif.Audio.PlayWav

/-
  C77: playing a WAV file delivers its samples.
-/
namespace Verif.Audio.PlayWav

/-! ## Specification: WAV files and their sound -/

/-- A 32 bit number, least significant byte first. -/
def le4 (n : Nat) : List Nat := [n % 256, n / 256 % 256, n / 65536 % 256, n / 16777216 % 256]

/-- A chunk: name, length, contents. -/
def chunk (c : Nat × List Nat) : List Nat := le4 c.1 ++ le4 c.2.length ++ c.2

/-- The contents of a format chunk: PCM, the format, `x` (byte rate and block
    size) and possibly more. -/
def fmtBytes (f : Fmt) (x extra : List Nat) : List Nat :=
  [1, 0, f.channels, 0] ++ le4 f.rate ++ x ++ [f.bits, 0] ++ extra

/-- A WAV file: `RIFF` length `WAVE`, some chunks, the format, some chunks, less
    than eight bytes of rubbish. -/
def wav (riff : Nat) (pre : List (Nat × List Nat)) (f : Fmt) (x extra : List Nat)
    (post : List (Nat × List Nat)) (tail : List Nat) : List Nat :=
  le4 0x46464952 ++ le4 riff ++ le4 0x45564157 ++ pre.flatMap chunk ++
    chunk (0x20746D66, fmtBytes f x extra) ++ (post.flatMap chunk ++ tail)

/-- The contents of the data chunks. -/
def soundData (post : List (Nat × List Nat)) : List Nat :=
  post.flatMap fun c => if c.1 = 0x61746164 then c.2 else []

/-- Amplitude of the sample at byte `i`. -/
def amp (bits : Nat) (l : List Nat) (i : Nat) : Int :=
  if bits = 8 then 256 * ((l.getD i 0 : Nat) : Int) - 32768
  else Int.bmod (l.getD i 0 + 256 * l.getD (i + 1) 0) 65536

/-- Frame number `k`, both channels mixed. -/
def frame (f : Fmt) (l : List Nat) (k : Nat) : Int :=
  if f.channels = 1 then amp f.bits l (k * f.size)
  else (amp f.bits l (k * f.size) + amp f.bits l (k * f.size + f.bits / 8)) / 2

/-- The frames played: all but the last one. -/
def frames (f : Fmt) (l : List Nat) : List Int :=
  (List.range ((l.length - 1) / f.size)).map (frame f l)

/-- Twice as many samples: between two old samples a new one computed from the
    four neighbours. -/
def fir : List Int → List Int
  | a :: b :: c :: d :: l =>
    max (-32768) (min 32767 ((24757 * (b + c) - 8191 * (a + d)) / 32768)) :: c ::
      fir (b :: c :: d :: l)
  | _ => []

/-- Conversion to 44100 Hz. -/
def resample (rate : Nat) (xs : List Int) : List Int :=
  if rate = 44100 then xs
  else if rate = 22050 then fir (0 :: 0 :: 0 :: xs)
  else fir (0 :: 0 :: 0 :: fir (0 :: 0 :: 0 :: xs))

/-- How loud a file may be. -/
def loudest (rate : Nat) : Int :=
  if rate = 44100 then 32768 else if rate = 22050 then 32588 else 16204

/-! ## The upsampler -/

def Small (m x : Int) : Prop := -m ≤ x ∧ x ≤ m
def HistIn (m : Int) (h : Hist) : Prop := Small m h.b ∧ Small m h.c ∧ Small m h.d

theorem clamp_eq (x : Int) : clamp16 x = max (-32768) (min 32767 x) := by
  unfold clamp16; split
  · omega
  · split <;> omega

/-- The two samples without overflow. -/
def upT (h : Hist) (x : Int) : (Int × Int) × Hist :=
  ((max (-32768) (min 32767 ((24757 * (h.c + h.d) - 8191 * (h.b + x)) / 32768)), h.d),
    ⟨h.c, h.d, x⟩)

theorem up_eq {h : Hist} {x : Int} (hh : HistIn 32588 h) (hx : Small 32588 x) :
    up h x = some (upT h x) := by
  obtain ⟨⟨a1, a2⟩, ⟨b1, b2⟩, ⟨c1, c2⟩⟩ := hh
  obtain ⟨d1, d2⟩ := hx
  unfold up int
  rw [if_pos (by omega), Option.bind_some, if_pos (by omega), Option.bind_some,
    if_pos (by omega), Option.map_some, clamp_eq]
  unfold upT
  have : h.b * (-8191) + h.c * 24757 + h.d * 24757 + x * (-8191) =
      24757 * (h.c + h.d) - 8191 * (h.b + x) := by omega
  rw [this]

theorem up_small {h : Hist} {x : Int} (hh : HistIn 16204 h) (hx : Small 16204 x) :
    Small 32588 (upT h x).1.1 ∧ Small 32588 (upT h x).1.2 := by
  obtain ⟨⟨a1, a2⟩, ⟨b1, b2⟩, ⟨c1, c2⟩⟩ := hh
  obtain ⟨d1, d2⟩ := hx
  unfold upT Small
  simp only []
  omega

/-- `emit` without overflow. -/
def emitT (rate : Nat) (u : Up) (x : Int) : List Int × Up :=
  if rate = 44100 then ([x], u)
  else if rate = 22050 then
    ([(upT u.two x).1.1, (upT u.two x).1.2], { u with two := (upT u.two x).2 })
  else
    let o := upT u.four x
    let p := upT u.two o.1.1
    let q := upT p.2 o.1.2
    ([p.1.1, p.1.2, q.1.1, q.1.2], ⟨q.2, o.2⟩)

/-- No overflow to be feared. -/
def UpIn (rate : Nat) (u : Up) : Prop :=
  if rate = 44100 then True
  else if rate = 22050 then HistIn 32588 u.two
  else HistIn 32588 u.two ∧ HistIn 16204 u.four

theorem Small.mono {m m' x : Int} (h : Small m x) (hm : m ≤ m') : Small m' x := by
  obtain ⟨a, b⟩ := h; exact ⟨by omega, by omega⟩

theorem HistIn.mono {m m' : Int} {h : Hist} (hh : HistIn m h) (hm : m ≤ m') : HistIn m' h :=
  ⟨hh.1.mono hm, hh.2.1.mono hm, hh.2.2.mono hm⟩

theorem emit_eq {rate : Nat} {u : Up} {x : Int} (hu : UpIn rate u) (hx : Small (loudest rate) x) :
    emit rate u x = some (emitT rate u x) ∧ UpIn rate (emitT rate u x).2 := by
  unfold emit emitT
  by_cases h1 : rate = 44100
  · rw [if_pos h1, if_pos h1]
    exact ⟨rfl, hu⟩
  · by_cases h2 : rate = 22050
    · unfold UpIn loudest at *
      rw [if_neg h1, if_pos h2] at hu hx
      rw [if_neg h1, if_pos h2, if_neg h1, if_pos h2, if_neg h1, if_pos h2, up_eq hu hx]
      exact ⟨rfl, hu.2.1, hu.2.2, hx⟩
    · unfold UpIn loudest at *
      rw [if_neg h1, if_neg h2] at hu hx
      rw [if_neg h1, if_neg h2, if_neg h1, if_neg h2, if_neg h1, if_neg h2]
      obtain ⟨hu2, hu4⟩ := hu
      obtain ⟨s1, s2⟩ := up_small hu4 hx
      rw [up_eq (hu4.mono (by omega)) (hx.mono (by omega))]
      simp only [Option.bind_some]
      rw [up_eq hu2 s1]
      simp only [Option.bind_some]
      have hp : HistIn 32588 (upT u.two (upT u.four x).1.1).2 := ⟨hu2.2.1, hu2.2.2, s1⟩
      rw [up_eq hp s2]
      exact ⟨rfl, ⟨hp.2.1, hp.2.2, s2⟩, hu4.2.1, hu4.2.2, hx⟩

def emitAll (rate : Nat) : Up → List Int → List Int
  | _, [] => []
  | u, x :: xs => (emitT rate u x).1 ++ emitAll rate (emitT rate u x).2 xs

theorem fir_short (a b c : Int) : fir [a, b, c] = [] := rfl

theorem fir_up (h : Hist) (x : Int) (l : List Int) :
    fir (h.b :: h.c :: h.d :: x :: l) = (upT h x).1.1 :: (upT h x).1.2 ::
      fir ((upT h x).2.b :: (upT h x).2.c :: (upT h x).2.d :: l) := rfl

theorem emitAll_22050 : ∀ (xs : List Int) (u : Up),
    emitAll 22050 u xs = fir (u.two.b :: u.two.c :: u.two.d :: xs)
  | [], u => rfl
  | x :: xs, u => by
      rw [fir_up, emitAll, emitAll_22050 xs]
      rfl

theorem emitAll_other (rate : Nat) (h1 : rate ≠ 44100) (h2 : rate ≠ 22050) :
    ∀ (xs : List Int) (u : Up), emitAll rate u xs =
      fir (u.two.b :: u.two.c :: u.two.d :: fir (u.four.b :: u.four.c :: u.four.d :: xs))
  | [], u => rfl
  | x :: xs, u => by
      rw [fir_up, fir_up, fir_up, emitAll, emitAll_other rate h1 h2 xs]
      unfold emitT
      rw [if_neg h1, if_neg h2]
      rfl

theorem emitAll_44100 : ∀ (xs : List Int) (u : Up), emitAll 44100 u xs = xs
  | [], u => rfl
  | x :: xs, u => by
      rw [emitAll, emitAll_44100 xs]
      rfl

theorem emitAll_zero (rate : Nat) (xs : List Int) : emitAll rate Up.zero xs = resample rate xs := by
  unfold resample
  by_cases h1 : rate = 44100
  · subst h1; rw [if_pos rfl, emitAll_44100]
  · by_cases h2 : rate = 22050
    · subst h2; rw [if_neg h1, if_pos rfl, emitAll_22050]; rfl
    · rw [if_neg h1, if_neg h2, emitAll_other rate h1 h2]; rfl

theorem emitT_length (rate : Nat) (u : Up) (x : Int) :
    (emitT rate u x).1.length = if rate = 44100 then 1 else if rate = 22050 then 2 else 4 := by
  unfold emitT
  split
  · rfl
  · split <;> rfl

/-! ## Frames -/

theorem amp_eq (bits : Nat) (l : List Nat) (i : Nat) (hb : ∀ b ∈ l, b < 256) :
    read2 bits l i = amp bits l i := by
  unfold read2 amp
  split
  · rw [Nat.shiftLeft_eq]; omega
  · have bound : ∀ j, l.getD j 0 < 256 := by
      intro j
      rw [List.getD_eq_getElem?_getD]
      cases h : l[j]? with
      | none => simp
      | some v => simpa using hb v (List.mem_of_getElem? h)
    have b1 := bound i
    have b2 := bound (i + 1)
    generalize l.getD i 0 = p at *
    generalize l.getD (i + 1) 0 = q at *
    simp only [Int.bmod]
    split <;> split <;> omega

theorem value_eq (f : Fmt) (l : List Nat) (hb : ∀ b ∈ l, b < 256) : value f l = frame f l 0 := by
  unfold value frame
  rw [amp_eq _ _ _ hb, amp_eq _ _ _ hb, Nat.zero_mul, Nat.zero_add, Int.shiftRight_eq_div_pow]
  rfl

theorem size_cases {f : Fmt} (h : f.ok = true) :
    (f.bits = 8 ∨ f.bits = 16) ∧ (f.channels = 1 ∨ f.channels = 2) ∧
      f.size = f.channels * (f.bits / 8) ∧ 1 ≤ f.size ∧ f.size ≤ 4 := by
  obtain ⟨c, r, b⟩ := f
  simp only [Fmt.ok, Bool.and_eq_true, Bool.or_eq_true, beq_iff_eq] at h
  obtain ⟨⟨hb, hc⟩, _⟩ := h
  rcases hb with rfl | rfl <;> rcases hc with rfl | rfl <;> simp [Fmt.size]

theorem value_append {f : Fmt} (hf : f.ok = true) (l m : List Nat) (hl : l.length > f.size) :
    value f (l ++ m) = value f l := by
  obtain ⟨hb, hc, hs, _, _⟩ := size_cases hf
  have g : ∀ j, j ≤ f.size → (l ++ m).getD j 0 = l.getD j 0 := by
    intro j hj
    rw [List.getD_eq_getElem?_getD, List.getD_eq_getElem?_getD, List.getElem?_append_left (by omega)]
  have r : ∀ i, i + f.bits / 8 ≤ f.size → read2 f.bits (l ++ m) i = read2 f.bits l i := by
    intro i hi
    unfold read2
    rcases hb with hb | hb
    · rw [hb] at hi; rw [if_pos hb, if_pos hb, g i (by omega)]
    · rw [hb] at hi
      have h8 : ¬ f.bits = 8 := by omega
      rw [if_neg h8, if_neg h8, g i (by omega), g (i + 1) (by omega)]
  unfold value
  rcases hc with hc | hc
  · rw [if_pos hc, if_pos hc, r 0 (by rw [hs, hc]; omega)]
  · rw [if_neg (by omega), if_neg (by omega), r 0 (by rw [hs, hc]; omega),
      r (f.bits / 8) (by rw [hs, hc]; omega)]

theorem frame_drop (f : Fmt) (l : List Nat) (k : Nat) :
    frame f (l.drop f.size) k = frame f l (k + 1) := by
  have a : ∀ i, amp f.bits (l.drop f.size) i = amp f.bits l (f.size + i) := by
    intro i
    unfold amp
    simp only [List.getD_eq_getElem?_getD, List.getElem?_drop, Nat.add_assoc]
  unfold frame
  rw [a, a]
  have e : f.size + k * f.size = (k + 1) * f.size := by rw [Nat.add_mul]; omega
  rw [e, ← Nat.add_assoc, e]

theorem frames_cons (f : Fmt) (l : List Nat) (hs : 1 ≤ f.size) (hl : l.length > f.size) :
    frames f l = frame f l 0 :: frames f (l.drop f.size) := by
  unfold frames
  have e : (l.length - 1) / f.size = ((l.drop f.size).length - 1) / f.size + 1 := by
    rw [List.length_drop]
    have : l.length - 1 = (l.length - f.size - 1) + f.size := by omega
    rw [this, Nat.add_div_right _ hs]
  rw [e, List.range_succ_eq_map, List.map_cons, List.map_map]
  refine congrArg (List.cons _) (List.map_congr_left ?_)
  intro k _
  exact (frame_drop f l k).symm

theorem frames_nil (f : Fmt) (l : List Nat) (hs : 1 ≤ f.size) (hl : l.length ≤ f.size) :
    frames f l = [] := by
  unfold frames
  rw [Nat.div_eq_of_lt (by omega)]
  rfl

/-! ## Decoding -/

/-- All samples can be converted without overflow. -/
def Quiet (f : Fmt) (l : List Nat) : Prop := ∀ v ∈ frames f l, Small (loudest f.rate) v

theorem decode_ok {f : Fmt} (hf : f.ok = true) (more : List Nat) :
    ∀ (k : Nat) (pend : List Nat) (num : Nat) (u : Up),
      (∀ b ∈ pend ++ more, b < 256) → UpIn f.rate u → Quiet f (pend ++ more) →
      num % (if f.rate = 44100 then 1 else if f.rate = 22050 then 2 else 4) = 0 → num ≤ 32 →
      ∃ o p v, decode f k pend num u = some (o, p, v) ∧
        (∀ b ∈ p ++ more, b < 256) ∧ UpIn f.rate v ∧ Quiet f (p ++ more) ∧
        emitAll f.rate u (frames f (pend ++ more)) = o ++ emitAll f.rate v (frames f (p ++ more)) ∧
        o.length ≤ 32 - num ∧ p.length ≤ pend.length ∧
        (0 < k → num < 32 → f.size < pend.length → p.length < pend.length) := by
  obtain ⟨_, _, _, hs1, _⟩ := size_cases hf
  intro k
  induction k with
  | zero =>
    intro pend num u hb hu hq _ _
    exact ⟨[], pend, u, rfl, hb, hu, hq, rfl, by simp, by omega, by omega⟩
  | succ k ih =>
    intro pend num u hb hu hq hw hn
    by_cases hc : pend.length > f.size ∧ num < 32
    · have hlen : (pend ++ more).length > f.size := by rw [List.length_append]; omega
      have hfr := frames_cons f (pend ++ more) hs1 hlen
      have hv : value f pend = frame f (pend ++ more) 0 := by
        rw [← value_append hf pend more hc.1, value_eq f _ hb]
      have hsm : Small (loudest f.rate) (value f pend) := by
        rw [hv]; apply hq; rw [hfr]; simp
      obtain ⟨he, hu'⟩ := emit_eq hu hsm
      have hol := emitT_length f.rate u (value f pend)
      have hdrop : (pend ++ more).drop f.size = pend.drop f.size ++ more := by
        rw [List.drop_append, show f.size - pend.length = 0 by omega, List.drop_zero]
      have hq' : Quiet f (pend.drop f.size ++ more) := by
        intro v hv'
        apply hq
        rw [hfr, hdrop]
        exact List.mem_cons_of_mem _ hv'
      have hb' : ∀ b ∈ pend.drop f.size ++ more, b < 256 := by
        intro b hb'
        apply hb
        rw [← hdrop] at hb'
        exact List.mem_of_mem_drop hb'
      have hroom : num + (emitT f.rate u (value f pend)).1.length ≤ 32 := by
        rw [hol]
        split
        · omega
        · rename_i h1
          rw [if_neg h1] at hw
          split
          · rename_i h2
            rw [if_pos h2] at hw; omega
          · rename_i h2
            rw [if_neg h2] at hw; omega
      have hw' : (num + (emitT f.rate u (value f pend)).1.length) %
          (if f.rate = 44100 then 1 else if f.rate = 22050 then 2 else 4) = 0 := by
        rw [hol, Nat.add_mod_right]; exact hw
      obtain ⟨o, p, v, hd, r1, r2, r3, r4, r5, r6, _⟩ := ih (pend.drop f.size) _ _ hb' hu' hq' hw' hroom
      refine ⟨(emitT f.rate u (value f pend)).1 ++ o, p, v, ?_, r1, r2, r3, ?_, ?_, ?_, ?_⟩
      · rw [decode, if_pos hc, he]
        simp only [Option.bind_some]
        rw [if_pos hroom, hd]
        rfl
      · rw [hfr, ← hv, emitAll, hdrop, r4, List.append_assoc]
      · rw [List.length_append]; omega
      · rw [List.length_drop] at r6; omega
      · intro _ _ _; rw [List.length_drop] at r6; omega
    · refine ⟨[], pend, u, ?_, hb, hu, hq, rfl, by simp, by omega, by omega⟩
      rw [decode, if_neg hc]

/-! ## The coroutine -/

/-- What is left in the file: the rest of the current chunk, whole chunks, rubbish. -/
structure Rest (file : List Nat) (s : St) (more : List Nat) : Prop where
  some : ∃ payload post tail, file.drop s.pos = payload ++ (post.flatMap chunk ++ tail) ∧
    s.pos ≤ file.length ∧
    tail.length < 8 ∧ (∀ c ∈ post, c.1 < 4294967296 ∧ c.2.length < 4294967296) ∧
    (s.ph = .hdr → payload = []) ∧ (s.ph = .data → s.len = payload.length) ∧
    (s.ph ≠ .done → more = payload ++ soundData post) ∧ (s.ph = .done → more = [])

structure Inv (file : List Nat) (f : Fmt) (s : St) (r : List Int) : Prop where
  ex : ∃ more, Rest file s more ∧ UpIn f.rate s.up ∧ Quiet f (s.pend ++ more) ∧
    (∀ b ∈ s.pend ++ more, b < 256) ∧ (s.ph ≠ .data → s.pend.length ≤ f.size) ∧
    r = s.out ++ emitAll f.rate s.up (frames f (s.pend ++ more))

/-- Decreases with every step. -/
def mu (file : List Nat) (s : St) : Nat :=
  41 * (file.length - s.pos) + 40 * s.pend.length + s.out.length +
    match s.ph with | .hdr => 1 | .data => 2 | .done => 0

theorem le32_le4 (n : Nat) (l : List Nat) (h : n < 4294967296) : le32 (le4 n ++ l) 0 = n := by
  simp [le32, le4]; omega

theorem le32_le4' (a n : Nat) (l : List Nat) (h : n < 4294967296) :
    le32 (le4 a ++ (le4 n ++ l)) 4 = n := by
  simp [le32, le4]; omega

theorem le4_length (n : Nat) : (le4 n).length = 4 := rfl

theorem chunk_take (c : Nat × List Nat) (l : List Nat) :
    (chunk c ++ l).take 8 = le4 c.1 ++ (le4 c.2.length ++ []) := by
  simp [chunk, le4]

theorem chunk_drop (c : Nat × List Nat) (l : List Nat) : (chunk c ++ l).drop 8 = c.2 ++ l := by
  simp [chunk, le4]

theorem le_of_drop {file a b : List Nat} {pos : Nat} (hp : pos ≤ file.length)
    (h : file.drop pos = a ++ b) : pos + a.length ≤ file.length := by
  have := congrArg List.length h
  rw [List.length_drop, List.length_append] at this
  omega

theorem drop_more {file a b : List Nat} {pos : Nat} (h : file.drop pos = a ++ b) :
    file.drop (pos + a.length) = b := by
  rw [← List.drop_drop, h, List.drop_left]

/-- What a transition must do. -/
def Good (file : List Nat) (f : Fmt) (align : Nat → Nat → Nat) (s : St) (r : List Int) : Prop :=
  ∃ t y, tick file f align s = some (t, y) ∧ Inv file f t r ∧
    (s.ph = .done → t = s ∧ y = true) ∧ (s.ph ≠ .done → mu file t < mu file s)

theorem good_hdr {file : List Nat} {f : Fmt} {align : Nat → Nat → Nat} {s : St} {r : List Int}
    (hlen : file.length < 4294967296)
    (hi : Inv file f s r) (ho : s.out = []) (hp : s.ph = .hdr) : Good file f align s r := by
  obtain ⟨pos, len, pend, out, u, ph⟩ := s
  simp only [] at hp ho
  subst hp; subst ho
  obtain ⟨more, ⟨payload, post, tail, hd, hpos, ht, hc, h1, _, h3, _⟩, hu, hq, hb, hpe, hr⟩ := hi
  simp only [] at hd hpos h1 h3 hu hq hb hpe hr
  have hpay := h1 trivial
  subst hpay
  have hmore := h3 (by simp)
  rw [List.nil_append] at hd hmore
  subst hmore
  cases post with
  | nil =>
    rw [List.flatMap_nil, List.nil_append] at hd
    refine ⟨⟨pos, len, pend, [], u, .done⟩, true, ?_, ?_, by simp, by intro _; simp [mu]⟩
    · simp only [tick, hd]
      rw [if_pos (by rw [List.length_take]; omega)]
    · refine ⟨[], ⟨[], [], tail, ?_, hpos, ht, by simp, by simp, by simp, by simp, by simp⟩, hu, ?_, ?_, ?_, ?_⟩
      · simpa using hd
      · simpa [soundData] using hq
      · simpa [soundData] using hb
      · intro _; exact hpe (by simp)
      · simpa [soundData] using hr
  | cons c post =>
    obtain ⟨hc1, hc2⟩ := hc c (by simp)
    rw [List.flatMap_cons, List.append_assoc] at hd
    have h8 : (file.drop pos).take 8 = le4 c.1 ++ (le4 c.2.length ++ []) := by rw [hd, chunk_take]
    have hl8 : (le4 c.1 ++ (le4 c.2.length ++ [])).length = 8 := rfl
    have hd8 : file.drop (pos + 8) = c.2 ++ (post.flatMap chunk ++ tail) := by
      rw [← List.drop_drop, hd, chunk_drop]
    have hpos8 : pos + 8 ≤ file.length := by
      have := le_of_drop hpos hd
      have : (chunk c).length = 8 + c.2.length := by simp [chunk, le4]; omega
      omega
    have hposc := le_of_drop hpos8 hd8
    have hc' : ∀ d ∈ post, d.1 < 4294967296 ∧ d.2.length < 4294967296 :=
      fun d hd => hc d (List.mem_cons_of_mem _ hd)
    by_cases hid : c.1 = 0x61746164
    · refine ⟨⟨pos + 8, c.2.length, pend, [], u, .data⟩, false, ?_, ?_, by simp, ?_⟩
      · simp only [tick, h8, hl8, le32_le4 _ _ hc1, le32_le4' _ _ _ hc2]
        rw [if_neg (by simp), if_neg (by simpa using hid)]
      · refine ⟨c.2 ++ soundData post, ⟨c.2, post, tail, hd8, hpos8, ht, hc', by simp, by simp, by simp, by simp⟩,
          hu, ?_, ?_, by simp, ?_⟩
        · simpa [soundData, hid] using hq
        · simpa [soundData, hid] using hb
        · simpa [soundData, hid] using hr
      · intro _; simp only [mu, List.length_nil]; omega
    · refine ⟨⟨pos + 8 + c.2.length, c.2.length, pend, [], u, .hdr⟩, false, ?_, ?_, by simp, ?_⟩
      · simp only [tick, h8, hl8, le32_le4 _ _ hc1, le32_le4' _ _ _ hc2]
        rw [if_neg (by simp), if_pos hid]
        unfold skip
        rw [Nat.mod_eq_of_lt (by omega)]
      · refine ⟨soundData post, ⟨[], post, tail, drop_more hd8, hposc, ht, hc', by simp, by simp, by simp, by simp⟩,
          hu, ?_, ?_, ?_, ?_⟩
        · simpa [soundData, hid] using hq
        · simpa [soundData, hid] using hb
        · intro _; exact hpe (by simp)
        · simpa [soundData, hid] using hr
      · intro _; simp only [mu, List.length_nil]; omega

theorem good_data {file : List Nat} {f : Fmt} {align : Nat → Nat → Nat} {s : St} {r : List Int}
    (ha : ∀ p n, 0 < n → 0 < align p n ∧ align p n ≤ n) (hf : f.ok = true)
    (hi : Inv file f s r) (ho : s.out = []) (hp : s.ph = .data) : Good file f align s r := by
  obtain ⟨_, _, _, hs1, hs4⟩ := size_cases hf
  obtain ⟨pos, len, pend, out, u, ph⟩ := s
  simp only [] at hp ho
  subst hp; subst ho
  obtain ⟨more, ⟨payload, post, tail, hd, hpos, ht, hc, _, h2, h3, _⟩, hu, hq, hb, _, hr⟩ := hi
  simp only [] at hd hpos h2 h3 hu hq hb hr
  have hlenp := h2 trivial
  have hmore := h3 (by simp)
  by_cases hpend : pend.length > f.size
  · obtain ⟨o, p, v, hdec, r1, r2, r3, r4, r5, r6, r7⟩ :=
      decode_ok hf more 33 pend 0 u hb hu hq (by simp) (by omega)
    refine ⟨⟨pos, len, p, o, v, .data⟩, false, ?_, ?_, by simp, ?_⟩
    · simp only [tick]
      rw [if_pos hpend, if_pos hf, hdec]
      rfl
    · refine ⟨more, ⟨payload, post, tail, hd, hpos, ht, hc, by simp, fun _ => hlenp, fun _ => hmore, by simp⟩,
        r2, r3, r1, by simp, ?_⟩
      rw [hr, List.nil_append, r4]
    · intro _
      have := r7 (by omega) (by omega) hpend
      simp only [mu, List.length_nil]
      omega
  · have h8 : ¬ pend.length > 8 := by omega
    by_cases hl0 : len = 0
    · have hpay : payload = [] := List.length_eq_zero_iff.mp (by omega)
      subst hpay
      refine ⟨⟨pos, len, pend, [], u, .hdr⟩, true, ?_, ?_, by simp, by intro _; simp [mu]⟩
      · simp only [tick]
        rw [if_neg hpend, if_neg h8, if_pos hl0]
      · exact ⟨more, ⟨[], post, tail, hd, hpos, ht, hc, by simp, by simp, fun _ => hmore, by simp⟩,
          hu, hq, hb, by simp; omega, hr⟩
    · obtain ⟨a1, a2⟩ := ha pos (min len 512) (by omega)
      obtain ⟨n, hn⟩ : ∃ n, n = align pos (min len 512) := ⟨_, rfl⟩
      rw [← hn] at a1 a2
      have hread : (file.drop pos).take n = payload.take n := by
        rw [hd, List.take_append_of_le_length (by omega)]
      have hrl : (payload.take n).length = n := by rw [List.length_take]; omega
      have hne : payload.take n ≠ [] := by
        intro h0; rw [h0] at hrl; simp at hrl; omega
      have hsplit : file.drop pos = payload.take n ++ (payload.drop n ++ (post.flatMap chunk ++ tail)) := by
        rw [hd, ← List.append_assoc (payload.take n), List.take_append_drop]
      have hpn := le_of_drop hpos hsplit
      have hdn := drop_more hsplit
      rw [hrl] at hpn hdn
      have hm : pend ++ payload.take n ++ (payload.drop n ++ soundData post) = pend ++ more := by
        rw [hmore, List.append_assoc, ← List.append_assoc (payload.take n), List.take_append_drop]
      refine ⟨⟨pos + n, len - n, pend ++ payload.take n, [], u, .data⟩, false, ?_, ?_, by simp, ?_⟩
      · simp only [tick]
        rw [if_neg hpend, if_neg h8, if_neg hl0, ← hn, hread, if_neg hne, hrl]
      · refine ⟨payload.drop n ++ soundData post, ⟨payload.drop n, post, tail, hdn, hpn, ht, hc, by simp, ?_,
          fun _ => rfl, by simp⟩, hu, ?_, ?_, by simp, ?_⟩
        · intro _; rw [List.length_drop]; simp only []; omega
        · simp only [hm]; exact hq
        · simp only [hm]; exact hb
        · simp only [hm]; exact hr
      · intro _
        simp only [mu, List.length_nil, List.length_append, hrl]
        omega

theorem good {file : List Nat} {f : Fmt} {align : Nat → Nat → Nat} {s : St} {r : List Int}
    (hlen : file.length < 4294967296) (ha : ∀ p n, 0 < n → 0 < align p n ∧ align p n ≤ n)
    (hf : f.ok = true) (hi : Inv file f s r) (ho : s.out = []) : Good file f align s r := by
  cases hp : s.ph with
  | hdr => exact good_hdr hlen hi ho hp
  | data => exact good_data ha hf hi ho hp
  | done => exact ⟨s, true, by simp [tick, hp], hi, fun _ => ⟨rfl, rfl⟩, fun h => absurd hp h⟩

theorem Inv.deliver {file : List Nat} {f : Fmt} {s : St} {r : List Int} (hi : Inv file f s r) (n : Nat) :
    ∃ r', r = s.out.take n ++ r' ∧ Inv file f { s with out := s.out.drop n } r' := by
  obtain ⟨more, ⟨a⟩, b, c, d, e, hr⟩ := hi
  refine ⟨s.out.drop n ++ emitAll f.rate s.up (frames f (s.pend ++ more)), ?_, ⟨more, ⟨a⟩, b, c, d, e, rfl⟩⟩
  rw [hr, ← List.append_assoc, List.take_append_drop]

theorem pull_ok {file : List Nat} {f : Fmt} {align : Nat → Nat → Nat}
    (hlen : file.length < 4294967296) (ha : ∀ p n, 0 < n → 0 < align p n ∧ align p n ≤ n)
    (hf : f.ok = true) :
    ∀ (k n : Nat) (s : St) (r : List Int), mu file s < k → Inv file f s r →
      ∃ l t r', pull file f align k n s = some (l, t) ∧ l.length ≤ n ∧ r = l ++ r' ∧
        Inv file f t r' ∧ mu file t ≤ mu file s ∧
        (0 < n → (s.ph = .done ∧ s.out = []) ∨ mu file t < mu file s) := by
  intro k
  induction k with
  | zero => intro n s r h; omega
  | succ k ih =>
    intro n s r hk hi
    by_cases ho : s.out = []
    · obtain ⟨t, y, htick, hti, hdone, hmu⟩ := good (align := align) hlen ha hf hi ho
      rw [pull, if_pos ho, htick]
      simp only [Option.bind_some]
      by_cases hp : s.ph = .done
      · obtain ⟨rfl, rfl⟩ := hdone hp
        exact ⟨[], t, r, rfl, by simp, rfl, hti, by omega, fun _ => Or.inl ⟨hp, ho⟩⟩
      · have hm := hmu hp
        cases y with
        | true => exact ⟨[], t, r, rfl, by simp, rfl, hti, by omega, fun _ => Or.inr hm⟩
        | false =>
          obtain ⟨l, v, r', h1, h2, h3, h4, h5, _⟩ := ih n t r (by omega) hti
          exact ⟨l, v, r', h1, h2, h3, h4, by omega, fun _ => Or.inr (by omega)⟩
    · rw [pull, if_neg ho]
      by_cases hn : n = 0
      · subst hn
        exact ⟨[], s, r, rfl, by simp, rfl, hi, by omega, by omega⟩
      · rw [if_neg hn]
        obtain ⟨r1, hr1, hi1⟩ := hi.deliver n
        have hpos : 0 < s.out.length := List.length_pos_iff.mpr ho
        have hm : mu file { s with out := s.out.drop n } < mu file s := by
          simp only [mu, List.length_drop]; omega
        obtain ⟨l, t, r', h1, h2, h3, h4, h5, _⟩ :=
          ih (n - min n s.out.length) _ r1 (by omega) hi1
        refine ⟨s.out.take n ++ l, t, r', ?_, ?_, ?_, h4, by omega, fun _ => Or.inr (by omega)⟩
        · rw [h1]; rfl
        · rw [List.length_append, List.length_take]; omega
        · rw [hr1, h3, List.append_assoc]

theorem Inv.finished {file : List Nat} {f : Fmt} {s : St} {r : List Int} (hf : f.ok = true)
    (hi : Inv file f s r) (hp : s.ph = .done) (ho : s.out = []) : r = [] := by
  obtain ⟨_, _, _, hs1, _⟩ := size_cases hf
  obtain ⟨more, ⟨_, _, _, _, _, _, _, _, _, _, h4⟩, _, _, _, hpe, hr⟩ := hi
  rw [hr, ho, h4 hp, List.append_nil, frames_nil f s.pend hs1 (hpe (by rw [hp]; simp))]
  rfl

/-! ## Opening the file -/

theorem findFmt_ok {file : List Nat} (hlen : file.length < 4294967296) (fb rest : List Nat)
    (h16 : 16 ≤ fb.length) :
    ∀ (pre : List (Nat × List Nat)) (k pos : Nat), pre.length < k → pos ≤ file.length →
      file.drop pos = pre.flatMap chunk ++ (chunk (0x20746D66, fb) ++ rest) →
      (∀ c ∈ pre, c.1 < 4294967296 ∧ c.1 ≠ 0x20746D66) →
      ∃ p, findFmt file k pos = some (some (p, fb.length)) ∧ p ≤ file.length ∧
        file.drop p = fb ++ rest := by
  intro pre
  induction pre with
  | nil =>
    intro k pos hk hpos hd _
    obtain ⟨k, rfl⟩ : ∃ j, k = j + 1 := ⟨k - 1, by simp at hk; omega⟩
    rw [List.flatMap_nil, List.nil_append] at hd
    have hle := le_of_drop hpos hd
    have hcl : (chunk (0x20746D66, fb)).length = 8 + fb.length := by simp [chunk, le4]; omega
    have h8 : (file.drop pos).take 8 = le4 0x20746D66 ++ (le4 fb.length ++ []) := by
      rw [hd, chunk_take]
    refine ⟨pos + 8, ?_, by omega, by rw [← List.drop_drop, hd, chunk_drop]⟩
    simp only [findFmt, h8]
    rw [if_neg (by simp [le4]), le32_le4 _ _ (by omega), le32_le4' _ _ _ (by omega), if_neg (by simp),
      if_neg (by omega)]
  | cons c pre ih =>
    intro k pos hk hpos hd hc
    obtain ⟨k, rfl⟩ : ∃ j, k = j + 1 := ⟨k - 1, by simp at hk; omega⟩
    obtain ⟨hc1, hc2⟩ := hc c (by simp)
    rw [List.flatMap_cons, List.append_assoc] at hd
    have hle := le_of_drop hpos hd
    have hcl : (chunk c).length = 8 + c.2.length := by simp [chunk, le4]; omega
    have h8 : (file.drop pos).take 8 = le4 c.1 ++ (le4 c.2.length ++ []) := by
      rw [hd, chunk_take]
    have hnext := drop_more hd
    obtain ⟨p, hp, hpl, hpd⟩ := ih k (pos + (chunk c).length) (by simp at hk; omega) hle hnext
      (fun d hd => hc d (List.mem_cons_of_mem _ hd))
    refine ⟨p, ?_, hpl, hpd⟩
    simp only [findFmt, h8]
    rw [if_neg (by simp [le4]), le32_le4 _ _ hc1, le32_le4' _ _ _ (by omega), if_pos hc2]
    unfold skip
    rw [Nat.mod_eq_of_lt (by omega), ← hp, hcl]
    congr 1; omega

theorem readFmt_ok {file : List Nat} (hlen : file.length < 4294967296) (f : Fmt) (x extra rest : List Nat)
    (hx : x.length = 6) (hxb : ∀ b ∈ x, b < 256) (hch : f.channels < 256) (hbi : f.bits < 256) (hra : f.rate < 4294967296)
    (p : Nat) (hp : p ≤ file.length) (hd : file.drop p = fmtBytes f x extra ++ rest) :
    ∃ q, readFmt file p (fmtBytes f x extra).length = some (f, q) ∧ q ≤ file.length ∧
      file.drop q = rest := by
  have hle := le_of_drop hp hd
  have hn := drop_more hd
  match x, hx, hxb with
  | [x0, x1, x2, x3, x4, x5], _, hxb =>
    have hfl : (fmtBytes f [x0, x1, x2, x3, x4, x5] extra).length = 16 + extra.length := by
      simp [fmtBytes, le4]; omega
    have htake : (file.drop p).take 16 = [1, 0, f.channels, 0] ++ le4 f.rate ++
        [x0, x1, x2, x3, x4, x5] ++ [f.bits, 0] := by
      rw [hd]; simp [fmtBytes, le4]
    refine ⟨p + (fmtBytes f [x0, x1, x2, x3, x4, x5] extra).length, ?_, hle, hn⟩
    simp only [readFmt, htake]
    rw [if_neg (by simp [le4])]
    have e0 : le32 ([1, 0, f.channels, 0] ++ le4 f.rate ++ [x0, x1, x2, x3, x4, x5] ++ [f.bits, 0]) 0 =
        1 + 65536 * f.channels := by simp [le32, le4]
    have e4 : le32 ([1, 0, f.channels, 0] ++ le4 f.rate ++ [x0, x1, x2, x3, x4, x5] ++ [f.bits, 0]) 4 =
        f.rate := by simp [le32, le4]; omega
    have e12 : le32 ([1, 0, f.channels, 0] ++ le4 f.rate ++ [x0, x1, x2, x3, x4, x5] ++ [f.bits, 0]) 12 / 65536 % 256 =
        f.bits := by
      simp only [List.mem_cons, List.not_mem_nil, or_false, forall_eq_or_imp, forall_eq] at hxb
      simp [le32, le4]
      omega
    rw [e0, e4, e12, if_neg (by omega), show (1 + 65536 * f.channels) / 65536 % 256 = f.channels by omega]
    rw [hfl] at hle ⊢
    congr 2
    split
    · unfold skip; rw [Nat.mod_eq_of_lt (by omega)]; omega
    · omega

/-! ## C77 -/

/-- Successive calls of `read` with the given sizes. -/
def reads (file : List Nat) (f : Fmt) (align : Nat → Nat → Nat) (fuel : Nat) :
    List Nat → St → Option (List (List Int) × St)
  | [], s => some ([], s)
  | n :: ns, s => (pull file f align fuel n s).bind fun (l, t) =>
      (reads file f align fuel ns t).map fun (ls, t) => (l :: ls, t)

theorem reads_ok {file : List Nat} {f : Fmt} {align : Nat → Nat → Nat}
    (hlen : file.length < 4294967296) (ha : ∀ p n, 0 < n → 0 < align p n ∧ align p n ≤ n)
    (hf : f.ok = true) (fuel : Nat) :
    ∀ (ns : List Nat) (s : St) (r : List Int), mu file s < fuel → Inv file f s r →
      ∃ ls t r', reads file f align fuel ns s = some (ls, t) ∧
        ls.length = ns.length ∧ (∀ p ∈ ls.zip ns, p.1.length ≤ p.2) ∧ r = ls.flatten ++ r' ∧
        (mu file s < (ns.filter (0 < ·)).length → r' = []) := by
  intro ns
  induction ns with
  | nil => intro s r _ hi; exact ⟨[], s, r, rfl, rfl, by simp, by simp, by simp⟩
  | cons n ns ih =>
    intro s r hk hi
    obtain ⟨l, t, r1, h1, h2, h3, h4, h5, h6⟩ := pull_ok (align := align) hlen ha hf fuel n s r hk hi
    obtain ⟨ls, v, r2, g1, g2, g3, g4, g5⟩ := ih t r1 (by omega) h4
    refine ⟨l :: ls, v, r2, ?_, by simp [g2], ?_, ?_, ?_⟩
    · rw [reads, h1, Option.bind_some]; simp only [g1]; rfl
    · intro p hp
      rw [List.zip_cons_cons] at hp
      rcases List.mem_cons.mp hp with rfl | hp
      · exact h2
      · exact g3 p hp
    · rw [h3, g4, List.flatten_cons, List.append_assoc]
    · intro hmu
      by_cases hn : 0 < n
      · rw [List.filter_cons, if_pos (by simpa using hn), List.length_cons] at hmu
        rcases h6 hn with ⟨hd, ho⟩ | hm
        · have hr0 := hi.finished hf hd ho
          rw [h3, g4] at hr0
          simp at hr0
          exact hr0.2.2
        · exact g5 (by omega)
      · rw [List.filter_cons, if_neg (by simpa using hn)] at hmu
        exact g5 (by omega)

/-- The files C77 speaks about: well-formed, and not too loud if they have to be
    resampled. -/
structure Playable (pre : List (Nat × List Nat)) (f : Fmt) (x : List Nat)
    (post : List (Nat × List Nat)) (tail file : List Nat) : Prop where
  fmt : f.ok = true
  xlen : x.length = 6
  short : file.length < 4294967296
  xbytes : ∀ b ∈ x, b < 256
  tailLen : tail.length < 8
  preIds : ∀ c ∈ pre, c.1 < 4294967296 ∧ c.1 ≠ 0x20746D66
  postIds : ∀ c ∈ post, c.1 < 4294967296
  bytes : ∀ b ∈ soundData post, b < 256
  quiet : ∀ v ∈ frames f (soundData post), Small (loudest f.rate) v

theorem fmt_small {f : Fmt} (h : f.ok = true) :
    f.channels < 256 ∧ f.bits < 256 ∧ f.rate < 4294967296 := by
  simp only [Fmt.ok, Bool.and_eq_true, Bool.or_eq_true, beq_iff_eq] at h
  omega

theorem open_ok {riff : Nat} {pre post : List (Nat × List Nat)} {f : Fmt} {x extra tail : List Nat}
    (h : Playable pre f x post tail (wav riff pre f x extra post tail)) :
    ∃ pos, openWav (wav riff pre f x extra post tail) (pre.length + 1) = some (some (f, pos)) ∧
      pos ≤ (wav riff pre f x extra post tail).length ∧
      (wav riff pre f x extra post tail).drop pos = post.flatMap chunk ++ tail := by
  obtain ⟨hch, hbi, hra⟩ := fmt_small h.fmt
  have hd12 : (wav riff pre f x extra post tail).drop 12 = pre.flatMap chunk ++
      (chunk (0x20746D66, fmtBytes f x extra) ++ (post.flatMap chunk ++ tail)) := by
    simp [wav, le4]
  have hl12 : 12 ≤ (wav riff pre f x extra post tail).length := by
    simp [wav, le4]
  have ht12 : ((wav riff pre f x extra post tail).drop 0).take 12 =
      le4 0x46464952 ++ (le4 riff ++ le4 0x45564157) := by
    simp [wav, le4]
  have h16 : 16 ≤ (fmtBytes f x extra).length := by
    simp [fmtBytes, le4, h.xlen]; omega
  obtain ⟨p, hp, hpl, hpd⟩ := findFmt_ok h.short (fmtBytes f x extra) (post.flatMap chunk ++ tail) h16
    pre (pre.length + 1) 12 (by omega) hl12 hd12 h.preIds
  obtain ⟨q, hq, hql, hqd⟩ := readFmt_ok h.short f x extra (post.flatMap chunk ++ tail) h.xlen h.xbytes hch hbi hra
    p hpl hpd
  refine ⟨q, ?_, hql, hqd⟩
  simp only [openWav, ht12]
  rw [if_neg (by simp [le4]), if_neg (by simp [le32, le4]), hp]
  simp only [Option.map_some, Option.bind_some, hq]

theorem start_inv {file : List Nat} {pre post : List (Nat × List Nat)} {f : Fmt} {x tail : List Nat}
    (h : Playable pre f x post tail file) (pos : Nat) (hp : pos ≤ file.length)
    (hd : file.drop pos = post.flatMap chunk ++ tail) :
    Inv file f (start pos Up.zero) (resample f.rate (frames f (soundData post))) := by
  have hlen : ∀ c ∈ post, c.2.length < 4294967296 := by
    intro c hc
    have h1 : (file.drop pos).length ≤ file.length := by rw [List.length_drop]; omega
    rw [hd, List.length_append] at h1
    have h2 : c.2.length ≤ (post.flatMap chunk).length := by
      obtain ⟨a, b, rfl⟩ := List.append_of_mem hc
      simp only [List.flatMap_append, List.flatMap_cons, List.length_append]
      have : (chunk c).length = 8 + c.2.length := by simp [chunk, le4]; omega
      omega
    have := h.short
    omega
  have hz : HistIn 32588 ⟨0, 0, 0⟩ := by simp [HistIn, Small]
  have hz' : HistIn 16204 ⟨0, 0, 0⟩ := by simp [HistIn, Small]
  refine ⟨soundData post, ⟨[], post, tail, hd, hp, h.tailLen, fun c hc => ⟨h.postIds c hc, hlen c hc⟩,
    fun _ => rfl, by simp [start], fun _ => rfl, by simp [start]⟩, ?_, ?_, ?_, ?_, ?_⟩
  · unfold UpIn start Up.zero
    split
    · trivial
    · split
      · exact hz
      · exact ⟨hz, hz'⟩
  · simpa [start, Quiet] using h.quiet
  · simpa [start] using h.bytes
  · simp [start]
  · simp only [start, List.nil_append, emitAll_zero]

/-- C77: however the sound system asks for samples and however the reads are
    aligned, a well-formed WAV file is opened with its format, never more samples
    are delivered than asked for, what is delivered is the sound of the file
    (without its last frame) from the beginning without gap or repetition, and with
    enough calls all of it.  Nothing is ever written outside a buffer. -/
theorem C77_play_partial (riff : Nat) (pre post : List (Nat × List Nat)) (f : Fmt) (x extra tail : List Nat)
    (align : Nat → Nat → Nat) (ha : ∀ p n, 0 < n → 0 < align p n ∧ align p n ≤ n)
    (file : List Nat) (hfile : file = wav riff pre f x extra post tail)
    (h : Playable pre f x post tail file) (ns : List Nat) :
    ∃ pos, openWav file (pre.length + 1) = some (some (f, pos)) ∧
      ∃ ls t r, reads file f align (41 * file.length + 2) ns (start pos Up.zero) = some (ls, t) ∧
        ls.length = ns.length ∧ (∀ p ∈ ls.zip ns, p.1.length ≤ p.2) ∧
        ls.flatten ++ r = resample f.rate (frames f (soundData post)) ∧
        (41 * file.length + 2 ≤ (ns.filter (0 < ·)).length → r = []) := by
  subst hfile
  obtain ⟨pos, ho, hp, hd⟩ := open_ok h
  have hi := start_inv h pos hp hd
  have hmu : mu (wav riff pre f x extra post tail) (start pos Up.zero) ≤
      41 * (wav riff pre f x extra post tail).length + 1 := by
    simp only [mu, start, List.length_nil]; omega
  obtain ⟨ls, t, r, h1, h2, h3, h4, h5⟩ :=
    reads_ok (align := align) h.short ha h.fmt (41 * (wav riff pre f x extra post tail).length + 2) ns
      (start pos Up.zero) _ (by omega) hi
  exact ⟨pos, ho, ls, t, r, h1, h2, h3, h4.symm, fun hk => h5 (by omega)⟩

/-- Reads from an SD card do not cross a block of 512 bytes and always make
    progress, as C77 demands of `align`. -/
theorem C77_align (p n : Nat) (hn : 0 < n) :
    0 < alignSD p n ∧ alignSD p n ≤ n ∧ p % 512 + alignSD p n ≤ 512 := by
  unfold alignSD; omega

/-- A small file: an odd extra chunk, mono, 22050 Hz, 8 bits, two data chunks. -/
def tiny : List Nat :=
  wav 0 [(0x5453494C, [1, 2, 3])] ⟨1, 22050, 8⟩ (List.replicate 6 0) [0, 0]
    [(0x61746164, [128, 129, 130]), (7, [5]), (0x61746164, [127, 200])] [9]

example : Playable [(0x5453494C, [1, 2, 3])] ⟨1, 22050, 8⟩ (List.replicate 6 0)
    [(0x61746164, [128, 129, 130]), (7, [5]), (0x61746164, [127, 200])] [9] tiny := by
  refine ⟨by decide, by decide, by decide, by decide, by decide, by decide, by decide, by decide, ?_⟩
  have : frames ⟨1, 22050, 8⟩ (soundData
      [(0x61746164, [128, 129, 130]), (7, [5]), (0x61746164, [127, 200])]) = [0, 256, 512, -256] := by
    decide
  rw [this]
  intro v hv
  simp only [List.mem_cons, List.not_mem_nil, or_false] at hv
  unfold Small loudest
  rcases hv with rfl | rfl | rfl | rfl <;> decide

example : (reads tiny ⟨1, 22050, 8⟩ alignSD 9000 [3, 0, 4, 5, 5, 5] (start 49 Up.zero)).map (·.1) =
    some [[0, 0, -64], [], [0], [65, 256, 644, 512], [], []] := by decide +kernel

/-- The last frame of a file is never played: here two frames are stored, one is
    delivered. -/
theorem C77_last_counterexample :
    let file := wav 0 [] ⟨1, 44100, 16⟩ (List.replicate 6 0) [] [(0x61746164, [1, 0, 2, 0])] []
    openWav file 1 = some (some (⟨1, 44100, 16⟩, 36)) ∧
    (reads file ⟨1, 44100, 16⟩ alignSD 9000 [10, 10, 10] (start 36 Up.zero)).map (·.1) =
      some [[1], [], []] := by decide +kernel

/-- With a loud file that has to be resampled the computation overflows. -/
theorem C77_loud_counterexample :
    let file := wav 0 [] ⟨1, 22050, 16⟩ (List.replicate 6 0) []
      [(0x61746164, [0, 128, 255, 127, 255, 127, 0, 128, 0, 0])] []
    openWav file 1 = some (some (⟨1, 22050, 16⟩, 36)) ∧
    reads file ⟨1, 22050, 16⟩ alignSD 9000 [10] (start 36 Up.zero) = none := by decide +kernel

/-- A file with many channels is not refused early enough: what does not make up a
    whole frame is moved to before the buffer. -/
theorem C77_memory_counterexample :
    let file := wav 0 [] ⟨8, 44100, 16⟩ (List.replicate 6 0) []
      [(0x61746164, [0, 0, 0, 0, 0, 0, 0, 0, 0, 0, 0, 0])] []
    openWav file 1 = some (some (⟨8, 44100, 16⟩, 36)) ∧
    reads file ⟨8, 44100, 16⟩ alignSD 9000 [10] (start 36 Up.zero) = none := by decide +kernel

/-- A chunk length close to 2^32 moves the file position backwards: the player
    reads the same chunk header for ever, without returning. -/
theorem C77_hang_counterexample (fuel : Nat) :
    openWav (le4 0x46464952 ++ le4 0 ++ le4 0x45564157 ++ le4 7 ++ le4 0xFFFFFFF8) fuel = none := by
  have h : ∀ k, findFmt (le4 0x46464952 ++ le4 0 ++ le4 0x45564157 ++ le4 7 ++ le4 0xFFFFFFF8) k 12 = none := by
    intro k
    induction k with
    | zero => rfl
    | succ k ih =>
      rw [findFmt]
      exact ih
  unfold openWav
  rw [h]
  rfl

/-- Chunks of odd length are followed by a padding byte in a WAV file; the player
    does not know that and does not find the format. -/
theorem C77_padding_counterexample :
    let file := le4 0x46464952 ++ le4 0 ++ le4 0x45564157 ++ chunk (7, [1]) ++ [0] ++
      chunk (0x20746D66, fmtBytes ⟨1, 44100, 16⟩ (List.replicate 6 0) []) ++ chunk (0x61746164, [1, 0, 2, 0])
    openWav file 9 = some none := by decide +kernel

/-- The resampler keeps the end of the previous file: the same file sounds
    different afterwards. -/
theorem C77_leftover_counterexample :
    let file := wav 0 [] ⟨1, 22050, 8⟩ (List.replicate 6 0) [] [(0x61746164, [128, 128])] []
    (reads file ⟨1, 22050, 8⟩ alignSD 9000 [10] (start 36 Up.zero)).map (·.1) ≠
      (reads file ⟨1, 22050, 8⟩ alignSD 9000 [10] (start 36 ⟨⟨0, 0, 1000⟩, ⟨0, 0, 0⟩⟩)).map (·.1) := by
  decide +kernel

end Verif.Audio.PlayWav
