/-!
# C36: the audio ring buffer

Model of sound/buffered_audio_stream.h.  Three parties work on the buffer: the audio interrupt calls
`read` and `eof`, a software interrupt calls `FillBuffer`, the main program calls `clear` and
`SetStream`.  Every access to shared memory is one action, so `read` and `FillBuffer` may interleave in
any way, sample by sample (on ESP32 they run on different cores).  The main program has the lowest
priority: its actions happen only while the other two are not in the middle of something.
`size_t` has 32 bits.  The stream behind the buffer is arbitrary: how many samples it delivers, which, and
whether it says it is at the end are chosen by the actions.
-/
set_option linter.unusedSimpArgs false
namespace Verif.Audio

/-! ## Model -/

/-- where `FillBuffer` is: not running; in `stream_->read` (line 80) with `room` samples of room left at
`pos` and `got` samples written; before line 88 -/
inductive FPc where
  | idle | writing (pos room got : Nat) | publish (got : Nat)
deriving DecidableEq

/-- where `read` is: not running; at line 33 with `left` samples wanted; in `memcpy` (line 39) of `n`
samples with `todo` left at `pos` -/
inductive RPc where
  | idle | want (left : Nat) | copying (pos todo left n : Nat)
deriving DecidableEq

/-- where the main program is: elsewhere; in `clear` after line 55; in the middle of line 56, having read
`buf_end_`; after line 56; in `SetStream` after line 67 -/
inductive MPc where
  | idle | clear1 | clear2 (temp : Nat) | clear3 | set1
deriving DecidableEq

/-- sound/buffered_audio_stream.h:93-98, the three program counters, and (for the specification) the
samples the stream has delivered and the samples handed to callers of `read` since the last `clear`, and
whether the stream said it was at the end when last asked -/
structure St where
  buf : List Int
  start : Nat
  end_ : Nat
  eof : Bool
  stream : Bool
  f : FPc
  r : RPc
  m : MPc
  src : List Int
  out : List Int
  srcEof : Bool

/-- a new object, sound/buffered_audio_stream.h:19-24 -/
def St.init (buf : List Int) : St := ⟨buf, 0, 0, true, false, .idle, .idle, .idle, [], [], false⟩

/-- `buffered`, sound/buffered_audio_stream.h:59-61 -/
def St.buffered (s : St) : Nat := (s.end_ + 4294967296 - s.start) % 4294967296

/-- `real_space_available`, sound/buffered_audio_stream.h:71-74 -/
def St.space (N : Nat) (s : St) : Nat := if s.eof || !s.stream then 0 else N - s.buffered

/-- `eof`, sound/buffered_audio_stream.h:47-49 -/
def St.atEof (s : St) : Bool := s.buffered == 0 && s.eof

/-- the actions -/
inductive Act where
  /-- `FillBuffer` starts, lines 75-79 -/
  | fillBegin
  /-- the stream writes a sample -/
  | fillSample (v : Int)
  /-- the stream returns; if it gave nothing it says whether it is at the end -/
  | fillReturn (atEnd : Bool)
  /-- line 88 -/
  | fillPublish
  /-- `read` is called for `n` samples -/
  | readBegin (n : Nat)
  /-- lines 33-38 -/
  | readCheck
  /-- one sample is copied -/
  | readSample
  /-- lines 40-43 -/
  | readAdvance
  | clear1 | clear2 | clear3 | clear4 | set1 | set2
deriving DecidableEq

/-- one action; `none` if the party concerned is not at the place for it.  The main program acts only while
the others do nothing, unless `par` is set: then `FillBuffer` may be in the middle of something, as on
ESP32, where it runs on another core (sound/audio_stream_work.h:42-58).  `SetStream` is called only after
`clear` (sound/buffered_wav_player.h:20-29, 52-70, 111-113). -/
def St.step (N : Nat) (s : St) (par : Bool) : Act → Option St
  | .fillBegin =>
    match s.f with
    | .idle => if s.stream = true ∧ s.space N ≠ 0 then some { s with f := .writing (s.end_ % N) (min (s.space N) (N - s.end_ % N)) 0 } else some s
    | _ => none
  | .fillSample v =>
    match s.f with
    | .writing pos (room + 1) got => some { s with buf := s.buf.set pos v, f := .writing (pos + 1) room (got + 1), src := s.src ++ [v] }
    | _ => none
  | .fillReturn e =>
    match s.f with
    | .writing _ _ got => some { s with eof := if got ≠ 0 then false else e, srcEof := if got ≠ 0 then s.srcEof else e, f := .publish got }
    | _ => none
  | .fillPublish =>
    match s.f with
    | .publish got => some { s with end_ := (s.end_ + got) % 4294967296, f := .idle }
    | _ => none
  | .readBegin n =>
    match s.r with
    | .idle => some { s with r := .want n }
    | _ => none
  | .readCheck =>
    match s.r with
    | .want left =>
      if left = 0 ∨ s.buffered = 0 then some { s with r := .idle }
      else
        let n := min (min s.buffered left) (N - s.start % N)
        some { s with r := .copying (s.start % N) n left n }
    | _ => none
  | .readSample =>
    match s.r with
    | .copying pos (todo + 1) left n => some { s with r := .copying (pos + 1) todo left n, out := s.out ++ [s.buf.getD pos 0] }
    | _ => none
  | .readAdvance =>
    match s.r with
    | .copying _ 0 left n => some { s with start := (s.start + n) % 4294967296, r := .want (left - n) }
    | _ => none
  | .clear1 => if s.m = .idle ∧ (par = true ∨ s.f = .idle) ∧ s.r = .idle then some { s with eof := true, m := .clear1 } else none
  | .clear2 => if s.m = .clear1 ∧ (par = true ∨ s.f = .idle) ∧ s.r = .idle then some { s with m := .clear2 s.end_ } else none
  | .clear3 =>
    match s.m with
    | .clear2 t => if (par = true ∨ s.f = .idle) ∧ s.r = .idle then some { s with start := t, m := .clear3, src := [], out := [], srcEof := false } else none
    | _ => none
  | .clear4 => if s.m = .clear3 ∧ (par = true ∨ s.f = .idle) ∧ s.r = .idle then some { s with stream := false, m := .idle } else none
  | .set1 => if s.m = .idle ∧ s.stream = false ∧ (par = true ∨ s.f = .idle) ∧ s.r = .idle then some { s with eof := false, m := .set1 } else none
  | .set2 => if s.m = .set1 ∧ (par = true ∨ s.f = .idle) ∧ s.r = .idle then some { s with stream := true, m := .idle } else none

/-- the states that can be reached, from a buffer with any content -/
inductive Reach (N : Nat) : St → Prop
  | init (buf : List Int) (h : buf.length = N) : Reach N (St.init buf)
  | step {s s' : St} (a : Act) (h : Reach N s) (hs : s.step N false a = some s') : Reach N s'

/-! ## Invariant -/

/-- `S` and `E` count all samples ever read and written (also before the last `clear`), `B` those before
the last `clear`. -/
structure Inv (N : Nat) (s : St) (B D P : Nat) : Prop where
  len : s.buf.length = N
  start : s.start = (B + D) % 4294967296
  end_ : s.end_ = (B + P) % 4294967296
  le : D ≤ P
  room : P ≤ D + N
  /-- the buffer holds the samples from the last one read to the last one written -/
  cells : ∀ j, D ≤ j → j < s.src.length → s.buf[(B + j) % N]? = s.src[j]?
  fill : match s.f with
    | .idle => s.src.length = P
    | .writing pos room got => s.src.length = P + got ∧ pos = (B + P) % N + got ∧ (B + P) % N + got + room ≤ N ∧ P + got + room ≤ D + N ∧ s.eof = false
    | .publish got => s.src.length = P + got ∧ P + got ≤ D + N ∧ (got ≠ 0 → s.eof = false)
  read : match s.r with
    | .idle => s.out.length = D
    | .want _ => s.out.length = D
    | .copying pos todo left n => todo ≤ n ∧ s.out.length = D + (n - todo) ∧ pos = (B + D) % N + (n - todo) ∧ (B + D) % N + n ≤ N ∧ D + n ≤ P ∧ n ≤ left
  main : match s.m with
    | .idle => True
    | .clear1 => s.eof = true ∧ s.f = .idle
    | .clear2 t => s.eof = true ∧ s.f = .idle ∧ t = s.end_
    | .clear3 => s.eof = true ∧ s.f = .idle ∧ s.src = []
    | .set1 => s.stream = false ∧ s.eof = false
  nostream : s.stream = false → s.src = [] ∧ s.f = .idle
  /-- `eof_` is set only if the stream is at the end or there is none -/
  eof : s.eof = true → s.m = .idle → s.srcEof = true ∨ s.stream = false
  out : s.out = s.src.take s.out.length

theorem buffered_eq {N : Nat} {s : St} {B D P : Nat} (h : Inv N s B D P) (hN : N < 4294967296) : s.buffered = P - D := by
  have := h.le; have := h.room
  unfold St.buffered
  rw [h.start, h.end_]
  omega

/-- powers of two divide the counter range -/
theorem mod_mod_N {N : Nat} (hN : N ∣ 4294967296) (x : Nat) : x % 4294967296 % N = x % N := Nat.mod_mod_of_dvd x hN

theorem add_mod_small {N a k : Nat} (h : a % N + k < N) : (a + k) % N = a % N + k := by
  have h1 : a + k = a % N + k + N * (a / N) := by have := Nat.mod_add_div a N; omega
  rw [h1, Nat.add_mul_mod_self_left, Nat.mod_eq_of_lt h]

/-- two positions less than `N` apart are different cells -/
theorem cells_ne {N a b : Nat} (h1 : a < b) (h2 : b < a + N) : a % N ≠ b % N := by
  intro h
  have h3 : (b - a) % N = 0 := by
    have := Nat.sub_mod_eq_zero_of_mod_eq h.symm
    exact this
  rw [Nat.mod_eq_of_lt (by omega)] at h3
  omega


variable {N : Nat} {s s' : St} {B D P : Nat}

theorem fillBegin_inv (h : Inv N s B D P) (hN : N < 4294967296) (hd : N ∣ 4294967296) (hs : s.step N false .fillBegin = some s') : Inv N s' B D P := by
  simp only [St.step] at hs
  cases hf : s.f with
  | idle =>
    rw [hf] at hs
    simp only at hs
    split at hs
    · rename_i hc
      injection hs with hs; subst hs
      have hfill := h.fill; rw [hf] at hfill
      have hb := buffered_eq h hN
      have hsp : s.eof = false ∧ s.space N = N - (P - D) := by
        unfold St.space at hc ⊢
        rw [hb] at hc ⊢
        cases he : s.eof with
        | true => rw [he] at hc; simp at hc
        | false => rw [hc.1]; simp
      have hpos : s.end_ % N = (B + P) % N := by rw [h.end_, mod_mod_N hd]
      have hlt : (B + P) % N < N := by
        apply Nat.mod_lt
        rcases Nat.eq_zero_or_pos N with h0 | h0
        · rw [hsp.2, h0] at hc; omega
        · exact h0
      have h1 := h.le; have h2 := h.room
      refine { h with fill := ?_, main := ?_, nostream := ?_ }
      · simp only
        rw [hpos, hsp.2]
        simp only at hfill
        exact ⟨by omega, by omega, by omega, by omega, hsp.1⟩
      · have hm := h.main
        simp only
        split
        · trivial
        · rename_i hh; rw [hh] at hm; rw [hsp.1] at hm; simp at hm
        · rename_i hh; rw [hh] at hm; rw [hsp.1] at hm; simp at hm
        · rename_i hh; rw [hh] at hm; rw [hsp.1] at hm; simp at hm
        · rename_i hh; rw [hh] at hm; exact hm
      · intro hst; simp only at hst; rw [hst] at hc; simp at hc
    · injection hs with hs; subst hs; exact h
  | writing a b c => rw [hf] at hs; simp at hs
  | publish g => rw [hf] at hs; simp at hs

theorem fillSample_inv (h : Inv N s B D P) (v : Int) (hs : s.step N false (.fillSample v) = some s') : Inv N s' B D P := by
  simp only [St.step] at hs
  split at hs <;> try (simp at hs; done)
  rename_i pos room got hf
  injection hs with hs; subst hs
  obtain ⟨f1, f2, f3, f4, f5⟩ : s.src.length = P + got ∧ pos = (B + P) % N + got ∧ (B + P) % N + got + (room + 1) ≤ N ∧ P + got + (room + 1) ≤ D + N ∧ s.eof = false := by
    have := h.fill; rw [hf] at this; exact this
  have h1 := h.le; have h2 := h.room
  have hpos : pos = (B + (P + got)) % N := by rw [f2, ← Nat.add_assoc, add_mod_small (a := B + P) (k := got) (by omega)]
  refine { h with len := ?_, cells := ?_, fill := ?_, main := ?_, nostream := ?_, out := ?_ }
  · simpa using h.len
  · intro j hj hjl
    simp only [List.length_append, List.length_singleton] at hjl
    simp only
    by_cases hje : j = P + got
    · subst hje
      rw [← hpos, List.getElem?_set_self (by rw [h.len]; omega), List.getElem?_append_right (by omega), f1]; simp
    · have hne : pos ≠ (B + j) % N := by
        rw [hpos]
        exact Ne.symm (cells_ne (by omega) (by omega))
      rw [List.getElem?_set_ne hne, h.cells j hj (by omega), List.getElem?_append_left (by omega)]
  · simp only [List.length_append, List.length_singleton]
    exact ⟨by omega, by omega, by omega, by omega, f5⟩
  · have hm := h.main
    simp only
    split
    · trivial
    · rename_i hh; rw [hh] at hm; rw [f5] at hm; simp at hm
    · rename_i hh; rw [hh] at hm; rw [f5] at hm; simp at hm
    · rename_i hh; rw [hh] at hm; rw [f5] at hm; simp at hm
    · rename_i hh; rw [hh] at hm; exact hm
  · intro hst
    have := (h.nostream hst).2; rw [hf] at this; simp at this
  · have := h.out
    simp only
    have hol : s.out.length ≤ s.src.length := by rw [this]; simp; omega
    rw [List.take_append_of_le_length hol]; exact this

theorem fillReturn_inv (h : Inv N s B D P) (e : Bool) (hs : s.step N false (.fillReturn e) = some s') : Inv N s' B D P := by
  simp only [St.step] at hs
  split at hs <;> try (simp at hs; done)
  rename_i pos room got hf
  injection hs with hs; subst hs
  obtain ⟨f1, f2, f3, f4, f5⟩ : s.src.length = P + got ∧ pos = (B + P) % N + got ∧ (B + P) % N + got + room ≤ N ∧ P + got + room ≤ D + N ∧ s.eof = false := by
    have := h.fill; rw [hf] at this; exact this
  refine { h with fill := ?_, main := ?_, nostream := ?_, eof := ?_ }
  · simp only
    refine ⟨f1, by omega, ?_⟩
    intro hg; rw [if_pos hg]
  · have hm := h.main
    simp only
    split
    · trivial
    · rename_i hh; rw [hh] at hm; rw [f5] at hm; simp at hm
    · rename_i hh; rw [hh] at hm; rw [f5] at hm; simp at hm
    · rename_i hh; rw [hh] at hm; rw [f5] at hm; simp at hm
    · rename_i hh; rw [hh] at hm
      have := (h.nostream hm.1).2; rw [hf] at this; simp at this
  · intro hst
    have := (h.nostream hst).2; rw [hf] at this; simp at this
  · intro he _
    simp only at he ⊢
    left
    split at he
    · simp at he
    · rename_i hg; rw [if_neg hg]; exact he

theorem fillPublish_inv (h : Inv N s B D P) (hs : s.step N false .fillPublish = some s') : ∃ got, Inv N s' B D (P + got) := by
  simp only [St.step] at hs
  split at hs <;> try (simp at hs; done)
  rename_i got hf
  injection hs with hs; subst hs
  obtain ⟨f1, f2, f3⟩ : s.src.length = P + got ∧ P + got ≤ D + N ∧ (got ≠ 0 → s.eof = false) := by
    have := h.fill; rw [hf] at this; exact this
  have h1 := h.le
  refine ⟨got, { h with end_ := ?_, le := by omega, room := f2, fill := f1, read := ?_, main := ?_, nostream := ?_ }⟩
  · simp only
    rw [h.end_, Nat.mod_add_mod, Nat.add_assoc]
  · have hr := h.read
    simp only
    split
    · rename_i hh; rw [hh] at hr; exact hr
    · rename_i hh; rw [hh] at hr; exact hr
    · rename_i hh; rw [hh] at hr; simp only at hr ⊢
      obtain ⟨a, b, c, d, e, f⟩ := hr
      exact ⟨a, b, c, d, by omega, f⟩
  · have hm := h.main
    simp only
    split
    · trivial
    · rename_i hh; rw [hh] at hm; rw [hf] at hm; simp at hm
    · rename_i hh; rw [hh] at hm; rw [hf] at hm; simp at hm
    · rename_i hh; rw [hh] at hm; rw [hf] at hm; simp at hm
    · rename_i hh; rw [hh] at hm; exact hm
  · intro hst
    have := (h.nostream hst).2; rw [hf] at this; simp at this

theorem readBegin_inv (h : Inv N s B D P) (n : Nat) (hs : s.step N false (.readBegin n) = some s') : Inv N s' B D P := by
  simp only [St.step] at hs
  split at hs <;> try (simp at hs; done)
  rename_i hr
  injection hs with hs; subst hs
  have := h.read; rw [hr] at this
  exact { h with read := this }

theorem readCheck_inv (h : Inv N s B D P) (hN : N < 4294967296) (hd : N ∣ 4294967296) (hs : s.step N false .readCheck = some s') : Inv N s' B D P := by
  simp only [St.step] at hs
  split at hs <;> try (simp at hs; done)
  rename_i left hr
  have hread := h.read; rw [hr] at hread
  split at hs
  · injection hs with hs; subst hs
    exact { h with read := hread }
  · rename_i hc
    injection hs with hs; subst hs
    have hb := buffered_eq h hN
    have hpos : s.start % N = (B + D) % N := by rw [h.start, mod_mod_N hd]
    have h1 := h.le; have h2 := h.room
    have hlt : (B + D) % N < N := Nat.mod_lt _ (by rw [hb] at hc; omega)
    refine { h with read := ?_ }
    simp only
    rw [hpos, hb]
    simp only at hread
    exact ⟨by omega, by omega, by omega, by omega, by omega, by omega⟩

theorem readSample_inv (h : Inv N s B D P) (hs : s.step N false .readSample = some s') : Inv N s' B D P := by
  simp only [St.step] at hs
  split at hs <;> try (simp at hs; done)
  rename_i pos todo left n hr
  injection hs with hs; subst hs
  obtain ⟨r1, r2, r3, r4, r5, r6⟩ : todo + 1 ≤ n ∧ s.out.length = D + (n - (todo + 1)) ∧ pos = (B + D) % N + (n - (todo + 1)) ∧ (B + D) % N + n ≤ N ∧ D + n ≤ P ∧ n ≤ left := by
    have := h.read; rw [hr] at this; exact this
  have hsrc : P ≤ s.src.length := by
    have := h.fill
    split at this <;> omega
  have hcell : s.buf[pos]? = s.src[s.out.length]? := by
    have := h.cells s.out.length (by omega) (by omega)
    rw [← this, r2, ← Nat.add_assoc, add_mod_small (a := B + D) (k := n - (todo + 1)) (by omega), r3]
  have hlt : s.out.length < s.src.length := by omega
  refine { h with read := ?_, out := ?_ }
  · simp only [List.length_append, List.length_singleton]
    exact ⟨by omega, by omega, by omega, by omega, by omega, by omega⟩
  · simp only [List.length_append, List.length_singleton]
    have := h.out
    rw [List.take_succ_eq_append_getElem hlt, ← this]
    congr 2
    rw [List.getD_eq_getElem?_getD, hcell, List.getElem?_eq_getElem hlt]; rfl

theorem readAdvance_inv (h : Inv N s B D P) (hs : s.step N false .readAdvance = some s') : ∃ n, Inv N s' B (D + n) P := by
  simp only [St.step] at hs
  split at hs <;> try (simp at hs; done)
  rename_i pos left n hr
  injection hs with hs; subst hs
  obtain ⟨r1, r2, r3, r4, r5, r6⟩ : 0 ≤ n ∧ s.out.length = D + (n - 0) ∧ pos = (B + D) % N + (n - 0) ∧ (B + D) % N + n ≤ N ∧ D + n ≤ P ∧ n ≤ left := by
    have := h.read; rw [hr] at this; exact this
  have h2 := h.room
  refine ⟨n, { h with start := ?_, le := r5, room := by omega, cells := fun j hj hl => h.cells j (by omega) hl, fill := ?_, read := r2 }⟩
  · simp only
    rw [h.start, Nat.mod_add_mod, Nat.add_assoc]
  · have hf := h.fill
    simp only
    split
    · rename_i hh; rw [hh] at hf; exact hf
    · rename_i hh; rw [hh] at hf; simp only at hf ⊢
      obtain ⟨a, b, c, d, e⟩ := hf
      exact ⟨a, b, c, by omega, e⟩
    · rename_i hh; rw [hh] at hf; simp only at hf ⊢
      obtain ⟨a, b, c⟩ := hf
      exact ⟨a, by omega, c⟩

theorem main_inv (h : Inv N s B D P) (a : Act) (ha : a = .clear1 ∨ a = .clear2 ∨ a = .clear3 ∨ a = .clear4 ∨ a = .set1 ∨ a = .set2) (hs : s.step N false a = some s') :
    ∃ B' D' P', Inv N s' B' D' P' := by
  rcases ha with rfl | rfl | rfl | rfl | rfl | rfl <;> simp only [St.step, Bool.false_eq_true, false_or] at hs
  · split at hs <;> try (simp at hs; done)
    rename_i hc
    injection hs with hs; subst hs
    have hf := h.fill; rw [hc.2.1] at hf
    refine ⟨B, D, P, { h with fill := ?_, main := ⟨rfl, hc.2.1⟩, eof := by simp }⟩
    simp only [hc.2.1]; exact hf
  · split at hs <;> try (simp at hs; done)
    rename_i hc
    injection hs with hs; subst hs
    have hm := h.main; rw [hc.1] at hm
    exact ⟨B, D, P, { h with main := ⟨hm.1, hm.2, rfl⟩, eof := by simp }⟩
  · split at hs <;> try (simp at hs; done)
    rename_i t hm'
    split at hs <;> try (simp at hs; done)
    rename_i hc
    injection hs with hs; subst hs
    have hm := h.main; rw [hm'] at hm
    have ht : t = (B + P) % 4294967296 := by rw [hm.2.2, h.end_]
    exact ⟨B + P, 0, 0, { len := h.len, start := ht, end_ := h.end_, le := Nat.le_refl _, room := Nat.zero_le _, cells := by simp, fill := (by simp only [hc.1]; rfl), read := (by simp only [hc.2]; rfl), main := ⟨hm.1, hc.1, rfl⟩, nostream := fun _ => ⟨rfl, hc.1⟩, eof := by simp, out := rfl }⟩
  · split at hs <;> try (simp at hs; done)
    rename_i hc
    injection hs with hs; subst hs
    have hm := h.main; rw [hc.1] at hm
    exact ⟨B, D, P, { h with main := trivial, nostream := fun _ => ⟨hm.2.2, hm.2.1⟩, eof := fun _ _ => Or.inr rfl }⟩
  · split at hs <;> try (simp at hs; done)
    rename_i hc
    injection hs with hs; subst hs
    have hf := h.fill; rw [hc.2.2.1] at hf
    refine ⟨B, D, P, { h with fill := ?_, main := ⟨hc.2.1, rfl⟩, eof := by simp }⟩
    simp only [hc.2.2.1]; exact hf
  · split at hs <;> try (simp at hs; done)
    rename_i hc
    injection hs with hs; subst hs
    have hm := h.main; rw [hc.1] at hm
    exact ⟨B, D, P, { h with main := trivial, nostream := by simp, eof := fun he _ => by simp only at he; rw [hm.2] at he; simp at he }⟩

theorem reach_inv (hN : N < 4294967296) (hd : N ∣ 4294967296) {s : St} (h : Reach N s) : ∃ B D P, Inv N s B D P := by
  induction h with
  | init buf hl =>
    exact ⟨0, 0, 0, { len := hl, start := rfl, end_ := rfl, le := Nat.le_refl _, room := Nat.zero_le _, cells := by simp [St.init], fill := rfl, read := rfl, main := trivial, nostream := fun _ => ⟨rfl, rfl⟩, eof := fun _ _ => Or.inr rfl, out := rfl }⟩
  | step a _ hs ih =>
    obtain ⟨B, D, P, h⟩ := ih
    cases a with
    | fillBegin => exact ⟨B, D, P, fillBegin_inv h hN hd hs⟩
    | fillSample v => exact ⟨B, D, P, fillSample_inv h v hs⟩
    | fillReturn e => exact ⟨B, D, P, fillReturn_inv h e hs⟩
    | fillPublish => obtain ⟨g, h'⟩ := fillPublish_inv h hs; exact ⟨B, D, P + g, h'⟩
    | readBegin n => exact ⟨B, D, P, readBegin_inv h n hs⟩
    | readCheck => exact ⟨B, D, P, readCheck_inv h hN hd hs⟩
    | readSample => exact ⟨B, D, P, readSample_inv h hs⟩
    | readAdvance => obtain ⟨n, h'⟩ := readAdvance_inv h hs; exact ⟨B, D + n, P, h'⟩
    | clear1 => exact main_inv h _ (by simp) hs
    | clear2 => exact main_inv h _ (by simp) hs
    | clear3 => exact main_inv h _ (by simp) hs
    | clear4 => exact main_inv h _ (by simp) hs
    | set1 => exact main_inv h _ (by simp) hs
    | set2 => exact main_inv h _ (by simp) hs

/-! ## Theorems -/

/-- C36: in every reachable state, whatever the interleaving, the samples handed to callers of `read`
since the last `clear` are the first samples the stream delivered since then, in order. -/
theorem C36_fifo (hN : N < 4294967296) (hd : N ∣ 4294967296) {s : St} (h : Reach N s) : s.out <+: s.src := by
  obtain ⟨B, D, P, h⟩ := reach_inv hN hd h
  rw [h.out]; exact List.take_prefix _ _

/-- C36: nothing is lost: when nobody is in the middle of something, what has been delivered and not yet
read is just what is in the buffer, never more than `N` samples. -/
theorem C36_no_loss (hN : N < 4294967296) (hd : N ∣ 4294967296) {s : St} (h : Reach N s) (hf : s.f = .idle) (hr : s.r = .idle) :
    s.src.length = s.out.length + s.buffered ∧ s.buffered ≤ N := by
  obtain ⟨B, D, P, h⟩ := reach_inv hN hd h
  have h1 := buffered_eq h hN
  have h2 := h.fill; rw [hf] at h2
  have h3 := h.read; rw [hr] at h3
  have h4 := h.le; have h5 := h.room
  simp only at h2 h3
  omega

/-- C36: both sides stay inside the buffer: a sample is written or read only at an index below `N`. -/
theorem C36_in_bounds (hN : N < 4294967296) (hd : N ∣ 4294967296) {s : St} (h : Reach N s) :
    s.buf.length = N ∧ (∀ pos room got, s.f = .writing pos (room + 1) got → pos < N) ∧ (∀ pos todo left n, s.r = .copying pos (todo + 1) left n → pos < N) := by
  obtain ⟨B, D, P, h⟩ := reach_inv hN hd h
  refine ⟨h.len, ?_, ?_⟩
  · intro pos room got hf
    have := h.fill; rw [hf] at this; simp only at this; omega
  · intro pos todo left n hr
    have := h.read; rw [hr] at this; simp only at this; omega

/-- C36: `eof` says yes to the audio interrupt (while the main program is not in the middle of `clear` or
`SetStream`) only if every sample delivered has been read, and the stream said it was at the end or there
is no stream. -/
theorem C36_eof (hN : N < 4294967296) (hd : N ∣ 4294967296) {s : St} (h : Reach N s) (hm : s.m = .idle) (hr : s.r = .idle) (he : s.atEof = true) (hf : ∀ p r g, s.f ≠ .writing p r g) :
    s.out = s.src ∧ (s.srcEof = true ∨ s.stream = false) := by
  obtain ⟨B, D, P, h⟩ := reach_inv hN hd h
  unfold St.atEof at he
  simp only [Bool.and_eq_true, beq_iff_eq] at he
  have h1 := buffered_eq h hN
  have h3 := h.read; rw [hr] at h3; simp only at h3
  have h4 := h.le
  refine ⟨?_, h.eof he.2 hm⟩
  have hl : s.src.length = s.out.length := by
    have h2 := h.fill
    split at h2
    · omega
    · rename_i hh; exact absurd hh (hf _ _ _)
    · rename_i got hh
      by_cases hg : got = 0
      · omega
      · have := h2.2.2 hg; rw [he.2] at this; simp at this
  rw [h.out, ← hl]; exact List.take_length

/-- a sequence of actions -/
def St.run (N : Nat) (par : Bool) (s : St) (l : List Act) : Option St := l.foldlM (fun s a => s.step N par a) s

theorem run_reach {s' : St} : ∀ (l : List Act) (s : St), Reach N s → s.run N false l = some s' → Reach N s'
  | [], s, h, hr => by
    have : some s = some s' := hr
    injection this with this; exact this ▸ h
  | a :: l, s, h, hr => by
    unfold St.run at hr
    rw [List.foldlM_cons, Option.bind_eq_bind] at hr
    cases hs : s.step N false a with
    | none => rw [hs] at hr; simp at hr
    | some t => rw [hs, Option.bind_some] at hr; exact run_reach l t (h.step a hs) hr

theorem run_cons {s t : St} {par : Bool} {a : Act} {l : List Act} (h : s.step N par a = some t) : s.run N par (a :: l) = t.run N par l := by
  unfold St.run
  rw [List.foldlM_cons, h]; rfl

theorem run_append {par : Bool} {s t : St} {k l : List Act} (h : s.run N par k = some t) : s.run N par (k ++ l) = t.run N par l := by
  unfold St.run at *
  rw [List.foldlM_append, h]; rfl

theorem copy_run : ∀ (todo pos left n : Nat) (s : St), s.r = .copying pos todo left n →
    ∃ s', s.run N false (List.replicate todo .readSample) = some s' ∧ s'.r = .copying (pos + todo) 0 left n ∧ s'.out.length = s.out.length + todo ∧ s'.src = s.src ∧ s'.start = s.start ∧ s'.end_ = s.end_
  | 0, pos, left, n, s, h => ⟨s, rfl, h, rfl, rfl, rfl, rfl⟩
  | todo + 1, pos, left, n, s, h => by
    obtain ⟨s', h1, h2, h3, h4, h5, h6⟩ := copy_run todo (pos + 1) left n { s with r := .copying (pos + 1) todo left n, out := s.out ++ [s.buf.getD pos 0] } rfl
    refine ⟨s', ?_, by rw [h2]; congr 1; omega, by rw [h3]; simp; omega, h4, h5, h6⟩
    rw [List.replicate_succ]
    rw [run_cons (t := { s with r := .copying (pos + 1) todo left n, out := s.out ++ [s.buf.getD pos 0] }) (by simp only [St.step, h])]
    exact h1

theorem round_lt {left b c n : Nat} (hc : ¬ (left = 0 ∨ b = 0)) (h : 0 < c) (hn : n = min (min b left) c) : left - n < left := by omega

theorem adv_le {K a b m n : Nat} (ha : a < K) (hb : b < K) (hm : m = (b + K - a) % K) (hn : n ≤ m) :
    (b + K - (a + n) % K) % K = m - n := by
  by_cases h : a ≤ b
  · have e : b + K - a = (b - a) + K := by omega
    rw [e, Nat.add_mod_right, Nat.mod_eq_of_lt (by omega)] at hm
    rw [Nat.mod_eq_of_lt (show a + n < K by omega)]
    have e : b + K - (a + n) = (b - (a + n)) + K := by omega
    rw [e, Nat.add_mod_right, Nat.mod_eq_of_lt (by omega)]
    omega
  · rw [Nat.mod_eq_of_lt (show b + K - a < K by omega)] at hm
    by_cases h2 : a + n < K
    · rw [Nat.mod_eq_of_lt h2, Nat.mod_eq_of_lt (by omega)]; omega
    · have e : a + n = (a + n - K) + K := by omega
      rw [e, Nat.add_mod_right, Nat.mod_eq_of_lt (show a + n - K < K by omega)]
      have e : b + K - (a + n - K) = (b - (a + n - K)) + K := by omega
      rw [e, Nat.add_mod_right, Nat.mod_eq_of_lt (by omega)]
      omega

theorem advance_buffered {a b left c n : Nat} (ha : a < 4294967296) (hb : b < 4294967296) (hn : n = min (min ((b + 4294967296 - a) % 4294967296) left) c) :
    (b + 4294967296 - (a + n) % 4294967296) % 4294967296 = (b + 4294967296 - a) % 4294967296 - n :=
  adv_le ha hb rfl (hn ▸ Nat.le_trans (Nat.min_le_left _ _) (Nat.min_le_left _ _))

theorem round_total {o left b n : Nat} (hn : n ≤ min b left) : o + n + min (left - n) (b - n) = o + min left b := by omega

theorem want_run (hN : N < 4294967296) (hd : N ∣ 4294967296) : ∀ (left : Nat) (s : St), Reach N s → s.r = .want left →
    ∃ l s', (∀ a ∈ l, a = .readCheck ∨ a = .readSample ∨ a = .readAdvance) ∧ s.run N false l = some s' ∧ s'.r = .idle ∧ s'.out.length = s.out.length + min left s.buffered ∧ s'.src = s.src := by
  intro left
  induction left using Nat.strongRecOn with
  | ind left ih =>
    intro s hr hw
    by_cases hc : left = 0 ∨ s.buffered = 0
    · refine ⟨[.readCheck], { s with r := .idle }, by simp, ?_, rfl, ?_, rfl⟩
      · rw [run_cons (t := { s with r := .idle }) (by simp only [St.step, hw]; rw [if_pos hc])]; rfl
      · simp only; omega
    · obtain ⟨B, D, P, hi⟩ := reach_inv hN hd hr
      have hb := buffered_eq hi hN
      have hroom := hi.room
      have hlt : s.start % N < N := Nat.mod_lt _ (by omega)
      -- the amount of one round
      obtain ⟨n, hn⟩ : ∃ n, n = min (min s.buffered left) (N - s.start % N) := ⟨_, rfl⟩
      have h1 : s.step N false .readCheck = some { s with r := .copying (s.start % N) n left n } := by
        simp only [St.step, hw]; rw [if_neg hc, hn]
      obtain ⟨t, t1, t2, t3, t4, t5, t6⟩ := copy_run (N := N) n (s.start % N) left n { s with r := .copying (s.start % N) n left n } rfl
      have h2 : t.step N false .readAdvance = some { t with start := (t.start + n) % 4294967296, r := .want (left - n) } := by
        simp only [St.step, t2]
      have hrt : Reach N t := run_reach _ _ (hr.step _ h1) t1
      obtain ⟨u, hu⟩ : ∃ u, u = { t with start := (t.start + n) % 4294967296, r := .want (left - n) } := ⟨_, rfl⟩
      rw [← hu] at h2
      have hru : Reach N u := hrt.step _ h2
      have u1 : u.r = .want (left - n) := by rw [hu]
      have u2 : u.out = t.out := by rw [hu]
      have u3 : u.src = t.src := by rw [hu]
      have u4 : u.start = (t.start + n) % 4294967296 := by rw [hu]
      have u5 : u.end_ = t.end_ := by rw [hu]
      clear hu
      obtain ⟨l, s', g1, g2, g3, g4, g5⟩ := ih (left - n) (round_lt hc (Nat.sub_pos_of_lt hlt) hn) u hru u1
      refine ⟨.readCheck :: (List.replicate n .readSample ++ .readAdvance :: l), s', ?_, ?_, g3, ?_, ?_⟩
      · intro a ha
        simp only [List.mem_cons, List.mem_append, List.mem_replicate] at ha
        rcases ha with rfl | ⟨_, rfl⟩ | rfl | ha
        · simp
        · simp
        · simp
        · exact g1 a ha
      · rw [run_cons h1, run_append t1, run_cons h2]; exact g2
      · have hbu : u.buffered = s.buffered - n := by
          have hs : s.start < 4294967296 := by rw [hi.start]; exact Nat.mod_lt _ (by decide)
          have he : s.end_ < 4294967296 := by rw [hi.end_]; exact Nat.mod_lt _ (by decide)
          have e1 : u.buffered = (u.end_ + 4294967296 - u.start) % 4294967296 := rfl
          have e2 : s.buffered = (s.end_ + 4294967296 - s.start) % 4294967296 := rfl
          have t5' : t.start = s.start := t5
          have t6' : t.end_ = s.end_ := t6
          rw [e1, u4, u5, t5', t6']
          rw [e2] at hn ⊢
          exact advance_buffered hs he hn
        have t3' : t.out.length = s.out.length + n := t3
        rw [g4, hbu, u2, t3']
        exact round_total (Nat.le_trans (Nat.le_of_eq hn) (Nat.min_le_left _ _))
      · rw [g5, u3]; exact t4

/-- C36: a call of `read` for `n` samples (with nobody else running) returns, having handed over the next
`min n b` samples the stream delivered, where `b` is the number of samples in the buffer. -/
theorem C36_read (hN : N < 4294967296) (hd : N ∣ 4294967296) {s : St} (h : Reach N s) (hr : s.r = .idle) (n : Nat) :
    ∃ l s', (∀ a ∈ l, a = .readCheck ∨ a = .readSample ∨ a = .readAdvance) ∧ s.run N false (.readBegin n :: l) = some s' ∧ s'.r = .idle ∧
      s'.src = s.src ∧ s'.out = s.src.take (s.out.length + min n s.buffered) := by
  have h1 : s.step N false (.readBegin n) = some { s with r := .want n } := by simp only [St.step, hr]
  obtain ⟨l, s', g1, g2, g3, g4, g5⟩ := want_run hN hd n _ (h.step _ h1) rfl
  have hr' : s.run N false (.readBegin n :: l) = some s' := by rw [run_cons h1]; exact g2
  refine ⟨l, s', g1, hr', g3, g5, ?_⟩
  obtain ⟨B, D, P, hi⟩ := reach_inv hN hd (run_reach _ s h hr')
  have := hi.out
  rw [g4, g5] at this
  exact this

/-- the sizes in use are powers of two -/
theorem pow_ok (k : Nat) (hk : k < 32) : 2 ^ k < 4294967296 ∧ 2 ^ k ∣ 4294967296 := by
  have e : 4294967296 = 2 ^ 32 := by decide
  rw [e]
  exact ⟨Nat.pow_lt_pow_right (by decide) hk, Nat.pow_dvd_pow 2 (by omega)⟩

/-- an interleaving for a buffer of four samples: the reader copies a sample in the middle of the filler's
work -/
def sampleRun : List Act := [.set1, .set2, .fillBegin, .fillSample 1, .fillSample 2, .fillReturn false, .fillPublish, .fillBegin, .fillSample 3,
  .readBegin 3, .readCheck, .readSample, .fillSample 4, .readSample, .fillReturn false, .readAdvance, .fillPublish, .fillBegin, .fillSample 5, .readCheck, .readSample, .readAdvance, .readCheck]

example : ∃ s, (St.init [0, 0, 0, 0]).run 4 false sampleRun = some s ∧ s.out = [1, 2, 3] ∧ s.src = [1, 2, 3, 4, 5] ∧ s.buf = [5, 2, 3, 4] ∧ s.f = .writing 1 1 1 := by
  have h : ((St.init [0, 0, 0, 0]).run 4 false sampleRun).map (fun s => (s.out, s.src, s.buf, s.f)) = some ([1, 2, 3], [1, 2, 3, 4, 5], [5, 2, 3, 4], .writing 1 1 1) := by decide +kernel
  obtain ⟨s, h1, h2⟩ := Option.map_eq_some_iff.mp h
  simp only [Prod.mk.injEq] at h2
  exact ⟨s, h1, h2.1, h2.2.1, h2.2.2.1, h2.2.2.2⟩

/-- On ESP32 `clear` may run on one core while `FillBuffer` is at work on the other: then, after `clear`
and `SetStream`, the reader is given a sample of the old stream (9) that is not one of the new stream's. -/
theorem C36_parallel_clear_counterexample :
    ∃ l s, (St.init [0, 0, 0, 0]).run 4 true l = some s ∧ s.src = [] ∧ s.out = [9] := by
  have h : ((St.init [0, 0, 0, 0]).run 4 true
    [.set1, .set2, .fillBegin, .fillSample 9, .fillReturn false, .clear1, .clear2, .clear3, .clear4, .set1, .fillPublish, .set2, .readBegin 1, .readCheck, .readSample]).map
      (fun s => (s.src, s.out)) = some ([], [9]) := by decide +kernel
  obtain ⟨s, h1, h2⟩ := Option.map_eq_some_iff.mp h
  simp only [Prod.mk.injEq] at h2
  exact ⟨_, s, h1, h2.1, h2.2⟩

end Verif.Audio
