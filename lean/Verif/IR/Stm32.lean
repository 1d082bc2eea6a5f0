import Mathlib.Data.List.Basic
import Mathlib.Tactic.Common

/-!
The infrared transmitter of the Proffieboard (`ir/stm32_ir.h`): a signal is put in a buffer of 256 bytes as
pairs of a length and a level, and the buffer is handed to the hardware piece by piece.

Simplified: the buffer is kept as the list of its pairs (the code only writes pairs), so a position of the code
is twice a length here. Timer registers and pins are not modelled. The hardware that reads the buffer gets a
copy of its part when it is started; in the code it reads the buffer itself while it sends.
-/

namespace Verif.IR.Stm32

/-- A pair of bytes in the buffer: the number of periods less one, and the level.
`ir/stm32_ir.h` lines 139-140. -/
abbrev Pair := Nat × Bool

/-- The transmitter: `ir/stm32_ir.h` lines 155-163. `buf` is `data_` up to `pos_`, `toSend` and `sent` count
pairs, `dma` is what the hardware still has to read and `out` what it has read. `sending_` is not kept: it
starts false (line 157) and is only ever set to false (line 98). -/
structure St where
  buf : List Pair
  toSend : Nat
  sent : Nat
  dma : List Pair
  out : List Pair

/-- The transmitter at start. `ir/stm32_ir.h` lines 155-163. -/
def init : St := ⟨[], 0, 0, [], []⟩

/-- `compact`: `ir/stm32_ir.h` lines 102-112. The wait for `sending_` never waits. -/
def compact (s : St) : St :=
  if s.sent > 0 then { s with buf := s.buf.drop s.sent, toSend := s.toSend - s.sent, sent := 0 } else s

/-- `StartBurst`: `ir/stm32_ir.h` lines 44-81. When `quick`, the hardware has read all of its part before the
processor goes on; otherwise starting it makes it forget what it was doing. -/
def startBurst (quick : Bool) (s0 : St) : St :=
  let s := compact s0
  { s with
    out := if quick then s.out ++ s.buf.take s.toSend else s.out
    dma := if quick then [] else s.buf.take s.toSend
    sent := s.toSend }

/-- `trysend`: `ir/stm32_ir.h` lines 114-119. -/
def trysend (quick : Bool) (s : St) : St :=
  if s.toSend > s.sent then startBurst quick (compact s) else s

/-- `WaitForSpace`: `ir/stm32_ir.h` lines 121-129. -/
def waitForSpace (quick : Bool) (s : St) : St :=
  if 2 * s.buf.length < 256 then s
  else
    let s1 := trysend quick s
    if 2 * s1.buf.length < 256 then s1
    else
      let s2 := compact s1
      if 2 * s2.buf.length < 256 then s2 else { s2 with buf := [] }

/-- One turn of the loop of `signal`: `ir/stm32_ir.h` lines 135-141. Writing beyond the buffer is `none`. -/
def put (quick high : Bool) (s : St) (x : Nat) : Option St :=
  let s1 := waitForSpace quick s
  if 2 * s1.buf.length + 1 < 256 then some { s1 with buf := s1.buf ++ [((x - 1) % 256, high)] } else none

/-- The lengths `signal` cuts `n` periods into: `ir/stm32_ir.h` lines 135-137. -/
def chunks (n : Nat) : List Nat :=
  if _h : n = 0 then [] else min n 256 :: chunks (n - min n 256)
termination_by n
decreasing_by omega

/-- `signal`: `ir/stm32_ir.h` lines 132-142. The product is of 32 bits. -/
def signal (quick : Bool) (s : St) (high : Bool) (us : Nat) : Option St :=
  (chunks (us * 38000 % 2 ^ 32 / 1000000)).foldlM (put quick high) s

/-- `send`: `ir/stm32_ir.h` lines 148-153. -/
def send (quick : Bool) (s : St) : Option St := do
  let s1 ← signal quick s false 10000
  let s2 ← signal quick s1 false 27
  let s3 ← signal quick s2 false 27
  return { s3 with toSend := s3.buf.length }

/-- What can happen: the calls, and the hardware reading one more pair. -/
inductive Op where
  | signal (high : Bool) (us : Nat)
  | send
  | loop
  | read

/-- One happening. `Loop`: `ir/stm32_ir.h` lines 144-146. -/
def step (quick : Bool) (s : St) : Op → Option St
  | .signal high us => signal quick s high us
  | .send => send quick s
  | .loop => some (trysend quick s)
  | .read => some { s with out := s.out ++ s.dma.take 1, dma := s.dma.drop 1 }

/-- A history. -/
def run (quick : Bool) (l : List Op) (s : St) : Option St := l.foldlM (step quick) s

/-! ### Specification -/

/-- The light sent for some pairs, one entry for each period of the carrier. -/
def light (l : List Pair) : List Bool := l.flatMap fun p => List.replicate (p.1 + 1) p.2

/-- The light asked for: 38 periods each millisecond, rounded down; a message ends with ten milliseconds of
darkness and two periods more. -/
def asked : List Op → List Bool
  | [] => []
  | .signal high us :: l => List.replicate (us * 38 / 1000) high ++ asked l
  | .send :: l => List.replicate 382 false ++ asked l
  | _ :: l => asked l

/-- Places in the buffer a signal takes: one for every 256 periods begun. -/
def places (us : Nat) : Nat := (us * 38 / 1000 + 255) / 256

/-- No signal is longer than a tenth of a second, and no message, with its end, takes more than the 128 places
there are. -/
def Fits : Nat → List Op → Prop
  | _, [] => True
  | m, .signal _ us :: l => us ≤ 100000 ∧ m + places us ≤ 128 ∧ Fits (m + places us) l
  | m, .send :: l => m + 4 ≤ 128 ∧ Fits 0 l
  | m, _ :: l => Fits m l

/-! ### Proofs -/

/-- The bookkeeping is in order. -/
def Inv (s : St) : Prop := s.sent ≤ s.toSend ∧ s.toSend ≤ s.buf.length ∧ s.buf.length ≤ 128

theorem inv_compact {s : St} (h : Inv s) : Inv (compact s) ∧ (compact s).sent = 0 ∧
    (compact s).buf.length = s.buf.length - s.sent ∧ (compact s).toSend = s.toSend - s.sent := by
  obtain ⟨h1, h2, h3⟩ := h
  unfold compact Inv
  split
  · refine ⟨⟨?_, ?_, ?_⟩, rfl, ?_, rfl⟩ <;> simp only [List.length_drop] <;> omega
  · refine ⟨⟨?_, ?_, ?_⟩, ?_, ?_, ?_⟩ <;> omega

theorem inv_startBurst (q : Bool) {s : St} (h : Inv s) : Inv (startBurst q s) ∧
    (startBurst q s).sent = (startBurst q s).toSend ∧
    (startBurst q s).buf.length = s.buf.length - s.sent ∧ (startBurst q s).toSend = s.toSend - s.sent := by
  obtain ⟨⟨h1, h2, h3⟩, h4, h5, h6⟩ := inv_compact h
  refine ⟨⟨?_, h2, h3⟩, rfl, h5, h6⟩
  exact Nat.le_refl _

theorem inv_trysend (q : Bool) {s : St} (h : Inv s) : Inv (trysend q s) ∧ (trysend q s).sent = (trysend q s).toSend ∧
    (trysend q s).buf.length - (trysend q s).toSend = s.buf.length - s.toSend := by
  unfold trysend
  split
  · obtain ⟨i, c1, c2, c3⟩ := inv_compact h
    obtain ⟨j, d1, d2, d3⟩ := inv_startBurst q i
    obtain ⟨a, b, c⟩ := h
    exact ⟨j, d1, by omega⟩
  · obtain ⟨a, b, c⟩ := h
    exact ⟨⟨a, b, c⟩, by omega, rfl⟩

theorem inv_wait (q : Bool) {s : St} (h : Inv s) : Inv (waitForSpace q s) ∧ (waitForSpace q s).buf.length < 128 ∧
    (s.buf.length - s.toSend < 128 → (waitForSpace q s).buf.length - (waitForSpace q s).toSend = s.buf.length - s.toSend) := by
  obtain ⟨i, e, d⟩ := inv_trysend q h
  obtain ⟨j, z, l, t⟩ := inv_compact i
  obtain ⟨i1, i2, i3⟩ := i
  unfold waitForSpace
  split
  · exact ⟨h, by omega, fun _ => rfl⟩
  · dsimp only
    split
    · exact ⟨⟨i1, i2, i3⟩, by omega, fun _ => d⟩
    · split
      · exact ⟨j, by omega, fun _ => by omega⟩
      · refine ⟨⟨?_, ?_, ?_⟩, ?_, fun _ => ?_⟩ <;> simp only [List.length_nil] <;> omega

theorem inv_put (q high : Bool) {s : St} (h : Inv s) (x : Nat) : ∃ t, put q high s x = some t ∧ Inv t := by
  obtain ⟨⟨i1, i2, i3⟩, l, _⟩ := inv_wait q h
  refine ⟨_, if_pos (by omega), ?_⟩
  refine ⟨i1, ?_, ?_⟩ <;> simp only [List.length_append, List.length_singleton] <;> omega

theorem inv_puts (q high : Bool) (l : List Nat) {s : St} (h : Inv s) : ∃ t, l.foldlM (put q high) s = some t ∧ Inv t := by
  induction l generalizing s with
  | nil => exact ⟨s, rfl, h⟩
  | cons x l ih =>
    obtain ⟨t, e, i⟩ := inv_put q high h x
    obtain ⟨u, e', i'⟩ := ih i
    exact ⟨u, by simp [List.foldlM_cons, e, e'], i'⟩

theorem inv_send (q : Bool) {s : St} (h : Inv s) : ∃ t, send q s = some t ∧ Inv t := by
  obtain ⟨a, ea, ia⟩ := inv_puts q false (chunks (10000 * 38000 % 2 ^ 32 / 1000000)) h
  obtain ⟨b, eb, ib⟩ := inv_puts q false (chunks (27 * 38000 % 2 ^ 32 / 1000000)) ia
  obtain ⟨c, ec, ic⟩ := inv_puts q false (chunks (27 * 38000 % 2 ^ 32 / 1000000)) ib
  refine ⟨{ c with toSend := c.buf.length }, ?_, ?_⟩
  · unfold send signal
    rw [ea]; simp only [Option.bind_eq_bind, Option.bind_some]
    rw [eb]; simp only [Option.bind_some]
    rw [ec]; rfl
  · obtain ⟨c1, c2, c3⟩ := ic
    exact ⟨Nat.le_trans c1 c2, Nat.le_refl _, c3⟩

/-- **C155.** Whatever is sent, whenever, and however fast the hardware is, nothing is ever written beyond the
buffer, and the hardware is never told to read more than is in it. -/
theorem C155_bounds (quick : Bool) (l : List Op) : ∃ s, run quick l init = some s ∧
    s.sent ≤ s.buf.length ∧ 2 * s.buf.length ≤ 256 := by
  have key : ∀ (l : List Op) (s : St), Inv s → ∃ t, run quick l s = some t ∧ Inv t := by
    intro l
    induction l with
    | nil => intro s h; exact ⟨s, rfl, h⟩
    | cons o l ih =>
      intro s h
      have : ∃ t, step quick s o = some t ∧ Inv t := by
        cases o with
        | signal high us => exact inv_puts quick high _ h
        | send => exact inv_send quick h
        | loop => exact ⟨_, rfl, (inv_trysend quick h).1⟩
        | read => exact ⟨_, rfl, h⟩
      obtain ⟨t, e, i⟩ := this
      obtain ⟨u, e', i'⟩ := ih t i
      exact ⟨u, by simpa [run, List.foldlM_cons, e] using e', i'⟩
  obtain ⟨s, e, a, b, c⟩ := key l init ⟨by decide, by decide, by decide⟩
  exact ⟨s, e, by omega, by omega⟩

/-- All that was or will be sent. -/
def stream (s : St) : List Pair := s.out ++ s.buf.drop s.sent

theorem stream_compact (s : St) : stream (compact s) = stream s := by
  unfold compact stream
  split
  · simp
  · rfl

theorem stream_startBurst {s : St} (h : Inv s) : stream (startBurst true s) = stream s := by
  rw [← stream_compact s]
  obtain ⟨_, z, _, _⟩ := inv_compact h
  simp only [stream, startBurst, if_true, z, List.drop_zero, List.append_assoc, List.take_append_drop]

theorem stream_trysend {s : St} (h : Inv s) : stream (trysend true s) = stream s := by
  unfold trysend
  split
  · rw [stream_startBurst (inv_compact h).1, stream_compact]
  · rfl

theorem stream_wait {s : St} (h : Inv s) (m : s.buf.length - s.toSend < 128) : stream (waitForSpace true s) = stream s := by
  obtain ⟨i, e, d⟩ := inv_trysend true h
  obtain ⟨j, z, l, t⟩ := inv_compact i
  obtain ⟨i1, i2, i3⟩ := i
  unfold waitForSpace
  split
  · rfl
  · dsimp only
    split
    · exact stream_trysend h
    · split
      · rw [stream_compact, stream_trysend h]
      · exfalso; omega

theorem put_stream {s : St} (high : Bool) (h : Inv s) (m : s.buf.length - s.toSend < 128) (x : Nat) :
    ∃ t, put true high s x = some t ∧ Inv t ∧ t.buf.length - t.toSend = s.buf.length - s.toSend + 1 ∧
      stream t = stream s ++ [((x - 1) % 256, high)] := by
  obtain ⟨⟨i1, i2, i3⟩, l, d⟩ := inv_wait true h
  have d := d m
  refine ⟨_, if_pos (by omega), ⟨i1, ?_, ?_⟩, ?_, ?_⟩
  · simp only [List.length_append, List.length_singleton]; omega
  · simp only [List.length_append, List.length_singleton]; omega
  · simp only [List.length_append, List.length_singleton]; omega
  · rw [← stream_wait h m]
    simp only [stream]
    rw [List.drop_append_of_le_length (by omega), List.append_assoc]

theorem light_append (a b : List Pair) : light (a ++ b) = light a ++ light b := by simp [light]

theorem chunks_length (n : Nat) : (chunks n).length = (n + 255) / 256 := by
  induction n using Nat.strongRecOn with
  | _ n ih =>
    rw [chunks]
    split
    · subst_vars; rfl
    · rw [List.length_cons, ih (n - min n 256) (by omega)]; omega

theorem puts_stream (high : Bool) (n : Nat) : ∀ {s : St}, Inv s → s.buf.length - s.toSend + (n + 255) / 256 ≤ 128 →
    ∃ t, (chunks n).foldlM (put true high) s = some t ∧ Inv t ∧
      t.buf.length - t.toSend = s.buf.length - s.toSend + (n + 255) / 256 ∧
      light (stream t) = light (stream s) ++ List.replicate n high := by
  induction n using Nat.strongRecOn with
  | _ n ih =>
    intro s h m
    rw [chunks]
    split
    · rename_i hn; subst hn
      exact ⟨s, rfl, h, by omega, by simp⟩
    · obtain ⟨t, e, i, d, st⟩ := put_stream high h (by omega) (min n 256)
      obtain ⟨u, e', i', d', st'⟩ := ih (n - min n 256) (by omega) i (by omega)
      refine ⟨u, by simp [List.foldlM_cons, e, e'], i', by omega, ?_⟩
      rw [st', st, light_append, List.append_assoc]
      congr 1
      have : (min n 256 - 1) % 256 + 1 = min n 256 := by omega
      simp only [light, List.flatMap_cons, List.flatMap_nil, List.append_nil, this, List.replicate_append_replicate]
      congr 1; omega

theorem periods {us : Nat} (h : us ≤ 100000) : us * 38000 % 2 ^ 32 / 1000000 = us * 38 / 1000 := by omega

theorem send_stream {s : St} (h : Inv s) (m : s.buf.length - s.toSend + 4 ≤ 128) :
    ∃ t, send true s = some t ∧ Inv t ∧ t.toSend = t.buf.length ∧
      light (stream t) = light (stream s) ++ List.replicate 382 false := by
  obtain ⟨a, ea, ia, da, sa⟩ := puts_stream false (10000 * 38000 % 2 ^ 32 / 1000000) h (by omega)
  obtain ⟨b, eb, ib, db, sb⟩ := puts_stream false (27 * 38000 % 2 ^ 32 / 1000000) ia (by omega)
  obtain ⟨c, ec, ⟨c1, c2, c3⟩, dc, sc⟩ := puts_stream false (27 * 38000 % 2 ^ 32 / 1000000) ib (by omega)
  refine ⟨{ c with toSend := c.buf.length }, ?_, ⟨Nat.le_trans c1 c2, Nat.le_refl _, c3⟩, rfl, ?_⟩
  · unfold send signal
    rw [ea]; simp only [Option.bind_eq_bind, Option.bind_some]
    rw [eb]; simp only [Option.bind_some]
    rw [ec]; rfl
  · show light (stream c) = _
    rw [sc, sb, sa]
    simp only [List.append_assoc, List.replicate_append_replicate]

theorem dma_compact {s : St} (h : s.dma = []) : (compact s).dma = [] := by
  unfold compact; split <;> exact h

theorem dma_trysend {s : St} (h : s.dma = []) : (trysend true s).dma = [] := by
  unfold trysend; split
  · rfl
  · exact h

theorem dma_put (high : Bool) (x : Nat) {s t : St} (e : put true high s x = some t) (h : s.dma = []) : t.dma = [] := by
  have hw : (waitForSpace true s).dma = [] := by
    unfold waitForSpace
    split
    · exact h
    · dsimp only
      split
      · exact dma_trysend h
      · split <;> exact dma_compact (dma_trysend h)
  unfold put at e
  dsimp only at e
  split at e
  · injection e with e; subst e; exact hw
  · cases e

theorem dma_puts (high : Bool) (l : List Nat) {s t : St} (e : l.foldlM (put true high) s = some t) (h : s.dma = []) : t.dma = [] := by
  induction l generalizing s with
  | nil => injection e with e; subst e; exact h
  | cons x l ih =>
    rw [List.foldlM_cons] at e
    cases hp : put true high s x with
    | none => rw [hp] at e; cases e
    | some u => rw [hp] at e; exact ih e (dma_put high x hp h)

theorem dma_send {s t : St} (e : send true s = some t) (h : s.dma = []) : t.dma = [] := by
  unfold send signal at e
  simp only [Option.bind_eq_bind, Option.bind_eq_some_iff] at e
  obtain ⟨a, ea, b, eb, c, ec, e⟩ := e
  injection e with e; subst e
  have := dma_puts _ _ ec (dma_puts _ _ eb (dma_puts _ _ ea h))
  exact this

theorem run_stream (l : List Op) : ∀ (s : St), Inv s → s.dma = [] → Fits (s.buf.length - s.toSend) l →
    ∃ t, run true l s = some t ∧ Inv t ∧ light (stream t) = light (stream s) ++ asked l := by
  induction l with
  | nil => intro s h _ _; exact ⟨s, rfl, h, by simp [asked]⟩
  | cons o l ih =>
    intro s h hd hf
    have next : ∀ t a, step true s o = some t → Inv t → t.dma = [] → Fits (t.buf.length - t.toSend) l →
        light (stream t) = light (stream s) ++ a → asked (o :: l) = a ++ asked l →
        ∃ u, run true (o :: l) s = some u ∧ Inv u ∧ light (stream u) = light (stream s) ++ asked (o :: l) := by
      intro t a e i d f st ha
      obtain ⟨u, eu, iu, su⟩ := ih t i d f
      exact ⟨u, by simpa [run, List.foldlM_cons, e] using eu, iu, by rw [su, st, ha, List.append_assoc]⟩
    cases o with
    | signal high us =>
      obtain ⟨f1, f2, f3⟩ := hf
      unfold places at f2 f3
      obtain ⟨t, e, i, d, st⟩ := puts_stream high (us * 38 / 1000) h f2
      have e' : step true s (.signal high us) = some t := by
        show (chunks (us * 38000 % 2 ^ 32 / 1000000)).foldlM (put true high) s = some t
        rw [periods f1, e]
      exact next t _ e' i (dma_puts _ _ e hd) (by rw [d]; exact f3) st rfl
    | send =>
      obtain ⟨f1, f2⟩ := hf
      obtain ⟨t, e, i, d, st⟩ := send_stream h f1
      exact next t _ e i (dma_send e hd) (by rw [d, Nat.sub_self]; exact f2) st rfl
    | loop =>
      exact next _ [] rfl (inv_trysend true h).1 (dma_trysend hd) (by rw [(inv_trysend true h).2.2]; exact hf)
        (by rw [stream_trysend h, List.append_nil]) rfl
    | read =>
      refine next _ [] rfl h (by simp [hd]) hf ?_ rfl
      simp [stream, hd]

theorem fits_append (l : List Op) (m : Nat) (h : Fits m (l ++ [.send, .loop])) : Fits m l ∧ ∀ s t, run true l s = some t → Inv s →
    s.dma = [] → s.buf.length - s.toSend = m → t.buf.length - t.toSend + 4 ≤ 128 ∧ t.dma = [] := by
  induction l generalizing m with
  | nil =>
    refine ⟨trivial, fun s t e _ d hm => ?_⟩
    injection e with e; subst e
    exact ⟨by rw [hm]; exact h.1, d⟩
  | cons o l ih =>
    have go : ∀ m', Fits m' (l ++ [.send, .loop]) → (∀ s, Inv s → s.dma = [] → s.buf.length - s.toSend = m →
        ∃ t, step true s o = some t ∧ Inv t ∧ t.dma = [] ∧ t.buf.length - t.toSend = m') →
        ∀ s t, run true (o :: l) s = some t → Inv s → s.dma = [] → s.buf.length - s.toSend = m →
          t.buf.length - t.toSend + 4 ≤ 128 ∧ t.dma = [] := by
      intro m' hf hs s t e i d hm
      obtain ⟨u, eu, iu, du, mu⟩ := hs s i d hm
      rw [run, List.foldlM_cons, eu] at e
      exact (ih m' hf).2 u t e iu du mu
    cases o with
    | signal high us =>
      obtain ⟨f1, f2, f3⟩ := h
      refine ⟨⟨f1, f2, (ih _ f3).1⟩, go _ f3 fun s i d hm => ?_⟩
      subst hm
      unfold places at f2
      obtain ⟨t, e, i', d', _⟩ := puts_stream high (us * 38 / 1000) i f2
      refine ⟨t, ?_, i', dma_puts _ _ e d, d'⟩
      show (chunks (us * 38000 % 2 ^ 32 / 1000000)).foldlM (put true high) s = some t
      rw [periods f1, e]
    | send =>
      obtain ⟨f1, f2⟩ := h
      refine ⟨⟨f1, (ih _ f2).1⟩, go _ f2 fun s i d hm => ?_⟩
      subst hm
      obtain ⟨t, e, i', d', _⟩ := send_stream i f1
      exact ⟨t, e, i', dma_send e d, by rw [d', Nat.sub_self]⟩
    | loop =>
      refine ⟨(ih _ h).1, go _ h fun s i d hm => ?_⟩
      exact ⟨_, rfl, (inv_trysend true i).1, dma_trysend d, by rw [(inv_trysend true i).2.2, hm]⟩
    | read =>
      refine ⟨(ih _ h).1, go _ h fun s i d hm => ?_⟩
      exact ⟨_, rfl, i, by simp [d], hm⟩

/-- **C155.** When the hardware is quick enough and messages fit the buffer, then once a message has been sent
and the main loop has come round, exactly the light asked for, of all messages in order, has gone out. -/
theorem C155_sent_partial (l : List Op) (h : Fits 0 (l ++ [.send, .loop])) :
    ∃ s, run true (l ++ [.send, .loop]) init = some s ∧ light s.out = asked (l ++ [.send, .loop]) := by
  have h0 : Inv init := ⟨by decide, by decide, by decide⟩
  obtain ⟨f, g⟩ := fits_append l 0 h
  obtain ⟨t, et, it, st⟩ := run_stream l init h0 rfl f
  obtain ⟨m, d⟩ := g init t et h0 rfl rfl
  obtain ⟨u, eu, iu, du, su⟩ := send_stream it m
  obtain ⟨⟨i1, i2, i3⟩, e1, e2⟩ := inv_trysend true iu
  refine ⟨trysend true u, ?_, ?_⟩
  · rw [run, List.foldlM_append]
    rw [run] at et
    simp [et, step, eu, List.foldlM_cons]
  · have hs : stream (trysend true u) = (trysend true u).out := by
      unfold stream
      rw [List.drop_of_length_le (by omega), List.append_nil]
    rw [← hs, stream_trysend iu, su, st]
    have : ∀ l : List Op, asked (l ++ [.send, .loop]) = asked l ++ List.replicate 382 false := by
      intro l
      induction l with
      | nil => simp only [List.nil_append, asked, List.append_nil]
      | cons o l ih => cases o <;> simp only [List.cons_append, asked, ih, List.append_assoc]
    rw [this]
    rfl

/-- Two messages after one another, the second with a long pulse, fit. -/
example : Fits 0 ([.signal true 9000, .signal false 4500, .send, .loop, .signal true 20000] ++ [.send, .loop]) := by
  simp [Fits, places]

theorem chunks_small (n : Nat) (h : 0 < n) (h' : n ≤ 256) : chunks n = [n] := by
  rw [chunks, dif_neg (by omega), show min n 256 = n by omega, Nat.sub_self, chunks, dif_pos rfl]

theorem chunks_380 : chunks 380 = [256, 124] := by
  rw [chunks, dif_neg (by omega), show min 380 256 = 256 by rfl, chunks_small _ (by omega) (by omega)]

/-- **C155.** Counterexample: the code never notes that the hardware is busy. A second message sent while the
first goes out starts the hardware anew, and the first message is cut off: of its pulse of 38 periods nothing
ever goes out, however long one waits. -/
theorem C155_cut_off_counterexample (n : Nat) : ∃ s,
    run false ([.signal true 1000, .send, .loop, .signal true 500, .send, .loop] ++ List.replicate n .read) init = some s ∧
      (37, true) ∉ s.out := by
  have h1 : run false [.signal true 1000, .send, .loop, .signal true 500, .send, .loop] init = some
      ⟨[(18, true), (255, false), (123, false), (0, false), (0, false)], 5, 5,
        [(18, true), (255, false), (123, false), (0, false), (0, false)], []⟩ := by
    simp [run, step, signal, send, init, chunks_small, chunks_380, put, waitForSpace, trysend, startBurst, compact]
  have h2 : ∀ (n : Nat) (s : St), (37, true) ∉ s.out ++ s.dma → ∃ t, run false (List.replicate n .read) s = some t ∧
      (37, true) ∉ t.out ++ t.dma := by
    intro n
    induction n with
    | zero => intro s h; exact ⟨s, rfl, h⟩
    | succ n ih =>
      intro s h
      refine ih { s with out := s.out ++ s.dma.take 1, dma := s.dma.drop 1 } ?_
      rw [List.append_assoc, List.take_append_drop]; exact h
  obtain ⟨t, e, h⟩ := h2 n _ (show (37, true) ∉ (⟨[(18, true), (255, false), (123, false), (0, false), (0, false)], 5, 5,
        [(18, true), (255, false), (123, false), (0, false), (0, false)], []⟩ : St).out ++ _ by decide)
  refine ⟨t, ?_, fun hm => h (List.mem_append_left _ hm)⟩
  rw [run, List.foldlM_append]
  rw [run] at h1
  rw [h1]
  exact e

/-- **C155.** Counterexample: a message of more than 128 pulses loses its beginning. Of 129 pulses of one period
only the last one goes out. -/
theorem C155_long_counterexample : ∃ s,
    run true (List.replicate 129 (.signal true 27) ++ [.send, .loop]) init = some s ∧
      light s.out = true :: List.replicate 382 false := by
  have one : ∀ s, step true s (.signal true 27) = put true true s 1 := by
    intro s
    simp [step, signal, chunks_small]
  have fill : ∀ k, k ≤ 128 → run true (List.replicate k (.signal true 27)) init = some ⟨List.replicate k (0, true), 0, 0, [], []⟩ := by
    intro k
    induction k with
    | zero => intro _; rfl
    | succ k ih =>
      intro hk
      rw [List.replicate_succ', run, List.foldlM_append]
      have := ih (by omega)
      rw [run] at this
      rw [this]
      simp only [Option.bind_eq_bind, Option.bind_some, List.foldlM_cons, one, List.foldlM_nil]
      simp [put, waitForSpace, show 2 * k < 256 by omega, show 2 * k + 1 < 256 by omega, List.replicate_succ']
  have h129 : run true (List.replicate 129 (.signal true 27)) init = some ⟨[(0, true)], 0, 0, [], []⟩ := by
    rw [List.replicate_succ' (n := 128), run, List.foldlM_append]
    have := fill 128 (by omega)
    rw [run] at this
    rw [this]
    simp only [Option.bind_eq_bind, Option.bind_some, List.foldlM_cons, one, List.foldlM_nil]
    simp [put, waitForSpace, trysend, compact, -List.reduceReplicate]
  refine ⟨⟨[(0, true), (255, false), (123, false), (0, false), (0, false)], 5, 5, [],
      [(0, true), (255, false), (123, false), (0, false), (0, false)]⟩, ?_, ?_⟩
  · rw [run, List.foldlM_append]
    rw [run] at h129
    rw [h129]
    simp [step, signal, send, chunks_small, chunks_380, put, waitForSpace, trysend, startBurst, compact]
  · simp only [light, List.flatMap_cons, List.flatMap_nil, List.append_nil, List.replicate_append_replicate]
    rw [List.replicate_succ (n := 0)]
    simp only [List.replicate_zero, List.cons_append, List.nil_append]

end Verif.IR.Stm32
