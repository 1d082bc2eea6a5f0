import Verif.Str.Ring
set_option linter.unusedSimpArgs false
/-!
# C17: the circular buffer is a first-in first-out queue

The counters run modulo the word size `M` and are reduced modulo `SIZE` only for indexing, so the
theorems need `SIZE` to divide `M` (a power of two on the boards); C17_wrap_counterexample shows what
happens otherwise.
-/
namespace Verif.Str.Ring
variable {α : Type}

/-- the buffer holds the queue `q` (oldest element first) -/
structure Holds (M SIZE : Nat) (b : Buf α) (q : List α) : Prop where
  len : b.data.length = SIZE
  f : b.first < M
  l : b.last < M
  cap : q.length ≤ SIZE
  cnt : b.first = (b.last + q.length) % M
  el : ∀ i x, q[i]? = some x → b.data[(b.last + i) % SIZE]? = some x

/-- sizes the theorems are about -/
structure Sizes (M SIZE : Nat) : Prop where
  pos : 0 < SIZE
  lt : SIZE < M
  dvd : SIZE ∣ M

theorem mod_mod {M SIZE : Nat} (h : Sizes M SIZE) (a : Nat) : a % M % SIZE = a % SIZE := Nat.mod_mod_of_dvd a h.dvd

/-- **C17** (fill level): the reported size is the number of elements, and size and free space add up
to the capacity. -/
theorem C17_size {M SIZE} (hM : Sizes M SIZE) {b : Buf α} {q : List α} (h : Holds M SIZE b q) :
    b.size M = q.length ∧ b.size M + b.space M SIZE = SIZE ∧ (b.empty M = true ↔ q = []) := by
  have h1 : b.size M = q.length := by
    unfold Buf.size
    rw [h.cnt, Nat.mod_add_mod, show b.last + q.length + (M - b.last) = q.length + M by have := h.l; omega,
      Nat.add_mod_right, Nat.mod_eq_of_lt]
    have := h.cap; have := hM.lt; omega
  refine ⟨h1, ?_, ?_⟩
  · unfold Buf.space
    rw [h1, show SIZE + (M - q.length) = (SIZE - q.length) + M by have := h.cap; have := hM.lt; omega, Nat.add_mod_right,
      Nat.mod_eq_of_lt]
    · have := h.cap; omega
    · have := hM.lt; omega
  · unfold Buf.empty
    rw [h1]
    cases q <;> simp

/-- **C17** (start, clear). -/
theorem C17_clear {M SIZE} (hM : Sizes M SIZE) {b : Buf α} (h : b.data.length = SIZE) : Holds M SIZE b.clear [] := by
  refine ⟨h, ?_, ?_, by simp, ?_, by simp⟩
  · show 0 < M; have := hM.lt; omega
  · show 0 < M; have := hM.lt; omega
  · show 0 = (0 + 0) % M; simp

theorem mod_ne {SIZE a b : Nat} (h1 : a < b) (h2 : b < a + SIZE) : a % SIZE ≠ b % SIZE := by
  intro h
  have h3 := Nat.sub_mod_eq_zero_of_mod_eq h.symm
  have : SIZE ∣ b - a := Nat.dvd_of_mod_eq_zero h3
  have := Nat.le_of_dvd (by omega) this
  omega

theorem fill_get {SIZE : Nat} {d xs : List α} {s : Nat} (hl : d.length = SIZE) (hs : s + xs.length ≤ SIZE) (i : Nat) :
    (d.take s ++ xs ++ d.drop (s + xs.length))[i]? = if s ≤ i ∧ i < s + xs.length then xs[i - s]? else d[i]? := by
  have ht : (d.take s).length = s := by rw [List.length_take]; omega
  by_cases h1 : i < s
  · rw [if_neg (by omega), List.append_assoc, List.getElem?_append_left (by omega), List.getElem?_take_of_lt h1]
  · by_cases h2 : i < s + xs.length
    · rw [if_pos ⟨by omega, h2⟩, List.getElem?_append_left (by rw [List.length_append]; omega), List.getElem?_append_right (by omega), ht]
    · rw [if_neg (by omega), List.getElem?_append_right (by rw [List.length_append]; omega), List.length_append, ht,
        List.getElem?_drop]
      congr 1
      omega

/-- **C17** (write): writing any number of elements that fit in the reported contiguous free space and
then announcing them appends them to the queue; nothing outside the storage is touched. -/
theorem C17_write {M SIZE} (hM : Sizes M SIZE) {b : Buf α} {q : List α} (h : Holds M SIZE b q) {xs : List α}
    (hx : xs.length ≤ b.contSpace M SIZE) :
    ∃ b', b.fill SIZE xs = some b' ∧ Holds M SIZE (b'.push M xs.length) (q ++ xs) := by
  have hsz := C17_size hM h
  unfold Buf.contSpace at hx
  have hc := h.cap
  have hp := hM.pos
  have hf : b.first % SIZE = (b.last + q.length) % SIZE := by rw [h.cnt, mod_mod hM]
  have hfl : b.first % SIZE < SIZE := Nat.mod_lt _ hp
  have hspace : q.length + xs.length ≤ SIZE := by omega
  have hcont : b.first % SIZE + xs.length ≤ SIZE := by omega
  unfold Buf.fill
  rw [if_pos (by rw [h.len]; exact hcont)]
  refine ⟨_, rfl, ?_, ?_, h.l, ?_, ?_, ?_⟩
  · show (_ ++ _ ++ _ : List α).length = SIZE
    rw [List.length_append, List.length_append, List.length_take, List.length_drop, h.len]
    omega
  · exact Nat.mod_lt _ (by have := h.f; omega)
  · rw [List.length_append]; exact hspace
  · show (b.first + xs.length) % M = (b.last + (q ++ xs).length) % M
    rw [h.cnt, Nat.mod_add_mod, List.length_append, Nat.add_assoc]
  · intro i x hi
    show (b.data.take (b.first % SIZE) ++ xs ++ b.data.drop (b.first % SIZE + xs.length))[(b.last + i) % SIZE]? = some x
    rw [fill_get h.len hcont]
    by_cases hiq : i < q.length
    · rw [List.getElem?_append_left hiq] at hi
      have h1 := h.el i x hi
      rw [if_neg]
      · exact h1
      · rintro ⟨h2, h3⟩
        -- the slot of an old element would be one of the new slots
        have h4 : (b.last + i) % SIZE = (b.last + (q.length + ((b.last + i) % SIZE - b.first % SIZE))) % SIZE := by
          have e : b.last + (q.length + ((b.last + i) % SIZE - b.first % SIZE)) =
              (b.last + q.length) + ((b.last + i) % SIZE - b.first % SIZE) := by omega
          rw [e]
          generalize hj : (b.last + i) % SIZE = j at *
          rw [← Nat.mod_add_mod (b.last + q.length), ← hf]
          have : b.first % SIZE + (j - b.first % SIZE) = j := by omega
          rw [this, ← hj, Nat.mod_mod]
        exact mod_ne (SIZE := SIZE) (by omega) (by omega) h4
    · rw [List.getElem?_append_right (by omega)] at hi
      have hil : i - q.length < xs.length := by
        obtain ⟨h1, _⟩ := List.getElem?_eq_some_iff.1 hi
        exact h1
      have hpos : (b.last + i) % SIZE = b.first % SIZE + (i - q.length) := by
        have e : b.last + i = (b.last + q.length) + (i - q.length) := by omega
        rw [e, ← Nat.mod_add_mod, ← hf, Nat.mod_eq_of_lt]
        omega
      rw [hpos, if_pos ⟨by omega, by omega⟩]
      rw [show b.first % SIZE + (i - q.length) - b.first % SIZE = i - q.length by omega]
      exact hi

/-- **C17** (write one): storing at `next()` and `push()`, when there is space. -/
theorem C17_push {M SIZE} (hM : Sizes M SIZE) {b : Buf α} {q : List α} (h : Holds M SIZE b q) (x : α)
    (hs : 0 < b.space M SIZE) : ∃ b', b.setNext SIZE x = some b' ∧ Holds M SIZE (b'.push M 1) (q ++ [x]) := by
  have hsz := C17_size hM h
  have hfl : b.first % SIZE < SIZE := Nat.mod_lt _ hM.pos
  obtain ⟨b', h1, h2⟩ := C17_write hM h (xs := [x]) (by unfold Buf.contSpace; simp; omega)
  refine ⟨b', ?_, h2⟩
  rw [← h1]
  unfold Buf.setNext Buf.fill
  rw [if_pos (by rw [h.len]; exact hfl), if_pos (by rw [h.len]; simp; omega)]
  congr 2
  rw [List.set_eq_take_append_cons_drop, if_pos (by rw [h.len]; exact hfl)]
  simp

theorem holds_drop {M SIZE} (hM : Sizes M SIZE) {b : Buf α} {q : List α} (h : Holds M SIZE b q) {n : Nat} (hn : n ≤ q.length) :
    Holds M SIZE (b.drop M n) (q.drop n) := by
  refine ⟨h.len, h.f, Nat.mod_lt _ (by have := h.f; omega), by rw [List.length_drop]; have := h.cap; omega, ?_, ?_⟩
  · show b.first = ((b.last + n) % M + (q.drop n).length) % M
    rw [h.cnt, Nat.mod_add_mod, List.length_drop]
    congr 1; omega
  · intro i x hi
    show b.data[((b.last + n) % M + i) % SIZE]? = some x
    rw [List.getElem?_drop] at hi
    have h1 := h.el (n + i) x hi
    rw [← h1]
    congr 1
    rw [← Nat.mod_add_mod, mod_mod hM, Nat.mod_add_mod, Nat.add_assoc]

/-- **C17** (read): any number of elements within the reported contiguous data are the oldest elements
of the queue, in order, and announcing that they were read removes them. -/
theorem C17_read {M SIZE} (hM : Sizes M SIZE) {b : Buf α} {q : List α} (h : Holds M SIZE b q) {n : Nat}
    (hn : n ≤ b.contData M SIZE) : b.peek SIZE n = some (q.take n) ∧ Holds M SIZE (b.drop M n) (q.drop n) := by
  have hsz := C17_size hM h
  unfold Buf.contData at hn
  have hlq : n ≤ q.length := by omega
  have hll : b.last % SIZE < SIZE := Nat.mod_lt _ hM.pos
  refine ⟨?_, holds_drop hM h hlq⟩
  unfold Buf.peek
  rw [if_pos (by rw [h.len]; omega)]
  congr 1
  apply List.ext_getElem?
  intro i
  by_cases hi : i < n
  · rw [List.getElem?_take_of_lt hi, List.getElem?_take_of_lt hi, List.getElem?_drop]
    have hq : q[i]? = some (q[i]'(by omega)) := List.getElem?_eq_getElem (by omega)
    have := h.el i _ hq
    have e : (b.last + i) % SIZE = b.last % SIZE + i := by
      rw [← Nat.mod_add_mod, Nat.mod_eq_of_lt (by omega)]
    rw [hq, ← this, e]
  · rw [List.getElem?_take_eq_none (by omega), List.getElem?_take_eq_none (by omega)]

/-- **C17** (read one): `pop()` on a buffer that is not empty returns the oldest element. -/
theorem C17_pop {M SIZE} (hM : Sizes M SIZE) {b : Buf α} {x : α} {q : List α} (h : Holds M SIZE b (x :: q)) :
    ∃ b', b.pop M SIZE = some (x, b') ∧ Holds M SIZE b' q := by
  have h1 := h.el 0 x rfl
  refine ⟨b.drop M 1, ?_, holds_drop hM h (n := 1) (by simp)⟩
  unfold Buf.pop Buf.current
  rw [show b.data[b.last % SIZE]? = some x from h1]
  rfl

/-! ### whole histories -/

/-- A step of a user of the buffer.  Writing is offered a list and takes what fits contiguously;
reading asks for a number and gets what is contiguous. -/
inductive Op (α : Type) where
  | write (xs : List α) | put (x : α) | read (n : Nat) | pop | clear

/-- the code driven as its callers do: never more than reported.  Second component: what was read. -/
def Op.run (M SIZE : Nat) : Op α → Buf α → Option (Buf α × List α)
  | .write xs, b =>
    let xs := xs.take (b.contSpace M SIZE)
    (b.fill SIZE xs).map (fun b => (b.push M xs.length, []))
  | .put x, b => if b.space M SIZE = 0 then some (b, []) else (b.setNext SIZE x).map (fun b => (b.push M 1, []))
  | .read n, b =>
    let n := min n (b.contData M SIZE)
    (b.peek SIZE n).map (fun xs => (b.drop M n, xs))
  | .pop, b => if b.empty M then some (b, []) else (b.pop M SIZE).map (fun p => (p.2, [p.1]))
  | .clear, b => some (b.clear, [])

/-- The specification: an unbounded queue, from which an operation removes `out` at the front and to
which it appends at the back; it always makes progress when there is space (or data).  `clear` empties it. -/
def Step (SIZE : Nat) (o : Op α) (q q' out : List α) : Prop :=
  match o with
  | .write xs => ∃ k, out = [] ∧ q' = q ++ xs.take k ∧ (q.length < SIZE → 0 < k)
  | .put x => out = [] ∧ q' = if q.length = SIZE then q else q ++ [x]
  | .read n => q = out ++ q' ∧ (0 < n → q ≠ [] → out ≠ [])
  | .pop => q = out ++ q' ∧ (out = [] → q = [])
  | .clear => out = [] ∧ q' = []

/-- **C17** (every step).  From any state that holds a queue, every operation runs inside the storage
and does what the queue specification says. -/
theorem C17_step {M SIZE} (hM : Sizes M SIZE) {b : Buf α} {q : List α} (h : Holds M SIZE b q) (o : Op α) :
    ∃ b' out q', o.run M SIZE b = some (b', out) ∧ Step SIZE o q q' out ∧ Holds M SIZE b' q' := by
  have hsz := C17_size hM h
  cases o with
  | write xs =>
    obtain ⟨b', h1, h2⟩ := C17_write hM h (xs := xs.take (b.contSpace M SIZE)) (by rw [List.length_take]; omega)
    refine ⟨_, [], _, ?_, ⟨b.contSpace M SIZE, rfl, rfl, ?_⟩, h2⟩
    · simp only [Op.run]
      rw [h1]; rfl
    · intro hlt
      have hll : b.first % SIZE < SIZE := Nat.mod_lt _ hM.pos
      unfold Buf.contSpace
      omega
  | put x =>
    by_cases h0 : b.space M SIZE = 0
    · exact ⟨b, [], q, by simp only [Op.run]; rw [if_pos h0], ⟨rfl, by rw [if_pos (by omega)]⟩, h⟩
    · obtain ⟨b', h1, h2⟩ := C17_push hM h x (by omega)
      exact ⟨_, _, _, by simp only [Op.run]; rw [if_neg h0, h1]; rfl, ⟨rfl, by rw [if_neg (by omega)]⟩, h2⟩
  | read n =>
    obtain ⟨h1, h2⟩ := C17_read hM h (n := min n (b.contData M SIZE)) (by omega)
    refine ⟨_, q.take (min n (b.contData M SIZE)), _, ?_, ?_, h2⟩
    · simp only [Op.run]
      rw [h1]; rfl
    · refine ⟨(List.take_append_drop _ q).symm, ?_⟩
      intro hn hq h0
      have hl : 0 < q.length := List.length_pos_iff.2 hq
      have : (q.take (min n (b.contData M SIZE))).length = 0 := by rw [h0]; rfl
      have hll : b.last % SIZE < SIZE := Nat.mod_lt _ hM.pos
      rw [List.length_take] at this
      unfold Buf.contData at this
      omega
  | pop =>
    cases q with
    | nil => exact ⟨b, [], [], by simp only [Op.run]; rw [if_pos (hsz.2.2.2 rfl)], ⟨rfl, fun _ => rfl⟩, h⟩
    | cons x q =>
      obtain ⟨b', h1, h2⟩ := C17_pop hM h
      refine ⟨b', [x], q, ?_, ⟨rfl, by simp⟩, h2⟩
      simp only [Op.run]
      rw [if_neg (by rw [hsz.2.2]; simp), h1]; rfl
  | clear => exact ⟨b.clear, [], [], rfl, ⟨rfl, rfl⟩, C17_clear hM h.len⟩

/-- run a list of operations, collecting what was read -/
def runAll (M SIZE : Nat) : List (Op α) → Buf α → Option (Buf α × List α)
  | [], b => some (b, [])
  | o :: os, b => (o.run M SIZE b).bind fun p => (runAll M SIZE os p.1).map fun r => (r.1, p.2 ++ r.2)

/-- the elements an operation put into the buffer -/
def Op.accepted (M SIZE : Nat) (b : Buf α) : Op α → List α
  | .write xs => xs.take (b.contSpace M SIZE)
  | .put x => if b.space M SIZE = 0 then [] else [x]
  | _ => []

/-- everything put into the buffer by a list of operations -/
def acceptedAll (M SIZE : Nat) : List (Op α) → Buf α → List α
  | [], _ => []
  | o :: os, b =>
    match o.run M SIZE b with
    | none => []
    | some p => o.accepted M SIZE b ++ acceptedAll M SIZE os p.1

/-- **C17** (histories).  For every sequence of operations without `clear`, every capacity and every
position of the counters: what was read followed by what is still in the buffer is exactly what was in
it before followed by what was put in, in order — nothing lost, duplicated or reordered. -/
theorem C17_fifo {M SIZE} (hM : Sizes M SIZE) (ops : List (Op α)) (hops : ∀ o ∈ ops, o ≠ .clear) :
    ∀ {b : Buf α} {q : List α}, Holds M SIZE b q →
      ∃ b' out q', runAll M SIZE ops b = some (b', out) ∧ Holds M SIZE b' q' ∧ out ++ q' = q ++ acceptedAll M SIZE ops b := by
  induction ops with
  | nil => intro b q h; exact ⟨b, [], q, rfl, h, by simp [acceptedAll]⟩
  | cons o os ih =>
    intro b q h
    have hsz := C17_size hM h
    -- one step, with what exactly was accepted
    obtain ⟨b', out, q', h1, h2, h3⟩ : ∃ b' out q', o.run M SIZE b = some (b', out) ∧ Holds M SIZE b' q' ∧
        out ++ q' = q ++ o.accepted M SIZE b := by
      cases o with
      | write xs =>
        obtain ⟨b', h1, h2⟩ := C17_write hM h (xs := xs.take (b.contSpace M SIZE)) (by rw [List.length_take]; omega)
        exact ⟨_, [], _, by simp only [Op.run]; rw [h1]; rfl, h2, by simp [Op.accepted]⟩
      | put x =>
        by_cases h0 : b.space M SIZE = 0
        · exact ⟨b, [], q, by simp only [Op.run]; rw [if_pos h0], h, by simp [Op.accepted, h0]⟩
        · obtain ⟨b', h1, h2⟩ := C17_push hM h x (by omega)
          exact ⟨_, _, _, by simp only [Op.run]; rw [if_neg h0, h1]; rfl, h2, by simp [Op.accepted, h0]⟩
      | read n =>
        obtain ⟨b', out, q', h1, h2, h3⟩ := C17_step hM h (.read n)
        exact ⟨b', out, q', h1, h3, by rw [← show q = out ++ q' from h2.1]; simp [Op.accepted]⟩
      | pop =>
        obtain ⟨b', out, q', h1, h2, h3⟩ := C17_step hM h .pop
        exact ⟨b', out, q', h1, h3, by rw [← show q = out ++ q' from h2.1]; simp [Op.accepted]⟩
      | clear => exact absurd rfl (hops _ (by simp))
    obtain ⟨b'', out', q'', k1, k2, k3⟩ := ih (fun o ho => hops o (by simp [ho])) h2
    refine ⟨b'', out ++ out', q'', ?_, k2, ?_⟩
    · simp only [runAll]
      rw [h1]
      simp only [Option.bind_some]
      rw [k1]; rfl
    · simp only [acceptedAll]
      rw [h1]
      simp only
      rw [List.append_assoc, k3, ← List.append_assoc, h3, List.append_assoc]

/-- the sizes used on the boards (16, 32 and 1024 elements, 32-bit counters) -/
example : Sizes (2 ^ 32) 16 ∧ Sizes (2 ^ 32) 32 ∧ Sizes (2 ^ 32) 1024 :=
  ⟨⟨by decide, by decide, by decide⟩, ⟨by decide, by decide, by decide⟩, ⟨by decide, by decide, by decide⟩⟩

/-- a concrete buffer of 4 elements just before the 32-bit counters wrap around -/
example : Holds (2 ^ 32) 4 (⟨[30, 0, 10, 20], 3, 4294967294⟩ : Buf Nat) [10, 20, 30, 0, 0] → False := by
  intro h; exact absurd h.cap (by decide)

example : Holds (2 ^ 32) 4 (⟨[30, 0, 10, 20], 1, 4294967294⟩ : Buf Nat) [10, 20, 30] := by
  refine ⟨rfl, by decide, by decide, by decide, by decide, ?_⟩
  intro i x hi
  match i, hi with
  | 0, hi => simpa using hi
  | 1, hi => simpa using hi
  | 2, hi => simpa using hi

/-- Why the capacity has to divide the range of the counters: with capacity 3 and 32-bit counters, the
element stored just before the wrap-around (slot 0) is overwritten by the next one (also slot 0). -/
theorem C17_wrap_counterexample :
    runAll (2 ^ 32) 3 [.put 1, .put 2, .pop, .pop] (⟨[0, 0, 0], 4294967295, 4294967295⟩ : Buf Nat) =
      some (⟨[2, 0, 0], 1, 1⟩, [2, 2]) := by decide +kernel

end Verif.Str.Ring
