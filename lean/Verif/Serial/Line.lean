/-
  Commands over the serial line: common/serial.h:117-232 (`Parser`).

  Bytes are numbers; an event is one byte read from the stream (with the answer
  the allocator would give if asked for more memory), or the loss of the
  connection / a negative `read()`.  `YIELD` (waiting for the next byte) does not
  change anything, so how the bytes are spread over calls of `Loop` is irrelevant.
  Not modelled: greeting and echo output; overflow of `int space_` (lines of a
  gigabyte).
-/
namespace Verif.Serial

/-! ## Model -/

/-- What the parser does with a finished line. -/
inductive Act
  /-- `DoParse(cmd, arg)` -/
  | call (cmd : List Nat) (arg : Option (List Nat))
  /-- the line is echoed (starts with `#`) -/
  | comment (line : List Nat)
deriving DecidableEq, Repr

/-- serial.h:226-229.  `mem` is the allocated block (`space_` bytes), `none` is
    `cmd_ == nullptr`. -/
structure St where
  mem : Option (List Nat)
  len : Nat
  space : Nat
deriving DecidableEq, Repr

def init : St := ⟨none, 0, 0⟩

inductive Ev
  | byte (c : Nat) (memory : Option Nat)
  | lost
deriving DecidableEq, Repr

/-- Array store; `none` = outside the block. -/
def put (m : List Nat) (i v : Nat) : Option (List Nat) :=
  if i < m.length then some (m.set i v) else none

/-- A C string: up to the first zero byte; `none` = no zero byte inside the block. -/
def cstr : List Nat → Option (List Nat)
  | [] => none
  | 0 :: _ => some []
  | c :: l => (cstr l).map (c :: ·)

/-- `while (len_ > 0 && (cmd_[len_-1] == '\r' || ' ')) { len_--; cmd_[len_] = 0; }`
    (serial.h:186-189) -/
def trim : Nat → List Nat → Option (List Nat × Nat)
  | 0, m => some (m, 0)
  | n + 1, m =>
    match m[n]? with
    | none => none
    | some c => if c = 13 ∨ c = 32 then (put m n 0).bind (trim n) else some (m, n + 1)

/-- `while (*cmd == ' ') cmd++;` then the word up to the next blank, then the rest
    (serial.h:196-204), on the C string. -/
def split (s : List Nat) : List Nat × Option (List Nat) :=
  let s := s.dropWhile (· == 32)
  let e := s.dropWhile (· != 32)
  (s.takeWhile (· != 32), match e with | [] => none | _ :: a => some a)

/-- `ParseLine` (serial.h:184-223). -/
def parseLine (m : List Nat) (len : Nat) : Option (Option Act) :=
  if len = 0 then some none
  else
    (trim len m).bind fun (m, _) =>
    (cstr m).map fun s =>
      if s.head? = some 35 then some (.comment s)
      else some (.call (split s).1 (split s).2)

/-- One round of the inner loop (serial.h:139-178). -/
def step (s : St) : Ev → Option (St × Option Act)
  | .lost => some (init, none)
  | .byte c memory =>
    if c = 10 ∨ c = 13 then
      match s.mem with
      | none => some (init, none)
      | some m => (parseLine m s.len).map fun a => (init, a)
    else if s.len + 1 ≥ s.space then
      match memory with
      | some junk =>
        let space := s.space * 3 / 2 + 8
        let m := (s.mem.getD []) ++ List.replicate (space - (s.mem.getD []).length) junk
        ((put m s.len c).bind fun m => put m (s.len + 1) 0).map fun m =>
          (⟨some m, s.len + 1, space⟩, none)
      | none => some (init, none)
    else
      match s.mem with
      | none => none
      | some m =>
        ((put m s.len c).bind fun m => put m (s.len + 1) 0).map fun m =>
          (⟨some m, s.len + 1, s.space⟩, none)

/-- Everything the parser does with a stream of events. -/
def run : St → List Ev → Option (List Act)
  | _, [] => some []
  | s, e :: es =>
    (step s e).bind fun (t, a) => (run t es).map fun l => a.toList ++ l

/-! ## Specification -/

/-- Everything but blanks at the end. -/
def rtrim : List Nat → List Nat
  | [] => []
  | c :: l => match rtrim l with
    | [] => if c = 32 then [] else [c]
    | l' => c :: l'

/-- What a line means: blanks around it do not matter, the first word is the
    command, what follows one blank is the argument; a zero byte ends the line;
    lines starting with `#` are comments. -/
def meaning (line : List Nat) : Option Act :=
  let t := (rtrim line).takeWhile (· != 0)
  if line = [] then none
  else if t.head? = some 35 then some (.comment t)
  else
    let u := t.dropWhile (· == 32)
    let w := u.takeWhile (· != 32)
    some (.call w (if u.length = w.length then none else some (u.drop (w.length + 1))))

/-! ## Lemmas -/

theorem cstr_eq : ∀ (a b : List Nat), cstr (a ++ 0 :: b) = some (a.takeWhile (· != 0))
  | [], b => by simp [cstr]
  | c :: a, b => by
      by_cases h : c = 0
      · subst h; simp [cstr]
      · have : cstr (c :: (a ++ 0 :: b)) = (cstr (a ++ 0 :: b)).map (c :: ·) := by
          cases c with
          | zero => exact absurd rfl h
          | succ n => rfl
        rw [List.cons_append, this, cstr_eq a b]
        simp [h]

theorem rtrim_append_blank : ∀ (a : List Nat), rtrim (a ++ [32]) = rtrim a
  | [] => by simp [rtrim]
  | c :: a => by
      simp only [List.cons_append, rtrim]
      rw [rtrim_append_blank a]

theorem rtrim_append_other (c : Nat) (h : c ≠ 32) : ∀ (a : List Nat), rtrim (a ++ [c]) = a ++ [c]
  | [] => by simp [rtrim, h]
  | d :: a => by
      simp only [List.cons_append, rtrim]
      rw [rtrim_append_other c h a]
      cases a <;> rfl

/-- Trimming in place. -/
theorem trim_eq : ∀ (n : Nat) (a b : List Nat), a.length = n → 13 ∉ a →
    ∃ k b', trim n (a ++ 0 :: b) = some (rtrim a ++ 0 :: b', k) := by
  intro n
  induction n with
  | zero =>
    intro a b ha _
    have : a = [] := List.length_eq_zero_iff.mp ha
    subst this
    exact ⟨0, b, rfl⟩
  | succ n ih =>
    intro a b ha h13
    obtain ⟨a', c, hac⟩ : ∃ a' c, a = a' ++ [c] := by
      have hne : a ≠ [] := by intro h; subst h; simp at ha
      exact ⟨a.dropLast, a.getLast hne, (List.dropLast_concat_getLast hne).symm⟩
    subst hac
    have hn : a'.length = n := by simpa using ha
    have hget : ((a' ++ [c]) ++ 0 :: b)[n]? = some c := by
      rw [List.append_assoc, List.getElem?_append_right (by omega), hn]
      simp
    simp only [trim, hget]
    have hc13 : c ≠ 13 := by intro h; subst h; simp at h13
    by_cases hc : c = 32
    · subst hc
      rw [if_pos (Or.inr rfl)]
      have hput : put ((a' ++ [32]) ++ 0 :: b) n 0 = some (a' ++ 0 :: (0 :: b)) := by
        unfold put
        rw [if_pos (by simp; omega), List.append_assoc, List.set_append_right _ _ (by omega), hn]
        simp
      rw [hput, Option.bind_some, rtrim_append_blank]
      exact ih a' (0 :: b) hn (fun h => h13 (by simp [h]))
    · rw [if_neg (by omega), rtrim_append_other c hc]
      exact ⟨n + 1, b, rfl⟩

theorem split_eq (t : List Nat) :
    split t = ((t.dropWhile (· == 32)).takeWhile (· != 32),
      if (t.dropWhile (· == 32)).length = ((t.dropWhile (· == 32)).takeWhile (· != 32)).length
      then none
      else some ((t.dropWhile (· == 32)).drop (((t.dropWhile (· == 32)).takeWhile (· != 32)).length + 1))) := by
  unfold split
  simp only []
  generalize t.dropWhile (· == 32) = u
  congr 1
  have h := List.takeWhile_append_dropWhile (p := (· != 32)) (l := u)
  generalize hw : u.takeWhile (· != 32) = w at h
  generalize hd : u.dropWhile (· != 32) = d at h
  rw [← h]
  cases d with
  | nil => simp
  | cons x xs =>
    rw [if_neg (by simp)]
    simp [List.drop_append]

theorem parseLine_eq (a b : List Nat) (h13 : 13 ∉ a) :
    parseLine (a ++ 0 :: b) a.length = some (meaning a) := by
  unfold parseLine meaning
  by_cases ha : a = []
  · subst ha; simp
  · have : a.length ≠ 0 := fun h => ha (List.length_eq_zero_iff.mp h)
    rw [if_neg this]
    obtain ⟨k, b', hk⟩ := trim_eq a.length a b rfl h13
    rw [hk, Option.bind_some]
    simp only [cstr_eq, Option.map_some]
    rw [if_neg ha]
    generalize (rtrim a).takeWhile (· != 0) = t
    by_cases hh : t.head? = some 35
    · rw [if_pos hh, if_pos hh]
    · rw [if_neg hh, if_neg hh, split_eq]

/-- The state holds the line read so far. -/
def Holds (s : St) (line : List Nat) : Prop :=
  13 ∉ line ∧ 10 ∉ line ∧
  ((s = init ∧ line = []) ∨
   ∃ b, s.mem = some (line ++ 0 :: b) ∧ s.len = line.length ∧ s.space = line.length + 1 + b.length)

theorem put_two (line b : List Nat) (c x : Nat) (hb : b ≠ []) :
    ((put (line ++ x :: b) line.length c).bind fun m => put m (line.length + 1) 0) =
      some ((line ++ [c]) ++ 0 :: b.tail) := by
  unfold put
  rw [if_pos (by simp), Option.bind_some, List.set_append_right _ _ (by omega)]
  cases b with
  | nil => exact absurd rfl hb
  | cons x xs =>
    rw [if_pos (by simp), List.set_append_right _ _ (by omega)]
    simp

theorem step_byte {s : St} {line : List Nat} (h : Holds s line) (c : Nat)
    (f : Nat) (h10 : c ≠ 10) (h13 : c ≠ 13) :
    ∃ t, step s (.byte c (some f)) = some (t, none) ∧ Holds t (line ++ [c]) := by
  obtain ⟨n13, n10, h⟩ := h
  have hn : 13 ∉ line ++ [c] ∧ 10 ∉ line ++ [c] := by
    constructor
    · intro hx; rcases List.mem_append.mp hx with hx | hx
      · exact n13 hx
      · simp at hx; exact h13 hx.symm
    · intro hx; rcases List.mem_append.mp hx with hx | hx
      · exact n10 hx
      · simp at hx; exact h10 hx.symm
  rcases h with ⟨rfl, rfl⟩ | ⟨b, hm, hl, hs⟩
  · refine ⟨⟨some ([c] ++ 0 :: List.replicate 6 f), 1, 8⟩, ?_, hn.1, hn.2, Or.inr ⟨_, rfl, rfl, rfl⟩⟩
    have : ¬ (c = 10 ∨ c = 13) := by omega
    simp only [step]
    rw [if_neg this]
    rfl
  · have hc : ¬ (c = 10 ∨ c = 13) := by omega
    simp only [step]
    rw [if_neg hc]
    by_cases hfull : s.len + 1 ≥ s.space
    · rw [if_pos hfull]
      simp only [hm, Option.getD_some, hl]
      obtain ⟨r, hr⟩ : ∃ r, r = s.space * 3 / 2 + 8 - (line ++ 0 :: b).length := ⟨_, rfl⟩
      have hlen : (line ++ 0 :: b).length = line.length + 1 + b.length := by
        simp; omega
      have hr2 : 0 < r := by omega
      rw [← hr]
      have e : (line ++ 0 :: b) ++ List.replicate r f = line ++ 0 :: (b ++ List.replicate r f) := by
        simp
      have hne : b ++ List.replicate r f ≠ [] := by
        intro h0
        have := congrArg List.length h0
        simp at this; omega
      rw [e, put_two _ _ _ _ hne]
      refine ⟨_, rfl, hn.1, hn.2, Or.inr ⟨_, rfl, by simp, ?_⟩⟩
      have : (b ++ List.replicate r f).length = b.length + r := by simp
      simp only [List.length_tail, this, List.length_append, List.length_singleton]
      omega
    · rw [if_neg hfull, hm]
      have hb : b ≠ [] := by
        intro h0; subst h0; simp only [List.length_nil] at hs; omega
      simp only [hl]
      rw [put_two _ _ _ _ hb]
      refine ⟨_, rfl, hn.1, hn.2, Or.inr ⟨_, rfl, by simp, ?_⟩⟩
      have : 0 < b.length := List.length_pos_iff.mpr hb
      simp only [List.length_tail, List.length_append, List.length_singleton]
      omega

theorem step_newline {s : St} {line : List Nat} (h : Holds s line) (c : Nat) (m : Option Nat)
    (hc : c = 10 ∨ c = 13) :
    step s (.byte c m) = some (init, meaning line) := by
  obtain ⟨n13, n10, h⟩ := h
  simp only [step]
  rw [if_pos hc]
  rcases h with ⟨rfl, rfl⟩ | ⟨b, hm, hl, hs⟩
  · rfl
  · rw [hm]
    simp only [hl]
    rw [parseLine_eq line b n13]
    rfl

theorem step_failed {s : St} {line : List Nat} (h : Holds s line) (c : Nat)
    (h10 : c ≠ 10) (h13 : c ≠ 13) :
    ∃ t, step s (.byte c none) = some (t, none) ∧ (Holds t (line ++ [c]) ∨ t = init) := by
  by_cases hfull : s.len + 1 ≥ s.space
  · refine ⟨init, ?_, Or.inr rfl⟩
    simp only [step]
    rw [if_neg (by omega), if_pos hfull]
  · obtain ⟨t, ht, hh⟩ := step_byte h c 0 h10 h13
    refine ⟨t, ?_, Or.inl hh⟩
    rw [← ht]
    simp only [step]
    rw [if_neg (by omega), if_neg hfull, if_neg (by omega), if_neg hfull]

theorem holds_init : Holds init [] := ⟨by simp, by simp, Or.inl ⟨rfl, rfl⟩⟩

theorem run_line (f : Nat) : ∀ (l : List Nat) (line : List Nat) (es : List Ev) (s : St),
    Holds s line → 10 ∉ l → 13 ∉ l →
    ∃ t, Holds t (line ++ l) ∧ run s (l.map (Ev.byte · (some f)) ++ es) = run t es
  | [], line, es, s, h, _, _ => ⟨s, by simpa using h, rfl⟩
  | c :: l, line, es, s, h, h10, h13 => by
      obtain ⟨t, ht, hh⟩ := step_byte h c f (fun e => h10 (by simp [e])) (fun e => h13 (by simp [e]))
      obtain ⟨u, hu, hr⟩ := run_line f l (line ++ [c]) es t hh
        (fun e => h10 (List.mem_cons_of_mem _ e)) (fun e => h13 (List.mem_cons_of_mem _ e))
      refine ⟨u, by simpa using hu, ?_⟩
      rw [List.map_cons, List.cons_append, run, ht]
      simp only [Option.bind_some, Option.toList_none, List.nil_append, hr]
      cases run u es <;> rfl

/-! ## C76 -/

/-- The bytes of some lines, each ended by one of the two newline characters. -/
def wire (f : Nat) : List (List Nat × Nat) → List Ev
  | [] => []
  | (l, nl) :: ls => l.map (Ev.byte · (some f)) ++ .byte nl (some f) :: wire f ls

/-- C76: whatever lines are sent, of any number and length and with any bytes in
    them, the parser acts on exactly those lines, in order, each once, according
    to their meaning, and the buffer is never overrun.  An unfinished line at the
    end is not acted on. -/
theorem C76_lines (f : Nat) (ls : List (List Nat × Nat)) (rest : List Nat)
    (hl : ∀ p ∈ ls, 10 ∉ p.1 ∧ 13 ∉ p.1 ∧ (p.2 = 10 ∨ p.2 = 13))
    (h10 : 10 ∉ rest) (h13 : 13 ∉ rest) :
    run init (wire f ls ++ rest.map (Ev.byte · (some f))) = some (ls.filterMap fun p => meaning p.1) := by
  induction ls with
  | nil =>
    obtain ⟨t, _, hr⟩ := run_line f rest [] [] init holds_init h10 h13
    simp only [wire, List.nil_append, List.filterMap_nil]
    rw [List.append_nil] at hr
    rw [hr]; rfl
  | cons p ls ih =>
    obtain ⟨l, nl⟩ := p
    obtain ⟨a, b, c⟩ := hl (l, nl) (by simp)
    obtain ⟨t, ht, hr⟩ := run_line f l [] (.byte nl (some f) :: (wire f ls ++ rest.map (Ev.byte · (some f))))
      init holds_init a b
    simp only [wire, List.append_assoc, List.cons_append]
    rw [hr, run, step_newline ht nl (some f) c]
    simp only [Option.bind_some, List.nil_append]
    rw [ih (fun p hp => hl p (List.mem_cons_of_mem _ hp))]
    simp only [Option.map_some, List.filterMap_cons]
    cases meaning l <;> rfl

-- "  on\r\n" and "set_preset 3 4 \n" and "#x\n"
example : run init (wire 255 [([32, 32, 111, 110], 13), ([], 10), ([115, 112, 32, 51, 32, 52, 32], 10), ([35, 120], 10)]) =
    some [.call [111, 110] none, .call [115, 112] (some [51, 32, 52]), .comment [35, 120]] := by
  decide

/-- C76: no stream of bytes, losses of connection and failing allocations makes
    the parser write outside its buffer. -/
theorem C76_safe (es : List Ev) : ∃ l, run init es = some l := by
  have key : ∀ (es : List Ev) (s : St) (line : List Nat), Holds s line → ∃ l, run s es = some l := by
    intro es
    induction es with
    | nil => intro s line _; exact ⟨[], rfl⟩
    | cons e es ih =>
      intro s line h
      rw [run]
      cases e with
      | lost =>
        obtain ⟨l, hl⟩ := ih init [] holds_init
        exact ⟨l, by simp [step, hl]⟩
      | byte c m =>
        by_cases hc : c = 10 ∨ c = 13
        · obtain ⟨l, hl⟩ := ih init [] holds_init
          exact ⟨_, by rw [step_newline h c m hc, Option.bind_some]; simp only [hl]; rfl⟩
        · cases m with
          | some f =>
            obtain ⟨t, ht, hh⟩ := step_byte h c f (by omega) (by omega)
            obtain ⟨l, hl⟩ := ih t _ hh
            exact ⟨_, by rw [ht, Option.bind_some]; simp only [hl]; rfl⟩
          | none =>
            obtain ⟨t, ht, hh⟩ := step_failed h c (by omega) (by omega)
            rcases hh with hh | rfl
            · obtain ⟨l, hl⟩ := ih t _ hh
              exact ⟨_, by rw [ht, Option.bind_some]; simp only [hl]; rfl⟩
            · obtain ⟨l, hl⟩ := ih init [] holds_init
              exact ⟨_, by rw [ht, Option.bind_some]; simp only [hl]; rfl⟩
  exact key es init [] holds_init

/-- A line is only acted on if the connection held while it was sent. -/
theorem C76_lost (f : Nat) (a b : List Nat) (h10 : 10 ∉ a) (h13 : 13 ∉ a) (k10 : 10 ∉ b) (k13 : 13 ∉ b) :
    run init (a.map (Ev.byte · (some f)) ++ .lost :: (b.map (Ev.byte · (some f)) ++ [.byte 10 (some f)])) =
      some (meaning b).toList := by
  obtain ⟨t, ht, hr⟩ := run_line f a [] (.lost :: (b.map (Ev.byte · (some f)) ++ [.byte 10 (some f)]))
    init holds_init h10 h13
  rw [hr, run, step]
  obtain ⟨u, hu, hr2⟩ := run_line f b [] [.byte 10 (some f)] init holds_init k10 k13
  simp only [Option.bind_some, Option.toList_none, List.nil_append]
  rw [hr2, run, step_newline hu 10 (some f) (Or.inl rfl)]
  simp [run]

/-- When memory runs out in the middle of a line the parser drops what it has, but
    then takes the rest of the line for a line of its own: sending `xxxxxxxoff`
    with the eighth byte refused runs the command `off`. -/
theorem C76_memory_counterexample :
    run init ((List.replicate 7 120).map (Ev.byte · (some 0)) ++
      .byte 120 none :: ([111, 102, 102].map (Ev.byte · (some 0)) ++ [.byte 10 (some 0)])) =
      some [.call [111, 102, 102] none] := by
  decide

end Verif.Serial
