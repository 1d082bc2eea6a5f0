/-
  Display scripts: `SCRReader` and the parts of `BufferedFileReader` it uses
  (display/layer_controller.h:110-360), `EffectFileReader` (sound/effect.h:794-861).

  A script tells each layer of a colour display which image file to play.  The
  file is read into a buffer by a background task while the main loop interprets
  it, so the two interleave in every possible way.

  Simplified: texts contain no NUL; paths are `dir/value` (`PathHelper`, C16) and
  short enough for their buffers; numbers after `time=` are kept as text; the
  circular buffer is a queue (C17).  Not modelled: seeking, unmounting the card,
  the screen itself.
-/
namespace Verif.Display.Script

abbrev Text := List Char

/-- `VariableSource` (layer_controller.h:72-95). -/
inductive Source
  | battery | volume | null
deriving DecidableEq, Repr

/-- Calls made to a layer (`LayerControl`, layer_controller.h:97-104). -/
inductive Call
  | play (path : Text)
  | restart
  | timeSound
  | time (v : Text)
  | var (i : Nat) (s : Source)
deriving DecidableEq, Repr

/-- What a line asks for. -/
inductive Cmd
  | nop
  | layer
  | file (v : Text)
  | restart
  | time (v : Text)
  | var (i : Nat) (v : Text)
deriving DecidableEq, Repr

/-- `isspace`. -/
def isSpace (c : Char) : Bool :=
  c = ' ' || c = '\t' || c = '\n' || c = '\r' || c.val = 11 || c.val = 12

/-- Comment removal (layer_controller.h:266-270): cut at `#`, then blanks before it. -/
def uncomment (l : Text) : Text :=
  if '#' ∈ l then ((l.takeWhile (· ≠ '#')).reverse.dropWhile isSpace).reverse else l

/-- Key and value (layer_controller.h:271-277). -/
def keyValue (l : Text) : Text × Option Text :=
  if '=' ∈ l then (l.takeWhile (· ≠ '='), some ((l.dropWhile (· ≠ '=')).tail))
  else (l, none)

/-- The interpretation of a line (layer_controller.h:278-316); `none` when the
    code passes a null pointer to `strcmp` or `Append`. -/
def cmdOf (l : Text) : Option Cmd :=
  let kv := keyValue (uncomment l)
  if kv.1 = "layer".toList then some .layer
  else if kv.1 = "file".toList then kv.2.map .file
  else if kv.1 = "restart".toList then some .restart
  else if kv.1 = "time".toList then kv.2.map .time
  else if kv.1 = "A".toList then kv.2.map (.var 0)
  else if kv.1 = "B".toList then kv.2.map (.var 1)
  else if kv.1 = "C".toList then kv.2.map (.var 2)
  else if kv.1 = "D".toList then kv.2.map (.var 3)
  else if kv.1 = "E".toList then kv.2.map (.var 4)
  else some .nop

/-- `parse_variable_source` (layer_controller.h:236-241). -/
def source (v : Text) : Source :=
  if v = "battery".toList then .battery
  else if v = "volume".toList then .volume else .null

/-- What the commands act on: `layer_number_`, `may_need_restart_`, `do_restart_`,
    the file name of every layer (`LC_get_filename`, rgb565frame.h:378-389), and the
    calls made so far with the layer they were made to. -/
structure Ctl where
  layer : Nat
  may : Bool
  sticky : Bool
  names : Nat → Text
  log : List (Nat × Call)

def Ctl.call (c : Ctl) (x : Call) : Ctl := { c with log := c.log ++ [(c.layer, x)] }

/-- Start of a script (layer_controller.h:246-248). -/
def Ctl.start (c : Ctl) : Ctl := { c with layer := 0, may := false }

/-- One command on a screen with `n` layers, scripts in directory `dir`
    (layer_controller.h:278-316).  `false`: too many layers, the script ends. -/
def exec (n : Nat) (dir : Text) (cmd : Cmd) (c : Ctl) : Ctl × Bool :=
  match cmd with
  | .nop => (c, true)
  | .layer => ({ c with layer := c.layer + 1, may := false }, decide (c.layer + 1 < n))
  | .file v =>
    let path := dir ++ ['/'] ++ v
    if c.names c.layer = path then
      if c.sticky then (c.call .restart, true) else ({ c with may := true }, true)
    else
      ({ c with names := fun k => if k = c.layer then path else c.names k }.call (.play path), true)
  | .restart =>
    if c.may then ({ c.call .restart with may := false }, true)
    else ({ c with sticky := true }, true)
  | .time v =>
    if v = "from_sound".toList then (c.call .timeSound, true) else (c.call (.time v), true)
  | .var i v => (c.call (.var i (source v)), true)

/-- Where `loop()` will continue. -/
inductive Pc
  | stopped
  | start
  | line (acc : Text)
deriving DecidableEq, Repr

/-- The reader: buffered bytes, bytes of the open file not yet read, the file to
    be opened (`do_open_`), the script asked for (`delayed_open_`), the directory
    of `filename_`. -/
structure St where
  buf : Text
  rest : Text
  pend : Option Text
  delayed : Option Text
  dir : Text
  pc : Pc
  ctl : Ctl

def isEol (c : Char) : Bool := c = '\r' || c = '\n'

/-- Reading lines from the buffer (layer_controller.h:250-318): `none` if a line
    overruns `line[165]` or a line is interpreted with a null value; otherwise the
    bytes left, the unfinished line (`none`: script ended) and the control state. -/
def consume (n : Nat) (dir : Text) : Text → Text → Ctl → Option (Text × Option Text × Ctl)
  | acc, [], c => some ([], some acc, c)
  | acc, x :: xs, c =>
    if isEol x then
      match cmdOf acc with
      | none => none
      | some cmd =>
        if (exec n dir cmd c).2 then consume n dir [] xs (exec n dir cmd c).1
        else some (xs, none, (exec n dir cmd c).1)
    else if acc.length = 164 then none
    else consume n dir (acc ++ [x]) xs c

/-- `check_open` (layer_controller.h:341-350). -/
def checkOpen (s : St) : St :=
  match s.delayed, s.pc with
  | some t, .stopped => { s with pend := some t, delayed := none, pc := .start }
  | _, _ => s

/-- `loop()` from an unfinished line. -/
def advance (n : Nat) (acc : Text) (s : St) : Option St :=
  match consume n s.dir acc s.buf s.ctl with
  | none => none
  | some (b, none, c) => some (checkOpen { s with buf := b, pc := .stopped, ctl := c })
  | some (b, some acc, c) =>
    -- ATEOF (layer_controller.h:134-139)
    if s.pend = none ∧ s.rest = [] then
      some (checkOpen { s with buf := b, pc := .stopped, ctl := c })
    else some { s with buf := b, pc := .line acc, ctl := c }

/-- `SCRReader::loop` (layer_controller.h:244-323). -/
def loop (n : Nat) (s : St) : Option St :=
  match s.pc with
  | .stopped => some (checkOpen s)
  | .start => advance n [] { s with ctl := s.ctl.start }
  | .line acc => advance n acc s

/-- `FillBuffer` (layer_controller.h:148-199), reading at most `k` bytes. -/
def fill (k : Nat) (s : St) : St :=
  if s.buf.length ≥ 1024 then s else
  match s.pend with
  | some t => { s with buf := [], rest := t, pend := none }
  | none =>
    let k := min k (1024 - s.buf.length)
    { s with buf := s.buf ++ s.rest.take k, rest := s.rest.drop k }

/-- `Play(const char*)` (layer_controller.h:335-340, effect.h:818-821). -/
def playName (dir t : Text) (s : St) : St :=
  checkOpen { s with pend := none, delayed := some t, dir := dir }

/-- `Play(Effect*)` (layer_controller.h:326-333, effect.h:798-807): the file is also
    marked to be opened at once. -/
def playEffect (dir t : Text) (s : St) : St :=
  checkOpen { s with pend := some t, delayed := some t, dir := dir }

inductive Ev
  | loop
  | fill (k : Nat)

def step (n : Nat) : Ev → St → Option St
  | .loop, s => loop n s
  | .fill k, s => some (fill k s)

def run (n : Nat) : List Ev → St → Option St
  | [], s => some s
  | e :: es, s => match step n e s with
    | none => none
    | some t => run n es t

/-! ## Specification -/

/-- The terminated lines of a text, in order; an unterminated last line is not
    one of them. -/
def lines : Text → Text → List Text
  | _, [] => []
  | acc, x :: xs => if isEol x then acc :: lines [] xs else lines (acc ++ [x]) xs

/-- The unterminated last line. -/
def tailLine : Text → Text → Text
  | acc, [] => acc
  | acc, x :: xs => if isEol x then tailLine [] xs else tailLine (acc ++ [x]) xs

/-- Every line is short enough and, if it needs one, has a value. -/
def Good (t : Text) : Prop :=
  (∀ l ∈ lines [] t, l.length < 165 ∧ cmdOf l ≠ none) ∧ (tailLine [] t).length < 165

/-- The commands of a script, one after the other, until there are too many
    layers. -/
def perform (n : Nat) (dir : Text) : List Text → Ctl → Ctl
  | [], c => c
  | l :: ls, c =>
    match cmdOf l with
    | none => c
    | some cmd =>
      if (exec n dir cmd c).2 then perform n dir ls (exec n dir cmd c).1
      else (exec n dir cmd c).1

/-! ## Reading is independent of the schedule -/

/-- The outcome of reading `xs` in one go. -/
def outcome (n : Nat) (dir : Text) (acc xs : Text) (c : Ctl) : Option Ctl :=
  (consume n dir acc xs c).map fun r => r.2.2

theorem consume_append (n : Nat) (dir : Text) (ys : Text) :
    ∀ (xs acc : Text) (c : Ctl),
    consume n dir acc (xs ++ ys) c =
      match consume n dir acc xs c with
      | none => none
      | some (b, none, c') => some (b ++ ys, none, c')
      | some (_, some acc', c') => consume n dir acc' ys c' := by
  intro xs
  induction xs with
  | nil => intro acc c; rfl
  | cons x xs ih =>
    intro acc c
    simp only [List.cons_append, consume]
    by_cases he : isEol x
    · simp only [he, if_true]
      rcases cmdOf acc with _ | cmd
      · rfl
      · by_cases hb : (exec n dir cmd c).2
        · simp only [hb, if_true]; exact ih _ _
        · simp only [hb]; rfl
    · simp only [he]
      by_cases hl : acc.length = 164
      · simp [hl]
      · simp only [hl, if_false, Bool.false_eq_true]; exact ih _ _

/-- Bytes are left over only if the script has ended. -/
theorem consume_rest (n : Nat) (dir : Text) :
    ∀ (xs acc : Text) (c : Ctl) (b acc' : Text) (c' : Ctl),
    consume n dir acc xs c = some (b, some acc', c') → b = [] := by
  intro xs
  induction xs with
  | nil => intro acc c b acc' c' h; simp only [consume] at h; cases h; rfl
  | cons x xs ih =>
    intro acc c b acc' c' h
    simp only [consume] at h
    by_cases he : isEol x
    · simp only [he, if_true] at h
      rcases hc : cmdOf acc with _ | cmd
      · simp [hc] at h
      · simp only [hc] at h
        by_cases hb : (exec n dir cmd c).2
        · simp only [hb, if_true] at h; exact ih _ _ _ _ _ h
        · simp [hb] at h
    · simp only [he] at h
      by_cases hl : acc.length = 164
      · simp [hl] at h
      · simp only [hl, if_false, Bool.false_eq_true] at h; exact ih _ _ _ _ _ h

/-- Reading the whole text at once performs its lines. -/
theorem consume_lines (n : Nat) (dir : Text) :
    ∀ (t acc : Text) (c : Ctl), acc.length < 165 →
    (∀ l ∈ lines acc t, l.length < 165 ∧ cmdOf l ≠ none) → (tailLine acc t).length < 165 →
    outcome n dir acc t c = some (perform n dir (lines acc t) c) := by
  intro t
  induction t with
  | nil => intro acc c _ _ _; rfl
  | cons x xs ih =>
    intro acc c ha hl ht
    unfold outcome at ih ⊢
    simp only [consume, lines, tailLine] at hl ht ⊢
    by_cases he : isEol x
    · simp only [he, if_true] at hl ht ⊢
      have h1 := hl acc (by simp)
      rcases hc : cmdOf acc with _ | cmd
      · exact absurd hc h1.2
      · simp only [perform, hc]
        by_cases hb : (exec n dir cmd c).2
        · simp only [hb, if_true]
          exact ih [] _ (by simp) (fun l h => hl l (by simp [h])) ht
        · simp [hb]
    · simp only [he] at hl ht ⊢
      have hne : ¬ acc.length = 164 := by
        intro h
        -- the line this belongs to would be too long
        have key : ∀ (ys acc : Text), 165 ≤ acc.length →
            (∃ l ∈ lines acc ys, 165 ≤ l.length) ∨ 165 ≤ (tailLine acc ys).length := by
          intro ys
          induction ys with
          | nil => intro acc h; exact .inr h
          | cons y ys ih2 =>
            intro acc h
            simp only [lines, tailLine]
            by_cases hy : isEol y
            · simp only [hy, if_true]; exact .inl ⟨acc, by simp, h⟩
            · simp only [hy]; exact ih2 _ (by simp; omega)
        rcases key xs (acc ++ [x]) (by simp; omega) with ⟨l, h1, h2⟩ | h2
        · have := (hl l h1).1; omega
        · have ht' : (tailLine (acc ++ [x]) xs).length < 165 := by simpa using ht
          omega
      simp only [hne, if_false, Bool.false_eq_true]
      exact ih _ _ (by simp; omega) (by simpa using hl) (by simpa using ht)

/-- Calls are only added. -/
theorem exec_log (n : Nat) (dir : Text) (cmd : Cmd) (c : Ctl) :
    c.log <+: (exec n dir cmd c).1.log := by
  cases cmd <;> simp only [exec, Ctl.call] <;> (repeat' split) <;>
    simp [List.prefix_append]

theorem consume_log (n : Nat) (dir : Text) :
    ∀ (xs acc : Text) (c : Ctl) (r : Text × Option Text × Ctl),
    consume n dir acc xs c = some r → c.log <+: r.2.2.log := by
  intro xs
  induction xs with
  | nil => intro acc c r h; simp only [consume] at h; cases h; exact List.prefix_rfl
  | cons x xs ih =>
    intro acc c r h
    simp only [consume] at h
    by_cases he : isEol x
    · simp only [he, if_true] at h
      rcases hc : cmdOf acc with _ | cmd
      · simp [hc] at h
      · simp only [hc] at h
        by_cases hb : (exec n dir cmd c).2
        · simp only [hb, if_true] at h
          exact (exec_log n dir cmd c).trans (ih _ _ _ h)
        · simp only [hb] at h
          cases h; exact exec_log n dir cmd c
    · simp only [he] at h
      by_cases hl : acc.length = 164
      · simp [hl] at h
      · simp only [hl, if_false, Bool.false_eq_true] at h; exact ih _ _ _ h

/-- The line being read and the control state it continues from. -/
def St.acc (s : St) : Text := match s.pc with | .line a => a | _ => []
def St.ctl0 (s : St) : Ctl := match s.pc with | .start => s.ctl.start | _ => s.ctl
/-- What is still to be read. -/
def St.remaining (s : St) : Text := match s.pend with | some t => t | none => s.buf ++ s.rest

/-- The state is on the way to `C` and nothing else has been asked for. -/
def On (n : Nat) (C : Ctl) (s : St) : Prop :=
  s.delayed = none ∧ (s.pend ≠ none → s.buf = []) ∧
  (s.pc = .stopped ∧ s.ctl = C ∨
   s.pc ≠ .stopped ∧ outcome n s.dir s.acc s.remaining s.ctl0 = some C)

theorem on_fill (n k : Nat) (C : Ctl) (s : St) (h : On n C s) : On n C (fill k s) := by
  obtain ⟨h1, h2, h3⟩ := h
  unfold fill
  by_cases hb : s.buf.length ≥ 1024
  · rw [if_pos hb]; exact ⟨h1, h2, h3⟩
  · rw [if_neg hb]
    rcases hp : s.pend with _ | t
    · refine ⟨h1, fun h => absurd rfl h, ?_⟩
      rcases h3 with h3 | ⟨h3, h4⟩
      · exact .inl h3
      · refine .inr ⟨h3, ?_⟩
        simp only [St.remaining, hp] at h4
        simp only [St.remaining, List.append_assoc, List.take_append_drop]
        exact h4
    · refine ⟨h1, fun _ => rfl, ?_⟩
      rcases h3 with h3 | ⟨h3, h4⟩
      · exact .inl h3
      · refine .inr ⟨h3, ?_⟩
        simp only [St.remaining, hp] at h4
        simp only [St.remaining, List.nil_append]
        exact h4

theorem check_none (s : St) (h : s.delayed = none) : checkOpen s = s := by
  unfold checkOpen; simp [h]

theorem on_advance (n : Nat) (C : Ctl) (s : St) (acc : Text) (h1 : s.delayed = none)
    (h2 : s.pend ≠ none → s.buf = [])
    (h3 : outcome n s.dir acc s.remaining s.ctl = some C) :
    ∃ t, advance n acc s = some t ∧ On n C t ∧ s.ctl.log <+: t.ctl.log ∧
      t.ctl.log <+: C.log ∧ t.dir = s.dir := by
  have hk : ∀ (b : Text) (c : Ctl) (pe : Option Text) (re : Text),
      checkOpen { s with buf := b, pc := .stopped, ctl := c, pend := pe, rest := re } =
        { s with buf := b, pc := .stopped, ctl := c, pend := pe, rest := re } :=
    fun b c pe re => check_none _ h1
  unfold advance
  rcases hp : s.pend with _ | f
  · simp only [St.remaining, hp] at h3
    unfold outcome at h3
    rw [consume_append] at h3
    rcases hc : consume n s.dir acc s.buf s.ctl with _ | ⟨b, _ | a, c⟩
    · simp [hc] at h3
    · simp only [hc, Option.map_some, Option.some.injEq] at h3
      subst h3
      simp only []
      refine ⟨_, rfl, ?_, ?_, ?_, ?_⟩
      · rw [hk]
        exact ⟨h1, fun h => absurd rfl h, .inl ⟨rfl, rfl⟩⟩
      all_goals rw [hk]
      · exact consume_log _ _ _ _ _ _ hc
      · exact List.prefix_rfl
    · simp only [hc] at h3
      have hb := consume_rest _ _ _ _ _ _ _ _ hc
      subst hb
      simp only []
      have hl : c.log <+: C.log := by
        rcases hr : consume n s.dir a s.rest c with _ | r
        · simp [hr] at h3
        · have := consume_log _ _ _ _ _ _ hr
          simp only [hr, Option.map_some, Option.some.injEq] at h3
          rw [← h3]; exact this
      by_cases hr : s.rest = []
      · simp only [hr, and_self, if_true]
        rw [hr] at h3
        simp only [consume, Option.map_some, Option.some.injEq] at h3
        refine ⟨_, rfl, ?_, ?_, ?_, ?_⟩
        · rw [hk]
          exact ⟨h1, fun h => absurd rfl h, .inl ⟨rfl, h3⟩⟩
        all_goals rw [hk]
        · exact consume_log _ _ _ _ _ _ hc
        · exact hl
      · simp only [hr, and_false, if_false]
        refine ⟨_, rfl, ⟨h1, fun h => absurd rfl h, .inr ⟨by simp, ?_⟩⟩,
          consume_log _ _ _ _ _ _ hc, hl, rfl⟩
        simp only [St.acc, St.remaining, St.ctl0, List.nil_append]
        exact h3
  · have hb := h2 (by simp [hp])
    rw [hb]
    simp only [consume, reduceCtorEq, false_and, if_false]
    have hl : s.ctl.log <+: C.log := by
      unfold outcome at h3
      rcases hr : consume n s.dir acc s.remaining s.ctl with _ | r
      · simp [hr] at h3
      · have := consume_log _ _ _ _ _ _ hr
        simp only [hr, Option.map_some, Option.some.injEq] at h3
        rw [← h3]; exact this
    refine ⟨_, rfl, ⟨h1, fun _ => rfl, .inr ⟨by simp, ?_⟩⟩, List.prefix_rfl, hl, rfl⟩
    simp only [St.remaining, hp] at h3
    simp only [St.acc, St.remaining, St.ctl0]
    exact h3

theorem on_loop (n : Nat) (C : Ctl) (s : St) (h : On n C s) :
    ∃ t, loop n s = some t ∧ On n C t ∧ s.ctl.log <+: t.ctl.log ∧
      t.ctl.log <+: C.log ∧ t.dir = s.dir := by
  obtain ⟨h1, h2, h3⟩ := h
  unfold loop
  rcases hpc : s.pc with _ | _ | a
  · rcases h3 with ⟨_, h3⟩ | ⟨h3, _⟩
    · simp only []
      rw [check_none _ h1]
      exact ⟨s, rfl, ⟨h1, h2, .inl ⟨hpc, h3⟩⟩, List.prefix_rfl, by rw [h3]; exact List.prefix_rfl, rfl⟩
    · exact absurd hpc h3
  · rcases h3 with ⟨h3, _⟩ | ⟨_, h4⟩
    · rw [hpc] at h3; cases h3
    · simp only []
      simp only [St.acc, St.ctl0, hpc] at h4
      exact on_advance n C { s with ctl := s.ctl.start } [] h1 h2 h4
  · rcases h3 with ⟨h3, _⟩ | ⟨_, h4⟩
    · rw [hpc] at h3; cases h3
    · simp only []
      simp only [St.acc, St.ctl0, hpc] at h4
      exact on_advance n C s a h1 h2 h4

theorem on_run (n : Nat) (C : Ctl) (es : List Ev) :
    ∀ (s : St), On n C s → s.ctl.log <+: C.log →
    ∃ t, run n es s = some t ∧ On n C t ∧ t.ctl.log <+: C.log ∧ t.dir = s.dir := by
  induction es with
  | nil => intro s h hl; exact ⟨s, rfl, h, hl, rfl⟩
  | cons e es ih =>
    intro s h hl
    cases e with
    | loop =>
      obtain ⟨t, h1, h2, _, h4, h5⟩ := on_loop n C s h
      obtain ⟨u, g1, g2, g3, g4⟩ := ih t h2 h4
      refine ⟨u, ?_, g2, g3, by rw [g4, h5]⟩
      simp only [run, step, h1]; exact g1
    | fill k =>
      have hf : (fill k s).ctl = s.ctl ∧ (fill k s).dir = s.dir := by
        unfold fill; (repeat' split) <;> exact ⟨rfl, rfl⟩
      obtain ⟨u, g1, g2, g3, g4⟩ := ih (fill k s) (on_fill n k C s h) (by rw [hf.1]; exact hl)
      exact ⟨u, g1, g2, g3, by rw [g4, hf.2]⟩

/-- Idle: nothing running, nothing asked for, nothing left in the buffer. -/
def Idle (s : St) : Prop := s.pc = .stopped ∧ s.delayed = none ∧ s.buf = []

theorem perform_log (n : Nat) (dir : Text) (ls : List Text) :
    ∀ c : Ctl, c.log <+: (perform n dir ls c).log := by
  induction ls with
  | nil => intro c; exact List.prefix_rfl
  | cons l ls ih =>
    intro c
    simp only [perform]
    rcases cmdOf l with _ | cmd
    · exact List.prefix_rfl
    · simp only []
      split
      · exact (exec_log n dir cmd c).trans (ih _)
      · exact exec_log n dir cmd c

theorem play_on (n : Nat) (dir t : Text) (s : St) (hs : Idle s) (ht : Good t)
    (p : St) (hp : p = playName dir t s ∨ p = playEffect dir t s) :
    On n (perform n dir (lines [] t) s.ctl.start) p ∧ p.ctl = s.ctl ∧ p.dir = dir ∧
    p.pc = .start := by
  obtain ⟨h1, h2, h3⟩ := hs
  have hpe : p = { s with pend := some t, delayed := none, dir := dir, pc := .start } := by
    rcases hp with rfl | rfl <;> simp [playName, playEffect, checkOpen, h1]
  subst hpe
  refine ⟨⟨rfl, fun _ => h3, .inr ⟨by simp, ?_⟩⟩, rfl, rfl, rfl⟩
  simp only [St.acc, St.remaining, St.ctl0]
  exact consume_lines n dir t [] _ (by simp) ht.1 ht.2

/-- A script asked for on an idle display: whatever the interleaving of reading
    and interpreting, and whatever the sizes read, there is no undefined behaviour,
    the calls made so far are always a prefix of those its lines ask for, and once
    the reader has stopped they are exactly those. -/
theorem C99_exact (n : Nat) (dir t : Text) (s : St) (hs : Idle s) (ht : Good t)
    (es : List Ev) (p : St) (hp : p = playName dir t s ∨ p = playEffect dir t s) :
    ∃ u, run n es p = some u ∧
      u.ctl.log <+: (perform n dir (lines [] t) s.ctl.start).log ∧
      (u.pc = .stopped → u.ctl = perform n dir (lines [] t) s.ctl.start) := by
  obtain ⟨h1, h2, h3, _⟩ := play_on n dir t s hs ht p hp
  obtain ⟨u, g1, g2, g3, _⟩ := on_run n _ es p h1
    (by rw [h2]; exact perform_log n dir (lines [] t) s.ctl.start)
  refine ⟨u, g1, g3, fun hu => ?_⟩
  rcases g2.2.2 with ⟨_, h⟩ | ⟨h, _⟩
  · exact h
  · exact absurd hu h

/-! ## Every script is finished -/

/-- Rounds of one fill (of at least one byte) and one loop. -/
def rounds : List Nat → List Ev
  | [] => []
  | k :: ks => .fill (k + 1) :: .loop :: rounds ks

/-- Work left. -/
def work (s : St) : Nat :=
  match s.pc with
  | .stopped => 0
  | _ => match s.pend with
    | some t => t.length + 2
    | none => (s.buf ++ s.rest).length + 1

theorem advance_work (n : Nat) (acc : Text) (s t : St) (h1 : s.delayed = none)
    (hp : s.pend = none) (h : advance n acc s = some t) :
    t.pc = .stopped ∨ (t.pend = none ∧ t.buf = [] ∧ t.rest = s.rest ∧ s.rest ≠ []) := by
  unfold advance at h
  rcases hc : consume n s.dir acc s.buf s.ctl with _ | ⟨b, _ | a, c⟩
  · simp [hc] at h
  · simp only [hc, Option.some.injEq] at h
    subst h; left; rw [check_none _ (by exact h1)]
  · have hb := consume_rest _ _ _ _ _ _ _ _ hc
    simp only [hc] at h
    by_cases hr : s.rest = []
    · rw [if_pos ⟨hp, hr⟩] at h
      simp only [Option.some.injEq] at h
      subst h; left; rw [check_none _ (by exact h1)]
    · rw [if_neg (by simp [hr])] at h
      simp only [Option.some.injEq] at h
      subst h; right; exact ⟨hp, hb, rfl, hr⟩

theorem loop_work (n : Nat) (s t : St) (h1 : s.delayed = none) (hp : s.pend = none)
    (h : loop n s = some t) :
    t.pc = .stopped ∨ (t.pend = none ∧ t.buf = [] ∧ t.rest = s.rest ∧ s.rest ≠ []) := by
  unfold loop at h
  rcases hpc : s.pc with _ | _ | a
  · simp only [hpc, Option.some.injEq] at h
    subst h; left; rw [check_none _ h1]; exact hpc
  · simp only [hpc] at h
    exact advance_work n [] { s with ctl := s.ctl.start } t h1 hp h
  · simp only [hpc] at h
    exact advance_work n a s t h1 hp h

theorem work_stopped (s : St) (h : s.pc = .stopped) : work s = 0 := by simp [work, h]

theorem round_work (n k : Nat) (C : Ctl) (s t : St) (hs : On n C s) (hw : 0 < work s)
    (h : loop n (fill (k + 1) s) = some t) : work t < work s := by
  obtain ⟨h1, h2, _⟩ := hs
  have hpc : s.pc ≠ .stopped := fun h => by rw [work_stopped s h] at hw; omega
  rcases hp : s.pend with _ | f
  · have hws : work s = (s.buf ++ s.rest).length + 1 := by
      unfold work; rcases hx : s.pc with _ | _ | a
      · exact absurd hx hpc
      all_goals simp [hp]
    have hf : (fill (k + 1) s).pend = none ∧ (fill (k + 1) s).delayed = none ∧
        ((fill (k + 1) s).rest ≠ [] →
          (fill (k + 1) s).rest.length < (s.buf ++ s.rest).length) := by
      unfold fill
      by_cases hb : s.buf.length ≥ 1024
      · rw [if_pos hb]
        refine ⟨hp, h1, fun _ => ?_⟩
        simp only [List.length_append]; omega
      · rw [if_neg hb]
        simp only [hp]
        refine ⟨by simp, h1, fun hr => ?_⟩
        have hr' : 0 < (s.rest.drop (min (k + 1) (1024 - s.buf.length))).length :=
          List.length_pos_iff.mpr hr
        simp only [List.length_append, List.length_drop] at hr' ⊢
        omega
    rcases loop_work n _ t hf.2.1 hf.1 h with g | ⟨g1, g2, g3, g4⟩
    · rw [work_stopped t g]; exact hw
    · have : work t ≤ t.rest.length + 1 := by
        unfold work; split
        · omega
        · simp [g1, g2]
      rw [g3] at this
      have := hf.2.2 g4
      omega
  · have hws : work s = f.length + 2 := by
      unfold work; rcases hx : s.pc with _ | _ | a
      · exact absurd hx hpc
      all_goals simp [hp]
    have hb := h2 (by simp [hp])
    have hf : fill (k + 1) s = { s with buf := [], rest := f, pend := none } := by
      unfold fill; rw [hb, if_neg (by simp)]; simp [hp]
    rw [hf] at h
    rcases loop_work n { s with buf := [], rest := f, pend := none } t h1 rfl h with g | ⟨g1, g2, g3, g4⟩
    · rw [work_stopped t g]; exact hw
    · have : work t ≤ t.rest.length + 1 := by
        unfold work; split
        · omega
        · simp [g1, g2]
      rw [g3] at this
      simp only at this
      omega

theorem stopped_stays (n : Nat) (C : Ctl) (es : List Ev) :
    ∀ (s : St), On n C s → s.pc = .stopped → ∃ t, run n es s = some t ∧ t.pc = .stopped := by
  induction es with
  | nil => intro s _ hp; exact ⟨s, rfl, hp⟩
  | cons e es ih =>
    intro s h hp
    cases e with
    | loop =>
      have : loop n s = some s := by
        unfold loop; simp only [hp]; rw [check_none _ h.1]
      simp only [run, step, this]; exact ih s h hp
    | fill k =>
      refine ih _ (on_fill n k C s h) ?_
      unfold fill; (repeat' split) <;> exact hp

/-- A script of `m` bytes has been carried out completely after `m + 2` rounds of
    reading and interpreting, however little is read each time. -/
theorem C99_finishes (n : Nat) (dir t : Text) (s : St) (hs : Idle s) (ht : Good t)
    (ks : List Nat) (hk : t.length + 2 ≤ ks.length) :
    ∃ u, run n (rounds ks) (playName dir t s) = some u ∧ u.pc = .stopped ∧
      u.ctl = perform n dir (lines [] t) s.ctl.start := by
  obtain ⟨h1, h2, h3, h4⟩ := play_on n dir t s hs ht _ (.inl rfl)
  have hw : work (playName dir t s) ≤ ks.length := by
    obtain ⟨a, b, c⟩ := hs
    simp only [playName, checkOpen, a, work]; omega
  generalize hC : perform n dir (lines [] t) s.ctl.start = C at *
  have key : ∀ (ks : List Nat) (s : St), On n C s → work s ≤ ks.length →
      ∃ u, run n (rounds ks) s = some u ∧ u.pc = .stopped := by
    intro ks
    induction ks with
    | nil =>
      intro s h hw
      refine ⟨s, rfl, ?_⟩
      rcases hpc : s.pc with _ | _ | a
      · rfl
      all_goals
        exfalso
        unfold work at hw
        rcases hp : s.pend with _ | f <;> simp [hpc, hp] at hw
    | cons k ks ih =>
      intro s h hw
      by_cases h0 : work s = 0
      · have hpc : s.pc = .stopped := by
          rcases hpc : s.pc with _ | _ | a
          · rfl
          all_goals
            exfalso
            unfold work at h0
            rcases hp : s.pend with _ | f <;> simp [hpc, hp] at h0
        exact stopped_stays n C _ s h hpc
      · obtain ⟨t, g1, g2, _⟩ := on_loop n C (fill (k + 1) s) (on_fill n (k + 1) C s h)
        have hd := round_work n k C s t h (by omega) g1
        obtain ⟨u, e1, e2⟩ := ih t g2 (by simp at hw; omega)
        refine ⟨u, ?_, e2⟩
        simp only [rounds, run, step, g1]; exact e1
  obtain ⟨u, g1, g2⟩ := key ks _ h1 hw
  refine ⟨u, g1, g2, ?_⟩
  obtain ⟨u', e1, _, e3⟩ := C99_exact n dir t s hs ht (rounds ks) _ (.inl rfl)
  rw [g1] at e1
  cases e1
  rw [← hC]; exact e3 g2

/-! ## What the lines mean -/

/-- Number of `layer` lines. -/
def layerLines : List Text → Nat
  | [] => 0
  | l :: ls => (if cmdOf l = some .layer then 1 else 0) + layerLines ls

theorem exec_layer (n : Nat) (dir : Text) (cmd : Cmd) (c : Ctl) :
    (exec n dir cmd c).1.layer = c.layer + (if cmd = .layer then 1 else 0) ∧
    ((exec n dir cmd c).2 = false → cmd = .layer ∧ n ≤ c.layer + 1) := by
  cases cmd <;> simp only [exec, Ctl.call] <;> (repeat' split) <;> simp_all <;> omega

theorem perform_append (n : Nat) (dir : Text) (post : List Text) :
    ∀ (pre : List Text) (c : Ctl), (∀ l ∈ pre, cmdOf l ≠ none) →
    c.layer + layerLines pre < n →
    perform n dir (pre ++ post) c = perform n dir post (perform n dir pre c) ∧
    (perform n dir pre c).layer = c.layer + layerLines pre := by
  intro pre
  induction pre with
  | nil => intro c _ _; exact ⟨rfl, by simp [perform, layerLines]⟩
  | cons l pre ih =>
    intro c hg hn
    rcases hc : cmdOf l with _ | cmd
    · exact absurd hc (hg l (by simp))
    · have he := exec_layer n dir cmd c
      simp only [layerLines, hc, Option.some.injEq] at hn
      have hb : (exec n dir cmd c).2 = true := by
        rcases hx : (exec n dir cmd c).2 with _ | _
        · obtain ⟨a, b⟩ := he.2 hx
          simp only [a, if_true] at hn; omega
        · rfl
      simp only [List.cons_append, perform, hc, hb, if_true, layerLines, Option.some.injEq]
      obtain ⟨i1, i2⟩ := ih (exec n dir cmd c).1 (fun l h => hg l (by simp [h])) (by omega)
      exact ⟨i1, by omega⟩

/-- Every line acts on its own layer only: the calls a line adds go to the layer
    whose number is the number of `layer` lines before it, and the files of the
    other layers are not touched. -/
theorem C99_layers (n : Nat) (dir : Text) (pre : List Text) (l : Text) (c : Ctl)
    (hg : ∀ l ∈ pre, cmdOf l ≠ none) (hn : layerLines pre < n) :
    ∃ xs : List Call,
      (perform n dir (pre ++ [l]) c.start).log =
        (perform n dir pre c.start).log ++ xs.map (fun x => (layerLines pre, x)) ∧
      xs.length ≤ 1 ∧
      ∀ k, k ≠ layerLines pre →
        (perform n dir (pre ++ [l]) c.start).names k = (perform n dir pre c.start).names k := by
  have hs : c.start.layer = 0 := rfl
  obtain ⟨h1, h2⟩ := perform_append n dir [l] pre c.start hg (by omega)
  rw [h1]
  generalize perform n dir pre c.start = d at *
  have hd : d.layer = layerLines pre := by omega
  simp only [perform]
  rcases cmdOf l with _ | cmd
  · exact ⟨[], by simp⟩
  · have : (if (exec n dir cmd d).2 = true then (exec n dir cmd d).1 else (exec n dir cmd d).1)
        = (exec n dir cmd d).1 := by split <;> rfl
    simp only [this]
    rw [← hd]
    cases cmd with
    | nop => exact ⟨[], by simp [exec]⟩
    | layer => exact ⟨[], by simp [exec]⟩
    | file v =>
      simp only [exec, Ctl.call]
      split
      · split
        · exact ⟨[.restart], by simp⟩
        · exact ⟨[], by simp⟩
      · exact ⟨[.play (dir ++ ['/'] ++ v)], by simp, by simp, fun k hk => by simp [hk]⟩
    | restart =>
      simp only [exec, Ctl.call]
      split
      · exact ⟨[.restart], by simp⟩
      · exact ⟨[], by simp⟩
    | time v =>
      simp only [exec, Ctl.call]
      split
      · exact ⟨[.timeSound], by simp⟩
      · exact ⟨[.time v], by simp⟩
    | var i v => exact ⟨[.var i (source v)], by simp [exec, Ctl.call]⟩

/-- A `file=` line leaves its layer with that file; the file is started from its
    beginning if it was not the one playing. -/
theorem C99_file (n : Nat) (dir : Text) (pre : List Text) (l v : Text) (c : Ctl)
    (hg : ∀ l ∈ pre, cmdOf l ≠ none) (hn : layerLines pre < n) (hl : cmdOf l = some (.file v))
    (a b : Ctl) (ha : a = perform n dir pre c.start)
    (hb : b = perform n dir (pre ++ [l]) c.start) (path : Text)
    (hp : path = dir ++ "/".toList ++ v) :
    b.names (layerLines pre) = path ∧
    (a.names (layerLines pre) ≠ path → b.log = a.log ++ [(layerLines pre, .play path)]) ∧
    (a.names (layerLines pre) = path →
      b.log = if a.sticky then a.log ++ [(layerLines pre, .restart)] else a.log) := by
  have hs : c.start.layer = 0 := rfl
  obtain ⟨h1, h2⟩ := perform_append n dir [l] pre c.start hg (by omega)
  rw [h1, ← ha] at hb
  rw [← ha] at h2
  have hd : layerLines pre = a.layer := by omega
  have hp' : path = dir ++ ['/'] ++ v := hp
  rw [hb, hd]
  clear hb ha h1 h2 hd hp
  subst hp'
  generalize hpath : dir ++ ['/'] ++ v = path
  by_cases h : a.names a.layer = path
  · rcases hst : a.sticky <;> simp [perform, hl, exec, Ctl.call, hpath, h, hst]
  · simp [perform, hl, exec, Ctl.call, hpath, h]

/-! ## Starting again -/

theorem perform_cons (n : Nat) (dir l : Text) (ls : List Text) (cmd : Cmd) (c : Ctl)
    (hl : cmdOf l = some cmd) (hne : cmd ≠ .layer) :
    perform n dir (l :: ls) c = perform n dir ls (exec n dir cmd c).1 := by
  have : (exec n dir cmd c).2 = true := by
    rcases h : (exec n dir cmd c).2
    · exact absurd ((exec_layer n dir cmd c).2 h).1 hne
    · rfl
  simp only [perform, hl, this, if_true]

/-- The lines between `file=` and `restart` that keep to the layer and do not
    name a file or ask for a restart. -/
def Quiet (ls : List Text) : Prop :=
  ∀ l ∈ ls, ∃ cmd, cmdOf l = some cmd ∧ cmd ≠ .layer ∧ cmd ≠ .restart ∧ ∀ v, cmd ≠ .file v

theorem quiet_perform (n : Nat) (dir : Text) (ls : List Text) :
    ∀ (c : Ctl), Quiet ls → (perform n dir ls c).may = c.may ∧
      (perform n dir ls c).sticky = c.sticky ∧ (perform n dir ls c).names = c.names ∧
      (perform n dir ls c).layer = c.layer := by
  induction ls with
  | nil => intro c _; exact ⟨rfl, rfl, rfl, rfl⟩
  | cons l ls ih =>
    intro c h
    obtain ⟨cmd, h1, h2, h3, h4⟩ := h l (by simp)
    rw [perform_cons n dir l ls cmd c h1 h2]
    obtain ⟨a, b, d, e⟩ := ih (exec n dir cmd c).1 (fun l hl => h l (by simp [hl]))
    have hx : (exec n dir cmd c).1.may = c.may ∧ (exec n dir cmd c).1.sticky = c.sticky ∧
        (exec n dir cmd c).1.names = c.names ∧ (exec n dir cmd c).1.layer = c.layer := by
      cases cmd with
      | nop => exact ⟨rfl, rfl, rfl, rfl⟩
      | layer => exact absurd rfl h2
      | restart => exact absurd rfl h3
      | file v => exact absurd rfl (h4 v)
      | time v => simp only [exec, Ctl.call]; split <;> exact ⟨rfl, rfl, rfl, rfl⟩
      | var i v => exact ⟨rfl, rfl, rfl, rfl⟩
    rw [a, b, d, e]; exact hx

theorem perform_quiet_append (n : Nat) (dir : Text) (post : List Text) :
    ∀ (ls : List Text) (c : Ctl), Quiet ls →
    perform n dir (ls ++ post) c = perform n dir post (perform n dir ls c) := by
  intro ls
  induction ls with
  | nil => intro c _; rfl
  | cons l ls ih =>
    intro c h
    obtain ⟨cmd, h1, h2, h3, h4⟩ := h l (by simp)
    rw [List.cons_append, perform_cons n dir l _ cmd c h1 h2, perform_cons n dir l ls cmd c h1 h2]
    exact ih _ (fun l hl => h l (by simp [hl]))

/-- Does the log from `a` to `b` contain a start of the file from its beginning on
    layer `k`? -/
def Started (a b : Ctl) (k : Nat) (path : Text) : Prop :=
  ∃ xs, b.log = a.log ++ xs ∧ ((k, Call.play path) ∈ xs ∨ (k, Call.restart) ∈ xs)

/-- `restart` does what it says: a `file=` line together with a `restart` line,
    before or after it, starts that file from its beginning. -/
theorem C99_restart (n : Nat) (dir lf lr v : Text) (mid : List Text) (c : Ctl)
    (hf : cmdOf lf = some (.file v)) (hr : cmdOf lr = some .restart) (hq : Quiet mid) :
    Started c (perform n dir (lf :: (mid ++ [lr])) c) c.layer (dir ++ "/".toList ++ v) ∧
    (c.may = false →
      Started c (perform n dir (lr :: (mid ++ [lf])) c) c.layer (dir ++ "/".toList ++ v)) := by
  have hp : dir ++ "/".toList ++ v = dir ++ ['/'] ++ v := rfl
  rw [hp]
  constructor
  · rw [perform_cons n dir lf _ _ c hf (by simp), perform_quiet_append _ _ _ _ _ hq,
      perform_cons n dir lr [] _ _ hr (by simp)]
    simp only [perform]
    by_cases h : c.names c.layer = dir ++ ['/'] ++ v
    · rcases hst : c.sticky
      · have he : (exec n dir (.file v) c).1 = { c with may := true } := by
          simp [exec, h, hst]
        rw [he]
        obtain ⟨q1, q2, q3, q4⟩ := quiet_perform n dir mid { c with may := true } hq
        obtain ⟨ys, hy⟩ := perform_log n dir mid { c with may := true }
        have hy : c.log ++ ys = (perform n dir mid { c with may := true }).log := hy
        generalize perform n dir mid { c with may := true } = d at *
        simp only [exec, q1, if_true, Ctl.call]
        exact ⟨ys ++ [(d.layer, .restart)], by rw [← hy]; simp, .inr (by rw [q4]; simp)⟩
      · have he : (exec n dir (.file v) c).1 = c.call .restart := by
          simp [exec, h, hst]
        rw [he]
        obtain ⟨ys, hy⟩ := (perform_log n dir mid (c.call .restart)).trans
          (exec_log n dir .restart (perform n dir mid (c.call .restart)))
        exact ⟨[(c.layer, .restart)] ++ ys, by rw [← hy]; simp [Ctl.call], .inr (by simp)⟩
    · have he : (exec n dir (.file v) c).1.log = c.log ++ [(c.layer, .play (dir ++ ['/'] ++ v))] := by
        simp only [exec, Ctl.call]; rw [if_neg h]
      obtain ⟨ys, hy⟩ := (perform_log n dir mid (exec n dir (.file v) c).1).trans
        (exec_log n dir .restart (perform n dir mid (exec n dir (.file v) c).1))
      exact ⟨[(c.layer, .play (dir ++ ['/'] ++ v))] ++ ys, by rw [← hy, he]; simp, .inl (by simp)⟩
  · intro hm
    rw [perform_cons n dir lr _ _ c hr (by simp), perform_quiet_append _ _ _ _ _ hq,
      perform_cons n dir lf [] _ _ hf (by simp)]
    simp only [perform]
    have he : (exec n dir .restart c).1 = { c with sticky := true } := by simp [exec, hm]
    rw [he]
    obtain ⟨q1, q2, q3, q4⟩ := quiet_perform n dir mid { c with sticky := true } hq
    obtain ⟨ys, hy⟩ := perform_log n dir mid { c with sticky := true }
    have hy : c.log ++ ys = (perform n dir mid { c with sticky := true }).log := hy
    generalize perform n dir mid { c with sticky := true } = d at *
    by_cases h : d.names d.layer = dir ++ ['/'] ++ v
    · have e2 : (exec n dir (.file v) d).1 = d.call .restart := by simp [exec, h, q2]
      rw [e2]
      exact ⟨ys ++ [(d.layer, .restart)], by simp [Ctl.call, ← hy], .inr (by rw [q4]; simp)⟩
    · have e2 : (exec n dir (.file v) d).1.log =
          d.log ++ [(d.layer, .play (dir ++ ['/'] ++ v))] := by
        simp only [exec, Ctl.call]; rw [if_neg h]
      exact ⟨ys ++ [(d.layer, .play (dir ++ ['/'] ++ v))], by rw [e2, ← hy]; simp,
        .inl (by rw [q4]; simp)⟩

/-- Without a `restart` line in this or any earlier script, a file that is already
    playing is never started again. -/
theorem C99_continues_partial (n : Nat) (dir : Text) (ls : List Text) :
    ∀ (c : Ctl), c.sticky = false → (∀ l ∈ ls, cmdOf l ≠ some .restart) →
    (perform n dir ls c).sticky = false ∧
    ∃ xs, (perform n dir ls c).log = c.log ++ xs ∧ ∀ k, (k, Call.restart) ∉ xs := by
  induction ls with
  | nil => intro c h _; exact ⟨h, [], by simp [perform]⟩
  | cons l ls ih =>
    intro c h hr
    simp only [perform]
    rcases hc : cmdOf l with _ | cmd
    · exact ⟨h, [], by simp⟩
    · have hx : (exec n dir cmd c).1.sticky = false ∧
          ∃ xs, (exec n dir cmd c).1.log = c.log ++ xs ∧ ∀ k, (k, Call.restart) ∉ xs := by
        cases cmd with
        | nop => exact ⟨h, [], by simp [exec]⟩
        | layer => exact ⟨h, [], by simp [exec]⟩
        | restart => exact absurd hc (hr l (by simp))
        | file v =>
          simp only [exec, Ctl.call, h]
          split
          · exact ⟨rfl, [], by simp⟩
          · exact ⟨rfl, [(c.layer, .play (dir ++ ['/'] ++ v))], by simp⟩
        | time v =>
          simp only [exec, Ctl.call]
          split
          · exact ⟨h, [(c.layer, .timeSound)], by simp⟩
          · exact ⟨h, [(c.layer, .time v)], by simp⟩
        | var i v => exact ⟨h, [(c.layer, .var i (source v))], by simp [exec, Ctl.call]⟩
      simp only []
      split
      · obtain ⟨a, xs, b1, b2⟩ := hx
        obtain ⟨d, ys, e1, e2⟩ := ih _ a (fun l hl => hr l (by simp [hl]))
        refine ⟨d, xs ++ ys, by rw [e1, b1]; simp, fun k hk => ?_⟩
        rcases List.mem_append.mp hk with hk | hk
        · exact b2 k hk
        · exact e2 k hk
      · exact hx

/-! ## The syntax of a line -/

theorem takeWhile_ne (x : Char) (k v : Text) (h : x ∉ k) :
    (k ++ x :: v).takeWhile (· ≠ x) = k ∧ (k ++ x :: v).dropWhile (· ≠ x) = x :: v := by
  induction k with
  | nil => simp
  | cons y k ih =>
    have hy : y ≠ x := fun e => h (by simp [e])
    obtain ⟨a, b⟩ := ih (fun e => h (by simp [e]))
    rw [List.cons_append, List.takeWhile_cons, List.dropWhile_cons,
      if_pos (by simp [hy]), if_pos (by simp [hy]), a, b]
    exact ⟨rfl, rfl⟩

theorem uncomment_plain (l : Text) (h : '#' ∉ l) : uncomment l = l := by
  unfold uncomment; rw [if_neg h]

theorem uncomment_comment (l sp junk : Text) (h : '#' ∉ l) (hs : ∀ c ∈ sp, isSpace c)
    (hl : ∀ c, l.getLast? = some c → isSpace c = false) :
    uncomment (l ++ sp ++ '#' :: junk) = l := by
  have hn : '#' ∉ l ++ sp := by
    intro hm
    rcases List.mem_append.mp hm with hm | hm
    · exact h hm
    · exact absurd (hs _ hm) (by decide)
  unfold uncomment
  rw [if_pos (by simp), (takeWhile_ne '#' (l ++ sp) junk hn).1, List.reverse_append]
  have h1 : ∀ (a b : Text), (∀ c ∈ a, isSpace c) →
      (a ++ b).dropWhile isSpace = b.dropWhile isSpace := by
    intro a b ha
    induction a with
    | nil => rfl
    | cons y a ih =>
      simp only [List.cons_append, List.dropWhile_cons, ha y (by simp), if_true]
      exact ih (fun c hc => ha c (by simp [hc]))
  rw [h1 _ _ (fun c hc => hs c (by simpa using hc))]
  have h2 : l.reverse.dropWhile isSpace = l.reverse := by
    rcases hr : l.reverse with _ | ⟨y, ys⟩
    · rfl
    · have : l.getLast? = some y := by
        have e : l = ys.reverse ++ [y] := by
          have := congrArg List.reverse hr
          simpa using this
        rw [e]; simp
      simp [hl y this]
  rw [h2]; simp

/-- What the header documents a line to mean. -/
def Means (line : Text) (cmd : Cmd) : Prop :=
  (line = "layer".toList ∧ cmd = .layer) ∨
  (line = "restart".toList ∧ cmd = .restart) ∨
  (∃ v, line = "file=".toList ++ v ∧ cmd = .file v) ∨
  (∃ v, line = "time=".toList ++ v ∧ cmd = .time v) ∨
  (∃ i v, i < 5 ∧ line = Char.ofNat ('A'.toNat + i) :: '=' :: v ∧ cmd = .var i v)

theorem cmdOf_kv (l key v : Text) (h : uncomment l = key ++ '=' :: v) (hk : '=' ∉ key) :
    keyValue (uncomment l) = (key, some v) := by
  obtain ⟨a, b⟩ := takeWhile_ne '=' key v hk
  unfold keyValue
  rw [h, if_pos (by simp), a, b]; rfl

/-- A line, with or without a comment after it, is understood as documented. -/
theorem C99_syntax (line l : Text) (cmd : Cmd) (hm : Means line cmd) (h : '#' ∉ line)
    (hl : l = line ∨ ((∀ c, line.getLast? = some c → isSpace c = false) ∧
      ∃ sp junk, (∀ c ∈ sp, isSpace c) ∧ l = line ++ sp ++ '#' :: junk)) :
    cmdOf l = some cmd := by
  have hu : uncomment l = line := by
    rcases hl with rfl | ⟨h1, sp, junk, h2, rfl⟩
    · exact uncomment_plain _ h
    · exact uncomment_comment line sp junk h h2 h1
  rcases hm with ⟨rfl, rfl⟩ | ⟨rfl, rfl⟩ | ⟨v, rfl, rfl⟩ | ⟨v, rfl, rfl⟩ | ⟨i, v, hi, rfl, rfl⟩
  · unfold cmdOf; rw [hu]; decide
  · unfold cmdOf; rw [hu]; decide
  · have := cmdOf_kv l "file".toList v hu (by decide)
    unfold cmdOf; rw [this]; rfl
  · have := cmdOf_kv l "time".toList v hu (by decide)
    unfold cmdOf; rw [this]; rfl
  · have hcase : i = 0 ∨ i = 1 ∨ i = 2 ∨ i = 3 ∨ i = 4 := by omega
    rcases hcase with rfl | rfl | rfl | rfl | rfl
    · have := cmdOf_kv l "A".toList v hu (by decide)
      unfold cmdOf; rw [this]; rfl
    · have := cmdOf_kv l "B".toList v hu (by decide)
      unfold cmdOf; rw [this]; rfl
    · have := cmdOf_kv l "C".toList v hu (by decide)
      unfold cmdOf; rw [this]; rfl
    · have := cmdOf_kv l "D".toList v hu (by decide)
      unfold cmdOf; rw [this]; rfl
    · have := cmdOf_kv l "E".toList v hu (by decide)
      unfold cmdOf; rw [this]; rfl

example : Means "file=a b.pqf".toList (.file "a b.pqf".toList) ∧
    cmdOf "file=a b.pqf \t# the base".toList = some (.file "a b.pqf".toList) ∧
    Means "D=volume".toList (.var 3 "volume".toList) := by
  refine ⟨.inr (.inr (.inl ⟨_, rfl, rfl⟩)), by decide +kernel,
    .inr (.inr (.inr (.inr ⟨3, _, by omega, rfl, rfl⟩)))⟩

/-- `time=` and variable lines reach the layer with the value written, and change
    nothing else. -/
theorem C99_values (n : Nat) (dir l v : Text) (c : Ctl) :
    (cmdOf l = some (.time v) → v ≠ "from_sound".toList →
      perform n dir [l] c = { c with log := c.log ++ [(c.layer, .time v)] }) ∧
    (cmdOf l = some (.time "from_sound".toList) →
      perform n dir [l] c = { c with log := c.log ++ [(c.layer, .timeSound)] }) ∧
    (∀ i, cmdOf l = some (.var i "battery".toList) →
      perform n dir [l] c = { c with log := c.log ++ [(c.layer, .var i .battery)] }) ∧
    (∀ i, cmdOf l = some (.var i "volume".toList) →
      perform n dir [l] c = { c with log := c.log ++ [(c.layer, .var i .volume)] }) := by
  refine ⟨fun h hv => ?_, fun h => ?_, fun i h => ?_, fun i h => ?_⟩
  · rw [perform_cons n dir l [] _ c h (by simp)]
    simp only [exec]; rw [if_neg hv]; rfl
  · rw [perform_cons n dir l [] _ c h (by simp)]
    simp only [exec]; rw [if_pos trivial]; rfl
  · rw [perform_cons n dir l [] _ c h (by simp)]; rfl
  · rw [perform_cons n dir l [] _ c h (by simp)]; rfl

/-! ## The next script -/

/-- In the middle of a script, its file open, the rest of it harmless and with few
    enough layers. -/
def Busy (n : Nat) (s : St) : Prop :=
  s.pend = none ∧ s.pc ≠ .stopped ∧
  ∃ a c, consume n s.dir s.acc (s.buf ++ s.rest) s.ctl0 = some ([], some a, c)

/-- Waiting for the running script, then performing the next one. -/
def Then (n : Nat) (dir t : Text) (s : St) : Prop :=
  s.dir = dir ∧ ((Busy n s ∧ s.delayed = some t) ∨
    ∃ c1, s.ctl.log <+: (perform n dir (lines [] t) c1).log ∧
      On n (perform n dir (lines [] t) c1) s)

theorem then_fill (n k : Nat) (dir t : Text) (s : St) (h : Then n dir t s) :
    Then n dir t (fill k s) := by
  have hf : (fill k s).ctl = s.ctl ∧ (fill k s).dir = s.dir ∧ (fill k s).delayed = s.delayed ∧
      (fill k s).pc = s.pc := by
    unfold fill; (repeat' split) <;> exact ⟨rfl, rfl, rfl, rfl⟩
  obtain ⟨h0, ⟨⟨h1, h2, a, c, h3⟩, h4⟩ | ⟨c1, h1, h2⟩⟩ := h
  · refine ⟨by rw [hf.2.1]; exact h0, .inl ⟨⟨?_, by rw [hf.2.2.2]; exact h2, a, c, ?_⟩,
      by rw [hf.2.2.1]; exact h4⟩⟩
    · unfold fill; split
      · exact h1
      · simp [h1]
    · have e1 : (fill k s).acc = s.acc := by unfold St.acc; rw [hf.2.2.2]
      have e2 : (fill k s).ctl0 = s.ctl0 := by unfold St.ctl0; rw [hf.2.2.2, hf.1]
      have e3 : (fill k s).buf ++ (fill k s).rest = s.buf ++ s.rest := by
        unfold fill; split
        · rfl
        · simp [h1]
      rw [e1, e2, e3, hf.2.1]; exact h3
  · exact ⟨by rw [hf.2.1]; exact h0,
      .inr ⟨c1, by rw [hf.1]; exact h1, on_fill n k _ s h2⟩⟩

theorem then_advance (n : Nat) (dir t acc : Text) (s : St) (ht : Good t) (h0 : s.dir = dir)
    (h1 : s.pend = none) (h4 : s.delayed = some t) (a : Text) (c : Ctl)
    (h3 : consume n s.dir acc (s.buf ++ s.rest) s.ctl = some ([], some a, c)) :
    ∃ u, advance n acc s = some u ∧ Then n dir t u := by
  rw [consume_append] at h3
  unfold advance
  rcases hc : consume n s.dir acc s.buf s.ctl with _ | ⟨b, _ | a', c'⟩
  · simp [hc] at h3
  · simp [hc] at h3
  · simp only [hc] at h3
    have hb := consume_rest _ _ _ _ _ _ _ _ hc
    subst hb
    simp only []
    by_cases hr : s.rest = []
    · rw [if_pos ⟨h1, hr⟩]
      refine ⟨_, rfl, ?_⟩
      have hk : checkOpen { s with buf := [], pc := .stopped, ctl := c' } =
          { s with buf := [], pc := .start, ctl := c', pend := some t, delayed := none } := by
        simp [checkOpen, h4]
      rw [hk]
      refine ⟨h0, .inr ⟨c'.start, perform_log n dir (lines [] t) c'.start, rfl, fun _ => rfl,
        .inr ⟨by simp, ?_⟩⟩⟩
      simp only [St.acc, St.remaining, St.ctl0, h0]
      exact consume_lines n dir t [] _ (by simp) ht.1 ht.2
    · rw [if_neg (by simp [hr])]
      refine ⟨_, rfl, h0, .inl ⟨⟨h1, by simp, a, c, ?_⟩, h4⟩⟩
      simp only [St.acc, St.ctl0, List.nil_append]
      exact h3

theorem then_loop (n : Nat) (dir t : Text) (s : St) (ht : Good t) (h : Then n dir t s) :
    ∃ u, loop n s = some u ∧ Then n dir t u := by
  obtain ⟨h0, ⟨⟨h1, h2, a, c, h3⟩, h4⟩ | ⟨c1, h1, h2⟩⟩ := h
  · unfold loop
    rcases hpc : s.pc with _ | _ | x
    · exact absurd hpc h2
    · simp only [St.acc, St.ctl0, hpc] at h3
      exact then_advance n dir t [] { s with ctl := s.ctl.start } ht h0 h1 h4 a c h3
    · simp only [St.acc, St.ctl0, hpc] at h3
      exact then_advance n dir t x s ht h0 h1 h4 a c h3
  · obtain ⟨u, g1, g2, _, g4, g5⟩ := on_loop n _ s h2
    exact ⟨u, g1, by rw [g5]; exact h0, .inr ⟨c1, g4, g2⟩⟩

/-- A script asked for by file name while another one is being carried out waits
    for it: whatever the schedule, once the reader has stopped, the new script has
    been carried out completely, from some state the old one left. -/
theorem C99_next (n : Nat) (dir t : Text) (s : St) (ht : Good t)
    (hb : ∃ p, p = { s with dir := dir } ∧ Busy n p) (es : List Ev) :
    ∃ u, run n es (playName dir t s) = some u ∧
      (u.pc = .stopped → ∃ c1, u.ctl = perform n dir (lines [] t) c1) := by
  obtain ⟨p, rfl, hb⟩ := hb
  have h : Then n dir t (playName dir t s) := by
    have hk : playName dir t s = { s with pend := none, delayed := some t, dir := dir } := by
      obtain ⟨_, h2, _⟩ := hb
      have h2 : s.pc ≠ .stopped := h2
      unfold playName checkOpen
      rcases hpc : s.pc with _ | _ | a
      · exact absurd hpc h2
      all_goals simp
    rw [hk]
    obtain ⟨h1, h2, a, c, h3⟩ := hb
    exact ⟨rfl, .inl ⟨⟨rfl, h2, a, c, h3⟩, rfl⟩⟩
  have key : ∀ (es : List Ev) (s : St), Then n dir t s →
      ∃ u, run n es s = some u ∧ Then n dir t u := by
    intro es
    induction es with
    | nil => intro s h; exact ⟨s, rfl, h⟩
    | cons e es ih =>
      intro s h
      cases e with
      | loop =>
        obtain ⟨v, g1, g2⟩ := then_loop n dir t s ht h
        obtain ⟨u, e1, e2⟩ := ih v g2
        exact ⟨u, by simp only [run, step, g1]; exact e1, e2⟩
      | fill k => exact ih _ (then_fill n k dir t s h)
  obtain ⟨u, g1, g2⟩ := key es _ h
  refine ⟨u, g1, fun hu => ?_⟩
  obtain ⟨_, ⟨⟨_, h, _⟩, _⟩ | ⟨c1, _, _, _, ⟨_, h⟩ | ⟨h, _⟩⟩⟩ := g2
  · exact absurd hu h
  · exact ⟨c1, h⟩
  · exact absurd hu h

/-! ## Cases -/

/-- A fresh reader. -/
def fresh : St :=
  { buf := [], rest := [], pend := none, delayed := none, dir := [], pc := .stopped,
    ctl := { layer := 0, may := false, sticky := false, names := fun _ => [], log := [] } }

/-- The header's example, with comments, read two bytes at a time. -/
example :
    let t := "file=sw.pqf  # base\r\nlayer\nfile=batt128x80.pqf\nA=battery\ntime=from_sound\n".toList
    Idle fresh ∧ (∀ l ∈ lines [] t, l.length < 165 ∧ cmdOf l ≠ none) ∧
    (tailLine [] t).length < 165 ∧
    ((run 2 (rounds (List.replicate 100 1)) (playName "d".toList t fresh)).map fun u =>
      (u.pc, u.ctl.log)) =
      some (.stopped, [(0, .play "d/sw.pqf".toList), (1, .play "d/batt128x80.pqf".toList),
        (1, .var 0 .battery), (1, .timeSound)]) := by
  refine ⟨⟨rfl, rfl, rfl⟩, ?_, ?_, ?_⟩ <;> decide +kernel

/-- `C99_restart`'s lines. -/
example : cmdOf "file=a.pqf".toList = some (.file "a.pqf".toList) ∧
    cmdOf "restart # now".toList = some .restart ∧ Quiet ["time=100".toList, [], "B=x".toList] := by
  refine ⟨by decide +kernel, by decide +kernel, ?_⟩
  intro l hl
  simp only [List.mem_cons, List.not_mem_nil, or_false] at hl
  rcases hl with rfl | rfl | rfl
  · exact ⟨.time "100".toList, by decide +kernel, by simp, by simp, by simp⟩
  · exact ⟨.nop, by decide +kernel, by simp, by simp, by simp⟩
  · exact ⟨.var 1 "x".toList, by decide +kernel, by simp, by simp, by simp⟩

/-- `C99_next`'s state: a script of two lines, half read. -/
example : let s := { fresh with buf := "e=a\n".toList, rest := "layer\n".toList, pc := .line "fil".toList }
    Busy 2 { s with dir := "d".toList } := by
  refine ⟨rfl, by simp, ?_⟩
  simp only [St.acc, St.ctl0]
  exact ⟨_, _, rfl⟩

/-- `restart` concerns the file of its own layer: straight after a `layer` line
    there is nothing to start again. -/
theorem C99_restart_own (n : Nat) (dir ll lr : Text) (mid : List Text) (c : Ctl)
    (hll : cmdOf ll = some .layer) (hr : cmdOf lr = some .restart) (hq : Quiet mid) :
    ∃ xs, (perform n dir (ll :: (mid ++ [lr])) c).log = c.log ++ xs ∧
      ∀ k, (k, Call.restart) ∉ xs := by
  simp only [perform, hll]
  have he : (exec n dir .layer c).1 = { c with layer := c.layer + 1, may := false } := rfl
  rw [he]
  by_cases hb : (exec n dir .layer c).2 = true
  · rw [if_pos hb, perform_quiet_append _ _ _ _ _ hq,
      perform_cons n dir lr [] _ _ hr (by simp)]
    simp only [perform]
    have hqq : ∀ (ls : List Text) (c : Ctl), Quiet ls →
        ∃ xs, (perform n dir ls c).log = c.log ++ xs ∧ ∀ k, (k, Call.restart) ∉ xs := by
      intro ls
      induction ls with
      | nil => intro c _; exact ⟨[], by simp [perform]⟩
      | cons l ls ih =>
        intro c h
        obtain ⟨cmd, h1, h2, h3, h4⟩ := h l (by simp)
        rw [perform_cons n dir l ls cmd c h1 h2]
        obtain ⟨ys, e1, e2⟩ := ih (exec n dir cmd c).1 (fun l hl => h l (by simp [hl]))
        have hx : ∃ xs, (exec n dir cmd c).1.log = c.log ++ xs ∧
            ∀ k, (k, Call.restart) ∉ xs := by
          cases cmd with
          | nop => exact ⟨[], by simp [exec]⟩
          | layer => exact absurd rfl h2
          | restart => exact absurd rfl h3
          | file v => exact absurd rfl (h4 v)
          | time v =>
            simp only [exec, Ctl.call]
            split
            · exact ⟨[(c.layer, .timeSound)], by simp⟩
            · exact ⟨[(c.layer, .time v)], by simp⟩
          | var i v => exact ⟨[(c.layer, .var i (source v))], by simp [exec, Ctl.call]⟩
        obtain ⟨xs, b1, b2⟩ := hx
        refine ⟨xs ++ ys, by rw [e1, b1]; simp, fun k hk => ?_⟩
        rcases List.mem_append.mp hk with hk | hk
        · exact b2 k hk
        · exact e2 k hk
    obtain ⟨xs, b1, b2⟩ := hqq mid { c with layer := c.layer + 1, may := false } hq
    obtain ⟨q1, _⟩ := quiet_perform n dir mid { c with layer := c.layer + 1, may := false } hq
    refine ⟨xs, ?_, b2⟩
    have q1 : (perform n dir mid { c with layer := c.layer + 1, may := false }).may = false := q1
    simp only [exec, q1]
    exact b1
  · rw [if_neg hb]
    exact ⟨[], by simp⟩

theorem exec_bound (n : Nat) (dir : Text) (cmd : Cmd) (c : Ctl) (h0 : c.layer < n)
    (h : ∀ e ∈ c.log, e.1 < n) : ∀ e ∈ (exec n dir cmd c).1.log, e.1 < n := by
  have key : ∀ x : Call, ∀ e ∈ c.log ++ [(c.layer, x)], e.1 < n := by
    intro x e he
    rcases List.mem_append.mp he with he | he
    · exact h e he
    · rw [List.mem_singleton.mp he]; exact h0
  cases cmd <;> simp only [exec, Ctl.call] <;> (repeat' split) <;> first | exact h | exact key _

/-- Only layers the screen has are ever used, and a `layer` line for one it does
    not have ends the script: the lines after it have no effect. -/
theorem C99_too_many (n : Nat) (dir : Text) :
    (∀ (ls : List Text) (c : Ctl), c.layer < n → (∀ e ∈ c.log, e.1 < n) →
      ∀ e ∈ (perform n dir ls c).log, e.1 < n) ∧
    (∀ (pre post : List Text) (ll : Text) (c : Ctl), (∀ l ∈ pre, cmdOf l ≠ none) →
      cmdOf ll = some .layer → layerLines pre + 1 = n →
      (perform n dir (pre ++ ll :: post) c.start).log = (perform n dir pre c.start).log ∧
      (perform n dir (pre ++ ll :: post) c.start).names = (perform n dir pre c.start).names) := by
  constructor
  · intro ls
    induction ls with
    | nil => intro c _ h; exact h
    | cons l ls ih =>
      intro c h0 h
      simp only [perform]
      rcases hc : cmdOf l with _ | cmd
      · exact h
      · simp only []
        by_cases hb : (exec n dir cmd c).2 = true
        · rw [if_pos hb]
          refine ih _ ?_ (exec_bound n dir cmd c h0 h)
          rw [(exec_layer n dir cmd c).1]
          by_cases hl : cmd = .layer
          · subst hl
            simp only [exec, decide_eq_true_eq] at hb
            simp only [if_true]; exact hb
          · simp only [hl, if_false]; exact h0
        · rw [if_neg hb]; exact exec_bound n dir cmd c h0 h
  · intro pre post ll c hg hl hk
    have hs : c.start.layer = 0 := rfl
    obtain ⟨h1, h2⟩ := perform_append n dir (ll :: post) pre c.start hg (by omega)
    rw [h1]
    generalize perform n dir pre c.start = d at *
    have hb : ¬ (exec n dir .layer d).2 = true := by
      simp only [exec, decide_eq_true_eq]; omega
    simp only [perform, hl]
    rw [if_neg hb]
    exact ⟨rfl, rfl⟩

example : layerLines ["file=a".toList, "layer".toList, "file=b".toList] + 1 = 2 ∧
    (perform 2 [] ["file=a".toList, "layer".toList, "file=b".toList, "layer".toList,
      "file=c".toList] fresh.ctl.start).log =
      [(0, .play "/a".toList), (1, .play "/b".toList)] := by decide +kernel

/-- The calls of a whole script on a fresh display, then of a second one. -/
def calls (n : Nat) (t : Text) (c : Ctl) : Ctl := perform n "d".toList (lines [] t) c.start

/-- The last line of a script without an end of line is not carried out. -/
theorem C99_last_line_counterexample :
    ((run 2 (rounds (List.replicate 40 9)) (playName "d".toList "file=a.pqf".toList fresh)).map
      fun u => (u.pc, u.ctl.log)) = some (.stopped, []) := by decide +kernel

/-- `restart` is never forgotten: the first script plays `a` from its start; the
    second one, without `restart`, names the same file, which should go on playing
    but is started again. -/
theorem C99_sticky_counterexample :
    (calls 1 "file=a\n".toList (calls 1 "file=a\nrestart\n".toList fresh.ctl)).log =
      [(0, .play "d/a".toList), (0, .restart)] := by decide +kernel

/-- A script started by an effect while another one is being read takes over the
    running reader: its first file goes to the layer the old script had reached,
    and the whole script is then carried out once more. -/
theorem C99_takeover_counterexample :
    let s1 := run 2 [.fill 1, .fill 7, .loop] (playEffect "d".toList "layer\n\nfile=b\n".toList fresh)
    let s2 := s1.bind fun s => run 2 (rounds (List.replicate 20 100)) (playEffect "d".toList "file=c\n".toList s)
    s2.map (fun u => (u.pc, u.ctl.log)) =
      some (.stopped, [(1, .play "d/c".toList), (0, .play "d/c".toList)]) := by decide +kernel

/-- A line without the value it needs, or longer than the buffer, is undefined
    behaviour. -/
theorem C99_undefined_counterexample :
    run 1 (rounds [20, 20, 20]) (playName [] "time\n".toList fresh) = none ∧
    run 1 (rounds [200, 200, 200]) (playName [] (List.replicate 165 'x' ++ ['\n']) fresh) = none := by
  constructor
  · have : (run 1 (rounds [20, 20, 20]) (playName [] "time\n".toList fresh)).isNone = true := by
      decide +kernel
    exact Option.isNone_iff_eq_none.mp this
  · have : (run 1 (rounds [200, 200, 200])
        (playName [] (List.replicate 165 'x' ++ ['\n']) fresh)).isNone = true := by
      decide +kernel
    exact Option.isNone_iff_eq_none.mp this

end Verif.Display.Script
