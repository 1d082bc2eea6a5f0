import Verif.Input.Switch
/-!
# C34: the events of a button
-/
set_option linter.unusedSimpArgs false
set_option linter.unusedVariables false
namespace Verif.Input

/-! ## Specification -/

/-- One kind of event is offered to the prop first with the press count and, if that is not handled,
again without it. -/
def report (handled : Nat → Bool) (count kind : Nat) : List Nat :=
  (kind + 8 * count) :: if handled (kind + 8 * count) then [] else [kind]

/-- a press from beginning to end: the first call that reads pressed, the further calls that read
pressed, and the calls that read released up to the next press -/
structure Press where
  first : Poll
  body : List Poll
  tail : List Poll

/-- The calls of a press; there are at least five calls that read released. -/
def Press.ok (c : Press) : Prop :=
  c.first.down = true ∧ (∀ p ∈ c.body, p.down = true) ∧ (∀ p ∈ c.tail, p.down = false) ∧ 5 ≤ c.tail.length

/-- the calls of a press in order -/
def Press.polls (c : Press) : List Poll := c.first :: (c.body ++ c.tail)

/-- somebody took the press over before the release was noticed at call `i` after it -/
def Press.taken (c : Press) (i : Nat) : Bool := (c.body ++ c.tail.take (i + 1)).any (·.eaten)

/-- the events while the button is held: the `n`-th held event at the first call after its limit, one
per call, until somebody takes the press over -/
def heldSpec (count start : Nat) : Nat → List Poll → List Nat
  | _, [] => []
  | n, p :: ps =>
    if p.eaten then []
    else if n < 3 ∧ since p.now start > [300, 800, 2000].getD n 0 then report p.handled count (3 + n) ++ heldSpec count start (n + 1) ps
    else heldSpec count start n ps

/-- what a button remembers between presses: when the last press began (moved into the past if it was
taken over), how many presses there were in a row, and whether a saved click is pending -/
structure Mem where
  push : Nat
  count : Nat
  saved : Bool

/-- the number of a press: presses that begin less than 500 ms after each other are counted up to 4 -/
def pressNumber (m : Mem) (c : Press) : Nat :=
  if since c.first.now m.push < 500 then min (m.count + 1) 4 else 1

/-- the click, when the release is noticed at call `r`, number `i` after it -/
def clickSpec (count : Nat) (c : Press) (i : Nat) (r : Poll) : List Nat :=
  if c.taken i then []
  else if since r.now c.first.now < 500 then report r.handled count 6
  else if since r.now c.first.now < 2500 then report r.handled count 8
  else []

/-- a short click that nobody handled is kept -/
def keeps (count : Nat) (c : Press) (i : Nat) (r : Poll) : Bool :=
  !(c.taken i) && decide (since r.now c.first.now < 500) && !r.handled (6 + 8 * count) && !r.handled 6

/-- while the button is up, a pending saved click is reported at the first call more than 500 ms after
the press began -/
def savedSpec (push count : Nat) : Bool → List Poll → List Nat × Bool
  | s, [] => ([], s)
  | s, p :: ps =>
    if s && decide (since p.now push > 500) then (report p.handled count 7, false)
    else savedSpec push count s ps

/-- the memory after a press that was noticed as released at call `r`, number `i` after it -/
def Press.memAfter (m : Mem) (c : Press) (i : Nat) (r : Poll) : Mem :=
  let n := pressNumber m c
  let push := if c.taken i then (r.now + 4294967296 - 10000) % 4294967296 else c.first.now
  ⟨push, n, (savedSpec push n (keeps n c i r) (c.tail.drop (i + 1))).2⟩

/-- all events of one press, noticed as released at call `r`, number `i` after it -/
def Press.events (m : Mem) (c : Press) (i : Nat) (r : Poll) : List Nat :=
  let n := pressNumber m c
  report c.first.handled n 1 ++ heldSpec n c.first.now 0 c.body ++ report r.handled n 2 ++ clickSpec n c i r ++
    (savedSpec (c.memAfter m i r).push n (keeps n c i r) (c.tail.drop (i + 1))).1

/-- the specification of a sequence of presses: every release is noticed at one of the first five calls
that read released -/
inductive Story : Mem → List Press → List Nat → Mem → Prop
  | nil (m : Mem) : Story m [] [] m
  | press {m : Mem} {c : Press} {cs : List Press} {out : List Nat} {m' : Mem} (i : Nat) (r : Poll) (hi : i < 5)
      (hr : c.tail[i]? = some r) (h : Story (c.memAfter m i r) cs out m') :
      Story m (c :: cs) (c.events m i r ++ out) m'

/-! ## Proof -/

/-- the memory of a button object -/
def Btn.mem (b : Btn) : Mem := ⟨b.push, b.cnt, b.saved ≠ 0⟩

/-- a button object that waits for a press -/
def Btn.idle (b : Btn) : Prop := b.pc = .idle ∧ (b.saved = 0 ∨ b.saved = 7) ∧ b.cnt ≤ 4

theorem send_report (b : Btn) (p : Poll) (k : Nat) : (send b p k).1 = report p.handled b.cnt k := by
  unfold send report; by_cases h : p.handled (k + 8 * b.cnt) <;> simp [h]

theorem send_handled (b : Btn) (p : Poll) (k : Nat) : (send b p k).2 = (p.handled (k + 8 * b.cnt) || p.handled k) := by
  unfold send; by_cases h : p.handled (k + 8 * b.cnt) <;> simp [h]

theorem brun_append (b : Btn) (ps qs : List Poll) : b.run (ps ++ qs) = (((b.run ps).1.run qs).1, (b.run ps).2 ++ ((b.run ps).1.run qs).2) := by
  induction ps generalizing b with
  | nil => simp [Btn.run]
  | cons p ps ih => simp [Btn.run, ih]

/-- while the button is up -/
theorem run_idle : ∀ (ps : List Poll) (b : Btn), b.idle → (∀ p ∈ ps, p.down = false) →
    b.run ps = ({ b with saved := if (savedSpec b.push b.cnt (b.saved ≠ 0) ps).2 then 7 else 0 }, (savedSpec b.push b.cnt (b.saved ≠ 0) ps).1)
  | [], b, hb, _ => by
    obtain ⟨_, h | h, _⟩ := hb <;> cases b <;> simp_all [Btn.run, savedSpec]
  | p :: ps, b, hb, hd => by
    have hp := hd p (by simp)
    have hps : ∀ p ∈ ps, p.down = false := fun q hq => hd q (by simp [hq])
    have ho := send_report b p b.saved
    unfold Btn.run
    have nosave : ∀ (qs : List Poll) (x y : Nat), savedSpec x y false qs = ([], false) := by
      intro qs; induction qs with
      | nil => intros; rfl
      | cons q qs ih => intro x y; simp [savedSpec, ih]
    obtain ⟨h1, h2, h4⟩ := hb
    rcases h2 with h2 | h2
    · have e : b.step p = (b, []) := by simp [Btn.step, h1, hp, h2]
      rw [e]
      simp only [run_idle ps b ⟨h1, Or.inl h2, h4⟩ hps, h2, nosave]
      simp [nosave]
    · by_cases ht : since p.now b.push > 500
      · have e : b.step p = ({ b with saved := 0 }, report p.handled b.cnt 7) := by
          rw [h2] at ho
          simp [Btn.step, h1, hp, h2, ht, ho]
        rw [e]
        simp only [run_idle ps { b with saved := 0 } ⟨h1, Or.inl rfl, h4⟩ hps, nosave, savedSpec]
        simp [h2, ht, nosave]
      · have e : b.step p = (b, []) := by simp [Btn.step, h1, hp, h2, ht]
        rw [e]
        simp only [run_idle ps b ⟨h1, Or.inr h2, h4⟩ hps, savedSpec]
        simp [h2, ht]

/-- where the object is while the button is held: some level of the loop, or behind it if the press was
taken over -/
def Btn.held (b : Btn) (push cnt : Nat) (mod : Bool) : Prop :=
  b.push = push ∧ b.cnt = cnt ∧ b.saved = 0 ∧ b.mod = mod ∧ (b.pc = .wait ∧ mod = false ∨ ∃ n, n ≤ 3 ∧ b.pc = .level n)

/-- after the press was taken over nothing is reported while the button is held -/
theorem run_taken (push cnt : Nat) : ∀ (ps : List Poll) (b : Btn), b.held push cnt false → (∀ p ∈ ps, p.down = true) →
    (b.run ps).2 = [] ∧ (b.run ps).1.held push cnt false
  | [], b, hb, _ => ⟨rfl, hb⟩
  | p :: ps, b, hb, hd => by
    have hp := hd p (by simp)
    have e : (b.step p).2 = [] ∧ (b.step p).1.held push cnt false := by
      obtain ⟨h1, h2, h3, h4, ⟨h5, h6⟩ | ⟨n, hn, h5⟩⟩ := hb
      · simp [Btn.step, h5, hp, Btn.held, h1, h2, h3, h4]
      · cases n with
        | zero => simp [Btn.step, h5, hp, Btn.held, h1, h2, h3, h4]
        | succ n =>
          simp [Btn.step, h5, hp, Btn.held, h1, h2, h3, h4]
          omega
    have ih := run_taken push cnt ps _ e.2 (fun q hq => hd q (by simp [hq]))
    refine ⟨?_, ih.2⟩
    show (b.step p).2 ++ ((b.step p).1.run ps).2 = _
    rw [e.1, ih.1]; rfl

theorem limit_eq (n : Nat) (h : n < 3) : heldLimit n = [300, 800, 2000].getD n 0 := by
  match n, h with
  | 0, _ => rfl
  | 1, _ => rfl
  | 2, _ => rfl

/-- while the button is held -/
theorem run_held (push cnt : Nat) : ∀ (ps : List Poll) (b : Btn) (n : Nat), n ≤ 3 → b.pc = .level n → b.push = push → b.cnt = cnt →
    b.saved = 0 → b.mod = true → (∀ p ∈ ps, p.down = true) →
    (b.run ps).2 = heldSpec cnt push n ps ∧ (b.run ps).1.held push cnt (!(ps.any (·.eaten)))
  | [], b, n, hn, h1, h2, h3, h4, h5, _ => by
    exact ⟨rfl, h2, h3, h4, h5, Or.inr ⟨n, hn, h1⟩⟩
  | p :: ps, b, n, hn, h1, h2, h3, h4, h5, hd => by
    have hp := hd p (by simp)
    have hps : ∀ p ∈ ps, p.down = true := fun q hq => hd q (by simp [hq])
    unfold Btn.run heldSpec
    by_cases he : p.eaten = true
    · have e : (b.step p).2 = [] ∧ (b.step p).1.held push cnt false := by
        cases n with
        | zero => simp [Btn.step, h1, he, Btn.held, h2, h3, h4]
        | succ n =>
          simp [Btn.step, h1, he, Btn.held, h2, h3, h4]
          omega
      have ih := run_taken push cnt ps _ e.2 hps
      refine ⟨?_, ?_⟩
      · show (b.step p).2 ++ ((b.step p).1.run ps).2 = _
        rw [e.1, ih.1]; simp [he]
      · simpa [he] using ih.2
    · have he' : p.eaten = false := by simpa using he
      by_cases ht : n < 3 ∧ since p.now push > [300, 800, 2000].getD n 0
      · have ht' : n < 3 ∧ since p.now push > heldLimit n := by rw [limit_eq n ht.1]; exact ht
        have e : b.step p = ({ b with mod := true, pc := .level (n + 1) }, report p.handled cnt (3 + n)) := by
          obtain ⟨pc, bpush, bcnt, saved, mod⟩ := b
          simp only at h1 h2 h3 h5; subst h1; subst h2; subst h3; subst h5
          simp [Btn.step, hp, he', ht'.1, ht'.2, send_report, evHeld]
        rw [e]
        have ih := run_held push cnt ps { b with mod := true, pc := .level (n + 1) } (n + 1) (by omega) rfl h2 h3 h4 rfl hps
        refine ⟨?_, ?_⟩
        · simp only [ih.1]
          rw [if_neg he, if_pos ht]
        · simpa [he'] using ih.2
      · have ht' : ¬ (n < 3 ∧ since p.now push > heldLimit n) := by
          intro h; apply ht; rw [← limit_eq n h.1]; exact h
        have e : b.step p = (b, []) := by
          obtain ⟨pc, bpush, bcnt, saved, mod⟩ := b
          simp only at h1 h2 h3 h5; subst h1; subst h2; subst h3; subst h5
          simp only [Btn.step, hp, he', Bool.not_false, Bool.and_true, if_true]
          rw [if_neg ht']
        rw [e]
        have ih := run_held push cnt ps b n hn h1 h2 h3 h4 h5 hps
        refine ⟨?_, ?_⟩
        · simp only [ih.1]
          rw [if_neg he, if_neg ht]; rfl
        · simpa [he'] using ih.2

/-- leaving the nested loops takes one call per level -/
theorem run_leave : ∀ (n : Nat) (push cnt : Nat) (mod : Bool) (ps : List Poll),
    (∀ p ∈ ps, p.down = false) → ps.length = n + 1 →
    Btn.run ⟨.level n, push, cnt, 0, mod⟩ ps = (⟨.wait, push, cnt, 0, mod && !(ps.any (·.eaten))⟩, [])
  | n, _, _, _, [], _, hl => by simp at hl
  | 0, push, cnt, mod, p :: ps, hd, hl => by
    have : ps = [] := by simpa using hl
    subst this
    have hp := hd p (by simp)
    simp [Btn.run, Btn.step, hp]
  | n + 1, push, cnt, mod, p :: ps, hd, hl => by
    have hp := hd p (by simp)
    have e : Btn.step ⟨.level (n + 1), push, cnt, 0, mod⟩ p = (⟨.level n, push, cnt, 0, mod && !p.eaten⟩, []) := by simp [Btn.step, hp]
    unfold Btn.run
    rw [e]
    simp only [run_leave n push cnt (mod && !p.eaten) ps (fun q hq => hd q (by simp [hq])) (by simpa using hl)]
    simp [Bool.and_assoc]

/-- the push time after a press -/
def Press.pushAfter (c : Press) (i : Nat) (r : Poll) : Nat := if c.taken i then (r.now + 4294967296 - 10000) % 4294967296 else c.first.now

/-- the call that notices the release -/
theorem step_release (c : Press) (i cnt : Nat) (mod : Bool) (r : Poll) (hr : r.down = false)
    (hm : (mod && !r.eaten) = !(c.taken i)) :
    Btn.step ⟨.wait, c.first.now, cnt, 0, mod⟩ r = (⟨.idle, c.pushAfter i r, cnt,
        if keeps cnt c i r then 7 else 0, false⟩, report r.handled cnt 2 ++ clickSpec cnt c i r) := by
  unfold Press.pushAfter
  simp only [Btn.step, hr, hm]
  simp only [send_report, send_handled]
  cases ht : c.taken i
  · simp only [clickSpec, keeps, ht]
    by_cases h5 : since r.now c.first.now < 500
    · simp [h5, evReleased, evClickShort]
      by_cases ha : r.handled (6 + 8 * cnt) = true <;> by_cases hb : r.handled 6 = true <;> simp [ha, hb]
    · by_cases h25 : since r.now c.first.now < 2500 <;> simp [h5, h25, evReleased, evClickLong]
  · simp [clickSpec, keeps, ht, evReleased]

/-- the calls that read released -/
theorem run_tail (c : Press) (cnt : Nat) (h4 : cnt ≤ 4) (pc : Pc) (hpc : pc = .wait ∧ (!(c.body.any (·.eaten))) = false ∨ ∃ n, n ≤ 3 ∧ pc = .level n)
    (htail : ∀ p ∈ c.tail, p.down = false) (hlen : 5 ≤ c.tail.length) :
    ∃ i r, i < 5 ∧ c.tail[i]? = some r ∧
      Btn.run ⟨pc, c.first.now, cnt, 0, !(c.body.any (·.eaten))⟩ c.tail =
        (⟨.idle, c.pushAfter i r, cnt, if (savedSpec (c.pushAfter i r) cnt (keeps cnt c i r) (c.tail.drop (i + 1))).2 then 7 else 0, false⟩,
          report r.handled cnt 2 ++ clickSpec cnt c i r ++ (savedSpec (c.pushAfter i r) cnt (keeps cnt c i r) (c.tail.drop (i + 1))).1) := by
  obtain ⟨i, hi, hlv⟩ : ∃ i, i < 5 ∧ Btn.run ⟨pc, c.first.now, cnt, 0, !(c.body.any (·.eaten))⟩ (c.tail.take i) =
      (⟨.wait, c.first.now, cnt, 0, !(c.body.any (·.eaten)) && !((c.tail.take i).any (·.eaten))⟩, []) := by
    rcases hpc with ⟨h, h'⟩ | ⟨n, hn, h⟩
    · exact ⟨0, by omega, by rw [h, h']; rfl⟩
    · refine ⟨n + 1, by omega, ?_⟩
      rw [h]
      refine run_leave n _ _ _ _ (fun q hq => htail q (List.mem_of_mem_take hq)) ?_
      rw [List.length_take]; omega
  have hlt : i < c.tail.length := by omega
  refine ⟨i, c.tail[i], hi, List.getElem?_eq_getElem hlt, ?_⟩
  have hr := htail c.tail[i] (List.getElem_mem hlt)
  have htk : c.tail.take (i + 1) = c.tail.take i ++ [c.tail[i]] := by simp
  generalize hrr : c.tail[i] = r at hr htk
  have hsplit : c.tail = c.tail.take i ++ r :: c.tail.drop (i + 1) := by
    rw [← hrr]; simp
  have hm : ((!(c.body.any (·.eaten)) && !((c.tail.take i).any (·.eaten))) && !r.eaten) = !(c.taken i) := by
    rw [Press.taken, htk]; simp [List.any_append, Bool.and_assoc]
  have hst := step_release c i cnt _ r hr hm
  have hid := run_idle (c.tail.drop (i + 1)) ⟨.idle, c.pushAfter i r, cnt, if keeps cnt c i r then 7 else 0, false⟩
      ⟨rfl, by by_cases h : keeps cnt c i r = true <;> simp [h], h4⟩ (fun q hq => htail q (List.mem_of_mem_drop hq))
  have hk : (decide ((if keeps cnt c i r then 7 else 0) ≠ 0)) = keeps cnt c i r := by
    by_cases h : keeps cnt c i r = true <;> simp [h]
  simp only [hk] at hid
  conv => lhs; arg 2; rw [hsplit]
  rw [brun_append, hlv, Btn.run, hst, hid]
  simp

theorem dec7 (x : Bool) : decide ((if x then 7 else 0) ≠ 0) = x := by cases x <;> rfl

/-- one press, from an object that waits for a press -/
theorem run_press (b : Btn) (c : Press) (hb : b.idle) (hc : c.ok) :
    ∃ i r, i < 5 ∧ c.tail[i]? = some r ∧ (b.run c.polls).2 = c.events b.mem i r ∧
      (b.run c.polls).1.idle ∧ (b.run c.polls).1.mem = c.memAfter b.mem i r := by
  obtain ⟨hf, hbody, htail, hlen⟩ := hc
  obtain ⟨b0, h0, hpc, hpush, hcnt, hsaved, hmod⟩ : ∃ b0, b.step c.first = (b0, report c.first.handled (pressNumber b.mem c) 1) ∧ b0.pc = .level 0 ∧
      b0.push = c.first.now ∧ b0.cnt = pressNumber b.mem c ∧ b0.saved = 0 ∧ b0.mod = true := by
    have e : pressNumber b.mem c = if since c.first.now b.push < 500 then (if b.cnt < 4 then b.cnt + 1 else b.cnt) else 1 := by
      unfold pressNumber
      show (if since c.first.now b.push < 500 then min (b.cnt + 1) 4 else 1) = _
      by_cases h5 : since c.first.now b.push < 500
      · have := hb.2.2
        rw [if_pos h5, if_pos h5]; split <;> omega
      · rw [if_neg h5, if_neg h5]
    rw [e]
    refine ⟨(b.step c.first).1, ?_, ?_⟩
    · simp [Btn.step, hb.1, hf, send_report, evPressed]
    · simp [Btn.step, hb.1, hf]
  have h4 : pressNumber b.mem c ≤ 4 := by
    unfold pressNumber
    split <;> omega
  have hh := run_held c.first.now (pressNumber b.mem c) c.body b0 0 (by omega) hpc hpush hcnt hsaved hmod hbody
  obtain ⟨ho, hp1, hc1, hs1, hm1, hpc1⟩ := hh
  obtain ⟨i, r, hi, hr, ht⟩ := run_tail c (pressNumber b.mem c) h4 (b0.run c.body).1.pc hpc1 htail hlen
  have e0 : (b0.run c.body).1 = ⟨(b0.run c.body).1.pc, c.first.now, pressNumber b.mem c, 0, !(c.body.any (·.eaten))⟩ := by
    rw [← hp1, ← hc1, ← hs1, ← hm1]
  rw [← e0] at ht
  refine ⟨i, r, hi, hr, ?_⟩
  have e1 : b.run c.polls = (((b0.run c.body).1.run c.tail).1, report c.first.handled (pressNumber b.mem c) 1 ++ ((b0.run c.body).2 ++ ((b0.run c.body).1.run c.tail).2)) := by
    rw [Press.polls, Btn.run, h0]
    simp only [brun_append]
  rw [e1, ht, ho]
  refine ⟨?_, ?_, ?_⟩
  · simp [Press.events, Press.memAfter, Press.pushAfter, List.append_assoc]
  · refine ⟨rfl, ?_, h4⟩
    show (if _ then 7 else 0) = 0 ∨ (if _ then 7 else 0) = 7
    split <;> simp
  · simp only [Btn.mem, Press.memAfter, Press.pushAfter]
    congr 1
    exact dec7 _

/-- a new button object; `push` is not initialised -/
def Btn.init (push : Nat) : Btn := ⟨.idle, push, 0, 0, false⟩

/-- for presses whose release lasts at least five calls -/
theorem story (push0 : Nat) (calls0 : List Poll) (h0 : ∀ p ∈ calls0, p.down = false) (cs : List Press) (hcs : ∀ c ∈ cs, c.ok) :
    ∃ m', Story ⟨push0, 0, false⟩ cs ((Btn.init push0).run (calls0 ++ cs.flatMap Press.polls)).2 m' := by
  have main : ∀ (cs : List Press) (b : Btn), b.idle → (∀ c ∈ cs, c.ok) → ∃ m', Story b.mem cs (b.run (cs.flatMap Press.polls)).2 m' := by
    intro cs
    induction cs with
    | nil => intro b _ _; exact ⟨_, Story.nil _⟩
    | cons c cs ih =>
      intro b hb hc
      obtain ⟨i, r, hi, hr, h1, h2, h3⟩ := run_press b c hb (hc c (by simp))
      obtain ⟨m', hm⟩ := ih _ h2 (fun d hd => hc d (by simp [hd]))
      rw [h3] at hm
      refine ⟨m', ?_⟩
      rw [List.flatMap_cons, brun_append, h1]
      exact Story.press i r hi hr hm
  have hi : (Btn.init push0).idle := ⟨rfl, Or.inl rfl, Nat.zero_le _⟩
  have e := run_idle calls0 (Btn.init push0) hi h0
  have nosave : ∀ (qs : List Poll) (x y : Nat), savedSpec x y false qs = ([], false) := by
    intro qs; induction qs with
    | nil => intros; rfl
    | cons q qs ih => intro x y; simp [savedSpec, ih]
  have e2 : (Btn.init push0).run calls0 = (Btn.init push0, []) := by
    rw [e]; simp [Btn.init, nosave]
  rw [brun_append, e2]
  exact main cs (Btn.init push0) hi hcs

/-! ## Together with the debouncer -/

/-- a call of the button's `Loop`: the absolute time in milliseconds, the level of the pin, whether some
other code took the press over since the last call, and what the prop answers to events -/
structure Call where
  time : Nat
  raw : Bool
  eaten : Bool
  handled : Nat → Bool

/-- what the debouncer sees: the millisecond counter and the level -/
def Call.sample (c : Call) : Nat × Bool := (c.time % 4294967296, c.raw)

/-- what the button sees after the debouncer -/
def Deb.polls (timeout : Nat) (d : Deb) : List Call → List Poll
  | [] => []
  | c :: cs =>
    let d' := d.update timeout c.sample.1 c.sample.2
    ⟨c.time % 4294967296, d'.pushed, c.eaten, c.handled⟩ :: d'.polls timeout cs

/-- the events a button reports to the prop for a sequence of calls -/
def buttonEvents (lastOff push : Nat) (cs : List Call) : List Nat :=
  ((Btn.init push).run ((Deb.init lastOff).polls 10 cs)).2

/-- the calls are at most 2 ms apart -/
def Close : List Call → Prop
  | [] => True
  | [_] => True
  | a :: b :: cs => a.time ≤ b.time ∧ b.time ≤ a.time + 2 ∧ Close (b :: cs)

/-- between two calls that read pressed there are none or at least five calls that read released -/
def Gap (ps : List Poll) : Prop := ∀ a x mid y b, ps = a ++ x :: (mid ++ y :: b) → x.down = true → y.down = true → mid ≠ [] →
  (∀ p ∈ mid, p.down = false) → 5 ≤ mid.length

theorem Gap.suffix {a ps : List Poll} (h : Gap (a ++ ps)) : Gap ps := by
  intro a' x mid y b e
  exact h (a ++ a') x mid y b (by rw [e, List.append_assoc])

theorem takeWhile_down (f : Poll → Bool) (l : List Poll) : ∀ p ∈ l.takeWhile f, f p = true := by
  induction l with
  | nil => simp
  | cons a l ih =>
    intro p hp
    rw [List.takeWhile_cons] at hp
    split at hp
    · rcases List.mem_cons.mp hp with rfl | hp
      · assumption
      · exact ih p hp
    · simp at hp

theorem dropWhile_head (f : Poll → Bool) (l : List Poll) (y : Poll) (b : List Poll) (h : l.dropWhile f = y :: b) : f y = false := by
  induction l with
  | nil => simp at h
  | cons a l ih =>
    rw [List.dropWhile_cons] at h
    split at h
    · exact ih h
    · simp at h; obtain ⟨rfl, _⟩ := h; simp_all

/-- a call with everything off -/
def Poll.zero : Poll := ⟨0, false, false, fun _ => false⟩

/-- calls that begin with a press fall into presses, after some more calls that read released -/
theorem split_presses : ∀ (n : Nat) (ps : List Poll), ps.length ≤ n → (∀ p, ps.head? = some p → p.down = true) → Gap ps →
    ∃ (cs : List Press) (rest : List Poll), ps ++ rest = cs.flatMap Press.polls ∧ ∀ c ∈ cs, c.ok
  | _, [], _, _, _ => ⟨[], [], rfl, by simp⟩
  | 0, f :: qs, hl, _, _ => by simp at hl
  | n + 1, f :: qs, hl, hh, hg => by
    have hf : f.down = true := hh f rfl
    have e1 : qs = qs.takeWhile (·.down) ++ qs.dropWhile (·.down) := List.takeWhile_append_dropWhile.symm
    have hb := takeWhile_down (·.down) qs
    generalize qs.takeWhile (·.down) = body at e1 hb
    have hq := dropWhile_head (·.down) qs
    generalize qs.dropWhile (·.down) = qs' at e1 hq
    have e2 : qs' = qs'.takeWhile (fun p => !p.down) ++ qs'.dropWhile (fun p => !p.down) := List.takeWhile_append_dropWhile.symm
    have ht := takeWhile_down (fun p => !p.down) qs'
    have htne : qs' ≠ [] → qs'.takeWhile (fun p => !p.down) ≠ [] := by
      intro hne
      cases h' : qs' with
      | nil => exact absurd h' hne
      | cons y b =>
        have this : y.down = false := hq y b h'
        simp [this]
    generalize qs'.takeWhile (fun p => !p.down) = tail at e2 ht htne
    have hr := dropWhile_head (fun p => !p.down) qs'
    generalize qs'.dropWhile (fun p => !p.down) = rest' at e2 hr
    subst e2; subst e1
    cases rest' with
    | nil =>
      refine ⟨[⟨f, body, tail ++ List.replicate 5 Poll.zero⟩], List.replicate 5 Poll.zero, by simp [Press.polls], ?_⟩
      intro c hc
      simp only [List.mem_singleton] at hc; subst hc
      refine ⟨hf, hb, ?_, by simp⟩
      intro p hp
      rcases List.mem_append.mp hp with hp | hp
      · simpa using ht p hp
      · rw [(List.mem_replicate.mp hp).2]; rfl
    | cons y b =>
      have hy : y.down = true := by simpa using hr y b rfl
      have hlen : 5 ≤ tail.length := by
        have hne := htne (by simp)
        have ht' : ∀ p ∈ tail, p.down = false := fun p hp => by simpa using ht p hp
        rcases List.eq_nil_or_concat body with rfl | ⟨b0, x, rfl⟩
        · exact hg [] f tail y b (by simp) hf hy hne ht'
        · exact hg (f :: b0) x tail y b (by simp) (hb x (by simp)) hy hne ht'
      obtain ⟨cs, rest, e, hok⟩ := split_presses n (y :: b) (by simp at hl ⊢; omega) (by intro p hp; simp at hp; subst hp; exact hy)
        (by
          have : f :: (body ++ (tail ++ y :: b)) = (f :: body ++ tail) ++ y :: b := by simp
          rw [this] at hg
          exact hg.suffix)
      refine ⟨⟨f, body, tail⟩ :: cs, rest, ?_, ?_⟩
      · rw [List.flatMap_cons, ← e]; simp [Press.polls]
      · intro c hc
        rcases List.mem_cons.mp hc with rfl | hc
        · exact ⟨hf, hb, fun p hp => by simpa using ht p hp, hlen⟩
        · exact hok c hc

theorem polls_append (T : Nat) : ∀ (a b : List Call) (d : Deb), d.polls T (a ++ b) = d.polls T a ++ (d.run T (a.map Call.sample)).polls T b
  | [], b, d => rfl
  | c :: a, b, d => by simp [Deb.polls, polls_append T a b, Deb.run]

/-- a split of the polls is a split of the calls -/
theorem polls_split (T : Nat) : ∀ (cs : List Call) (d : Deb) (a b : List Poll), d.polls T cs = a ++ b →
    ∃ ca cb, cs = ca ++ cb ∧ d.polls T ca = a ∧ (d.run T (ca.map Call.sample)).polls T cb = b
  | cs, d, [], b, h => ⟨[], cs, rfl, rfl, h⟩
  | [], d, x :: a, b, h => by simp [Deb.polls] at h
  | c :: cs, d, x :: a, b, h => by
    simp only [Deb.polls, List.cons_append, List.cons.injEq] at h
    obtain ⟨ca, cb, e, h1, h2⟩ := polls_split T cs _ a b h.2
    refine ⟨c :: ca, cb, by rw [e]; rfl, ?_, ?_⟩
    · simp only [Deb.polls, h1, h.1]
    · simpa [Deb.run] using h2

theorem polls_length (T : Nat) : ∀ (cs : List Call) (d : Deb), (d.polls T cs).length = cs.length
  | [], _ => rfl
  | c :: cs, d => by simp [Deb.polls, polls_length T cs]

theorem close_suffix : ∀ (a b : List Call), Close (a ++ b) → Close b
  | [], b, h => h
  | [x], [], _ => trivial
  | [x], y :: b, h => h.2.2
  | x :: y :: a, b, h => close_suffix (y :: a) b h.2.2

theorem close_bound : ∀ (l : List Call) (a : Call), Close (a :: l) → ∀ s ∈ l, a.time ≤ s.time ∧ s.time ≤ a.time + 2 * l.length
  | [], _, _, _, hs => by simp at hs
  | b :: l, a, h, s, hs => by
    obtain ⟨h1, h2, h3⟩ := h
    rcases List.mem_cons.mp hs with rfl | hs
    · simp; omega
    · have := close_bound l b h3 s hs
      simp; omega

theorem close_prefix : ∀ (a b : List Call), Close (a ++ b) → Close a
  | [], _, _ => trivial
  | [x], _, _ => trivial
  | x :: y :: a, b, h => ⟨h.1, h.2.1, close_prefix (y :: a) b h.2.2⟩

theorem since_mod (a b : Nat) (h : a ≤ b) (hb : b - a < 4294967296) : since (b % 4294967296) (a % 4294967296) = b - a := by
  unfold since; omega

/-- the reachable states of the debouncer -/
def Deb.good (d : Deb) : Prop := d.st ≠ .on → d.pushed = false

theorem update_good (T : Nat) (d : Deb) (t : Nat) (r : Bool) (h : d.good) : (d.update T t r).good := by
  unfold Deb.update
  cases hs : d.st <;> cases r <;> simp [Deb.good]

theorem run_good (T : Nat) : ∀ (l : List (Nat × Bool)) (d : Deb), d.good → (d.run T l).good
  | [], _, h => h
  | s :: l, d, h => run_good T l _ (update_good T d s.1 s.2 h)

/-- calls at most 2 ms apart give releases of at least five calls -/
theorem polls_gap (lastOff : Nat) (cs : List Call) (hc : Close cs) : Gap ((Deb.init lastOff).polls 10 cs) := by
  intro a x mid y b e hx hy hne hmid
  refine Decidable.byContradiction fun hlt => ?_
  obtain ⟨ca, c1, e1, _, h1⟩ := polls_split 10 cs _ a _ e
  have hg : ((Deb.init lastOff).run 10 (ca.map Call.sample)).good := run_good _ _ _ (by intro _; rfl)
  generalize (Deb.init lastOff).run 10 (ca.map Call.sample) = d1 at h1 hg
  cases c1 with
  | nil => simp [Deb.polls] at h1
  | cons cx c2 =>
    simp only [Deb.polls, List.cons.injEq] at h1
    obtain ⟨hx', h2⟩ := h1
    rw [← hx'] at hx; simp only at hx
    -- the state after `x`
    have hon : (d1.update 10 cx.sample.1 cx.sample.2).st = .on ∧ since cx.sample.1 (d1.update 10 cx.sample.1 cx.sample.2).lastOff > 10 := by
      revert hx hg
      unfold Deb.update Deb.good
      cases d1.st <;> cases cx.sample.2 <;> simp
      intro h h'; rw [h] at h'; cases h'
    generalize d1.update 10 cx.sample.1 cx.sample.2 = d2 at h2 hon hx
    obtain ⟨cm, c3, e3, hm, h3⟩ := polls_split 10 c2 d2 mid _ h2
    have hlm : cm.length = mid.length := by rw [← hm, polls_length]
    cases cm with
    | nil => simp [Deb.polls] at hm; exact hne hm
    | cons c0 cm =>
      cases c3 with
      | nil => simp [Deb.polls] at h3
      | cons cy c4 =>
        simp only [Deb.polls, List.cons.injEq] at h3 hm
        have hm0 : (d2.update 10 c0.sample.1 c0.sample.2).pushed = false := by
          have := hmid (mid.headD Poll.zero) (by cases mid with | nil => exact absurd rfl hne | cons => simp)
          rw [← hm] at this; simpa using this
        rw [← h3.1] at hy; simp only at hy
        have hclose : Close (cx :: c0 :: (cm ++ [cy])) := by
          rw [e1, e3] at hc
          have := close_suffix _ _ hc
          have e5 : cx :: (c0 :: cm ++ cy :: c4) = (cx :: c0 :: (cm ++ [cy])) ++ c4 := by simp
          rw [e5] at this
          exact close_prefix _ _ this
        obtain ⟨hx0, hx1, hc0⟩ := hclose
        have hbnd := close_bound (cm ++ [cy]) c0 hc0
        have hl4 : (cm ++ [cy]).length ≤ 4 := by
          simp only [List.length_append, List.length_singleton]
          simp only [List.length_cons] at hlm; omega
        have hpair : ∀ p q, cm ++ [cy] = p ++ q → ∀ s ∈ p, ∀ s' ∈ q, s.time ≤ s'.time ∧ s'.time ≤ s.time + 8 := by
          intro p q e s hs s' hs'
          obtain ⟨u, v, rfl⟩ := List.append_of_mem hs
          rw [e] at hc0
          have hcl : Close (s :: (v ++ q)) := close_suffix (c0 :: u) _ (by simpa using hc0)
          have := close_bound (v ++ q) s hcl s' (by simp [hs'])
          have hl : (v ++ q).length ≤ 4 := by
            have := congrArg List.length e
            simp only [List.length_append, List.length_cons, List.length_nil] at this hl4 ⊢; omega
          omega
        have hfin : (((d2.update 10 c0.sample.1 c0.sample.2).run 10 (cm.map Call.sample)).update 10 cy.sample.1 cy.sample.2).pushed =
            ((d2.update 10 c0.sample.1 c0.sample.2).run 10 (((cm ++ [cy]).map Call.sample).take (cm ++ [cy]).length)).pushed := by
          rw [List.take_of_length_le (by simp), List.map_append, run_append]; rfl
        have e6 : d2.run 10 ((c0 :: cm).map Call.sample) = (d2.update 10 c0.sample.1 c0.sample.2).run 10 (cm.map Call.sample) := rfl
        rw [e6, hfin] at hy
        have key : ∀ t0, (d2.update 10 c0.sample.1 c0.sample.2).lastOff = t0 → (d2.update 10 c0.sample.1 c0.sample.2).st ≠ .start →
            (∀ s ∈ cm ++ [cy], since s.sample.1 t0 ≤ 10) → False := by
          intro t0 hl hs hall
          have := run_recent 10 t0 ((cm ++ [cy]).map Call.sample) _ hl hm0 hs ?_ ?_ (cm ++ [cy]).length (by simp)
          · rw [this] at hy; exact absurd hy (by simp)
          · intro s hs _ _
            obtain ⟨c, hc, rfl⟩ := List.mem_map.mp hs
            exact hall c hc
          · intro p q e s hs s' hs'
            obtain ⟨p', q', e', rfl, rfl⟩ := List.map_eq_append_iff.mp e
            obtain ⟨c, hc, rfl⟩ := List.mem_map.mp hs
            obtain ⟨c', hc', rfl⟩ := List.mem_map.mp hs'
            have := hpair p' q' e' c hc c' hc'
            show since (c'.time % _) (c.time % _) ≤ 10
            rw [since_mod _ _ this.1 (by omega)]; omega
        cases hr : c0.raw
        · have eu : d2.update 10 c0.sample.1 c0.sample.2 = ⟨.off, false, c0.time % 4294967296⟩ := by
            show d2.update 10 _ c0.raw = _
            rw [hr, update_off]; rfl
          refine key (c0.time % 4294967296) (by rw [eu]) (by rw [eu]; simp) ?_
          intro s hs
          have := hbnd s hs
          show since (s.time % _) _ ≤ 10
          rw [since_mod _ _ this.1 (by omega)]; omega
        · have eu : d2.update 10 c0.sample.1 c0.sample.2 = { d2 with pushed := decide (since c0.sample.1 d2.lastOff > 10) } := by
            show d2.update 10 _ c0.raw = _
            rw [hr]; simp [Deb.update, hon.1]
          rw [eu] at hm0
          have hm1 : ¬ since c0.sample.1 d2.lastOff > 10 := by simpa using hm0
          refine key d2.lastOff (by rw [eu]) (by rw [eu]; simp [hon.1]) ?_
          intro s hs
          have h1 := hbnd s hs
          have h2 := hon.2
          show since (s.time % _) _ ≤ 10
          simp only [Call.sample] at h2 hm1
          unfold since at *
          omega

/-- C34: for every sequence of calls at most 2 ms apart, with any bouncing contact, any hold times, any
pauses, any answers of the prop and any other code taking presses over, the events of a button are a
beginning of a story of presses (`Story`): every press is reported as pressed, then held, held-medium and
held-long in this order as far as its length allows and nobody took it over, then released, then at most
one click (short below 500 ms, long below 2500 ms, none if the press was taken over or was longer), then a
saved click once if the short click was not handled, unless the next press comes first; presses that
start within 500 ms are numbered up to 4.  The presses are those of the debounced signal: their calls,
with some calls that read released in front and behind, are the calls the button made. -/
theorem C34_grammar (lastOff push : Nat) (cs : List Call) (hc : Close cs) :
    ∃ (calls0 : List Poll) (ps : List Press) (rest : List Poll) (out : List Nat) (m' : Mem),
      (Deb.init lastOff).polls 10 cs ++ rest = calls0 ++ ps.flatMap Press.polls ∧ (∀ p ∈ calls0, p.down = false) ∧ (∀ c ∈ ps, c.ok) ∧
      Story ⟨push, 0, false⟩ ps out m' ∧ buttonEvents lastOff push cs <+: out := by
  have hg := polls_gap lastOff cs hc
  unfold buttonEvents
  generalize (Deb.init lastOff).polls 10 cs = polls at hg
  have e1 : polls = polls.takeWhile (fun p => !p.down) ++ polls.dropWhile (fun p => !p.down) := List.takeWhile_append_dropWhile.symm
  have ht := takeWhile_down (fun p => !p.down) polls
  have hd := dropWhile_head (fun p => !p.down) polls
  generalize polls.takeWhile (fun p => !p.down) = c0 at e1 ht
  generalize polls.dropWhile (fun p => !p.down) = ps at e1 hd
  subst e1
  obtain ⟨cs', rest, e, hok⟩ := split_presses ps.length ps (Nat.le_refl _)
    (by intro p hp; cases ps with
        | nil => simp at hp
        | cons y b => simp at hp; subst hp; simpa using hd y b rfl) hg.suffix
  have h0 : ∀ p ∈ c0, p.down = false := fun p hp => by simpa using ht p hp
  obtain ⟨m', hs⟩ := story push c0 h0 cs' hok
  refine ⟨c0, cs', rest, _, m', by rw [List.append_assoc, e], h0, hok, hs, ?_⟩
  rw [← e, ← List.append_assoc, brun_append _ (c0 ++ ps) rest]
  exact List.prefix_append _ _

/-! ## A concrete story and the limit of the claim -/

/-- calls at the given times with the given level, nobody interferes, nothing is handled -/
def plain (l : List (Nat × Bool)) : List Call := l.map fun s => ⟨s.1, s.2, false, fun _ => false⟩

/-- two short presses with a bounce, calls every 2 ms -/
example : (buttonEvents 0 0 (plain (((List.range 40).map fun i => (10000 + 2 * i, false)) ++ ((List.range 20).map fun i => (10080 + 2 * i, decide (i ≠ 3))) ++
      ((List.range 20).map fun i => (10120 + 2 * i, false)) ++ ((List.range 160).map fun i => (10160 + 2 * i, true)) ++ ((List.range 150).map fun i => (10480 + 2 * i, false)))))
    = [9, 1, 10, 2, 14, 6, 17, 1, 19, 3, 18, 2, 22, 6, 23, 7] := by decide +kernel

/-- C34: when the calls are further apart, a release can be missed: the button is held for more than two
seconds, released for one call 20 ms long, and held again; "held medium" and "held long" are reported a second
time, with no release and no new press in between. -/
theorem C34_slow_calls_counterexample :
    buttonEvents 0 0 (plain ([(10000, false), (10001, true), (10020, true), (10030, true)] ++ [(10500, true), (11000, true), (12500, true), (12600, true)] ++
      [(12700, false)] ++ [(12720, true), (12740, true), (12760, true), (12780, true)])) =
    [9, 1, 11, 3, 12, 4, 13, 5, 12, 4, 13, 5] := by decide +kernel

end Verif.Input
