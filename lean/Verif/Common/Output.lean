import Mathlib.Order.Basic
import Mathlib.Data.List.Basic
/-!
# Reading the output of a command

Model of `CatchCommandOutput` and `GetNextLineCommandOutput`, common/stdout.h:81-148, and of the two functions using them,
common/command_parser.h:50-75: the output of a command is caught byte by byte and one line of it is kept.  A buffer is the list of its
bytes up to the terminating zero; bytes are not zero.
-/
namespace Verif.Common.Output

/-! ### the line with a number -/

/-- `CatchCommandOutput`, common/stdout.h:106-110: the line being written, the room left, and what is in the buffer; `none` as long as
nothing has been put there. -/
structure C where
  line : Nat
  room : Nat
  buf : Option (List Nat)
  deriving DecidableEq

/-- `CatchCommandOutput::write`, common/stdout.h:88-102 -/
def C.write (target : Nat) (s : C) (b : Nat) : C :=
  if b = 10 then { s with line := s.line + 1 }
  else if b = 13 then s
  else if s.line = target then
    if s.room > 1 then { s with buf := some (s.buf.getD [] ++ [b]), room := s.room - 1 } else s
  else s

/-- `RunCommandAndGetSingleLine`, common/command_parser.h:50-58: what is in the buffer, and the number returned. -/
def getLine (out : List Nat) (target size : Nat) : Option (List Nat) × Int :=
  let s := out.foldl (C.write target) ⟨1, size, none⟩
  (s.buf, (s.line : Int) - 1)

/-- specification: the lines of a text, without carriage returns; the last one is what is after the last line feed -/
def linesOf : List Nat → List (List Nat)
  | [] => [[]]
  | b :: l => if b = 10 then [] :: linesOf l
    else match linesOf l with
      | [] => []
      | x :: r => (if b = 13 then x else b :: x) :: r

theorem lines_cons (l : List Nat) : ∃ x r, linesOf l = x :: r := by
  induction l with
  | nil => exact ⟨[], [], rfl⟩
  | cons b l ih =>
    obtain ⟨x, r, h⟩ := ih
    by_cases hb : b = 10
    · exact ⟨[], linesOf l, by simp [linesOf, hb]⟩
    · exact ⟨if b = 13 then x else b :: x, r, by simp only [linesOf, hb, if_false, h]⟩

/-- the buffer after adding -/
def added (buf : Option (List Nat)) (room : Nat) (x : List Nat) : Option (List Nat) :=
  if x.take (room - 1) = [] then buf else some (buf.getD [] ++ x.take (room - 1))

theorem catch_gen (target : Nat) (out : List Nat) (s : C) :
    (out.foldl (C.write target) s).line + 1 = s.line + (linesOf out).length ∧
    (out.foldl (C.write target) s).buf =
      if s.line ≤ target then added s.buf s.room ((linesOf out)[target - s.line]?.getD []) else s.buf := by
  induction out generalizing s with
  | nil =>
    refine ⟨rfl, ?_⟩
    simp only [List.foldl_nil, linesOf]
    split
    · cases target - s.line <;> simp [added]
    · rfl
  | cons b l ih =>
    obtain ⟨x, r, hx⟩ := lines_cons l
    rw [List.foldl_cons]
    by_cases hb : b = 10
    · have hw : C.write target s b = { s with line := s.line + 1 } := by simp [C.write, hb]
      rw [hw]
      obtain ⟨h1, h2⟩ := ih { s with line := s.line + 1 }
      refine ⟨?_, ?_⟩
      · rw [h1]; simp only [linesOf, hb, if_true, List.length_cons]; omega
      · rw [h2]
        simp only [linesOf, hb, if_true]
        by_cases ht : s.line + 1 ≤ target
        · rw [if_pos ht, if_pos (show s.line ≤ target by omega), show target - s.line = (target - (s.line + 1)) + 1 by omega]
          simp
        · rw [if_neg ht]
          split
          · rw [show target - s.line = 0 by omega]; simp [added]
          · rfl
    · by_cases hr : b = 13
      · have hw : C.write target s b = s := by subst hr; simp [C.write]
        have hl : linesOf (b :: l) = linesOf l := by subst hr; simp only [linesOf, hx]; simp
        rw [hw, hl]
        exact ih s
      · have hl : linesOf (b :: l) = (b :: x) :: r := by simp [linesOf, hb, hr, hx]
        by_cases ht : s.line = target
        · by_cases hm : s.room > 1
          · have hw : C.write target s b = { s with buf := some (s.buf.getD [] ++ [b]), room := s.room - 1 } := by
              simp [C.write, hb, hr, ht, hm]
            rw [hw, hl]
            obtain ⟨h1, h2⟩ := ih { s with buf := some (s.buf.getD [] ++ [b]), room := s.room - 1 }
            refine ⟨by rw [h1, hx]; rfl, ?_⟩
            rw [h2, hx]
            simp only [ht, Nat.le_refl, if_true, Nat.sub_self, List.getElem?_cons_zero, Option.getD_some]
            obtain ⟨q, hq⟩ : ∃ q, s.room = q + 2 := ⟨s.room - 2, by omega⟩
            rw [hq]
            simp only [added, show q + 2 - 1 = q + 1 by omega, List.take_succ_cons]
            split
            · rename_i h0
              rw [show q + 1 - 1 = q from rfl] at h0
              rw [h0]; simp
            · simp
          · have hw : C.write target s b = s := by simp [C.write, hb, hr, ht, hm]
            rw [hw, hl]
            obtain ⟨h1, h2⟩ := ih s
            refine ⟨by rw [h1, hx]; rfl, ?_⟩
            rw [h2, hx]
            simp only [ht, Nat.le_refl, if_true, Nat.sub_self, List.getElem?_cons_zero, Option.getD_some, added]
            rw [show s.room - 1 = 0 by omega]
            simp
        · have hw : C.write target s b = s := by simp [C.write, hb, hr, ht]
          rw [hw, hl]
          obtain ⟨h1, h2⟩ := ih s
          refine ⟨by rw [h1, hx]; rfl, ?_⟩
          rw [h2, hx]
          by_cases hle : s.line ≤ target
          · obtain ⟨q, hq⟩ : ∃ q, target - s.line = q + 1 := ⟨target - s.line - 1, by omega⟩
            rw [if_pos hle, if_pos hle, hq]
            simp
          · rw [if_neg hle, if_neg hle]

/-- Asked for line `n` (from 1), the buffer gets that line, as far as it fits, and never more; the number returned is that of line feeds. -/
theorem C132_line (out : List Nat) (n size : Nat) (x : List Nat) (h : (linesOf out)[n]? = some x) (hx : x.take (size - 1) ≠ []) :
    (getLine out (n + 1) size).1 = some (x.take (size - 1)) ∧ (getLine out (n + 1) size).2 = (linesOf out).length - 1 := by
  obtain ⟨h1, h2⟩ := catch_gen (n + 1) out ⟨1, size, none⟩
  refine ⟨?_, ?_⟩
  · show (out.foldl (C.write (n + 1)) ⟨1, size, none⟩).buf = _
    rw [h2]
    simp only [show (1 : Nat) ≤ n + 1 by omega, if_true, Nat.add_sub_cancel, h, Option.getD_some, added, hx, if_false]
    simp
  · show ((out.foldl (C.write (n + 1)) ⟨1, size, none⟩).line : Int) - 1 = _
    have : (out.foldl (C.write (n + 1)) ⟨1, size, none⟩).line + 1 = 1 + (linesOf out).length := h1
    omega

/-- `getLine` of "ab\r\ncde\n": line 2, in a buffer of 3 bytes, is "cd", and there are 2 lines. -/
example : getLine [97, 98, 13, 10, 99, 100, 101, 10] 2 3 = (some [99, 100], 2) := by decide

/-- An empty line, or one beyond the end, leaves the buffer as it was: not even a terminating zero is put there. -/
theorem C132_line_counterexample (out : List Nat) (n size : Nat) (h : (linesOf out)[n]?.getD [] = []) : (getLine out (n + 1) size).1 = none := by
  show (out.foldl (C.write (n + 1)) ⟨1, size, none⟩).buf = _
  rw [(catch_gen (n + 1) out ⟨1, size, none⟩).2]
  simp [h, added]

/-! ### the next line in order -/

/-- `strcmp(a, b) < 0` -/
def lt : List Nat → List Nat → Bool
  | _, [] => false
  | [], _ :: _ => true
  | a :: s, b :: t => if a = b then lt s t else decide (a < b)

theorem lt_irrefl (a : List Nat) : lt a a = false := by
  induction a with
  | nil => rfl
  | cons a s ih => simp [lt, ih]

theorem lt_trans {a b c : List Nat} (h1 : lt a b = true) (h2 : lt b c = true) : lt a c = true := by
  induction a generalizing b c with
  | nil =>
    cases b with
    | nil => simp [lt] at h1
    | cons b t => cases c with
      | nil => simp [lt] at h2
      | cons c u => rfl
  | cons x s ih =>
    cases b with
    | nil => simp [lt] at h1
    | cons y t => cases c with
      | nil => simp [lt] at h2
      | cons z u =>
        simp only [lt] at h1 h2 ⊢
        by_cases hxy : x = y
        · subst hxy
          by_cases hxz : x = z
          · subst hxz
            simp only [if_true] at h1 h2 ⊢
            exact ih h1 h2
          · simpa [hxz] using h2
        · simp only [hxy, if_false, decide_eq_true_eq] at h1
          by_cases hyz : y = z
          · subst hyz; simp [hxy, h1]
          · simp only [hyz, if_false, decide_eq_true_eq] at h2
            rw [if_neg (by omega)]
            simp only [decide_eq_true_eq]; omega

theorem lt_total (a b : List Nat) : lt a b = true ∨ a = b ∨ lt b a = true := by
  induction a generalizing b with
  | nil => cases b <;> simp [lt]
  | cons x s ih =>
    cases b with
    | nil => simp [lt]
    | cons y t =>
      simp only [lt]
      by_cases h : x = y
      · subst h
        rcases ih t with h | h | h <;> simp [h]
      · simp only [h, if_false, Ne.symm h, decide_eq_true_eq]
        omega

/-- `compare`, common/stdout.h:122-124 -/
def before (reverse : Bool) (a b : List Nat) : Bool := if reverse then lt b a else lt a b

/-- the first test, common/stdout.h:129: whether a line comes after the previous one -/
def later (rev : Bool) (prev : Option (List Nat)) (y : List Nat) : Bool := match prev with | none => true | some p => before rev p y

theorem later_iff (rev : Bool) (prev : Option (List Nat)) (y : List Nat) :
    later rev prev y = true ↔ ∀ p, prev = some p → before rev p y = true := by cases prev <;> simp [later]

/-- the second test, common/stdout.h:130 -/
def better (rev : Bool) (f : Option (List Nat)) (y : List Nat) : Bool := match f with | none => true | some f => before rev y f

/-- `GetNextLineCommandOutput`, common/stdout.h:141-147: the line so far, and the line found. -/
structure G where
  line : List Nat
  found : Option (List Nat)

/-- `GetNextLineCommandOutput::write`, common/stdout.h:125-140 -/
def G.write (maxline : Nat) (reverse : Bool) (prev : Option (List Nat)) (s : G) (b : Nat) : G :=
  if b = 10 then
    if s.line = [] then s
    else ⟨[], if later reverse prev s.line && better reverse s.found s.line then some s.line else s.found⟩
  else if b = 13 then s
  else if s.line.length < maxline - 1 then { s with line := s.line ++ [b] } else s

/-- `RunCommandAndFindNextSortedLine`, common/command_parser.h:63-75 -/
def next (maxline : Nat) (out : List Nat) (prev : Option (List Nat)) (reverse : Bool) : Option (List Nat) :=
  (out.foldl (G.write maxline reverse prev) ⟨[], none⟩).found

/-- specification: the lines that count are those which a line feed ends, cut to fit, and not empty -/
def complete (maxline : Nat) (out : List Nat) : List (List Nat) :=
  ((linesOf out).dropLast.map (List.take (maxline - 1))).filter (· ≠ [])

/-- the choice among a list of lines -/
def pick (reverse : Bool) (prev : Option (List Nat)) (f : Option (List Nat)) (l : List Nat) : Option (List Nat) :=
  if later reverse prev l && better reverse f l then some l else f

/-- the lines still to come, when part of one is there -/
def rest (maxline : Nat) (line : List Nat) (out : List Nat) : List (List Nat) :=
  match linesOf out with
  | [] => []
  | x :: r => ((((line ++ x).take (maxline - 1)) :: r.map (List.take (maxline - 1))).dropLast).filter (· ≠ [])

theorem found_gen (maxline : Nat) (reverse : Bool) (prev : Option (List Nat)) (out : List Nat) (s : G) (hs : s.line.length ≤ maxline - 1) :
    (out.foldl (G.write maxline reverse prev) s).found = (rest maxline s.line out).foldl (pick reverse prev) s.found := by
  induction out generalizing s with
  | nil => simp [rest, linesOf]
  | cons b l ih =>
    obtain ⟨x, r, hx⟩ := lines_cons l
    rw [List.foldl_cons]
    by_cases hb : b = 10
    · subst hb
      have hr : rest maxline s.line (10 :: l) = (if s.line = [] then [] else [s.line]) ++ rest maxline [] l := by
        simp only [rest, linesOf, if_true, hx, List.append_nil, List.map_cons, List.nil_append]
        rw [List.dropLast_cons_cons, List.filter_cons, List.take_of_length_le hs]
        by_cases h0 : s.line = [] <;> simp [h0]
      by_cases h0 : s.line = []
      · have hw : G.write maxline reverse prev s 10 = s := by simp [G.write, h0]
        rw [hw, ih s hs, hr, h0]; simp
      · have hw : G.write maxline reverse prev s 10 = ⟨[], pick reverse prev s.found s.line⟩ := by simp [G.write, h0, pick]
        rw [hw, ih _ (Nat.zero_le _), hr]
        simp [h0]
    · by_cases hc : b = 13
      · subst hc
        have hw : G.write maxline reverse prev s 13 = s := by simp [G.write]
        rw [hw, ih s hs]
        simp [rest, linesOf, hx]
      · by_cases hm : s.line.length < maxline - 1
        · have hw : G.write maxline reverse prev s b = { s with line := s.line ++ [b] } := by simp [G.write, hb, hc, hm]
          rw [hw, ih _ (by simp; omega)]
          simp [rest, linesOf, hx, hb, hc]
        · have hw : G.write maxline reverse prev s b = s := by simp [G.write, hb, hc, hm]
          rw [hw, ih s hs]
          have he : maxline - 1 ≤ s.line.length := by omega
          simp [rest, linesOf, hx, hb, hc, List.take_append_of_le_length he]

theorem next_eq (maxline : Nat) (out : List Nat) (prev : Option (List Nat)) (reverse : Bool) :
    next maxline out prev reverse = (complete maxline out).foldl (pick reverse prev) none := by
  unfold next
  rw [found_gen _ _ _ _ _ (Nat.zero_le _)]
  congr 1
  obtain ⟨x, r, hx⟩ := lines_cons out
  simp only [rest, complete, hx, List.nil_append]
  rw [← List.map_cons, List.map_dropLast]

theorem before_irrefl (rev : Bool) (a : List Nat) : before rev a a = false := by cases rev <;> simp [before, lt_irrefl]

theorem before_trans {rev : Bool} {a b c : List Nat} (h1 : before rev a b = true) (h2 : before rev b c = true) : before rev a c = true := by
  cases rev
  · exact lt_trans h1 h2
  · exact lt_trans (a := c) (b := b) h2 h1

theorem before_total (rev : Bool) (a b : List Nat) : before rev a b = true ∨ a = b ∨ before rev b a = true := by
  cases rev
  · exact lt_total a b
  · rcases lt_total a b with h | h | h
    · exact .inr (.inr h)
    · exact .inr (.inl h)
    · exact .inl h

/-- specification: the line wanted: it comes after the previous one, and none other that does comes before it -/
def IsNext (rev : Bool) (prev : Option (List Nat)) (ls : List (List Nat)) (x : List Nat) : Prop :=
  (x ∈ ls ∧ ∀ p, prev = some p → before rev p x = true) ∧
  ∀ y ∈ ls, (∀ p, prev = some p → before rev p y = true) → y = x ∨ before rev x y = true

theorem pick_gen (rev : Bool) (prev : Option (List Nat)) (ls : List (List Nat)) (f : Option (List Nat))
    (hf : ∀ x, f = some x → ∀ p, prev = some p → before rev p x = true) :
    match ls.foldl (pick rev prev) f with
    | none => f = none ∧ ∀ y ∈ ls, ¬ ∀ p, prev = some p → before rev p y = true
    | some x => IsNext rev prev (f.toList ++ ls) x := by
  induction ls generalizing f with
  | nil =>
    cases f with
    | none => simp
    | some x => simp [IsNext]; exact fun p hp => hf x rfl p hp
  | cons l ls ih =>
    rw [List.foldl_cons]
    have hok := later_iff rev prev l
    by_cases h1 : ∀ p, prev = some p → before rev p l = true
    · have hp := hok.2 h1
      cases f with
      | none =>
        have hpk : pick rev prev none l = some l := by simp [pick, hp, better]
        rw [hpk]
        have := ih (some l) (fun x hx => by cases hx; exact h1)
        revert this
        cases ls.foldl (pick rev prev) (some l) with
        | none => intro h; exact absurd h.1 (fun e => by cases e)
        | some x => intro h; simpa using h
      | some g =>
        have hg := hf g rfl
        by_cases h2 : before rev l g = true
        · have hpk : pick rev prev (some g) l = some l := by simp [pick, hp, better, h2]
          rw [hpk]
          have := ih (some l) (fun x hx => by cases hx; exact h1)
          revert this
          cases ls.foldl (pick rev prev) (some l) with
          | none => intro h; exact absurd h.1 (fun e => by cases e)
          | some x =>
            intro h
            simp only [Option.toList_some, List.cons_append, List.nil_append] at h ⊢
            refine ⟨⟨List.mem_cons_of_mem _ h.1.1, h.1.2⟩, fun y hy hy2 => ?_⟩
            rcases List.mem_cons.1 hy with rfl | hy
            · rcases h.2 l (by simp) h1 with rfl | h3
              · exact .inr h2
              · exact .inr (before_trans h3 h2)
            · exact h.2 y hy hy2
        · have hpk : pick rev prev (some g) l = some g := by simp [pick, better, h2]
          rw [hpk]
          have := ih (some g) hf
          revert this
          cases ls.foldl (pick rev prev) (some g) with
          | none => intro h; exact absurd h.1 (fun e => by cases e)
          | some x =>
            intro h
            simp only [Option.toList_some, List.cons_append, List.nil_append] at h ⊢
            refine ⟨⟨?_, h.1.2⟩, fun y hy hy2 => ?_⟩
            · rcases List.mem_cons.1 h.1.1 with rfl | hx
              · simp
              · simp [hx]
            · have hcase : y = g ∨ y = l ∨ y ∈ ls := by simpa using hy
              rcases hcase with rfl | rfl | hy
              · exact h.2 y (by simp) hy2
              · have hgl : g = y ∨ before rev g y = true := by
                  rcases before_total rev y g with h3 | h3 | h3
                  · exact absurd h3 h2
                  · exact .inl h3.symm
                  · exact .inr h3
                rcases hgl with rfl | hgl
                · exact h.2 g (by simp) hy2
                · rcases h.2 g (by simp) hg with rfl | h3
                  · exact .inr hgl
                  · exact .inr (before_trans h3 hgl)
              · exact h.2 y (by simp [hy]) hy2
    · have hpf : later rev prev l = false := by
        rw [← Bool.not_eq_true, hok]; exact h1
      have hpk : pick rev prev f l = f := by unfold pick; rw [hpf]; rfl
      rw [hpk]
      have := ih f hf
      revert this
      cases ls.foldl (pick rev prev) f with
      | none =>
        intro h
        refine ⟨h.1, fun y hy => ?_⟩
        rcases List.mem_cons.1 hy with rfl | hy
        · exact h1
        · exact h.2 y hy
      | some x =>
        intro h
        refine ⟨⟨?_, h.1.2⟩, fun y hy hy2 => ?_⟩
        · rcases List.mem_append.1 h.1.1 with hx | hx
          · exact List.mem_append_left _ hx
          · exact List.mem_append_right _ (List.mem_cons_of_mem _ hx)
        · rcases List.mem_append.1 hy with hy | hy
          · exact h.2 y (List.mem_append_left _ hy) hy2
          · rcases List.mem_cons.1 hy with rfl | hy
            · exact absurd hy2 h1
            · exact h.2 y (List.mem_append_right _ hy) hy2

/-- Asked for the line after another one (or the first), in order or backwards, the function finds exactly it: of all complete lines which
come after it, the one that comes first; and it says there is none only if there is none. -/
theorem C132_next (maxline : Nat) (out : List Nat) (prev : Option (List Nat)) (rev : Bool) :
    (∀ x, next maxline out prev rev = some x → IsNext rev prev (complete maxline out) x) ∧
    (next maxline out prev rev = none ↔ ∀ y ∈ complete maxline out, ¬ ∀ p, prev = some p → before rev p y = true) := by
  have h := pick_gen rev prev (complete maxline out) none (fun x hx => by cases hx)
  rw [← next_eq] at h
  cases hn : next maxline out prev rev with
  | none =>
    rw [hn] at h
    exact ⟨fun x hx => by (cases hx), fun _ => h.2, fun _ => rfl⟩
  | some x =>
    rw [hn] at h
    have h : IsNext rev prev (complete maxline out) x := by simpa using h
    refine ⟨fun y hy => by (cases hy; exact h), fun hy => by (cases hy), fun hy => ?_⟩
    exact absurd h.1.2 (hy x h.1.1)

/-- Going on from each line to the next, at most `fuel` times, as `RunCommandAndFindNextSortedLine` is meant to be used (common/tests.cpp:703-742). -/
def walk (maxline : Nat) (out : List Nat) (rev : Bool) : Nat → Option (List Nat) → List (List Nat)
  | 0, _ => []
  | fuel + 1, prev => match next maxline out prev rev with
    | none => []
    | some x => x :: walk maxline out rev fuel (some x)

theorem walk_gen (maxline : Nat) (out : List Nat) (rev : Bool) (fuel : Nat) (prev : Option (List Nat)) :
    (walk maxline out rev fuel prev).Pairwise (fun a b => before rev a b = true) ∧
    (∀ x ∈ walk maxline out rev fuel prev, x ∈ complete maxline out ∧ ∀ p, prev = some p → before rev p x = true) := by
  induction fuel generalizing prev with
  | zero => exact ⟨List.Pairwise.nil, fun x hx => by (cases hx)⟩
  | succ fuel ih =>
    obtain ⟨h1, -⟩ := C132_next maxline out prev rev
    cases hn : next maxline out prev rev with
    | none =>
      have : walk maxline out rev (fuel + 1) prev = [] := by simp only [walk, hn]
      rw [this]
      exact ⟨List.Pairwise.nil, fun x hx => by (cases hx)⟩
    | some x =>
      have : walk maxline out rev (fuel + 1) prev = x :: walk maxline out rev fuel (some x) := by simp only [walk, hn]
      rw [this]
      obtain ⟨i1, i2⟩ := ih (some x)
      have hx := h1 x hn
      refine ⟨List.pairwise_cons.2 ⟨fun y hy => (i2 y hy).2 x rfl, i1⟩, fun y hy => ?_⟩
      rcases List.mem_cons.1 hy with rfl | hy
      · exact hx.1
      · exact ⟨(i2 y hy).1, fun p hp => before_trans (hx.1.2 p hp) ((i2 y hy).2 x rfl)⟩

theorem walk_all (maxline : Nat) (out : List Nat) (rev : Bool) (fuel : Nat) (prev : Option (List Nat))
    (hf : ((complete maxline out).filter (later rev prev)).length ≤ fuel) (y : List Nat) (hy : y ∈ complete maxline out)
    (hl : later rev prev y = true) : y ∈ walk maxline out rev fuel prev := by
  induction fuel generalizing prev with
  | zero =>
    have : y ∈ (complete maxline out).filter (later rev prev) := List.mem_filter.2 ⟨hy, hl⟩
    rw [List.length_eq_zero_iff.1 (Nat.le_zero.1 hf)] at this
    cases this
  | succ fuel ih =>
    obtain ⟨h1, h2⟩ := C132_next maxline out prev rev
    cases hn : next maxline out prev rev with
    | none => exact absurd ((later_iff _ _ _).1 hl) (h2.1 hn y hy)
    | some x =>
      have hw : walk maxline out rev (fuel + 1) prev = x :: walk maxline out rev fuel (some x) := by simp only [walk, hn]
      rw [hw]
      have hx := h1 x hn
      rcases hx.2 y hy ((later_iff _ _ _).1 hl) with rfl | hxy
      · simp
      · refine List.mem_cons_of_mem _ (ih (some x) ?_ hxy)
        have hsub : ((complete maxline out).filter (later rev (some x))).length < ((complete maxline out).filter (later rev prev)).length := by
          have e : (complete maxline out).filter (later rev (some x)) =
              ((complete maxline out).filter (later rev prev)).filter (later rev (some x)) := by
            rw [List.filter_filter]
            apply List.filter_congr
            intro z hz
            cases hz2 : later rev (some x) z with
            | false => rfl
            | true =>
              have : later rev prev z = true := (later_iff _ _ _).2 fun p hp => before_trans (hx.1.2 p hp) hz2
              rw [this]; rfl
          rw [e]
          refine List.length_filter_lt_length_iff_exists.2 ⟨x, List.mem_filter.2 ⟨hx.1.1, (later_iff _ _ _).2 hx.1.2⟩, ?_⟩
          simp [later, before_irrefl]
        omega

/-- Going from line to line visits each complete line exactly once, in order (or backwards), as long as the output stays the same. -/
theorem C132_walk (maxline : Nat) (out : List Nat) (rev : Bool) (fuel : Nat) (hf : (complete maxline out).length ≤ fuel) :
    (walk maxline out rev fuel none).Pairwise (fun a b => before rev a b = true) ∧
    ∀ x, x ∈ walk maxline out rev fuel none ↔ x ∈ complete maxline out := by
  obtain ⟨h1, h2⟩ := walk_gen maxline out rev fuel none
  refine ⟨h1, fun x => ⟨fun hx => (h2 x hx).1, fun hx => walk_all maxline out rev fuel none ?_ x hx rfl⟩⟩
  exact Nat.le_trans (List.length_filter_le _ _) hf

/-- "b\na\r\n\nb\nc": a, b; the last line has no line feed. -/
example : walk 100 [98, 10, 97, 13, 10, 10, 98, 10, 99] false 5 none = [[97], [98]] ∧
    walk 100 [98, 10, 97, 13, 10, 10, 98, 10, 99] true 5 none = [[98], [97]] := by decide

end Verif.Common.Output
