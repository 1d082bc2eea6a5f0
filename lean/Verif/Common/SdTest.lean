/-!
# The test of the SD card (C150)

Model of common/sd_test.h: every file below a directory is read, its name being built up in a buffer of 256 bytes shared by all levels; times are sorted
into a hundred columns of 50 µs.  Simplified: the directory is a finite tree, reading and printing are left out.
-/
namespace Verif.Common.SdTest

/-- the entries of a directory -/
inductive Dir
  | nil
  | file (name : List Char) (rest : Dir)
  | dir (name : List Char) (sub rest : Dir)

/-- entries left out, common/sd_test.h:116-117 -/
def dots (n : List Char) : Bool := n == ['.'] || n == ['.', '.']

/-- `filename_` and the names given to `TestFile` so far -/
structure S where
  buf : List Char
  tested : List (List Char)

/-- `strcpy(fend, iter.name())`, common/sd_test.h:118; none when it writes beyond the buffer, :143 -/
def put (s : S) (fend : Nat) (n : List Char) : Option S :=
  if fend + n.length + 1 ≤ 256 then some { s with buf := s.buf.take fend ++ n } else none

/-- The slash behind the name of the directory, common/sd_test.h:108-114: what is in the buffer, its length being `fend`. None beyond the buffer. -/
def slash (s : S) : Option S :=
  if s.buf = [] ∨ s.buf.getLast? = some '/' then some s
  else if s.buf.length + 1 ≤ 255 then some { s with buf := s.buf ++ ['/'] } else none

/-- the loop of `TestIterator`, common/sd_test.h:115-126, with `*fend = 0`, :127 -/
def loop (fend : Nat) : Dir → S → Option S
  | .nil, s => some { s with buf := s.buf.take fend }
  | .file n r, s =>
    if dots n then loop fend r s
    else (put s fend n).bind fun t => loop fend r { t with tested := t.tested ++ [t.buf] }
  | .dir n d r, s =>
    if dots n then loop fend r s
    else (put s fend n).bind fun t => (slash t).bind fun t => (loop t.buf.length d t).bind fun t => loop fend r t

/-- `TestDir`, common/sd_test.h:130-139 with `TestIterator`, :106-114 -/
def testDir (name : List Char) (d : Dir) : Option S :=
  (put ⟨[], []⟩ 0 name).bind fun s => (slash s).bind fun s => loop s.buf.length d s

/-- `SDTestHistogram`, common/sd_test.h:41-43 -/
structure H where
  samples : Nat
  sum : Nat
  counts : Nat → Nat

/-- `count`, common/sd_test.h:8-13; the sum wraps -/
def count (h : H) (m : Nat) : H :=
  ⟨h.samples + 1, (h.sum + m) % 4294967296, fun c => h.counts c + if c = min (m / 50) 99 then 1 else 0⟩

/-! ## Specification -/

/-- the names of a directory itself and of the one above -/
abbrev Special (n : List Char) : Prop := n = ".".toList ∨ n = "..".toList

/-- a directory's name with one slash behind it, if it has a name -/
def withSlash (n : List Char) : List Char := if n = [] ∨ n.getLast? = some '/' then n else n ++ ['/']

/-- the files below, in order, with their whole names -/
def paths (pre : List Char) : Dir → List (List Char)
  | .nil => []
  | .file n r => if Special n then paths pre r else (pre ++ n) :: paths pre r
  | .dir n d r => if Special n then paths pre r else paths (withSlash (pre ++ n)) d ++ paths pre r

/-- every name, of a directory with a slash, has at most 255 characters -/
def short (pre : List Char) : Dir → Prop
  | .nil => True
  | .file n r => (¬ Special n → (pre ++ n).length ≤ 255) ∧ short pre r
  | .dir n d r => (¬ Special n → (pre ++ n).length ≤ 255 ∧ (withSlash (pre ++ n)).length ≤ 255 ∧ short (withSlash (pre ++ n)) d) ∧ short pre r

/-! ## Lemmas -/

theorem dots_iff (n : List Char) : dots n = true ↔ Special n := by
  simp [dots, Special]

theorem slash_eq (s t : S) (h : slash s = some t) : t.buf = withSlash s.buf ∧ t.tested = s.tested := by
  unfold slash at h
  unfold withSlash
  split at h
  next hc => cases h; rw [if_pos hc]; exact ⟨rfl, rfl⟩
  next hc =>
    split at h
    · cases h; rw [if_neg hc]; exact ⟨rfl, rfl⟩
    · cases h

theorem withSlash_take (n : List Char) (k : Nat) (hk : k ≤ n.length) : (withSlash n).take k = n.take k := by
  unfold withSlash
  split
  · rfl
  · rw [List.take_append_of_le_length hk]

theorem loop_eq (d : Dir) (pre : List Char) (s t : S) (hp : s.buf.take pre.length = pre) (h : loop pre.length d s = some t) :
    t.buf = pre ∧ t.tested = s.tested ++ paths pre d := by
  induction d generalizing pre s t with
  | nil => cases h; exact ⟨hp, by simp [paths]⟩
  | file n r ih =>
    simp only [loop] at h
    simp only [paths]
    by_cases hd : dots n = true
    · rw [if_pos hd] at h; rw [if_pos ((dots_iff n).mp hd)]; exact ih pre s t hp h
    · rw [if_neg hd] at h; rw [if_neg (fun e => hd ((dots_iff n).mpr e))]
      unfold put at h
      split at h
      · simp only [Option.bind_some] at h
        obtain ⟨h1, h2⟩ := ih pre _ t (by dsimp only; rw [hp]; simp) h
        refine ⟨h1, ?_⟩
        rw [h2, hp]; simp
      · cases h
  | dir n d r ihd ihr =>
    simp only [loop] at h
    simp only [paths]
    by_cases hd : dots n = true
    · rw [if_pos hd] at h; rw [if_pos ((dots_iff n).mp hd)]; exact ihr pre s t hp h
    · rw [if_neg hd] at h; rw [if_neg (fun e => hd ((dots_iff n).mpr e))]
      unfold put at h
      split at h
      · simp only [Option.bind_some, hp] at h
        cases h1 : slash { s with buf := pre ++ n } with
        | none => rw [h1] at h; cases h
        | some s1 =>
          rw [h1] at h
          simp only [Option.bind_some] at h
          obtain ⟨hb, ht⟩ := slash_eq _ _ h1
          dsimp only at hb ht
          cases h2 : loop s1.buf.length d s1 with
          | none => rw [h2] at h; cases h
          | some s2 =>
            rw [h2] at h
            simp only [Option.bind_some] at h
            obtain ⟨hb2, ht2⟩ := ihd s1.buf s1 s2 (by simp) h2
            obtain ⟨hb3, ht3⟩ := ihr pre s2 t (by rw [hb2, hb, withSlash_take _ _ (by simp)]; simp) h
            exact ⟨hb3, by rw [ht3, ht2, ht, hb]; simp⟩
      · cases h

theorem slash_some (s : S) (h : (withSlash s.buf).length ≤ 255) : ∃ t, slash s = some t := by
  unfold slash
  unfold withSlash at h
  split
  · exact ⟨_, rfl⟩
  next hc =>
    rw [if_neg hc] at h
    rw [if_pos (by simpa using h)]
    exact ⟨_, rfl⟩

theorem loop_some (d : Dir) (pre : List Char) (s : S) (hp : s.buf.take pre.length = pre) (h : short pre d) : ∃ t, loop pre.length d s = some t := by
  induction d generalizing pre s with
  | nil => exact ⟨_, rfl⟩
  | file n r ih =>
    simp only [loop]
    by_cases hd : dots n = true
    · rw [if_pos hd]; exact ih pre s hp h.2
    · rw [if_neg hd]
      have := h.1 fun e => hd ((dots_iff n).mpr e)
      simp only [List.length_append] at this
      rw [put, if_pos (by omega)]
      exact ih pre _ (by dsimp only; rw [hp]; simp) h.2
  | dir n d r ihd ihr =>
    simp only [loop]
    by_cases hd : dots n = true
    · rw [if_pos hd]; exact ihr pre s hp h.2
    · rw [if_neg hd]
      obtain ⟨h1, h2, h3⟩ := h.1 fun e => hd ((dots_iff n).mpr e)
      simp only [List.length_append] at h1
      rw [put, if_pos (by omega)]
      simp only [Option.bind_some, hp]
      obtain ⟨s1, hs1⟩ := slash_some { s with buf := pre ++ n } h2
      obtain ⟨hb, _⟩ := slash_eq _ _ hs1
      dsimp only at hb
      rw [hs1]
      simp only [Option.bind_some]
      obtain ⟨s2, hs2⟩ := ihd s1.buf s1 (by simp) (by rw [hb]; exact h3)
      rw [hs2]
      obtain ⟨hb2, _⟩ := loop_eq d s1.buf s1 s2 (by simp) hs2
      exact ihr pre s2 (by rw [hb2, hb, withSlash_take _ _ (by simp)]; simp) h.2

theorem sum_one (n k : Nat) (f : Nat → Nat) (hk : k < n) :
    ((List.range n).map fun c => f c + if c = k then 1 else 0).sum = ((List.range n).map f).sum + 1 := by
  induction n with
  | zero => omega
  | succ n ih =>
    simp only [List.range_succ, List.map_append, List.map_cons, List.map_nil, List.sum_append, List.sum_cons, List.sum_nil]
    by_cases hn : n = k
    · subst hn
      have : ((List.range n).map fun c => f c + if c = n then 1 else 0) = (List.range n).map f := by
        apply List.map_congr_left
        intro c hc
        have := List.mem_range.mp hc
        rw [if_neg (by omega)]; rfl
      rw [this, if_pos rfl]; omega
    · rw [ih (by omega), if_neg hn]; omega

/-! ## Claims -/

/-- **C150.** Whatever the directory and however deep, when no name has more than 255 characters every file below it is tested, under its whole name,
once and in order, and nothing is written beyond the buffer. -/
theorem C150_paths_partial (name : List Char) (d : Dir) (h0 : name.length ≤ 255) (h1 : (withSlash name).length ≤ 255) (h : short (withSlash name) d) :
    ∃ t, testDir name d = some t ∧ t.tested = paths (withSlash name) d := by
  unfold testDir
  rw [put, if_pos (by omega)]
  simp only [Option.bind_some, List.take_nil, List.nil_append]
  obtain ⟨s1, hs1⟩ := slash_some ⟨name, []⟩ h1
  obtain ⟨hb, ht⟩ := slash_eq _ _ hs1
  dsimp only at hb ht
  rw [hs1]
  simp only [Option.bind_some]
  obtain ⟨t, h2⟩ := loop_some d s1.buf s1 (by simp) (by rw [hb]; exact h)
  obtain ⟨_, h4⟩ := loop_eq d s1.buf s1 t (by simp) h2
  exact ⟨t, h2, by rw [h4, ht, hb]; rfl⟩

/-- **C150.** Counterexample: a file whose whole name has 256 characters or more is written beyond the buffer. -/
theorem C150_overflow_counterexample (name n : List Char) (r : Dir) (h0 : name.length ≤ 254) (hn : ¬ Special n)
    (h : 256 ≤ (withSlash name ++ n).length) : testDir name (.file n r) = none := by
  have hd : dots n = false := by
    cases h : dots n with
    | false => rfl
    | true => exact absurd ((dots_iff n).mp h) hn
  unfold testDir
  rw [put, if_pos (by omega)]
  simp only [Option.bind_some, List.take_nil, List.nil_append]
  have h1 : (withSlash name).length ≤ 255 := by
    unfold withSlash; split
    · omega
    · simp; omega
  obtain ⟨s1, hs1⟩ := slash_some ⟨name, []⟩ h1
  obtain ⟨hb, _⟩ := slash_eq _ _ hs1
  dsimp only at hb
  rw [hs1]
  simp only [Option.bind_some, loop, hd, Bool.false_eq_true, if_false]
  rw [put, if_neg]
  · rfl
  · rw [hb]; simp only [List.length_append] at h; omega

/-- **C150.** Every time measured is in one column, so that the columns make up the number of times measured, whatever those were. -/
theorem C150_counts (l : List Nat) :
    ((List.range 100).map (l.foldl count ⟨0, 0, fun _ => 0⟩).counts).sum = l.length ∧ (l.foldl count ⟨0, 0, fun _ => 0⟩).samples = l.length ∧
      ∀ c, (l.foldl count ⟨0, 0, fun _ => 0⟩).counts c = l.countP fun m => (c < 99 && (50 * c ≤ m && m < 50 * c + 50)) || (c == 99 && 4950 ≤ m) := by
  have key : ∀ (l : List Nat) (h : H), ((List.range 100).map (l.foldl count h).counts).sum = ((List.range 100).map h.counts).sum + l.length ∧
      (l.foldl count h).samples = h.samples + l.length ∧
      ∀ c, (l.foldl count h).counts c = h.counts c + l.countP fun m => (c < 99 && (50 * c ≤ m && m < 50 * c + 50)) || (c == 99 && 4950 ≤ m) := by
    intro l
    induction l with
    | nil => intro h; simp
    | cons m l ih =>
      intro h
      obtain ⟨h1, h2, h3⟩ := ih (count h m)
      simp only [List.foldl_cons]
      refine ⟨?_, ?_, fun c => ?_⟩
      · rw [h1]
        have := sum_one 100 (min (m / 50) 99) h.counts (by omega)
        show ((List.range 100).map fun c => h.counts c + if c = min (m / 50) 99 then 1 else 0).sum + _ = _
        rw [this, List.length_cons]; omega
      · rw [h2]; simp only [count, List.length_cons]; omega
      · rw [h3 c, List.countP_cons]
        simp only [count]
        by_cases hc : c = min (m / 50) 99
        · rw [if_pos hc, if_pos]
          · omega
          · by_cases h9 : c = 99
            · simp [h9]; omega
            · simp [h9]; omega
        · rw [if_neg hc, if_neg]
          · omega
          · by_cases h9 : c = 99
            · simp [h9]; omega
            · simp [h9]; omega
  have h0 : ((List.range 100).map fun _ => 0).sum = 0 := by decide
  obtain ⟨h1, h2, h3⟩ := key l ⟨0, 0, fun _ => 0⟩
  refine ⟨?_, ?_, fun c => ?_⟩
  · rw [h1]; show ((List.range 100).map fun _ => 0).sum + _ = _; rw [h0]; omega
  · rw [h2]; simp
  · rw [h3 c]; simp

/-- The claims apply: files beside and within a directory. -/
example : paths (withSlash "a".toList) (.dir "b".toList (.file "x".toList .nil) (.file ".".toList (.file "y".toList .nil))) = ["a/b/x".toList, "a/y".toList] ∧
    short (withSlash "a".toList) (.dir "b".toList (.file "x".toList .nil) (.file ".".toList (.file "y".toList .nil))) := by
  refine ⟨by decide, ⟨fun _ => ⟨by decide, by decide, ⟨fun _ => by decide, trivial⟩⟩, ⟨fun h => by (revert h; decide), ⟨fun _ => by decide, trivial⟩⟩⟩⟩

end Verif.Common.SdTest
