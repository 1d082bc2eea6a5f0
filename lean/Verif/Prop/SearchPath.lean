/-
  The font search path: props/prop_base.h:254-285 (`chdir`, the part which fills
  `current_directory`) and ProffieOS.ino:415-441.

  Characters are numbers (47 = '/', 59 = ';').  `none` stands for an access outside
  `current_directory`.
-/
namespace Verif.Prop.SearchPath

/-! ## Model -/

/-- The copying loop (prop_base.h:272-282).  The string is zero terminated, so
    `dir[i+1] == 0` holds exactly at its end. -/
def copied : List Nat → List Nat
  | [] => []
  | c :: l =>
    if c = 47 ∧ (l.head?.getD 0 = 0 ∨ l.head?.getD 0 = 59) then copied l
    else if c = 59 then 0 :: copied l
    else c :: copied l

/-- `chdir` (prop_base.h:254-285).  Inner `none`: refused. -/
def chdir (mem dir : List Nat) : Option (Option (List Nat)) :=
  if dir.length > 1 ∧ dir.getLast? = some 47 then some none
  else
    let w := copied dir ++ [0, 0]
    if w.length ≤ mem.length then some (some (w ++ mem.drop w.length)) else none

/-- `strlen` -/
def strlen : List Nat → Option Nat
  | [] => none
  | 0 :: _ => some 0
  | _ :: l => (strlen l).map (· + 1)

/-- `next_current_directory` (ProffieOS.ino:418-423); inner `none` = NULL. -/
def next (mem : List Nat) (p : Nat) : Option (Option Nat) :=
  (strlen (mem.drop p)).bind fun n =>
  (mem[p + n + 1]?).map fun c => if c = 0 then none else some (p + n + 1)

/-- `last_current_directory` (ProffieOS.ino:424-431). -/
def last (mem : List Nat) : Nat → Nat → Option Nat
  | 0, _ => none
  | k + 1, p => (next mem p).bind fun r => match r with
    | none => some p
    | some q => last mem k q

/-- The loop in `previous_current_directory` (ProffieOS.ino:435-439). -/
def back (mem : List Nat) : Nat → Option Nat
  | 0 => some 0
  | p + 1 => (mem[p + 1]?).bind fun c => if c = 0 then some (p + 2) else back mem p

/-- `previous_current_directory` (ProffieOS.ino:432-440); going below the array is
    an access outside it. -/
def previous (mem : List Nat) (p : Nat) : Option (Option Nat) :=
  if p = 0 then some none
  else if p < 2 then none
  else (back mem (p - 2)).map some

/-- The string at a position. -/
def str (mem : List Nat) (p : Nat) : List Nat := (mem.drop p).takeWhile (· != 0)

/-- `for (dir = current_directory; dir; dir = next_current_directory(dir))` -/
def forward (mem : List Nat) : Nat → Nat → Option (List (List Nat))
  | 0, _ => none
  | k + 1, p => (next mem p).bind fun r => match r with
    | none => some [str mem p]
    | some q => (forward mem k q).map (str mem p :: ·)

/-- `for (dir = last…; dir; dir = previous_current_directory(dir))` from `dir` on -/
def backward (mem : List Nat) : Nat → Nat → Option (List (List Nat))
  | 0, _ => none
  | k + 1, p => (previous mem p).bind fun r => match r with
    | none => some [str mem p]
    | some q => (backward mem k q).map (str mem p :: ·)

/-! ## Specification -/

/-- A search path as written in a preset: directories separated by semicolons, each
    (except the last) possibly followed by a slash. -/
def written : List (List Nat × Bool) → List Nat
  | [] => []
  | [(d, _)] => d
  | (d, slash) :: e :: l => d ++ (if slash then [47] else []) ++ 59 :: written (e :: l)

/-- A directory name. -/
def Name (d : List Nat) : Prop :=
  d ≠ [] ∧ 0 ∉ d ∧ 59 ∉ d ∧ d.getLast? ≠ some 47

/-! ## Lemmas -/

/-- How directories lie in memory. -/
def laid (ds : List (List Nat)) : List Nat := ds.flatMap (· ++ [0])

theorem copied_name : ∀ (d rest : List Nat), 0 ∉ d → 59 ∉ d → d.getLast? ≠ some 47 →
    copied (d ++ rest) = d ++ copied rest
  | [], rest, _, _, _ => rfl
  | [c], rest, h0, h59, hl => by
      have hc : c ≠ 47 := fun h => hl (by subst h; rfl)
      have hc2 : c ≠ 59 := fun h => h59 (by subst h; simp)
      rw [List.singleton_append, copied, if_neg (fun h => hc h.1), if_neg hc2]
      rfl
  | c :: e :: d, rest, h0, h59, hl => by
      have hc2 : c ≠ 59 := fun h => h59 (by subst h; simp)
      have he0 : e ≠ 0 := fun h => h0 (by subst h; simp)
      have he59 : e ≠ 59 := fun h => h59 (by subst h; simp)
      rw [List.cons_append, copied, if_neg (by
        rintro ⟨_, h | h⟩
        · exact he0 (by simpa using h)
        · exact he59 (by simpa using h)), if_neg hc2,
        copied_name (e :: d) rest (fun h => h0 (List.mem_cons_of_mem _ h))
          (fun h => h59 (List.mem_cons_of_mem _ h)) (by
            rw [List.getLast?_cons_cons] at hl; exact hl)]
      rfl

theorem copied_written : ∀ (ds : List (List Nat × Bool)), ds ≠ [] → (∀ d ∈ ds, Name d.1) →
    copied (written ds) ++ [0, 0] = laid (ds.map (·.1)) ++ [0]
  | [], h, _ => absurd rfl h
  | [(d, b)], _, hn => by
      obtain ⟨h1, h2, h3, h4⟩ := hn (d, b) (by simp)
      have := copied_name d [] h2 h3 h4
      rw [List.append_nil] at this
      simp only [written]
      rw [this]
      simp [copied, laid]
  | (d, b) :: e :: l, _, hn => by
      obtain ⟨h1, h2, h3, h4⟩ := hn (d, b) (by simp)
      have ih := copied_written (e :: l) (by simp) (fun x hx => hn x (List.mem_cons_of_mem _ hx))
      have hs : copied ((if b then [47] else []) ++ 59 :: written (e :: l)) = 0 :: copied (written (e :: l)) := by
        cases b with
        | false =>
          simp only [Bool.false_eq_true, if_false, List.nil_append]
          rw [copied, if_neg (by rintro ⟨h, _⟩; exact absurd h (by decide)), if_pos rfl]
        | true =>
          simp only [if_true, List.singleton_append]
          rw [copied, if_pos ⟨rfl, Or.inr rfl⟩, copied,
            if_neg (by rintro ⟨h, _⟩; exact absurd h (by decide)), if_pos rfl]
      simp only [written]
      rw [List.append_assoc, copied_name d _ h2 h3 h4, hs, List.append_assoc, List.cons_append, ih]
      simp [laid]

theorem written_last : ∀ (ds : List (List Nat × Bool)), ds ≠ [] → (∀ d ∈ ds, Name d.1) →
    (written ds).getLast? ≠ some 47
  | [], h, _ => absurd rfl h
  | [(d, b)], _, hn => (hn (d, b) (by simp)).2.2.2
  | (d, b) :: e :: l, _, hn => by
      have ih := written_last (e :: l) (by simp) (fun x hx => hn x (List.mem_cons_of_mem _ hx))
      have hne : written (e :: l) ≠ [] := by
        obtain ⟨d', b'⟩ := e
        have h1 := (hn (d', b') (by simp)).1
        cases l with
        | nil => simpa [written] using h1
        | cons x xs => simp [written]
      simp only [written]
      obtain ⟨c, l', hw⟩ := List.exists_cons_of_ne_nil hne
      rw [hw] at ih ⊢
      rw [List.getLast?_append, List.getLast?_cons_cons]
      cases hg : (c :: l').getLast? with
      | none => simp at hg
      | some v => rw [hg] at ih; simpa using ih

theorem strlen_name : ∀ (d rest : List Nat), 0 ∉ d → strlen (d ++ 0 :: rest) = some d.length
  | [], rest, _ => rfl
  | c :: d, rest, h => by
      have hc : c ≠ 0 := fun h' => h (by subst h'; simp)
      have ih := strlen_name d rest (fun h' => h (List.mem_cons_of_mem _ h'))
      cases c with
      | zero => exact absurd rfl hc
      | succ c => simp [strlen, ih]

theorem str_name (d rest : List Nat) (h : 0 ∉ d) : (d ++ 0 :: rest).takeWhile (· != 0) = d := by
  induction d with
  | nil => rfl
  | cons c d ih =>
    have hc : c ≠ 0 := fun h' => h (by subst h'; simp)
    rw [List.cons_append, List.takeWhile_cons, if_pos (by simpa using hc),
      ih (fun h' => h (List.mem_cons_of_mem _ h'))]

/-- `ds` lie in memory from `p` on. -/
def At (mem : List Nat) (p : Nat) (ds : List (List Nat)) : Prop :=
  ∃ rest, mem.drop p = laid ds ++ 0 :: rest

theorem At.tail {mem : List Nat} {p : Nat} {d : List Nat} {ds : List (List Nat)}
    (h : At mem p (d :: ds)) : At mem (p + d.length + 1) ds := by
  obtain ⟨rest, h⟩ := h
  refine ⟨rest, ?_⟩
  rw [Nat.add_assoc, ← List.drop_drop, h]
  simp [laid, List.drop_append]

theorem At.str {mem : List Nat} {p : Nat} {d : List Nat} {ds : List (List Nat)}
    (h : At mem p (d :: ds)) (h0 : 0 ∉ d) : str mem p = d := by
  obtain ⟨rest, h⟩ := h
  have : mem.drop p = d ++ 0 :: (laid ds ++ 0 :: rest) := by rw [h]; simp [laid]
  unfold SearchPath.str
  rw [this, str_name _ _ h0]

theorem getElem?_of_drop {mem : List Nat} {p : Nat} {c : Nat} {l : List Nat} (h : mem.drop p = c :: l) :
    mem[p]? = some c := by
  have := List.getElem?_drop (xs := mem) (i := p) (j := 0)
  rw [h] at this
  simpa using this.symm

theorem At.next {mem : List Nat} {p : Nat} {d : List Nat} {ds : List (List Nat)}
    (h : At mem p (d :: ds)) (h0 : 0 ∉ d) (hds : ∀ e ∈ ds, Name e) :
    next mem p = some (if ds = [] then none else some (p + d.length + 1)) := by
  have ht := h.tail
  obtain ⟨rest, h⟩ := h
  have hd : mem.drop p = d ++ 0 :: (laid ds ++ 0 :: rest) := by rw [h]; simp [laid]
  unfold SearchPath.next
  rw [hd, strlen_name _ _ h0, Option.bind_some]
  obtain ⟨rest', ht⟩ := ht
  cases ds with
  | nil =>
    rw [getElem?_of_drop (c := 0) (l := rest') (by rw [ht]; rfl)]
    rfl
  | cons e es =>
    obtain ⟨hne, hz, _⟩ := hds e (by simp)
    obtain ⟨c, e', rfl⟩ := List.exists_cons_of_ne_nil hne
    have hc : c ≠ 0 := fun h' => hz (by subst h'; simp)
    rw [getElem?_of_drop (c := c) (l := e' ++ [0] ++ laid es ++ 0 :: rest') (by rw [ht]; simp [laid])]
    simp [hc]

theorem forward_ok {mem : List Nat} : ∀ (ds : List (List Nat)) (k p : Nat), ds ≠ [] →
    ds.length ≤ k → At mem p ds → (∀ e ∈ ds, Name e) → forward mem k p = some ds
  | [], _, _, h, _, _, _ => absurd rfl h
  | d :: ds, k, p, _, hk, ha, hn => by
      obtain ⟨k, rfl⟩ : ∃ j, k = j + 1 := ⟨k - 1, by simp at hk; omega⟩
      have h0 := (hn d (by simp)).2.1
      have hnx := ha.next h0 (fun e he => hn e (List.mem_cons_of_mem _ he))
      simp only [forward]
      rw [hnx, Option.bind_some, ha.str h0]
      by_cases hds : ds = []
      · subst hds; rfl
      · rw [if_neg hds]
        simp only []
        rw [forward_ok ds k _ hds (by simp at hk; omega) ha.tail (fun e he => hn e (List.mem_cons_of_mem _ he))]
        rfl

theorem last_ok {mem : List Nat} : ∀ (ds : List (List Nat)) (d : List Nat) (k p : Nat),
    ds.length < k → At mem p (ds ++ [d]) → (∀ e ∈ ds ++ [d], Name e) →
    last mem k p = some (p + (laid ds).length)
  | [], d, k, p, hk, ha, hn => by
      obtain ⟨k, rfl⟩ : ∃ j, k = j + 1 := ⟨k - 1, by simp at hk; omega⟩
      have h0 := (hn d (by simp)).2.1
      have hnx := ha.next h0 (by simp)
      simp only [last]
      rw [hnx]
      rfl
  | e :: ds, d, k, p, hk, ha, hn => by
      obtain ⟨k, rfl⟩ : ∃ j, k = j + 1 := ⟨k - 1, by simp at hk; omega⟩
      have h0 := (hn e (by simp)).2.1
      have hnx := At.next (ds := ds ++ [d]) ha h0 (fun x hx => hn x (List.mem_cons_of_mem _ hx))
      simp only [last]
      rw [hnx, if_neg (by simp)]
      simp only [Option.bind_some]
      rw [last_ok ds d k _ (by simp at hk; omega) (At.tail (ds := ds ++ [d]) ha)
        (fun x hx => hn x (List.mem_cons_of_mem _ hx))]
      simp [laid]; omega

/-- Going back over a name. -/
theorem back_ok {mem : List Nat} (pre : List Nat) (hpre : pre = [] ∨ (2 ≤ pre.length ∧ pre.getLast? = some 0)) :
    ∀ (n : Nat) (d : List Nat), d.length = n → 0 ∉ d → d ≠ [] →
    (∃ rest, mem = pre ++ d ++ rest) → back mem (pre.length + n - 1) = some pre.length := by
  intro n
  induction n with
  | zero => intro d hn _ hne _; exact absurd (List.length_eq_zero_iff.mp hn) hne
  | succ n ih =>
    intro d hn h0 hne hmem
    obtain ⟨rest, hmem⟩ := hmem
    obtain ⟨d', c, rfl⟩ : ∃ d' c, d = d' ++ [c] :=
      ⟨d.dropLast, d.getLast hne, (List.dropLast_concat_getLast hne).symm⟩
    have hn' : d'.length = n := by simpa using hn
    have hc : c ≠ 0 := fun h => h0 (by subst h; simp)
    have hget : mem[pre.length + n]? = some c := by
      rw [hmem, ← List.append_assoc, List.append_assoc, List.getElem?_append_right (by simp; omega)]
      simp [hn']
    rw [show pre.length + (n + 1) - 1 = pre.length + n by omega]
    by_cases hz : pre.length + n = 0
    · have : pre.length = 0 := by omega
      rw [hz, back, this]
    · obtain ⟨q, hq⟩ : ∃ q, pre.length + n = q + 1 := ⟨pre.length + n - 1, by omega⟩
      rw [hq, back, ← hq, hget, Option.bind_some, if_neg hc]
      by_cases hd' : d' = []
      · subst hd'
        have hn0 : n = 0 := by simpa using hn'.symm
        subst hn0
        rcases hpre with rfl | ⟨h2, hl⟩
        · simp at hz
        · obtain ⟨r, rfl⟩ : ∃ r, q = r + 1 := ⟨q - 1, by omega⟩
          have hg : mem[r + 1]? = some 0 := by
            rw [hmem, List.append_assoc, List.getElem?_append_left (by omega)]
            rw [List.getLast?_eq_getElem?] at hl
            rw [show r + 1 = pre.length - 1 by omega]
            exact hl
          rw [back, hg, Option.bind_some, if_pos rfl]
          congr 1; omega
      · have := ih d' hn' (fun h => h0 (by simp [h])) hd' ⟨c :: rest, by rw [hmem]; simp⟩
        rw [← this]
        congr 1; omega

theorem laid_append (a b : List (List Nat)) : laid (a ++ b) = laid a ++ laid b := by
  simp [laid]

theorem laid_shape (ds : List (List Nat)) (hn : ∀ e ∈ ds, Name e) :
    laid ds = [] ∨ (2 ≤ (laid ds).length ∧ (laid ds).getLast? = some 0) := by
  by_cases h : ds = []
  · subst h; exact Or.inl rfl
  · right
    obtain ⟨a, d, rfl⟩ : ∃ a d, ds = a ++ [d] :=
      ⟨ds.dropLast, ds.getLast h, (List.dropLast_concat_getLast h).symm⟩
    have hd := (hn d (by simp)).1
    have : 0 < d.length := List.length_pos_iff.mpr hd
    rw [laid_append]
    constructor
    · simp [laid]; omega
    · simp [laid]

theorem backward_ok {mem : List Nat} (all : List (List Nat)) (hn : ∀ e ∈ all, Name e)
    (hall : At mem 0 all) :
    ∀ (n : Nat) (k : Nat) (ds : List (List Nat)) (d : List Nat) (more : List (List Nat)),
      ds.length = n → n < k → all = ds ++ d :: more →
      backward mem k (laid ds).length = some ((ds ++ [d]).reverse) := by
  obtain ⟨rest0, hall⟩ := hall
  rw [List.drop_zero] at hall
  have hat : ∀ ds more, all = ds ++ more → At mem (laid ds).length more := by
    intro ds more h
    refine ⟨rest0, ?_⟩
    rw [hall, h, laid_append, List.append_assoc, List.drop_left]
  intro n
  induction n with
  | zero =>
    intro k ds d more hl hk ha
    obtain ⟨k, rfl⟩ : ∃ j, k = j + 1 := ⟨k - 1, by omega⟩
    have : ds = [] := List.length_eq_zero_iff.mp hl
    subst this
    have hd := (hn d (by rw [ha]; simp)).2.1
    have hs : str mem 0 = d := At.str (p := 0) (hat [] (d :: more) ha) hd
    simp only [laid, List.flatMap_nil, List.length_nil, backward, previous, if_true]
    rw [Option.bind_some, hs]
    rfl
  | succ n ih =>
    intro k ds d more hl hk ha
    obtain ⟨k, rfl⟩ : ∃ j, k = j + 1 := ⟨k - 1, by omega⟩
    have hne : ds ≠ [] := by intro h; subst h; simp at hl
    obtain ⟨a, e, rfl⟩ : ∃ a e, ds = a ++ [e] :=
      ⟨ds.dropLast, ds.getLast hne, (List.dropLast_concat_getLast hne).symm⟩
    have hd := (hn d (by rw [ha]; simp)).2.1
    have he := hn e (by rw [ha]; simp)
    have hepos : 0 < e.length := List.length_pos_iff.mpr he.1
    have hs : str mem (laid (a ++ [e])).length = d :=
      At.str (hat (a ++ [e]) (d :: more) ha) hd
    have hlen : (laid (a ++ [e])).length = (laid a).length + e.length + 1 := by
      rw [laid_append]; simp [laid]; omega
    have hback := back_ok (mem := mem) (laid a)
      (laid_shape a (fun x hx => hn x (by rw [ha]; simp [hx]))) e.length e rfl he.2.1 he.1
      ⟨0 :: (laid (d :: more) ++ 0 :: rest0), by rw [hall, ha]; simp [laid]⟩
    have hprev : previous mem (laid (a ++ [e])).length = some (some (laid a).length) := by
      unfold previous
      rw [if_neg (by omega), if_neg (by omega),
        show (laid (a ++ [e])).length - 2 = (laid a).length + e.length - 1 by omega, hback]
      rfl
    simp only [backward]
    rw [hprev, hs]
    simp only [Option.bind_some]
    rw [ih k a e (d :: more) (by simpa using hl) (by omega) (by rw [ha]; simp)]
    simp

/-! ## C79 -/

/-- C79: for every list of directories which fits, sounds are looked for in exactly
    these directories in the order written, and settings are read from exactly these
    directories in the opposite order (so that the first directory wins); no step
    leaves the array. -/
theorem C79_path (mem : List Nat) (ds : List (List Nat × Bool)) (hne : ds ≠ [])
    (hn : ∀ d ∈ ds, Name d.1) (hfit : (laid (ds.map (·.1))).length + 1 ≤ mem.length) :
    ∃ m, chdir mem (written ds) = some (some m) ∧ m.length = mem.length ∧
      forward m ds.length 0 = some (ds.map (·.1)) ∧
      ∃ p, last m ds.length 0 = some p ∧
        backward m ds.length p = some (ds.map (·.1)).reverse := by
  have hc := copied_written ds hne hn
  have hl := written_last ds hne hn
  have hn' : ∀ e ∈ ds.map (·.1), Name e := by
    intro e he
    obtain ⟨d, hd, rfl⟩ := List.mem_map.mp he
    exact hn d hd
  refine ⟨laid (ds.map (·.1)) ++ [0] ++ mem.drop ((laid (ds.map (·.1))).length + 1), ?_, ?_, ?_⟩
  · unfold chdir
    rw [if_neg (fun h => hl h.2)]
    simp only [hc]
    rw [if_pos (by simpa using hfit)]
    simp
  · simp; omega
  · have hat : At (laid (ds.map (·.1)) ++ [0] ++ mem.drop ((laid (ds.map (·.1))).length + 1)) 0
        (ds.map (·.1)) := ⟨mem.drop ((laid (ds.map (·.1))).length + 1), by simp⟩
    generalize laid (ds.map (·.1)) ++ [0] ++ mem.drop ((laid (ds.map (·.1))).length + 1) = m at *
    have hlen : ds.length = (ds.map (·.1)).length := by simp
    rw [hlen]
    have hne' : ds.map (·.1) ≠ [] := by simpa using hne
    generalize ds.map (·.1) = es at *
    refine ⟨forward_ok es es.length 0 hne' (by omega) hat hn', ?_⟩
    obtain ⟨a, d, rfl⟩ : ∃ a d, es = a ++ [d] :=
      ⟨es.dropLast, es.getLast hne', (List.dropLast_concat_getLast hne').symm⟩
    refine ⟨_, last_ok a d _ 0 (by simp) hat hn', ?_⟩
    rw [Nat.zero_add]
    exact backward_ok (a ++ [d]) hn' hat a.length _ a d [] rfl (by simp) rfl

-- "abc/;d;ef"
example : written [([97, 98, 99], true), ([100], false), ([101, 102], false)] =
    [97, 98, 99, 47, 59, 100, 59, 101, 102] := rfl
example : ∀ d ∈ [([97, 98, 99], true), ([100], false), ([101, 102], false)], Name d.1 := by
  intro d hd
  simp only [List.mem_cons, List.not_mem_nil, or_false] at hd
  rcases hd with rfl | rfl | rfl <;> simp [Name]
example : (chdir (List.replicate 128 9) [97, 98, 99, 47, 59, 100, 59, 101, 102]).bind (fun r => r.bind
    fun m => (last m 9 0).bind fun p => backward m 9 p) = some [[101, 102], [100], [97, 98, 99]] := by
  decide +kernel

/-- A single path ending in a slash is refused and nothing changes. -/
theorem C79_slash (mem d : List Nat) (hd : d ≠ []) : chdir mem (d ++ [47]) = some none := by
  have : 0 < d.length := List.length_pos_iff.mpr hd
  unfold chdir
  rw [if_pos ⟨by simp; omega, by simp⟩]

/-- A search path of more than 126 characters is written past the end of the array
    (for instance by the command `cd`). -/
theorem C79_overflow_counterexample :
    chdir (List.replicate 128 0) (List.replicate 127 97) = none := by decide +kernel

/-- An empty directory hides those after it: of `a;;b` only `a` is searched. -/
theorem C79_empty_counterexample :
    (chdir (List.replicate 128 0) [97, 59, 59, 98]).bind (fun r => r.bind fun m => forward m 9 0) =
      some [[97]] := by decide +kernel

/-- With an empty first directory (`;b`) reading the settings leaves the array. -/
theorem C79_first_empty_counterexample :
    (chdir (List.replicate 128 0) [59, 98]).bind (fun r => r.bind fun m => last m 9 0) = some 1 ∧
    ∀ m, previous m 1 = none :=
  ⟨by decide +kernel, fun _ => rfl⟩

end Verif.Prop.SearchPath
