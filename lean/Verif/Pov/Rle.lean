/-!
# Run length encoding of images

Model of pov_tools/rle.h.  Bytes are numbers below 256.  A failed `assert`, or an access outside an array, is
`none`.
-/
set_option linter.unusedSimpArgs false
namespace Verif.Pov

/-! ## Decoder -/

/-- pov_tools/rle.h:27-31: copy `len` bytes from `off` bytes back, one at a time -/
def copyBack (off : Nat) : Nat → List Nat → Option (List Nat)
  | 0, out => some out
  | n + 1, out => do
    if out.length < off then none else
    let b ← out[out.length - off]?
    copyBack off n (out ++ [b])

/-- `assert(olen <= output_length)` -/
def checkLen (n : Nat) (out : List Nat) : Option (List Nat) := if out.length ≤ n then some out else none

/-- one round of the loop, pov_tools/rle.h:22-46: the output and the rest of the input -/
def decStep (n : Nat) (out : List Nat) : List Nat → Option (List Nat × List Nat)
  | [] => none
  | c :: r =>
    if c = 255 then
      match r with
      | o :: l :: r' => do
        let out' ← copyBack (o + 1) l out
        let out' ← checkLen n out'
        some (out', r')
      | _ => none
    else if c < 128 then
      if r.length < c + 1 then none
      else do
        let out' ← checkLen n (out ++ r.take (c + 1))
        some (out', r.drop (c + 1))
    else
      match r with
      | v :: r' => do
        let out' ← checkLen n (out ++ List.replicate (c - 128 + 2) v)
        some (out', r')
      | _ => none

/-- `rle_decode`, pov_tools/rle.h:18-53.  Every round reads at least two bytes, so `inp.length` rounds are enough. -/
def decLoop (n : Nat) : Nat → List Nat → List Nat → Option (List Nat)
  | 0, out, _ => if out.length < n then none else some out
  | f + 1, out, inp =>
    if out.length < n then do
      let q ← decStep n out inp
      decLoop n f q.1 q.2
    else some out

def decode (n : Nat) (inp : List Nat) : Option (List Nat) := decLoop n inp.length [] inp

/-! ## Encoder -/

/-- pov_tools/rle.h:72-74: how many bytes of `a` are equal to those of `b`, at most `n` -/
def matchLen : Nat → List Nat → List Nat → Nat
  | n + 1, x :: a, y :: b => if x ≠ y then 0 else matchLen n a b + 1
  | _, _, _ => 0

/-- pov_tools/rle.h:69-79: the best match `(best, best_offset)`; `n` rounds to go -/
def bestLoop (inp : List Nat) (i : Nat) : Nat → Nat → Int → Int → Int × Int
  | 0, _, best, off => (best, off)
  | n + 1, p, best, off =>
    if i < p + 1 then (best, off)
    else
      let l := matchLen 256 (inp.drop i) (inp.drop (i - 1 - p))
      if (l : Int) > best then bestLoop inp i n (p + 1) l p else bestLoop inp i n (p + 1) best off

/-- pov_tools/rle.h:81-85: the length of the run that starts `a` -/
def runLen : List Nat → Nat
  | x :: y :: a => if x ≠ y then 1 else runLen (y :: a) + 1
  | _ => 1

/-- the variables of `rle_encode_internal`: `i`, the output and the index of `cnt` -/
structure Enc where
  i : Nat
  out : List Nat
  cnt : Option Nat

/-- `VALID_CNT`, pov_tools/rle.h:62 -/
def Enc.valid (s : Enc) : Bool :=
  match s.cnt with
  | none => false
  | some c => decide (s.out.getD c 0 < 255 ∧ c + s.out.getD c 0 + 2 = s.out.length)

/-- the value of `*cnt` -/
def Enc.count (s : Enc) : Nat := s.out.getD (s.cnt.getD 0) 0

/-- one round of the loop, pov_tools/rle.h:65-108.  Bytes are stored modulo 256. -/
def Enc.step (inp : List Nat) (s : Enc) : Enc :=
  let m := bestLoop inp s.i 256 0 (-1) (-1)
  let l := runLen (inp.drop s.i)
  if m.1 > (l : Int) + 1 ∧ m.1 > (if s.valid then 3 else 2) then
    { s with out := s.out ++ [255, (m.2 % 256).toNat, (m.1 % 256).toNat], i := s.i + m.1.toNat }
  else if l ≥ (if s.valid then 3 else 2) then
    let l := if l > 127 then 127 else l
    { s with out := s.out ++ [128 + (l - 2), inp.getD s.i 0], i := s.i + l }
  else if s.valid ∧ s.count < 127 then
    { s with out := (s.out.set (s.cnt.getD 0) (s.count + 1)) ++ [inp.getD s.i 0], i := s.i + 1 }
  else { cnt := some s.out.length, out := s.out ++ [0, inp.getD s.i 0], i := s.i + 1 }

/-- the loop; every round goes on by at least one byte -/
def encLoop (inp : List Nat) : Nat → Enc → Enc
  | 0, s => s
  | n + 1, s => if s.i < inp.length then encLoop inp n (s.step inp) else s

/-- `rle_encode_internal`, pov_tools/rle.h:55-111 -/
def encode (inp : List Nat) : List Nat := (encLoop inp inp.length ⟨0, [], none⟩).out

/-! ## Tokens (specification of the format) -/

inductive Tok where
  | lit (bs : List Nat)
  | run (n v : Nat)
  | copy (off n : Nat)

def Tok.bytes : Tok → List Nat
  | .lit bs => (bs.length - 1) :: bs
  | .run n v => [n + 126, v]
  | .copy off n => [255, off, n]

def Tok.Ok : Tok → Prop
  | .lit bs => 1 ≤ bs.length ∧ bs.length ≤ 128
  | .run n _ => 2 ≤ n ∧ n ≤ 127
  | .copy off n => off ≤ 255 ∧ 1 ≤ n ∧ n ≤ 255

/-- `out` followed by the token gives `out'` -/
def Tok.Adds : Tok → List Nat → List Nat → Prop
  | .lit bs, out, out' => out' = out ++ bs
  | .run n v, out, out' => out' = out ++ List.replicate n v
  | .copy off n, out, out' => off < out.length ∧ ∃ t, out' = out ++ t ∧ t.length = n ∧ ∀ j, j < n → t[j]? = out'[out.length - 1 - off + j]?

inductive Expands : List Tok → List Nat → List Nat → Prop
  | nil (o) : Expands [] o o
  | cons {t ts a b c} (h : Tok.Ok t) (h1 : t.Adds a b) (h2 : Expands ts b c) : Expands (t :: ts) a c

theorem Expands.append {ts us : List Tok} {a b c : List Nat} (h : Expands ts a b) (h' : Expands us b c) : Expands (ts ++ us) a c := by
  induction h with
  | nil => exact h'
  | cons h1 h2 _ ih => exact .cons h1 h2 (ih h')

theorem Expands.snoc {ts : List Tok} {t : Tok} {a b c : List Nat} (h : Expands ts a b) (ht : t.Ok) (h' : t.Adds b c) : Expands (ts ++ [t]) a c :=
  h.append (.cons ht h' (.nil _))

theorem Expands.inv_snoc {ts : List Tok} {t : Tok} {a c : List Nat} (h : Expands (ts ++ [t]) a c) : ∃ b, Expands ts a b ∧ t.Ok ∧ t.Adds b c := by
  induction ts generalizing a with
  | nil =>
    cases h with
    | cons h1 h2 h3 => cases h3; exact ⟨a, .nil _, h1, h2⟩
  | cons u ts ih =>
    cases h with
    | cons h1 h2 h3 =>
      obtain ⟨b, h4, h5⟩ := ih h3
      exact ⟨b, .cons h1 h2 h4, h5⟩

theorem Adds.grows {t : Tok} {a b : List Nat} (ht : t.Ok) (h : t.Adds a b) : a.length < b.length ∧ a <+: b := by
  cases t with
  | lit bs => simp only [Tok.Adds, Tok.Ok] at h ht; subst h; exact ⟨by simp; omega, List.prefix_append _ _⟩
  | run n v => simp only [Tok.Adds, Tok.Ok] at h ht; subst h; exact ⟨by simp; omega, List.prefix_append _ _⟩
  | copy o n =>
    simp only [Tok.Adds, Tok.Ok] at h ht
    obtain ⟨_, t, h1, h2, _⟩ := h
    subst h1; exact ⟨by simp; omega, List.prefix_append _ _⟩

theorem Expands.grows {ts : List Tok} {a b : List Nat} (h : Expands ts a b) : a.length + ts.length ≤ b.length := by
  induction h with
  | nil => simp
  | cons h1 h2 _ ih => have := (Adds.grows h1 h2).1; simp; omega

/-! ## The decoder expands tokens -/

theorem copyBack_ok {off : Nat} : ∀ (n : Nat) (out t : List Nat), off < out.length → t.length = n →
    (∀ j, j < n → t[j]? = (out ++ t)[out.length - 1 - off + j]?) → copyBack (off + 1) n out = some (out ++ t)
  | 0, out, t, _, hl, _ => by
    have : t = [] := List.length_eq_zero_iff.mp hl
    subst this; simp [copyBack]
  | n + 1, out, t, ho, hl, h => by
    match t, hl with
    | b :: t, hl =>
      have h0 := h 0 (by omega)
      simp only [List.getElem?_cons_zero, Nat.add_zero] at h0
      rw [List.getElem?_append_left (by omega)] at h0
      have hb : out[out.length - (off + 1)]? = some b := by rw [h0]; congr 1; omega
      unfold copyBack
      rw [if_neg (by omega), hb]
      simp only [Option.bind_eq_bind, Option.bind_some]
      have e : out ++ b :: t = (out ++ [b]) ++ t := by simp
      rw [copyBack_ok n (out ++ [b]) t (by simp; omega) (by simpa using hl) ?_, e]
      intro j hj
      have := h (j + 1) (by omega)
      rw [List.getElem?_cons_succ, e] at this
      rw [this]
      congr 1
      simp; omega

theorem decStep_tok {n : Nat} {t : Tok} {a b rest : List Nat} (ht : t.Ok) (h : t.Adds a b) (hn : b.length ≤ n) : decStep n a (t.bytes ++ rest) = some (b, rest) := by
  cases t with
  | lit bs =>
    simp only [Tok.Adds, Tok.Ok] at h ht
    subst h
    show decStep n a ((bs.length - 1) :: (bs ++ rest)) = _
    simp only [decStep]
    rw [if_neg (by omega), if_pos (by omega), if_neg (by simp; omega)]
    have e : bs.length - 1 + 1 = bs.length := by omega
    rw [e, List.take_left, List.drop_left]
    simp only [checkLen, if_pos hn]
    rfl
  | run m v =>
    simp only [Tok.Adds, Tok.Ok] at h ht
    subst h
    show decStep n a ((m + 126) :: v :: rest) = _
    simp only [decStep]
    rw [if_neg (by omega), if_neg (by omega)]
    have e : m + 126 - 128 + 2 = m := by omega
    simp only [e, checkLen, if_pos hn]
    rfl
  | copy o m =>
    simp only [Tok.Adds, Tok.Ok] at h ht
    obtain ⟨ho, t, rfl, hl, hj⟩ := h
    show decStep n a (255 :: o :: m :: rest) = _
    simp only [decStep]
    rw [if_pos trivial]
    simp only [copyBack_ok m a t ho hl hj, checkLen, Option.bind_eq_bind, Option.bind_some, if_pos hn]

theorem Expands.prefix {ts : List Tok} {a b : List Nat} (h : Expands ts a b) : a <+: b := by
  induction h with
  | nil => exact List.prefix_refl _
  | cons h1 h2 _ ih => exact (Adds.grows h1 h2).2.trans ih

theorem decLoop_toks {n : Nat} {ts : List Tok} {a b : List Nat} (h : Expands ts a b) (hn : b.length = n) (rest : List Nat) :
    ∀ f, ts.length ≤ f → decLoop n f a (ts.flatMap Tok.bytes ++ rest) = some b := by
  induction h with
  | nil o =>
    intro f _
    cases f with
    | zero => simp [decLoop, hn]
    | succ f => simp [decLoop, hn]
  | cons h1 h2 h3 ih =>
    intro f hf
    rename_i t ts a' b' c'
    cases f with
    | zero => simp at hf
    | succ f =>
      have hp := h3.prefix.length_le
      have hg := (Adds.grows h1 h2).1
      unfold decLoop
      rw [if_pos (by omega)]
      rw [List.flatMap_cons, List.append_assoc, decStep_tok h1 h2 (by omega)]
      exact ih hn f (by simp at hf; omega)

theorem bytes_length_pos (t : Tok) : 1 ≤ t.bytes.length := by cases t <;> simp [Tok.bytes]

theorem flatMap_length_le (ts : List Tok) : ts.length ≤ (ts.flatMap Tok.bytes).length := by
  induction ts with
  | nil => simp
  | cons t ts ih => rw [List.flatMap_cons, List.length_append, List.length_cons]; have := bytes_length_pos t; omega

/-- C43: the decoder gives what the tokens stand for -/
theorem decode_toks {ts : List Tok} {b : List Nat} (h : Expands ts [] b) (rest : List Nat) : decode b.length (ts.flatMap Tok.bytes ++ rest) = some b :=
  decLoop_toks h rfl rest _ (by have := flatMap_length_le ts; rw [List.length_append]; omega)

end Verif.Pov
