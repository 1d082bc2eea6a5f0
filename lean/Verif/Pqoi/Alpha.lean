import Verif.Pqoi.Lemmas

/-! Model of the alpha codec, pqoi/pqoi.h:565-770. -/
set_option linter.unusedSimpArgs false
namespace Verif.Pqoi

/-- `AlphaDecoder::alphaBlend`, pqoi/pqoi.h:572-578.  All arithmetic is reduced modulo 2^32
(the C++ product `out * 0x10001` is a signed `int` product that overflows for large `out`;
the model takes the wrap-around value every supported compiler produces). -/
def alphaBlend (out inp : Pixel) (alpha : Nat) : Pixel :=
  let tmp := ((out.toNat * 0x10001) % 2^32) &&& 0x7E0F81F
  let tmp := (((tmp * alpha) % 2^32) >>> 5) &&& 0x7E0F81F
  BitVec.ofNat 16 (tmp + (tmp >>> 16) + inp.toNat)

/-- First loop of `encodePixelsWithAlpha`, pqoi/pqoi.h:722-730: length (at most 64) of the run of
equal alphas at the front (counting the first element). -/
def sameRun (a : Nat) : Nat → List Nat → Nat
  | 0, _ => 0
  | _, [] => 0
  | n+1, x :: xs => if x = a then sameRun a n xs + 1 else 0

/-- `getAlpha(alphas + i)`; `junk` is whatever is stored behind the array (the code can read
one element past the end, pqoi/pqoi.h:737). -/
def alphaAt (junk : Nat) (al : List Nat) (i : Nat) : Nat := (al[i]?).getD junk

/-- Second loop, pqoi/pqoi.h:735-741. -/
def rawRun (junk : Nat) (al : List Nat) (run : Nat) : Nat :=
  if run < 64 ∧ al.length > run + 1 then
    if alphaAt junk al (run + 1) = alphaAt junk al run ∧ alphaAt junk al (run + 2) = alphaAt junk al run
    then run else rawRun junk al (run + 1)
  else run
termination_by 64 - run

/-- One iteration of `encodePixelsWithAlpha`: run length and emitted bytes, pqoi/pqoi.h:722-764. -/
def alphaStep (junk : Nat) (st : Base) (px : List Pixel) (al : List Nat) (alpha : Nat) : Nat × Base × List Nat :=
  let run := sameRun alpha 64 al
  if run < 2 then
    let run := rawRun junk al 1
    let e := encodePixels st (px.take run)
    (run, e.1, (0x40 + (run - 1)) :: (e.2 ++ al.take run))
  else if alpha = 32 then (run, st, [run - 1])
  else if alpha = 0 then
    let e := encodePixels st (px.take run)
    (run, e.1, (0xC0 + (run - 1)) :: e.2)
  else
    let e := encodePixels st (px.take run)
    (run, e.1, (0x80 + (run - 1)) :: (e.2 ++ [alpha]))

theorem rawRun_pos (junk al r) (h : 1 ≤ r) : 1 ≤ rawRun junk al r := by
  fun_induction rawRun junk al r with
  | case1 => assumption
  | case2 r h1 h2 ih => exact ih (by omega)
  | case3 => assumption

theorem alphaStep_pos (junk st px al a) : 1 ≤ (alphaStep junk st px al a).1 := by
  unfold alphaStep
  have := rawRun_pos junk al 1 (Nat.le_refl _)
  simp only
  repeat' split
  all_goals simp
  all_goals omega

/-- `encodePixelsWithAlpha`, pqoi/pqoi.h:720-769. -/
def encodeAlpha (junk : Nat) (st : Base) (px : List Pixel) (al : List Nat) : Base × List Nat :=
  match px, al with
  | p :: px, a :: al =>
    let r := alphaStep junk st (p :: px) (a :: al) a
    let q := encodeAlpha junk r.2.1 (px.drop (r.1 - 1)) (al.drop (r.1 - 1))
    (q.1, r.2.2 ++ q.2)
  | _, _ => (st, [])
termination_by px.length

/-- Result of `DecodeBlockWithAlphas`: state, pixels, alphas (both most recent first). -/
abbrev AOut := Base × List Pixel × List Nat

/-- One iteration of `DecodeBlockWithAlphas`, pqoi/pqoi.h:607-637. -/
def decodeAlphaOne (st : Base) (hist : List Pixel) (inp : List Nat) :
    Option (Base × List Pixel × List Nat × List Nat) :=
  match inp with
  | [] => none
  | byte :: inp =>
    let n := (byte &&& 0x3F) + 1
    let kind := (byte >>> 6) % 4
    if kind = 0 then some (st, List.replicate n 0, List.replicate n 32, inp)
    else
      match decodeBlock st hist n inp with
      | none => none
      | some (st', h, inp) =>
        -- `out += N`: pixels written beyond N are not kept
        let new := (h.take (h.length - hist.length)).drop (h.length - hist.length - n)
        if kind = 1 then
          if inp.length < n then none else some (st', new, (inp.take n).reverse, inp.drop n)
        else if kind = 2 then
          match inp with
          | [] => none
          | a :: inp => some (st', new, List.replicate n a, inp)
        else some (st', new, List.replicate n 0, inp)

theorem decodeBlock_rest_le {st hist need inp st' h rest}
    (e : decodeBlock st hist need inp = some (st', h, rest)) : rest.length ≤ inp.length := by
  fun_induction decodeBlock st hist need inp with
  | case1 => cases e; exact Nat.le_refl _
  | case2 => cases e
  | case3 st hist need inp hn st1 new rest1 h1 ih =>
    have := ih e; have := decodeOne_shrinks h1; omega

theorem decodeAlphaOne_shrinks {st hist inp st' new na rest}
    (e : decodeAlphaOne st hist inp = some (st', new, na, rest)) : rest.length < inp.length := by
  unfold decodeAlphaOne at e
  split at e
  · cases e
  · simp only at e
    split at e
    · cases e; simp
    · split at e
      · cases e
      · rename_i hd
        have := decodeBlock_rest_le hd
        repeat' split at e
        all_goals (first | cases e | skip)
        all_goals simp at *
        all_goals omega

/-- `DecodeBlockWithAlphas`, pqoi/pqoi.h:605-639. -/
def decodeAlpha (st : Base) (hist : List Pixel) (ahist : List Nat) (need : Nat) (inp : List Nat) :
    Option (Base × List Pixel × List Nat × List Nat) :=
  if need = 0 then some (st, hist, ahist, inp)
  else
    match _h : decodeAlphaOne st hist inp with
    | none => none
    | some (st', new, na, rest) => decodeAlpha st' (new ++ hist) (na ++ ahist) (need - new.length) rest
termination_by inp.length
decreasing_by exact decodeAlphaOne_shrinks _h

end Verif.Pqoi
