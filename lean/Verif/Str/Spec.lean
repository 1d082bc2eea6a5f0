import Verif.Str.Model
/-!
# What the text helpers are supposed to do

Written without reference to the functions of the model (except the character classes).
-/
namespace Verif.Str

/-- blanks and tabs only -/
def Blanks (s : Text) : Prop := ∀ c ∈ s, c = 32 ∨ c = 9
/-- a word: not empty, no blank or tab in it -/
def IsWord (w : Text) : Prop := w ≠ [] ∧ ∀ c ∈ w, c ≠ 32 ∧ c ≠ 9
/-- the text is at a word boundary: it ends here or goes on with a blank or tab -/
def AtBoundary (s : Text) : Prop := s = [] ∨ ∃ c t, s = c :: t ∧ (c = 32 ∨ c = 9)

/-- `Words s ws`: `s` consists of the words `ws`, separated by blanks and tabs (possibly with
blanks in front and at the end). -/
inductive Words : Text → List Text → Prop
  | none {s} : Blanks s → Words s []
  | cons {b w s ws} : Blanks b → IsWord w → AtBoundary s → Words s ws → Words (b ++ (w ++ s)) (w :: ws)

/-- equality up to the case of ASCII letters -/
def SameCI (a b : Text) : Prop := a.map toLower = b.map toLower

end Verif.Str
