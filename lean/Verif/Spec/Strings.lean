import Verif.Model.Strings

/-! Vocabulary for texts. -/

namespace Expreduce

/-- The bytes of a text in UTF-8. -/
def utf8 (s : List Char) : Bytes := s.flatMap String.utf8EncodeChar

/-- All characters are ASCII. -/
def AsciiText (s : List Char) : Prop := ∀ c ∈ s, c.val ≤ 127

/-- `b` occurs in `s`. -/
def OccursIn (b s : Bytes) : Prop := ∃ p q, s = p ++ b ++ q

/-- `s` cut at the instances of `b`: the pieces between them. No instance of `b` begins earlier than the place of the next cut, and none is left in the last piece. -/
def CutAt (b : Bytes) : Bytes → List Bytes → Prop
  | _, [] => False
  | s, [p] => s = p ∧ ¬ OccursIn b s
  | s, p :: q :: r => ∃ t, s = p ++ b ++ t ∧ (∀ p' q', s = p' ++ b ++ q' → p.length ≤ p'.length) ∧ CutAt b t (q :: r)

/-- Pieces joined with `a` in between. -/
def joinWith (a : Bytes) : List Bytes → Bytes
  | [] => []
  | [p] => p
  | p :: q :: r => p ++ a ++ joinWith a (q :: r)

end Expreduce
