import Verif.Model.Bytes
/-!
What UTF-8 is, in terms of Lean's own encoding of characters.
-/
namespace Verif.Spec

/-- A text in UTF-8: the encodings of some characters (Unicode scalar values), one after the other. -/
def Text (s : Bytes) : Prop := ∃ cs : List Char, s = cs.flatMap String.utf8EncodeChar

/-- `s` is the beginning of the encoding of a character, or all of it. -/
def Starts (s : Bytes) : Prop := ∃ c : Char, s <+: String.utf8EncodeChar c

/-- Conversion to text as Unicode recommends it (section 3.9, substitution of maximal subparts): characters are kept;
where there is none, the longest beginning of a character, or one byte if there is not even that, gives way to
U+FFFD. -/
inductive Lossy : Bytes → Bytes → Prop
  | nil : Lossy [] []
  | char {c : Char} {s t : Bytes} : Lossy s t → Lossy (String.utf8EncodeChar c ++ s) (String.utf8EncodeChar c ++ t)
  | bad {b s t : Bytes} : b ≠ [] → (∀ c : Char, ¬String.utf8EncodeChar c <+: b ++ s) → (b.length = 1 ∨ Starts b) →
      (∀ x, s.head? = some x → ¬Starts (b ++ [x])) → Lossy s t → Lossy (b ++ s) (String.utf8EncodeChar '�' ++ t)

end Verif.Spec
