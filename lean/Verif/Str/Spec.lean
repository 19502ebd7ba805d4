import Verif.Str.Model
/-!
# What the strings theorems speak about

Defined without the functions of the model.
-/
namespace Verif.Str

/-- Bytes that are text: the encoding of some characters. -/
def IsText (b : Bytes) : Prop := ∃ s : Text, s.flatMap String.utf8EncodeChar = b

/-- The lexicographic order of byte strings: a proper prefix is smaller, otherwise the first difference decides. -/
inductive Less : Bytes → Bytes → Prop
  | prefix (b : UInt8) (bs : Bytes) : Less [] (b :: bs)
  | here {a b : UInt8} (as bs : Bytes) : a.toNat < b.toNat → Less (a :: as) (b :: bs)
  | later (a : UInt8) {as bs : Bytes} : Less as bs → Less (a :: as) (a :: bs)

/-- `sep` occurs in `s` after `n` characters. -/
def Occurs (sep s : Text) (n : Nat) : Prop := ∃ rest, s.drop n = sep ++ rest

/-- Nothing that follows `s` makes the separator begin inside `s`: in `s` followed by the separator the
separator occurs at the end only.  (For a separator of one character: `s` does not contain it.) -/
def Clean (sep s : Text) : Prop := ∀ n, Occurs sep (s ++ sep) n → n = s.length

/-- strings with the separator between them -/
def between (sep : Text) : List Text → Text
  | [] => []
  | [s] => s
  | s :: t :: rest => s ++ sep ++ between sep (t :: rest)

end Verif.Str
