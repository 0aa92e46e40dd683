/-!
# How a mark under a line of text is read (specification for C57 and C61)
-/

namespace Patsy.Spec

/-- The characters of the first line that have a `^` below them. -/
def underlined (line marks : List Char) : List Char :=
  ((line.zip marks).filter fun p => p.2 = '^').map Prod.fst

/-- The text consists of the message, the formula on a line of its own, and a line with marks under it: nothing but blanks and,
without a gap, carets.  What stands above the carets is `marked`. -/
structure Shows (text message code marked : List Char) : Prop where
  lines : ∃ line marks, text = message ++ '\n' :: line ++ '\n' :: marks ∧
    (∃ blanks, line = blanks ++ code ∧ ∀ c ∈ blanks, c = ' ') ∧
    (∃ k l, marks = List.replicate k ' ' ++ List.replicate l '^' ∧ 0 < l) ∧
    marks.length ≤ line.length ∧ underlined line marks = marked
  nonempty : marked ≠ []

end Patsy.Spec
