import Verif.Model.Print
import Mathlib.Data.Rat.Defs
import Mathlib.Algebra.Order.Field.Rat
import Mathlib.Algebra.Order.Group.Unbundled.Abs
import Mathlib.Algebra.Group.Even

/-!
# Specification of the printing of design matrices

What a decimal number is, what rounding is, and how a table is laid out.  Of the model only the type of floating point numbers
is used.
-/

namespace Patsy.Spec.Print

open Patsy.Print (Num)

/-! ### Numbers -/

/-- The value of a floating point number. -/
def value : Num → Option ℚ
  | .fin q => some q
  | .negZero => some 0
  | _ => none

/-- The sign of a floating point number. -/
def negative : Num → Bool
  | .fin q => decide (q < 0)
  | .negZero => true
  | .inf neg => neg
  | .nan => false

/-- The value of a string of digits. -/
def whole (s : List Char) : ℕ := s.foldl (fun a c => 10 * a + (c.toNat - 48)) 0

def IsDigits (s : List Char) : Prop := ∀ c ∈ s, c.isDigit = true

/-- The text `s` is a decimal number with `d` digits after the point, without superfluous zeros in front, and stands for `v`. -/
inductive Decimal (d : ℕ) : List Char → Bool → ℚ → Prop
  | whole {ip} (hd : d = 0) (h1 : IsDigits ip) (h2 : ip ≠ []) (h3 : ip.head? = some '0' → ip = ['0']) (neg : Bool) :
      Decimal d ((if neg then ['-'] else []) ++ ip) neg ((if neg then -1 else 1) * whole ip)
  | point {ip fp} (hd : fp.length = d) (h0 : d ≠ 0) (h1 : IsDigits ip) (h2 : ip ≠ [])
      (h3 : ip.head? = some '0' → ip = ['0']) (h4 : IsDigits fp) (neg : Bool) :
      Decimal d ((if neg then ['-'] else []) ++ ip ++ '.' :: fp) neg
        ((if neg then -1 else 1) * (whole ip + whole fp / 10 ^ d))

/-- `v` is `x` rounded to `p` decimals, half to even. -/
def Rounded (p : ℕ) (x v : ℚ) : Prop :=
  ∃ m : ℤ, v = m / 10 ^ p ∧ |x - v| ≤ 1 / 2 / 10 ^ p ∧ (|x - v| = 1 / 2 / 10 ^ p → Even m)

/-- A column of numbers and its text: all finite numbers are rounded to `p` decimals and printed with the same number `d` of
decimals, the least with which all of them can be printed. -/
structure Shown (p d : ℕ) (xs : List Num) (ss : List (List Char)) : Prop where
  length : ss.length = xs.length
  le : d ≤ p
  finite : ∀ e ∈ xs.zip ss, ∀ q, value e.1 = some q → ∃ v, Rounded p q v ∧ Decimal d e.2 (negative e.1) v
  other : ∀ e ∈ xs.zip ss, value e.1 = none →
    e.2 = match e.1 with | .inf true => "-inf".toList | .inf false => "inf".toList | _ => "nan".toList
  fewest : ∀ d' < d, ∃ x ∈ xs, ∃ q v, value x = some q ∧ Rounded p q v ∧ ¬ ∃ m : ℤ, v * 10 ^ d' = m

/-! ### Tables -/

/-- `Laid gap pos ends cells line`: from position `pos` on, the line consists of the cells, the `j`-th of which ends at the
`j`-th position of `ends`, with blanks between them: at least `gap` before the first one and two before each of the others. -/
inductive Laid : ℕ → ℕ → List ℕ → List (List Char) → List Char → Prop
  | nil {gap pos} : Laid gap pos [] [] []
  | cons {gap pos n e ends cell cells rest} (hg : gap ≤ n) (he : pos + n + cell.length = e) (h : Laid 2 e ends cells rest) :
      Laid gap pos (e :: ends) (cell :: cells) (List.replicate n ' ' ++ cell ++ rest)

/-- The text is a table with these rows: one line of the given width for each, with right-aligned columns. -/
def Table (width : ℕ) (ends : List ℕ) (rows : List (List (List Char))) (text : List Char) : Prop :=
  ∃ lines : List (List Char), List.Forall₂ (fun row line => Laid 0 0 ends row line ∧ line.length = width) rows lines ∧
    text = lines.flatMap (· ++ ['\n'])

/-- The least width of a column with these cells. -/
def columnWidth (cells : List (List Char)) : ℕ := cells.foldr (fun s w => max s.length w) 0

/-- The least width of a table with these columns, which are given by their cells. -/
def tableWidth : List (List (List Char)) → ℕ
  | [] => 0
  | [c] => columnWidth c
  | c :: cs => columnWidth c + 2 + tableWidth cs

/-! ### Terms -/

/-- The terms and their columns, given the names and the numbers of columns, from column `start` on. -/
def termItems (reprStr : String → List Char) : ℕ → List (String × ℕ) → List (List Char)
  | _, [] => []
  | start, (name, n) :: rest =>
    (reprStr name ++ " (".toList ++
      (if n = 1 then "column ".toList ++ (toString start).toList
      else "columns ".toList ++ (toString start).toList ++ ":".toList ++ (toString (start + n)).toList) ++ ")".toList) ::
      termItems reprStr (start + n) rest

/-! ### The rest of the text -/

/-- The first line. -/
def title (n k : ℕ) : List Char :=
  "DesignMatrix with shape (".toList ++ (toString n).toList ++ ", ".toList ++ (toString k).toList ++ ")".toList ++ "\n".toList

/-- What is said about rows that are left out. -/
def omitted (n : ℕ) : List Char := "[".toList ++ (toString n).toList ++ " rows omitted]".toList ++ "\n".toList

/-- The last line, if there are numbers that are not shown. -/
def note : List Char := "\n".toList ++ "(to view full data, use np.asarray(this_obj))".toList

end Patsy.Spec.Print
