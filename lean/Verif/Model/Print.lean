import Verif.Model.DesignInfo
import Mathlib.Data.Rat.Defs

/-!
# Model of the printing of design matrices (`patsy/design_info.py`)

Texts are lists of characters.  A finite floating point number is its exact value, a rational number (`-0.0` apart).
Only patsy's own printer `_MiniPPrinter` (util.py:475-499) is modelled: it writes what it is given, and its attribute
`indentation` is always 0.  Not modelled: IPython's printer, which is used if IPython is loaded (util.py:521-524).
-/

namespace Patsy.Print

open Patsy.Build

/-- A floating point number. -/
inductive Num where
  | fin (q : ℚ)
  | negZero
  | inf (neg : Bool)
  | nan
  deriving DecidableEq

/-- `str(n)` of a natural number. -/
def numeral (n : Nat) : List Char := Nat.toDigits 10 n

/-- The last `p` decimal digits of `m`. -/
def lastDigits : Nat → Nat → List Char
  | 0, _ => []
  | p + 1, m => lastDigits p (m / 10) ++ [Nat.digitChar (m % 10)]

/-- `a / b`, rounded to a natural number, half to even, as `printf` does. -/
def roundHalfEven (a b : Nat) : Nat :=
  if 2 * (a % b) < b then a / b else if b < 2 * (a % b) then a / b + 1 else a / b + (a / b) % 2

/-- `m / 10^p` with `p` decimals; no point if `p = 0`. -/
def fixed (p m : Nat) : List Char := numeral (m / 10 ^ p) ++ if p = 0 then [] else '.' :: lastDigits p m

/-- `"%.pf" % (x,)` (design_info.py:1060, 1064) in Python (correctly rounded, half to even, of the exact value). -/
def formatF (p : Nat) : Num → List Char
  | .fin q => (if q < 0 then ['-'] else []) ++ fixed p (roundHalfEven (q.num.natAbs * 10 ^ p) q.den)
  | .negZero => '-' :: fixed p 0
  | .inf neg => (if neg then ['-'] else []) ++ ['i', 'n', 'f']
  | .nan => ['n', 'a', 'n']

/-- An item of `mask` (design_info.py:1063, 1067-1072). -/
def simple (s : List Char) : Bool :=
  s.all (· ∈ ['+', '-', '0', '1', '2', '3', '4', '5', '6', '7', '8', '9', '.']) && decide ('.' ∈ s)

/-- `s.endswith(c)` for one character. -/
def endsWith (c : Char) (s : List Char) : Bool := s.getLast? == some c

/-- The loop `while True` (design_info.py:1076-1084) on the strings, each with its item of `mask`.  The number of rounds is
bounded; `formatColumn` allows enough of them (each one shortens the strings or changes `strip_char`). -/
def stripLoop : Nat → Char → List (Bool × List Char) → List (Bool × List Char)
  | 0, _, col => col
  | fuel + 1, c, col =>
    if col.all fun e => !e.1 || endsWith c e.2 then
      stripLoop fuel c (col.map fun e => if e.1 then (true, e.2.dropLast) else e)
    else if c = '0' then stripLoop fuel '.' col
    else col

/-- `_format_float_column` (design_info.py:1059-1085). -/
def formatColumn (p : Nat) (col : List Num) : List (List Char) :=
  let strs := col.map (formatF p)
  let masked := strs.map fun s => (simple s, s)
  if masked.any (·.1) then (stripLoop (p + 4) '0' masked).map (·.2) else strs

/-- `zip(*cols)`. -/
def zipAll {A : Type} : List (List A) → List (List A)
  | [] => []
  | [c] => c.map fun a => [a]
  | c :: cs => List.zipWith List.cons c (zipAll cs)

/-- `max_width` (design_info.py:1204-1209). -/
def maxWidth (col : List (List Char)) : Nat := (col.map List.length).foldl max 0

/-- `cell.rjust(width)`. -/
def rjust (width : Nat) (cell : List Char) : List Char := List.replicate (width - cell.length) ' ' ++ cell

/-- `sep.join(cells)` with `sep = "  "` (design_info.py:1228, 1232). -/
def joinCells : List (List Char) → List Char
  | [] => []
  | [c] => c
  | c :: cs => c ++ [' ', ' '] ++ joinCells cs

/-- `min_total_width` and `total_width` (design_info.py:1192-1194, 1218): `INDENT + SEP * (k - 1) + sum`. -/
def totalWidth (widths : List Nat) : Int := 2 + 2 * ((widths.length : Int) - 1) + (widths.sum : Int)

/-- The loop over the terms (design_info.py:1247-1255). -/
def termsText (reprStr : String → List Char) (slices : List (String × Slice)) : List Char :=
  slices.flatMap fun e =>
    (if e.2.start ≠ 0 then [',', ' '] else []) ++ reprStr e.1 ++
      [' ', '('] ++
        (if (e.2.stop : Int) - e.2.start = 1 then "column ".toList ++ numeral e.2.start
        else "columns ".toList ++ numeral e.2.start ++ [':'] ++ numeral e.2.stop) ++ [')']

/-- The columns of the first 30 rows, formatted (design_info.py:1196-1200); each row has an entry for each column. -/
def formattedCols (k : Nat) (rows : List (List Num)) : List (List (List Char)) :=
  (List.range k).map fun j => formatColumn 5 ((rows.take 30).map fun r => r.getD j .nan)

/-- `column_widths` (design_info.py:1211-1217). -/
def columnWidths (names : List (List Char)) (cols : List (List (List Char))) : List Nat :=
  List.zipWith (fun a b => max a b) (names.map List.length) (cols.map maxWidth)

/-- `print_numbers` (design_info.py:1190-1221); `ncols` is the number of names, which `DesignMatrix.__new__` checks. -/
def printNumbers (names : List (List Char)) (rows : List (List Num)) : Bool :=
  if totalWidth (names.map List.length) ≤ 78 then
    decide (totalWidth (columnWidths names (formattedCols names.length rows)) < 78)
  else false

/-- The lines of the table (design_info.py:1230-1234). -/
def tableText (names : List (List Char)) (cols : List (List (List Char))) : List Char :=
  (names :: zipAll cols).flatMap fun row => joinCells (List.zipWith rjust (columnWidths names cols) row) ++ ['\n']

/-- `DesignMatrix._repr_pretty_` (design_info.py:1175-1262) of a matrix with a `design_info`; `reprStr` and `reprNames` are
`repr` of a string and of a list of strings. -/
def reprMatrix {F D K : Type} (reprStr : String → List Char) (reprNames : List String → List Char) (d : DesignInfo F D K)
    (rows : List (List Num)) : List Char :=
  let names := d.columnNames.map String.toList
  let pn := printNumbers names rows
  "DesignMatrix with shape (".toList ++ numeral rows.length ++ ", ".toList ++ numeral names.length ++ [')'] ++ ['\n'] ++
    (if pn then
      tableText names (formattedCols names.length rows) ++
        (if 30 < rows.length then ['['] ++ numeral (rows.length - 30) ++ " rows omitted]".toList ++ ['\n'] else [])
    else "Columns:".toList ++ ['\n'] ++ reprNames d.columnNames ++ ['\n']) ++
    "Terms:".toList ++ ['\n'] ++ termsText reprStr d.termNameSlices ++
    (if pn = false ∨ 30 < rows.length then
      ['\n'] ++ "(to view full data, use np.asarray(this_obj))".toList
    else [])

end Patsy.Print
