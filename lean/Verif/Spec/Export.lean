import Verif.Model.Decimal

/-! # Specification: reading an exported table -/

namespace Mlp.Spec

/-- Without the blanks at both ends. -/
def trim (s : Str) : Str := ((s.dropWhile (· = ' ')).reverse.dropWhile (· = ' ')).reverse

/-- At most `n` characters: a longer string loses its end to three dots. -/
def clipped (n : Nat) (s : Str) : Str := if s.length ≤ n then s else s.take (n - 3) ++ "...".toList

/-- TAB, line feed and carriage return written with a backslash. -/
def escapedChar : Char → Str
  | '\t' => "\\t".toList
  | '\n' => "\\n".toList
  | '\r' => "\\r".toList
  | c => [c]

/-- Every character as `escapedChar` writes it. -/
def escaped : Str → Str
  | [] => []
  | c :: s => escapedChar c ++ escaped s

/-- What is left of the string `s` in a field with room for `n` characters. -/
def fieldText (n : Nat) (s : Str) : Str := trim (clipped n (escaped s))

/-- A line of a LaTeX table: it ends in `\\`, and between the `&` it has these fields, not counting blanks. -/
def IsTexRow (line : Str) (fields : List Str) : Prop :=
  ∃ body, line = body ++ "\\\\".toList ∧ (body.splitOn '&').map trim = fields

/-- A line cut into pieces of the given widths. -/
def slices : List Nat → Str → List Str
  | [], _ => []
  | w :: ws, line => line.take w :: slices ws (line.drop w)

/-- Blanks in front, up to width `w`. -/
def padLeft (w : Nat) (s : Str) : Str := List.replicate (w - s.length) ' ' ++ s

/-- Blanks behind, up to width `w`. -/
def padRight (w : Nat) (s : Str) : Str := s ++ List.replicate (w - s.length) ' '

/-- Length of the longest of these strings. -/
def longest : List Str → Nat
  | [] => 0
  | s :: l => max s.length (longest l)

/-- Room for the cells of a column with this header: as long as the header or as the longest cell and a blank, but not more
than 50 characters. -/
def cellRoom (header : Str) (cells : List Str) : Nat :=
  min (max (escaped header).length (longest (cells.map fun v => ' ' :: escaped v))) 50

/-- A header above its column: to the right. -/
def headField (header : Str) (cells : List Str) : Str :=
  padLeft (max (cellRoom header cells) (escaped header).length) (escaped header)

/-- A cell in its column: to the right of the room for cells, which is to the left under a header of more than 50 characters. -/
def cellField (header : Str) (cells : List Str) (v : Str) : Str :=
  padRight (max (cellRoom header cells) (escaped header).length)
    (padLeft (cellRoom header cells) (' ' :: clipped 49 (escaped v)))

/-- What an exported field `f` keeps of a string `s` in a field with room for `n` characters. -/
def KeepsUpTo (n : Nat) (s f : Str) : Prop :=
  (∀ c ∈ s, c ≠ '\t' ∧ c ≠ '\n' ∧ c ≠ '\r') →
    (s.length ≤ n → f = trim s) ∧ (n < s.length → f = trim (s.take (n - 3) ++ "...".toList))

end Mlp.Spec
