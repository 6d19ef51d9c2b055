import Verif.Model.DotText
/-!
C102: what indentation means: the lines of a text, each some columns further to the right.
-/
namespace Verif.Dot

/-- The lines of a text, each with the end of line that ends it (the last one may have none). -/
def linesOf : List Char → List (List Char)
  | [] => []
  | c :: r =>
    if c = '\n' then [c] :: linesOf r
    else match linesOf r with
      | [] => [[c]]
      | l :: ls => (c :: l) :: ls

/-- A text moved `n` columns to the right. -/
def indented (n : Nat) (text : List Char) : List Char := (linesOf text).flatMap (List.replicate n ' ' ++ ·)

/-- The columns a stream indents by. -/
def Stream.level (s : Stream) : Nat := (s.buf.getD (0, true)).1

/-- Columns the stream of a key indents by. -/
def TResult.level (m : TResult) (k : String) : Nat := ((m.lookup k).map Stream.level).getD 0

end Verif.Dot
