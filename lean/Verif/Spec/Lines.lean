import Verif.Model.GoStr
/-!
# The lines of a text

Written from the documentation of `bufio.Scanner`, not from the code.
-/
namespace Uip.Spec.Lines
open Uip

/-- `q` is `p` without one carriage return at the end, if there is one. -/
def Bare (p q : Str) : Prop := p = q ++ [0x0D] ∨ (p = q ∧ ∀ r, p ≠ r ++ [0x0D])

/-- `ls` are the lines of the text `s`: each ends with a newline, which does not belong to it, nor does a carriage return
before it; the last one need not end with a newline, unless it is empty.  A line that is longer than 65535 bytes ends the
reading (`long`), and neither it nor any line after it is delivered. -/
inductive LinesOf : Str → List Str → Bool → Prop
  | none : LinesOf [] [] false
  | last {p q : Str} : p ≠ [] → 0x0A ∉ p → p.length < 65536 → Bare p q → LinesOf p [q] false
  | line {p q s : Str} {ls : List Str} {long : Bool} : 0x0A ∉ p → p.length < 65536 → Bare p q → LinesOf s ls long →
      LinesOf (p ++ 0x0A :: s) (q :: ls) long
  | long {p s : Str} : 0x0A ∉ p → p.length = 65536 → LinesOf (p ++ s) [] true

end Uip.Spec.Lines
