import Verif.Model.GoStr
/-!
# `bufio.Scanner` with the default split function, and parts of package `strings` (Go std)
-/
namespace Uip

/-- `bufio.dropCR` (Go std). -/
def dropCR (l : Str) : Str := if l.getLast? = some 0x0D then l.dropLast else l

/-- `bufio.MaxScanTokenSize` (Go std). -/
def maxToken : Nat := 65536

/-- The tokens of a `bufio.Scanner` over the pieces between newlines; the flag is true when the scanner
stopped with ErrTooLong (a piece that does not fit in the buffer together with its newline). -/
def scanPieces : List Str → List Str × Bool
  | [] => ([], false)
  | [p] => if maxToken ≤ p.length then ([], true) else if p = [] then ([], false) else ([dropCR p], false)
  | p :: q :: ps =>
    if maxToken ≤ p.length then ([], true)
    else (dropCR p :: (scanPieces (q :: ps)).1, (scanPieces (q :: ps)).2)

/-- `for scanner.Scan() { ... scanner.Text() }` (Go std): the lines delivered, and whether the scanner
stopped with an error.  The last line needs no newline. -/
def scanLines (s : Str) : List Str × Bool := scanPieces (splitByte 0x0A s)

/-- `strings.SplitN(s, sep, 2)` for a one-byte separator (Go std): `none` when there is no separator. -/
def cutByte (c : UInt8) : Str → Option (Str × Str)
  | [] => none
  | b :: bs => if b = c then some ([], bs) else (cutByte c bs).map fun p => (b :: p.1, p.2)

/-- `strings.Replace(s, old, new, -1)` for one-byte strings (Go std). -/
def replaceByte (old new : UInt8) (s : Str) : Str := s.map fun b => if b = old then new else b

end Uip
