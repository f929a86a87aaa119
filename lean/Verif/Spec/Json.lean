import Verif.Model.GoJson
/-!
# Vocabulary for the JSON properties
-/
namespace Uip.Json
open Uip

/-- The bytes are the UTF-8 encoding of some text. -/
def IsText (s : Str) : Prop := ∃ t : String, s = gs t

/-- Every byte that belongs to no UTF-8 character replaced by U+FFFD. -/
def repairLoop : Nat → Str → Str
  | 0, _ => []
  | _, [] => []
  | f + 1, a :: r => match runeLen (a :: r) with
    | none => [0xEF, 0xBF, 0xBD] ++ repairLoop f r
    | some n => (a :: r).take n ++ repairLoop f ((a :: r).drop n)
def repair (s : Str) : Str := repairLoop s.length s

end Uip.Json
