import Verif.Model.Writing
/-!
# What a file may hold when writes were cut short without anyone looking (C107)
-/
namespace Uip.Spec
open Uip

/-- Pieces, each the beginning of the corresponding line. -/
inductive Begins : List Str → List Str → Prop
  | nil : Begins [] []
  | cons {p l : Str} {ps ls : List Str} : p <+: l → Begins ps ls → Begins (p :: ps) (l :: ls)

/-- The file of an output that was reported as written, if `complete` is what it should hold: it is complete, except that each
of the three header lines of a `.scan` file and each line of a `.memip` file may be cut short. -/
def Passed (kind : Str) (complete actual : Bytes) : Prop :=
  actual = complete ∨
  (kind = gs ".scan" ∧ ∃ (now version : Str) (fields : List Str) (rows p1 p2 p3 : Bytes),
    complete = (gs "#### scan dump " ++ now ++ gs " ####\n") ++ (gs "#### " ++ version ++ gs "\n") ++
      (gs "#### " ++ joinByte 0x2C fields ++ gs "\n") ++ rows ∧
    p1 <+: gs "#### scan dump " ++ now ++ gs " ####\n" ∧ p2 <+: gs "#### " ++ version ++ gs "\n" ∧
    p3 <+: gs "#### " ++ joinByte 0x2C fields ++ gs "\n" ∧ actual = p1 ++ p2 ++ p3 ++ rows) ∨
  (kind = gs ".memip" ∧ ∃ pieces lines : List Str, complete = lines.flatten ∧ (∀ l ∈ lines, ∃ x, l = x ++ gs "\n") ∧
    Begins pieces lines ∧ actual = pieces.flatten)

/-- The file of an output whose writing was stopped: the beginning of what it would have become. -/
def Begun (kind : Str) (complete actual : Bytes) : Prop := ∃ c, Passed kind complete c ∧ actual <+: c

end Uip.Spec
