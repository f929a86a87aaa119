import Verif.Spec.Rule
/-!
# Specification vocabulary: any text as an export rule

A text is read as parts between `|`.  The first part lists the fields.  Every other part either is the text of one well-formed
restriction, or it is not the text of any and means nothing.
-/
namespace Uip.Spec
open Uip

/-- `i` is the first position of `f`. -/
def FirstAt (fields : List Str) (f : Str) (i : Nat) : Prop := fields[i]? = some f ∧ ∀ j < i, fields[j]? ≠ some f

/-- What a restriction does to the values, also for field lists with repeated names: if it holds, a value stays if its position
is the first one of a listed field. -/
def Group.Does (g : Group) (fields old new : List Str) : Prop :=
  if g.holds fields old then
    new.length = old.length ∧ ∀ i v, old[i]? = some v →
      ((∃ f ∈ g.only, FirstAt fields f i) → new[i]? = some v) ∧ ((¬ ∃ f ∈ g.only, FirstAt fields f i) → new[i]? = some [])
  else new = old

/-- What a part of a rule does to the values. -/
inductive PartDoes (fields : List Str) (part : Str) (old new : List Str) : Prop
  | group (g : Group) (wf : g.WF) (text : part = g.text) (does : g.Does fields old new)
  | other (none : ∀ g : Group, g.WF → part ≠ g.text) (same : new = old)

/-- What the parts do, in order. -/
inductive PartsDo (fields : List Str) : List Str → List Str → List Str → Prop
  | nil (v) : PartsDo fields [] v v
  | cons {p ps old mid new} (one : PartDoes fields p old mid) (rest : PartsDo fields ps mid new) : PartsDo fields (p :: ps) old new

end Uip.Spec
