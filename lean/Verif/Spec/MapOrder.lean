import Verif.Model.MapOrder
/-!
# Iteration orders of Go maps

Go promises no order for `range` over a map: each entry of the map comes once.
-/
namespace Uip.Spec
open Uip Uip.MapOrder

/-- `o` lists the entries of the map `m`: the keys of the map, each once, with their values. -/
def Visits {α : Type} (o : List (Str × α)) (m : GoMap α) : Prop :=
  (o.map (·.1)).Nodup ∧ ∀ k v, (k, v) ∈ o ↔ mapGet m k = some v

/-- All orders of a dump are iteration orders; the field map is `f`. -/
structure Possible (f : GoMap Str) (o : Orders) : Prop where
  ext : ∀ k, Visits (o.ext k) f
  sel : ∀ n k, Visits (o.sel n k) f
  record : ∀ n m, Visits (o.record n m) m
  check : ∀ m, Visits (o.check m) m
  langs : ∀ m, Visits (o.langs m) m

end Uip.Spec
