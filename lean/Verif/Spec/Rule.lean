import Verif.Model.GoStr
/-!
# Specification vocabulary: export rules

`<default fields>[|<condition>:<only fields>...]` (`/repo/README.md:11-13`).  A condition is
`key=v1/v2/...` or `key=!v1/v2/...`.
-/
namespace Uip.Spec
open Uip

/-- One restriction of a rule. -/
structure Group where
  key : Str
  neg : Bool
  alts : List Str
  only : List Str
  deriving DecidableEq, Repr

/-- How a restriction is written. -/
def Group.text (g : Group) : Str :=
  g.key ++ gs "=" ++ (if g.neg then gs "!" else []) ++ joinByte 0x2F g.alts ++ gs ":" ++ joinByte 0x2C g.only

/-- How a rule is written. -/
def ruleText (defaults : List Str) (groups : List Group) : Str :=
  joinByte 0x7C (joinByte 0x2C defaults :: groups.map Group.text)

/-- The text contains none of the bytes. -/
def Avoids (l : List UInt8) (s : Str) : Prop := ∀ b ∈ s, b ∉ l

instance (l s) : Decidable (Avoids l s) := by unfold Avoids; infer_instance

/-- The parts contain no separator that would change how the rule is read. -/
structure Group.WF (g : Group) : Prop where
  key : Avoids [0x7C, 0x2C, 0x3A, 0x3D] g.key
  alts_ne : g.alts ≠ []
  alts : ∀ a ∈ g.alts, Avoids [0x7C, 0x2C, 0x3A, 0x3D, 0x2F] a
  bang : g.neg = false → ∀ a, g.alts.head? = some a → a.head? ≠ some 0x21
  only_ne : g.only ≠ []
  only : ∀ f ∈ g.only, Avoids [0x7C, 0x2C] f
  colon : ∀ f, g.only.head? = some f → Avoids [0x3A] f

instance (g : Group) : Decidable g.WF :=
  decidable_of_iff (Avoids [0x7C, 0x2C, 0x3A, 0x3D] g.key ∧ g.alts ≠ [] ∧
      (∀ a ∈ g.alts, Avoids [0x7C, 0x2C, 0x3A, 0x3D, 0x2F] a) ∧
      (g.neg = false → g.alts.head?.all (fun a => decide (a.head? ≠ some 0x21)) = true) ∧
      g.only ≠ [] ∧ (∀ f ∈ g.only, Avoids [0x7C, 0x2C] f) ∧ g.only.head?.all (fun f => decide (Avoids [0x3A] f)) = true)
    ⟨fun h => ⟨h.1, h.2.1, h.2.2.1, fun hn a ha => by have := h.2.2.2.1 hn; rw [ha] at this; simpa using this,
      h.2.2.2.2.1, h.2.2.2.2.2.1, fun f hf => by have := h.2.2.2.2.2.2; rw [hf] at this; simpa using this⟩,
     fun h => ⟨h.1, h.2, h.3, fun hn => by
      cases ha : g.alts.head? with
      | none => rfl
      | some a => simpa using h.4 hn a ha, h.5, h.6, by
      cases hf : g.only.head? with
      | none => rfl
      | some f => simpa using h.7 f hf⟩⟩

/-- The value of a field. -/
def valueOf (fields values : List Str) (key : Str) : Option Str :=
  ((fields.zip values).find? (fun p => decide (p.1 = key))).map (·.2)

/-- The restriction concerns this record: it names known fields, and the key's value is (not) listed. -/
def Group.holds (g : Group) (fields values : List Str) : Bool :=
  decide (g.key ∈ fields) && g.only.all (fun f => decide (f ∈ fields)) &&
    match valueOf fields values g.key with
    | some v => if g.neg then decide (v ∉ g.alts) else decide (v ∈ g.alts)
    | none => false

/-- Blank every field the restriction does not list. -/
def Group.apply (fields : List Str) (values : List Str) (g : Group) : List Str :=
  if g.holds fields values then (fields.zip values).map (fun p => if p.1 ∈ g.only then p.2 else []) else values

/-- The record's value for an exported field: looked up under the database's own name, empty if missing. -/
def fieldValue (fieldMap data : GoMap Str) (f : Str) : Str :=
  ((mapGet fieldMap f).bind (mapGet data)).getD []

/-- What exporting a record under a rule gives. -/
def exportSpec (fieldMap : GoMap Str) (defaults : List Str) (groups : List Group) (data : GoMap Str) : List Str :=
  groups.foldl (Group.apply defaults) (defaults.map (fieldValue fieldMap data))

end Uip.Spec
