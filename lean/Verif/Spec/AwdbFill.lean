import Verif.Spec.AwdbTyped
/-!
# Specification vocabulary: what decoding makes of a variable that already holds something

`into` (`Verif/Spec/AwdbTyped.lean`) says what a stored value means for a new variable, for types without surprises.
`fill` says for every type, every stored value and every content of the variable what the variable holds afterwards.
-/
namespace Uip.Spec.Awdb
open Uip Uip.Awdb

/-- A number as a signed 64-bit number: from 2^63 on, 2^64 less. -/
def asInt64 (z : Int) : Int := if z < 2 ^ 63 then z else z - 2 ^ 64

/-- A number as an unsigned 64-bit number: negative ones get 2^64 more. -/
def asUint64 (z : Int) : Int := if z < 0 then z + 2 ^ 64 else z

/-- The values a key has in a map, in order. -/
def valuesOf (key : Str) : List (Str × Doc) → List Doc
  | [] => []
  | (k, d) :: l => if k = key then d :: valuesOf key l else valuesOf key l

/-- One value after the other is put into the same variable. -/
def inTurn (put : TV → Doc → Option TV) : TV → List Doc → Option TV
  | v, [] => some v
  | v, d :: l => match put v d with
    | some w => inTurn put w l
    | none => none

/-- The entries of a map put into a Go map, the later ones winning, by way of a variable `v`: each value is put into
what `next` makes of the variable, and the entry gets a copy.  The entries, the newest first, and the variable at the
end. -/
def viaVariable (put : TV → Doc → Option TV) (next : TV → TV) :
    List (Str × Doc) → TV → List (Str × TV) → Option (List (Str × TV) × TV)
  | [], v, m => some (m, v)
  | (k, d) :: l, v, m => match put (next v) d with
    | some w => viaVariable put next l w ((k, w) :: m)
    | none => none

/-- What a copy made of a variable when it held the first value shows when the variable has been filled again and holds
the second one: pointers and maps still lead to the same place. -/
def copyShows : TV → TV → TV
  | .ptr (some _), .ptr (some w) => .ptr (some w)
  | .map (some _), .map (some m) => .map (some m)
  | .any (some (.big _)), .any (some (.big n)) => .any (some (.big n))
  | .struct vs, .struct ws => .struct (copiesShow vs ws)
  | v, _ => v
where
  copiesShow : List TV → List TV → List TV
    | v :: vs, w :: ws => copyShows v w :: copiesShow vs ws
    | vs, _ => vs

/-- The variable behind a pointer, a new one for nil. -/
def behind (t : Ty) : TV → TV
  | .ptr (some v) => v
  | _ => zeroOf t

/-- The entries a Go map has. -/
def oldEntries : TV → List (Str × TV)
  | .map (some m) => m
  | _ => []

/-- The fields of a struct. -/
def oldFields : TV → List TV
  | .struct vs => vs
  | _ => []

/-- A big.Int can be filled by a number of 128 bits; a map leaves it alone and must not have the keys `neg` and `abs`. -/
def fillBig (n : Nat) : Doc → Option Nat
  | .uint128 _ m => some m
  | .map l => if (keyValue (gs "neg") l).isNone ∧ (keyValue (gs "abs") l).isNone then some n else none
  | _ => none

mutual
/-- What a variable of a type that holds `cur` holds after decoding a stored value into it; `none` if the value does not
fit.

* Numbers are converted to 64 bits and must then lie in the range of the target.
* Pointers are followed, nil ones allocated.
* An interface gets the value, unless it holds a `*big.Int`, which is filled then.
* A slice is made new; its elements are filled from new variables.
* A map keeps its other entries.  The new ones go through one variable: an interface is made new for each of them, any
  other element is filled on top of the one before.
* In a struct, an embedded field is filled from the whole map, a named one from the values of its key one after the
  other; of several fields of the same name, the last one. -/
def fill (fl : Floats) : Ty → TV → Doc → Option TV
  | .bool, _, d => match d with
    | .bool b => some (.bool b)
    | _ => none
  | .int bits, _, d => d.number.bind fun z =>
    if -2 ^ (bits - 1) ≤ asInt64 z ∧ asInt64 z < 2 ^ (bits - 1) then some (.int (asInt64 z)) else none
  | .uint bits, _, d => d.number.bind fun z =>
    if asUint64 z < 2 ^ bits then some (.uint (asUint64 z).toNat) else none
  | .uintptr, _, _ => none
  | .f32, _, d => toF32 fl d
  | .f64, _, d => toF64 fl d
  | .str, _, d => match d with
    | .str s => some (.str s)
    | _ => none
  | .any, cur, d => match cur with
    | .any (some (.big n)) => (fillBig n d).map fun m => .any (some (.big m))
    | _ => some (.any (some d.val))
  | .big, cur, d => match cur with
    | .big n => (fillBig n d).map .big
    | _ => none
  | .slice t, _, d => match d with
    | .array l => (readAll (fill fl t (zeroOf t)) l).map fun vs => .slice (some vs)
    | .bytes b => match t with
      | .uint bits => if bits = 8 then some (.slice (some (b.map fun x => .uint x.toNat))) else none
      | _ => none
    | _ => none
  | .map t, cur, d => match d with
    | .map l => match t with
      | .any => (viaVariable (fill fl t) (fun _ => .any none) l (.any none) []).map fun m =>
          .map (some (m.1 ++ oldEntries cur))
      | _ => (viaVariable (fill fl t) id l (zeroOf t) []).map fun m =>
          .map (some ((m.1.map fun p => (p.1, copyShows p.2 m.2)) ++ oldEntries cur))
    | _ => none
  | .struct fs, cur, d => match d with
    | .map l => (fillFields fl fs (oldFields cur) l).map .struct
    | _ => none
  | .ptr t, cur, d => (fill fl t (behind t cur) d).map fun v => .ptr (some v)
  | .other, _, _ => none

/-- The fields of a struct. -/
def fillFields (fl : Floats) : List (Option Str × Ty) → List TV → List (Str × Doc) → Option (List TV)
  | f :: fs, v :: vs, l => match (match f.1 with
      | none => fill fl f.2 v (.map l)
      | some k => if fs.any (fun g => g.1 = some k) then some v else inTurn (fill fl f.2) v (valuesOf k l)),
      fillFields fl fs vs l with
    | some v, some vs => some (v :: vs)
    | _, _ => none
  | _, _, _ => some []
end

/-- The values a variable of a type can hold. -/
def OfType : Ty → TV → Prop
  | .bool, .bool _ => True
  | .int bits, .int z => -2 ^ (bits - 1) ≤ z ∧ z < 2 ^ (bits - 1)
  | .uint bits, .uint n => n < 2 ^ bits
  | .uintptr, .uint _ => True
  | .f32, .f32 _ => True
  | .f64, .f64 _ => True
  | .str, .str _ => True
  | .any, .any _ => True
  | .big, .big _ => True
  | .slice _, .slice none => True
  | .slice t, .slice (some l) => ∀ v ∈ l, OfType t v
  | .map _, .map none => True
  | .map t, .map (some m) => ∀ p ∈ m, OfType t p.2
  | .struct fs, .struct vs => ofTypes fs vs
  | .ptr _, .ptr none => True
  | .ptr t, .ptr (some v) => OfType t v
  | .other, _ => True
  | _, _ => False
where
  ofTypes : List (Option Str × Ty) → List TV → Prop
    | [], [] => True
    | f :: fs, v :: vs => OfType f.2 v ∧ ofTypes fs vs
    | _, _ => False

/-- No part of the type is a `uintptr`, which would get the offset of a value instead of the value. -/
def OffsetFree : Ty → Prop
  | .uintptr => False
  | .slice t => OffsetFree t
  | .map t => OffsetFree t
  | .struct fs => offsetFrees fs
  | .ptr t => OffsetFree t
  | _ => True
where
  offsetFrees : List (Option Str × Ty) → Prop
    | [] => True
    | f :: fs => OffsetFree f.2 ∧ offsetFrees fs

end Uip.Spec.Awdb
