import Verif.Spec.Awdb
import Verif.Model.Awdb.Typed
/-!
# Specification vocabulary: what a stored value means for a typed target

`Ty` and `TV` are the types and values of targets (`Verif/Model/Awdb/Typed.lean`); `Doc` are the stored values.
-/
namespace Uip.Spec.Awdb
open Uip Uip.Awdb

/-- `p` holds of the document and of all its parts. -/
def Doc.Every (p : Doc → Prop) : Doc → Prop
  | .array l => p (.array l) ∧ everyAll p l
  | .map l => p (.map l) ∧ everyPair p l
  | d => p d
where
  everyAll (p : Doc → Prop) : List Doc → Prop
    | [] => True
    | d :: l => d.Every p ∧ everyAll p l
  everyPair (p : Doc → Prop) : List (Str × Doc) → Prop
    | [] => True
    | (_, d) :: l => d.Every p ∧ everyPair p l

/-- No map has a key twice. -/
def Doc.Distinct (d : Doc) : Prop := d.Every fun
  | .map l => (l.map Prod.fst).Nodup
  | _ => True

/-- No stored number reaches 2^63. -/
def Doc.Narrow (d : Doc) : Prop := d.Every fun
  | .uint64 _ n => n < 2 ^ 63
  | _ => True

/-- No stored number is negative. -/
def Doc.NonNeg (d : Doc) : Prop := d.Every fun
  | .int32 _ z => 0 ≤ z
  | _ => True

/-- The stored integer. -/
def Doc.number : Doc → Option Int
  | .int32 _ z => some z
  | .uint16 _ n => some n
  | .uint32 _ n => some n
  | .uint64 _ n => some n
  | _ => none

/-- The value of a key. -/
def keyValue (key : Str) : List (Str × Doc) → Option Doc
  | [] => none
  | (k, d) :: l => if k = key then some d else keyValue key l

/-- A float or double for a target of 64 bits. -/
def toF64 (fl : Floats) : Doc → Option TV
  | .float n => some (.f64 (fl.widen n))
  | .double n => some (.f64 n)
  | _ => none

/-- A float or double for a target of 32 bits. -/
def toF32 (fl : Floats) : Doc → Option TV
  | .float n => some (.f32 (fl.narrow (fl.widen n)))
  | .double n => if fl.overflow n then none else some (.f32 (fl.narrow n))
  | _ => none

/-- What a variable of a type holds before anything is put into it: nothing, zero, the empty text; nil pointers, slices
and maps. -/
def zeroOf : Ty → TV
  | .bool => .bool false
  | .int _ => .int 0
  | .uint _ | .uintptr => .uint 0
  | .f32 => .f32 0
  | .f64 => .f64 0
  | .str => .str []
  | .any => .any none
  | .big => .big 0
  | .slice _ => .slice none
  | .map _ => .map none
  | .struct fs => .struct (zerosOf fs)
  | .ptr _ => .ptr none
  | .other => .other
where
  zerosOf : List (Option Str × Ty) → List TV
    | [] => []
    | f :: fs => zeroOf f.2 :: zerosOf fs

mutual
/-- What a stored value means for a target of a type; `none` if it does not fit.
Numbers must lie in the range of the target, strings go to strings and byte sequences to byte slices, an array to a
slice of its elements, a map to a map of its values or to a struct: each field gets the value of its key, its zero value
without one, an embedded field what the whole map means for it.  Pointers are allocated.  (A big.Int is a struct without
fields that could be set: a map leaves it alone, and must not have the keys `neg` and `abs`.) -/
def into (fl : Floats) : Ty → Doc → Option TV
  | .bool, d => match d with
    | .bool b => some (.bool b)
    | _ => none
  | .int bits, d => d.number.bind fun z => if -2 ^ (bits - 1) ≤ z ∧ z < 2 ^ (bits - 1) then some (.int z) else none
  | .uint bits, d => d.number.bind fun z => if 0 ≤ z ∧ z < 2 ^ bits then some (.uint z.toNat) else none
  | .uintptr, _ => none
  | .f32, d => toF32 fl d
  | .f64, d => toF64 fl d
  | .str, d => match d with
    | .str s => some (.str s)
    | _ => none
  | .any, d => some (.any (some d.val))
  | .big, d => match d with
    | .uint128 _ n => some (.big n)
    | .map l => if (keyValue (gs "neg") l).isNone ∧ (keyValue (gs "abs") l).isNone then some (.big 0) else none
    | _ => none
  | .slice t, d => match d with
    | .array l => (readAll (into fl t) l).map fun vs => .slice (some vs)
    | .bytes b => match t with
      | .uint bits => if bits = 8 then some (.slice (some (b.map fun x => .uint x.toNat))) else none
      | _ => none
    | _ => none
  | .map t, d => match d with
    | .map l => (readPairs (into fl t) l []).map fun m => .map (some m)
    | _ => none
  | .struct fs, d => match d with
    | .map l => (intoFields fl fs l).map .struct
    | _ => none
  | .ptr t, d => (into fl t d).map fun v => .ptr (some v)
  | .other, _ => none

/-- The fields of a struct. -/
def intoFields (fl : Floats) : List (Option Str × Ty) → List (Str × Doc) → Option (List TV)
  | [], _ => some []
  | f :: fs, l => match (match f.1 with
      | none => into fl f.2 (.map l)
      | some k => match keyValue k l with
        | none => some (zeroOf f.2)
        | some d => into fl f.2 d), intoFields fl fs l with
    | some v, some vs => some (v :: vs)
    | _, _ => none
end

/-- Types of which a value is overwritten as a whole. -/
def Reusable : Ty → Prop
  | .bool | .int _ | .uint _ | .f32 | .f64 | .str | .slice _ => True
  | _ => False

/-- Types that can be filled in without surprises: no offsets (`uintptr`), fields of a struct have different names, and
the elements of maps are scalars, slices or interfaces. -/
def Fillable : Ty → Prop
  | .uintptr => False
  | .slice t => Fillable t
  | .map t => (t = .any ∨ Reusable t) ∧ Fillable t
  | .struct fs => (fs.filterMap Prod.fst).Nodup ∧ fillableFields fs
  | .ptr t => Fillable t
  | _ => True
where
  fillableFields : List (Option Str × Ty) → Prop
    | [] => True
    | f :: fs => Fillable f.2 ∧ fillableFields fs

/-- No part of the type is an unsigned number of 64 bits. -/
def NoU64 : Ty → Prop
  | .uint bits => bits < 64
  | .slice t => NoU64 t
  | .map t => NoU64 t
  | .struct fs => noU64Fields fs
  | .ptr t => NoU64 t
  | _ => True
where
  noU64Fields : List (Option Str × Ty) → Prop
    | [] => True
    | f :: fs => NoU64 f.2 ∧ noU64Fields fs

end Uip.Spec.Awdb
