import Verif.Model.Awdb.Lookup
/-!
# Decoding into typed targets (`/repo/db/format/awdb/decoder.go`)

The decoder works by reflection: it is given a settable Go value and fills it in.  `Ty` is the type of the target, `TV`
its value; decoding takes the value the target holds before and returns the value it holds afterwards (what a target
holds after an error is not modelled).  Left out: targets with unexported fields other than `big.Int`, fixed-size
arrays, maps with keys that are not strings, non-empty interfaces and functions count as `other`.
-/
namespace Uip.Awdb
open Uip

/-- Types of targets.  A field of a struct has the name under which it is looked up (its `awdb` tag, or its Go name), an
embedded field has none; fields tagged "-" are left out, they are never touched.  `[]byte` is `slice (uint 8)`, `int` is
`int 64`, `uint` is `uint 64`, `interface{}` is `any`, `big.Int` is `big`. -/
inductive Ty where
  | bool
  | int (bits : Nat)
  | uint (bits : Nat)
  | uintptr
  | f32
  | f64
  | str
  | any
  | big
  | slice (elem : Ty)
  | map (elem : Ty)
  | struct (fields : List (Option Str × Ty))
  | ptr (to : Ty)
  | other
  deriving Repr

/-- Values of targets.  `none` is nil; floats are their bits; a map holds its newest assignment first. -/
inductive TV where
  | bool (b : Bool)
  | int (z : Int)
  | uint (n : Nat)
  | f32 (bits : Nat)
  | f64 (bits : Nat)
  | str (s : Str)
  | any (v : Option Val)
  | big (n : Nat)
  | slice (l : Option (List TV))
  | map (m : Option (List (Str × TV)))
  | struct (fields : List TV)
  | ptr (v : Option TV)
  | other
  deriving Repr

/-- The zero value of a type (`reflect.New(t).Elem()`, Go std). -/
def Ty.zero : Ty → TV
  | .bool => .bool false
  | .int _ => .int 0
  | .uint _ => .uint 0
  | .uintptr => .uint 0
  | .f32 => .f32 0
  | .f64 => .f64 0
  | .str => .str []
  | .any => .any none
  | .big => .big 0
  | .slice _ => .slice none
  | .map _ => .map none
  | .struct fs => .struct (zeros fs)
  | .ptr _ => .ptr none
  | .other => .other
where
  zeros : List (Option Str × Ty) → List TV
    | [] => []
    | f :: fs => f.2.zero :: zeros fs

/-- Conversions between the float types (Go: `float64(x)`, `float32(x)`, `reflect.Value.OverflowFloat`), on bits. -/
structure Floats where
  widen : Nat → Nat
  narrow : Nat → Nat
  overflow : Nat → Bool

/-- The `switch result.Kind()` of the unmarshal functions `/repo/db/format/awdb/decoder.go:159-176,208-294,351-418` for
targets other than an interface; `t` is the type in the database (strings and byte sequences come as the same `Val`).
`OverflowInt` and `OverflowUint` ask whether the 64-bit number fits the bits of the target. -/
def store (fl : Floats) (t : Nat) : Ty → Val → Res TV
  | .bool, .bool b => .ok (.bool b)
  | .slice (.uint bits), .bytes b =>
    if bits = 8 ∧ t = 4 then .ok (.slice (some (b.map fun x => .uint x.toNat))) else .err typeErr
  | .str, .bytes b => if t = 2 then .ok (.str b) else .err typeErr
  | .f32, .f32 n => .ok (.f32 (fl.narrow (fl.widen n)))
  | .f64, .f32 n => .ok (.f64 (fl.widen n))
  | .f32, .f64 n => if fl.overflow n then .err typeErr else .ok (.f32 (fl.narrow n))
  | .f64, .f64 n => .ok (.f64 n)
  | .int bits, .int z => if -2 ^ (bits - 1) ≤ z ∧ z < 2 ^ (bits - 1) then .ok (.int z) else .err typeErr
  | .int bits, .uint n =>
    let z : Int := if n < 2 ^ 63 then n else n - 2 ^ 64
    if -2 ^ (bits - 1) ≤ z ∧ z < 2 ^ (bits - 1) then .ok (.int z) else .err typeErr
  | .uint bits, .int z => if (z % 2 ^ 64).toNat < 2 ^ bits then .ok (.uint (z % 2 ^ 64).toNat) else .err typeErr
  | .uint bits, .uint n => if n < 2 ^ bits then .ok (.uint n) else .err typeErr
  | .uintptr, .int z => .ok (.uint (z % 2 ^ 64).toNat)
  | .uintptr, .uint n => .ok (.uint n)
  | .big, .big n => .ok (.big n)
  | _, _ => .err typeErr

/-- What a pointer of element type `t` points to; a new zero value for nil. -/
def target (t : Ty) : TV → TV
  | .ptr (some v) => v
  | _ => t.zero

/-- The fields of a struct. -/
def fieldsOf : TV → List TV
  | .struct vs => vs
  | _ => []

/-- The entries of a map, none for nil. -/
def entriesOf : TV → List (Str × TV)
  | .map (some m) => m
  | _ => []

/-- `/repo/db/format/awdb/decoder.go:182-204` indirect: the type and value behind pointers (new zero values for nil
ones), and how to put the new value back.  An interface that holds a pointer is followed too: of the values decoding
leaves in an interface only `*big.Int` is one. -/
def indirect : Ty → TV → Ty × TV × (TV → TV)
  | .ptr t, cur =>
    let (ty, v, back) := indirect t (target t cur)
    (ty, v, fun w => .ptr (some (back w)))
  | .any, .any (some (.big n)) => (.big, .big n, fun w => match w with
    | .big m => .any (some (.big m))
    | w => w)
  | ty, cur => (ty, cur, id)

/-- `/repo/db/format/awdb/decoder.go:611-626` cachedFields: the last field of the name. -/
def fieldIndex (fs : List (Option Str × Ty)) (key : Str) : Option Nat :=
  match fs with
  | [] => none
  | f :: fs => match fieldIndex fs key with
    | some i => some (i + 1)
    | none => if f.1 = some key then some 0 else none

/-- Loop of `/repo/db/format/awdb/decoder.go:565-590` decodeStruct: the named fields. -/
def structLoop (buf : Bytes) (dec : Ty → TV → Nat → Res (TV × Nat)) (fs : List (Option Str × Ty)) :
    Nat → Nat → List TV → Res (List TV × Nat)
  | 0, offset, vs => .ok (vs, offset)
  | n + 1, offset, vs => do
    let (key, offset) ← decodeKey buf offset
    match fieldIndex fs key with
    | none => do
      let offset ← nextValueOffset buf offset 1
      structLoop buf dec fs n offset vs
    | some j => match fs[j]?, vs[j]? with
      | some f, some v => do
        let (v, offset) ← dec f.2 v offset
        structLoop buf dec fs n offset (vs.set j v)
      | _, _ => .panic

/-- The same loop for a `big.Int`, whose fields `neg` and `abs` are unexported: setting one panics.  (Before that the
type of the value is looked at, so that a value of a wrong type is an error; both are a panic here.) -/
def bigLoop (buf : Bytes) : Nat → Nat → Res Nat
  | 0, offset => .ok offset
  | n + 1, offset => do
    let (key, offset) ← decodeKey buf offset
    if key = gs "neg" ∨ key = gs "abs" then .panic
    else do
      let offset ← nextValueOffset buf offset 1
      bigLoop buf n offset

/-- What a copy `v` of a value made earlier shows after the original has been decoded into again and is `w`: what is
behind a pointer or a map is shared.  Used for the elements of a map, see `mapLoopT`. -/
def shared : TV → TV → TV
  | .struct vs, .struct ws => .struct (shareds vs ws)
  | .ptr (some _), .ptr (some w) => .ptr (some w)
  | .map (some _), .map (some m) => .map (some m)
  | .any (some (.big _)), .any (some (.big n)) => .any (some (.big n))
  | v, _ => v
where
  shareds : List TV → List TV → List TV
    | v :: vs, w :: ws => shared v w :: shareds vs ws
    | vs, _ => vs

/-- Loop of `/repo/db/format/awdb/decoder.go:467-488` decodeMap.  There is one variable for the elements: it is made new
for each entry only if its type is an interface, otherwise the next element is decoded into the value of the one before
(`elem`), of which `SetMapIndex` has stored a copy.  Returns the entries stored (newest first) and the last value of the
variable. -/
def mapLoopT (buf : Bytes) (dec : TV → Nat → Res (TV × Nat)) (fresh : Option TV) :
    Nat → Nat → TV → List (Str × TV) → Res (List (Str × TV) × TV × Nat)
  | 0, offset, elem, ins => .ok (ins, elem, offset)
  | n + 1, offset, elem, ins => do
    let (key, offset) ← decodeKey buf offset
    let (elem, offset) ← dec (fresh.getD elem) offset
    mapLoopT buf dec fresh n offset elem ((key, elem) :: ins)

/-- `/repo/db/format/awdb/decoder.go:476-478`: the new value for each element, if there is one. -/
def freshElem : Ty → Option TV
  | .any => some (.any none)
  | _ => none

/-- The entries stored by the loop as they are when it has ended: `last` is the last value of the variable. -/
def settle (t : Ty) (last : TV) (ins : List (Str × TV)) : List (Str × TV) := match t with
  | .any => ins
  | _ => ins.map fun p => (p.1, shared p.2 last)

mutual
/-- `/repo/db/format/awdb/decoder.go:296-319` unmarshalMap, `:452-489` decodeMap, `:548-592` decodeStruct.  `dec` decodes
a value into a target, `decAny` into a new empty interface. -/
def mapInto (buf : Bytes) (dec : Ty → TV → Nat → Res (TV × Nat)) (decAny : Nat → Res (Val × Nat)) :
    Ty → TV → Nat → Nat → Res (TV × Nat)
  | .ptr t, cur, size, offset => do
    let (v, offset) ← mapInto buf dec decAny t (target t cur) size offset
    return (.ptr (some v), offset)
  | .struct fs, cur, size, offset => do
    let vs ← embedInto buf dec decAny fs (fieldsOf cur) size offset
    let (vs, offset) ← structLoop buf dec fs size offset vs
    return (.struct vs, offset)
  | .big, cur, size, offset => do
    let offset ← bigLoop buf size offset
    return (cur, offset)
  | .map t, cur, size, offset => do
    let (ins, last, offset) ← mapLoopT buf (dec t) (freshElem t) size offset t.zero []
    return (.map (some (settle t last ins ++ entriesOf cur)), offset)
  | .any, .any (some (.big n)), size, offset => do
    let offset ← bigLoop buf size offset
    return (.any (some (.big n)), offset)
  | .any, _, size, offset => do
    let (m, offset) ← mapLoop buf decAny size offset []
    return (.any (some (.map m)), offset)
  | _, _, _, _ => .err typeErr

/-- `/repo/db/format/awdb/decoder.go:556-562`: the embedded fields, each from the whole map. -/
def embedInto (buf : Bytes) (dec : Ty → TV → Nat → Res (TV × Nat)) (decAny : Nat → Res (Val × Nat)) :
    List (Option Str × Ty) → List TV → Nat → Nat → Res (List TV)
  | f :: fs, v :: vs, size, offset => do
    let (v, _) ← (match f.1 with
      | none => mapInto buf dec decAny f.2 v size offset
      | some _ => .ok (v, offset))
    let vs ← embedInto buf dec decAny fs vs size offset
    return v :: vs
  | _, vs, _, _ => .ok vs
end

/-- `/repo/db/format/awdb/decoder.go:43-57` decode, `:111-157` decodeFromType, `:321-349` unmarshalPointer and
unmarshalSlice.  The first number counts the levels left, see `decodeAny`. -/
def decodeT (fl : Floats) (buf : Bytes) : Nat → Ty → TV → Nat → Res (TV × Nat)
  | 0, _, _, _ => .err invalidErr
  | r + 1, ty, cur, start => do
    let (t, size, offset) ← decodeCtrlData buf start
    match ty, t with
    | .uintptr, 1 => do
      let (pointer, offset) ← decodePointer buf size offset
      let (v, _) ← decodeT fl buf r ty cur pointer
      return (v, offset)
    | .uintptr, _ => do
      let offset ← nextValueOffset buf start 1
      return (.uint start, offset)
    | _, _ =>
      let (ty, cur, back) := indirect ty cur
      match ty with
      | .any => do
        let (v, offset) ← decodeAny buf (r + 1) start
        return (back (.any (some v)), offset)
      | _ =>
        if t = 14 then
          if size > 1 then .err invalidErr
          else do
            let v ← store fl t ty (.bool (size != 0))
            return (back v, offset)
        else if t = 7 then do
          let (v, offset) ← mapInto buf (decodeT fl buf r) (decodeAny buf r) ty cur size offset
          return (back v, offset)
        else if t = 1 then do
          let (pointer, offset) ← decodePointer buf size offset
          let (v, _) ← decodeT fl buf r ty cur pointer
          return (back v, offset)
        else if t = 11 then
          match ty with
          | .slice e => do
            let (l, offset) ← sliceLoop (decodeT fl buf r e e.zero) size offset
            return (back (.slice (some l)), offset)
          | _ => .err typeErr
        else do
          let (v, offset) ← decodeScalar buf t size offset
          let v ← store fl t ty v
          return (back v, offset)

/-- `/repo/db/format/awdb/reader.go:214-221` decode: the target of type `ty`, holding `cur`, is given by a pointer. -/
def decodeInto (fl : Floats) (buf : Bytes) (ty : Ty) (cur : TV) (offset : Nat) : Res TV := do
  let (v, _) ← decodeT fl buf 513 (.ptr ty) (.ptr (some cur)) offset
  match v with
  | .ptr (some v) => return v
  | _ => .panic

/-- `/repo/db/format/awdb/reader.go:123-132,273-279` Lookup into a target of type `ty` that holds `cur`; the target is left
alone if nothing is stored. -/
def Reader.LookupT (r : Reader) (fl : Floats) (ip : IP) (ty : Ty) (cur : TV) : Res TV := do
  let (pointer, _, _) ← r.lookupPointer ip
  if pointer = 0 then return cur
  else do
    let offset ← r.resolveDataPointer pointer
    decodeInto fl r.data ty cur offset

/-- `/repo/db/format/awdb/reader.go:207-212` Decode into a target of type `ty` that holds `cur`. -/
def Reader.DecodeT (r : Reader) (fl : Floats) (offset : Nat) (ty : Ty) (cur : TV) : Res TV :=
  decodeInto fl r.data ty cur offset

end Uip.Awdb
