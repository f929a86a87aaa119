import Verif.Model.GoStr
/-!
# The awdb data decoder (`/repo/db/format/awdb/decoder.go`)

`uint` is a natural number: offsets stay below the buffer length plus 2^25, so no 64-bit sum overflows.
Shifting left by 8 and or-ing a byte is multiplying by 256 and adding it.  Reflection is replaced by one function for
each kind of target the repository decodes into: the empty interface (`decodeAny`, records), and the struct `Metadata`
with its field types `uint`, `string`, `map[string]string` and `[]string`.  Memory use is not modelled.
-/
namespace Uip.Awdb
open Uip

/-- What is stored in an empty interface: `bool`, `map[string]interface{}`, `[]interface{}`, `[]byte`, `float32` and
`float64` (their bits), `int`, `uint64`, `*big.Int`. -/
inductive Val where
  | bool (b : Bool)
  | map (m : List (Str × Val))
  | slice (l : List Val)
  | bytes (b : Bytes)
  | f32 (bits : Nat)
  | f64 (bits : Nat)
  | int (z : Int)
  | uint (n : Nat)
  | big (n : Nat)
  deriving Repr

/-- `/repo/db/format/awdb/errors.go:14-16` newOffsetError. -/
def offsetErr : Err := .other "unexpected end of database"

/-- `/repo/db/format/awdb/errors.go:18-20` newInvalidDatabaseError (the text is not kept). -/
def invalidErr : Err := .other "invalid database"

/-- `/repo/db/format/awdb/errors.go:33-38` newUnmarshalTypeError (the text is not kept). -/
def typeErr : Err := .other "cannot unmarshal"

/-- Slicing `b[lo:hi]`; out of range panics. (Go also allows `hi` up to the capacity; every use below has `hi ≤ len`.) -/
def goSlice (b : Bytes) (lo hi : Nat) : Res Bytes :=
  if lo ≤ hi ∧ hi ≤ b.length then .ok ((b.drop lo).take (hi - lo)) else .panic

/-- `/repo/db/format/awdb/decoder.go:650-656` uintFromBytes. -/
def uintFromBytes (pre : Nat) (bs : Bytes) : Nat := bs.foldl (fun v b => v * 256 + b.toNat) pre

/-- `/repo/db/format/awdb/decoder.go:80-109` sizeFromCtrlByte. -/
def sizeFromCtrlByte (buf : Bytes) (ctrl : UInt8) (offset typeNum : Nat) : Res (Nat × Nat) :=
  let size := (ctrl &&& 0x1f).toNat
  if typeNum = 0 then .ok (size, offset)
  else if size < 29 then .ok (size, offset)
  else
    let newOffset := offset + (size - 28)
    if newOffset > buf.length then .err offsetErr
    else if size = 29 then match buf[offset]? with
      | some b => .ok (29 + b.toNat, offset + 1)
      | none => .panic
    else do
      let sizeBytes ← goSlice buf offset newOffset
      if size = 30 then .ok (285 + uintFromBytes 0 sizeBytes, newOffset)
      else .ok (uintFromBytes 0 sizeBytes + 65821, newOffset)

/-- `/repo/db/format/awdb/decoder.go:59-78` decodeCtrlData: type, size, offset.  `d.buffer[newOffset] + 7` is byte
arithmetic and wraps. -/
def decodeCtrlData (buf : Bytes) (offset : Nat) : Res (Nat × Nat × Nat) :=
  match buf[offset]? with
  | none => .err offsetErr
  | some ctrl =>
    if (ctrl >>> 5).toNat = 0 then
      match buf[offset + 1]? with
      | none => .err offsetErr
      | some b => do
        let (size, off) ← sizeFromCtrlByte buf ctrl (offset + 2) (b + 7).toNat
        return ((b + 7).toNat, size, off)
    else do
      let (size, off) ← sizeFromCtrlByte buf ctrl (offset + 1) (ctrl >>> 5).toNat
      return ((ctrl >>> 5).toNat, size, off)

/-- `/repo/db/format/awdb/decoder.go:491-524` decodePointer: pointer, offset. -/
def decodePointer (buf : Bytes) (size offset : Nat) : Res (Nat × Nat) :=
  let pointerSize := size / 8 % 4 + 1
  let newOffset := offset + pointerSize
  if newOffset > buf.length then .err offsetErr
  else do
    let pointerBytes ← goSlice buf offset newOffset
    let pre := if pointerSize = 4 then 0 else size % 8
    let unpacked := uintFromBytes pre pointerBytes
    let base := if pointerSize = 2 then 2048 else if pointerSize = 3 then 526336 else 0
    return (unpacked + base, newOffset)

/-- `/repo/db/format/awdb/decoder.go:662-683` decodeKey.  The recursion has no bound in the code; here it is cut after
`fuel` calls, which is a crash: a chain of pointers that is longer than the buffer never ends and overflows the stack
(`Proof/Awdb/Decoder.lean`, `decodeKey_fuel`). -/
def decodeKeyN (buf : Bytes) : Nat → Nat → Res (Bytes × Nat)
  | 0, _ => .panic
  | fuel + 1, offset => do
    let (typeNum, size, dataOffset) ← decodeCtrlData buf offset
    if typeNum = 1 then do
      let (pointer, ptrOffset) ← decodePointer buf size dataOffset
      let (key, _) ← decodeKeyN buf fuel pointer
      return (key, ptrOffset)
    else if typeNum ≠ 2 then .err invalidErr
    else if dataOffset + size > buf.length then .err offsetErr
    else do
      let key ← goSlice buf dataOffset (dataOffset + size)
      return (key, dataOffset + size)

def decodeKey (buf : Bytes) (offset : Nat) : Res (Bytes × Nat) := decodeKeyN buf (buf.length + 1) offset

/-- `/repo/db/format/awdb/decoder.go:688-711` nextValueOffset.  The recursion is cut after `fuel` calls; it never takes
more than the length of the buffer plus one (`Proof/Awdb/Decoder.lean`, `nextValueOffset_fuel`). -/
def nextValueOffsetN (buf : Bytes) : Nat → Nat → Nat → Res Nat
  | 0, _, _ => .panic
  | fuel + 1, offset, numberToSkip =>
    if numberToSkip = 0 then .ok offset
    else do
      let (typeNum, size, offset) ← decodeCtrlData buf offset
      if typeNum = 1 then do
        let (_, offset) ← decodePointer buf size offset
        nextValueOffsetN buf fuel offset (numberToSkip - 1)
      else if typeNum = 7 then nextValueOffsetN buf fuel offset (numberToSkip + 2 * size - 1)
      else if typeNum = 11 then nextValueOffsetN buf fuel offset (numberToSkip + size - 1)
      else if typeNum = 14 then nextValueOffsetN buf fuel offset (numberToSkip - 1)
      else nextValueOffsetN buf fuel (offset + size) (numberToSkip - 1)

def nextValueOffset (buf : Bytes) (offset numberToSkip : Nat) : Res Nat :=
  nextValueOffsetN buf (buf.length + 2) offset numberToSkip

/-- `/repo/db/format/awdb/decoder.go:443-450` decodeInt: the bytes as a 32-bit two's complement number. -/
def intOf (bs : Bytes) : Int :=
  let n : Nat := uintFromBytes 0 bs % 2 ^ 32
  if n < 2 ^ 31 then (n : Int) else (n : Int) - 2 ^ 32

/-- `/repo/db/format/awdb/decoder.go:131-156` the part of decodeFromType after the container types, with the unmarshal
functions of `:208-294`, `:351-418` (and `:424-450`, `:543-546`, `:631-648`) for a target of kind interface. -/
def decodeScalar (buf : Bytes) (t size offset : Nat) : Res (Val × Nat) :=
  if offset + size > buf.length then .err offsetErr
  else if t = 4 ∨ t = 2 then do
    let bs ← goSlice buf offset (offset + size)
    return (.bytes bs, offset + size)
  else if t = 15 then
    if size ≠ 4 then .err invalidErr
    else do
      let bs ← goSlice buf offset (offset + size)
      return (.f32 (uintFromBytes 0 bs), offset + size)
  else if t = 3 then
    if size ≠ 8 then .err invalidErr
    else do
      let bs ← goSlice buf offset (offset + size)
      return (.f64 (uintFromBytes 0 bs), offset + size)
  else if t = 8 then
    if size > 4 then .err invalidErr
    else do
      let bs ← goSlice buf offset (offset + size)
      return (.int (intOf bs), offset + size)
  else if t = 5 ∨ t = 6 ∨ t = 9 then
    if size > (if t = 5 then 2 else if t = 6 then 4 else 8) then .err invalidErr
    else do
      let bs ← goSlice buf offset (offset + size)
      return (.uint (uintFromBytes 0 bs), offset + size)
  else if t = 10 then
    if size > 16 then .err invalidErr
    else do
      let bs ← goSlice buf offset (offset + size)
      return (.big (uintFromBytes 0 bs), offset + size)
  else .err invalidErr

/-- Loop of `/repo/db/format/awdb/decoder.go:467-488` decodeMap; `dec` decodes an element. -/
def mapLoop {α : Type} (buf : Bytes) (dec : Nat → Res (α × Nat)) : Nat → Nat → GoMap α → Res (GoMap α × Nat)
  | 0, offset, m => .ok (m, offset)
  | n + 1, offset, m => do
    let (key, offset) ← decodeKey buf offset
    let (v, offset) ← dec offset
    mapLoop buf dec n offset (mapSet m key v)

/-- Loop of `/repo/db/format/awdb/decoder.go:533-540` decodeSlice. -/
def sliceLoop {α : Type} (dec : Nat → Res (α × Nat)) : Nat → Nat → Res (List α × Nat)
  | 0, offset => .ok ([], offset)
  | n + 1, offset => do
    let (v, offset) ← dec offset
    let (vs, offset) ← sliceLoop dec n offset
    return (v :: vs, offset)

/-- `/repo/db/format/awdb/decoder.go:43-57` decode with `decodeFromType` (`:111-157`) for a target of kind interface.
The first argument counts the levels left: 513 minus the depth of the code, which starts at 0, grows by one with each
nested call and fails above 512. -/
def decodeAny (buf : Bytes) : Nat → Nat → Res (Val × Nat)
  | 0, _ => .err invalidErr
  | r + 1, offset => do
    let (t, size, offset) ← decodeCtrlData buf offset
    if t = 14 then
      if size > 1 then .err invalidErr else .ok (.bool (size != 0), offset)
    else if t = 7 then do
      let (m, offset) ← mapLoop buf (decodeAny buf r) size offset []
      return (.map m, offset)
    else if t = 1 then do
      let (pointer, offset) ← decodePointer buf size offset
      let (v, _) ← decodeAny buf r pointer
      return (v, offset)
    else if t = 11 then do
      let (l, offset) ← sliceLoop (decodeAny buf r) size offset
      return (.slice l, offset)
    else decodeScalar buf t size offset

/-- Decoding into a target of another kind: pointers are followed, `leaf` handles the type found.  `leaf` gets the
levels left, the type, the size and the offset. -/
def decodeTyped {α : Type} (buf : Bytes) (leaf : Nat → Nat → Nat → Nat → Res (α × Nat)) : Nat → Nat → Res (α × Nat)
  | 0, _ => .err invalidErr
  | r + 1, offset => do
    let (t, size, offset) ← decodeCtrlData buf offset
    if t = 1 then do
      let (pointer, offset) ← decodePointer buf size offset
      let (v, _) ← decodeTyped buf leaf r pointer
      return (v, offset)
    else leaf r t size offset

/-- `/repo/db/format/awdb/decoder.go:268-294,369-395` for a target of kind `uint` (64 bits): a negative int32 becomes
its two's complement.  Every other type is an error, whatever its size. -/
def uintLeaf (buf : Bytes) (_ t size offset : Nat) : Res (Nat × Nat) :=
  if t = 8 ∨ t = 5 ∨ t = 6 ∨ t = 9 then do
    let (v, offset) ← decodeScalar buf t size offset
    match v with
    | .int z => return ((z % 2 ^ 64).toNat, offset)
    | .uint n => return (n, offset)
    | _ => .err typeErr
  else .err typeErr

/-- `/repo/db/format/awdb/decoder.go:351-367` for a target of kind `string`. -/
def strLeaf (buf : Bytes) (_ t size offset : Nat) : Res (Str × Nat) :=
  if t = 2 then
    if offset + size > buf.length then .err offsetErr
    else do
      let bs ← goSlice buf offset (offset + size)
      return (bs, offset + size)
  else .err typeErr

/-- `/repo/db/format/awdb/decoder.go:296-319,452-489` for a target of type `map[string]string`; the map may hold entries
of an earlier value. -/
def strMapLeaf (buf : Bytes) (m : GoMap Str) (r t size offset : Nat) : Res (GoMap Str × Nat) :=
  if t = 7 then mapLoop buf (decodeTyped buf (strLeaf buf) r) size offset m else .err typeErr

/-- `/repo/db/format/awdb/decoder.go:330-349,526-541` for a target of type `[]string`. -/
def strsLeaf (buf : Bytes) (r t size offset : Nat) : Res (List Str × Nat) :=
  if t = 11 then sliceLoop (decodeTyped buf (strLeaf buf) r) size offset else .err typeErr

/-- `/repo/db/format/awdb/fields.go:28-38` Metadata. -/
structure Metadata where
  binaryFormatMajorVersion : Nat := 0
  binaryFormatMinorVersion : Nat := 0
  buildEpoch : Nat := 0
  databaseType : Str := []
  description : GoMap Str := []
  ipVersion : Nat := 0
  languages : List Str := []
  nodeCount : Nat := 0
  recordSize : Nat := 0
  deriving DecidableEq, Repr

/-- `/repo/db/format/awdb/decoder.go:576-589`: one named field of the struct, by its tag
(`/repo/db/format/awdb/fields.go:29-37`); other keys are skipped. -/
def metaField (buf : Bytes) (r : Nat) (md : Metadata) (key : Str) (offset : Nat) : Res (Metadata × Nat) :=
  if key = gs "binary_format_major_version" then do
    let (n, offset) ← decodeTyped buf (uintLeaf buf) r offset
    return ({ md with binaryFormatMajorVersion := n }, offset)
  else if key = gs "binary_format_minor_version" then do
    let (n, offset) ← decodeTyped buf (uintLeaf buf) r offset
    return ({ md with binaryFormatMinorVersion := n }, offset)
  else if key = gs "build_epoch" then do
    let (n, offset) ← decodeTyped buf (uintLeaf buf) r offset
    return ({ md with buildEpoch := n }, offset)
  else if key = gs "database_type" then do
    let (s, offset) ← decodeTyped buf (strLeaf buf) r offset
    return ({ md with databaseType := s }, offset)
  else if key = gs "description" then do
    let (m, offset) ← decodeTyped buf (strMapLeaf buf md.description) r offset
    return ({ md with description := m }, offset)
  else if key = gs "ip_version" then do
    let (n, offset) ← decodeTyped buf (uintLeaf buf) r offset
    return ({ md with ipVersion := n }, offset)
  else if key = gs "languages" then do
    let (l, offset) ← decodeTyped buf (strsLeaf buf) r offset
    return ({ md with languages := l }, offset)
  else if key = gs "node_count" then do
    let (n, offset) ← decodeTyped buf (uintLeaf buf) r offset
    return ({ md with nodeCount := n }, offset)
  else if key = gs "record_size" then do
    let (n, offset) ← decodeTyped buf (uintLeaf buf) r offset
    return ({ md with recordSize := n }, offset)
  else do
    let offset ← nextValueOffset buf offset 1
    return (md, offset)

/-- Loop of `/repo/db/format/awdb/decoder.go:565-590` decodeStruct for `Metadata` (no embedded fields). -/
def metaLoop (buf : Bytes) (r : Nat) : Nat → Nat → Metadata → Res (Metadata × Nat)
  | 0, offset, md => .ok (md, offset)
  | n + 1, offset, md => do
    let (key, offset) ← decodeKey buf offset
    let (md, offset) ← metaField buf r md key offset
    metaLoop buf r n offset md

/-- `/repo/db/format/awdb/decoder.go:296-319` for the struct: only a map fits. -/
def metaLeaf (buf : Bytes) (r t size offset : Nat) : Res (Metadata × Nat) :=
  if t = 7 then metaLoop buf r size offset {} else .err typeErr

/-- `/repo/db/format/awdb/reader.go:55-61`: decoding the metadata at offset 0. -/
def decodeMeta (buf : Bytes) : Res Metadata := do
  let (md, _) ← decodeTyped buf (metaLeaf buf) 513 0
  return md

end Uip.Awdb
