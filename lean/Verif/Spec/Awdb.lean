import Verif.Model.Awdb.Decoder
import Verif.Spec.Range
/-!
# Specification vocabulary: the awdb file format

Written from the format description (the MaxMind DB format the package follows): big-endian numbers, control bytes,
size classes, pointers, node records, sections.  `Val` and `Metadata` are the result types of the decoder.
-/
namespace Uip.Spec.Awdb
open Uip

/-- The `k` bytes of `n`, most significant first. -/
def be : Nat → Nat → Bytes
  | 0, _ => []
  | k + 1, n => UInt8.ofNat (n / 256 ^ k) :: be k n

/-! ## Node records -/

/-- The bytes of a node with the two records `l` and `r`.  With 28 bits the middle byte holds the top four bits of the
left record, then those of the right one. -/
def nodeBytes (recordSize : Nat) (n : Nat × Nat) : Bytes :=
  if recordSize = 24 then be 3 n.1 ++ be 3 n.2
  else if recordSize = 28 then be 3 n.1 ++ [UInt8.ofNat (n.1 / 2 ^ 24 * 16 + n.2 / 2 ^ 24)] ++ be 3 n.2
  else be 4 n.1 ++ be 4 n.2

/-- The node table. -/
def treeBytes (recordSize : Nat) (nodes : List (Nat × Nat)) : Bytes := nodes.flatMap (nodeBytes recordSize)

/-! ## Data -/

/-- Values of the data section. The length `k` of a stored number is part of the document. -/
inductive Doc where
  | str (s : Bytes)
  | bytes (b : Bytes)
  | double (bits : Nat)
  | float (bits : Nat)
  | int32 (k : Nat) (z : Int)
  | uint16 (k n : Nat)
  | uint32 (k n : Nat)
  | uint64 (k n : Nat)
  | uint128 (k n : Nat)
  | bool (b : Bool)
  | array (l : List Doc)
  | map (l : List (Str × Doc))
  deriving Repr

/-- Size bits of the control byte and the bytes that follow. -/
def sizeBits (size : Nat) : Nat × Bytes :=
  if size < 29 then (size, [])
  else if size < 285 then (29, be 1 (size - 29))
  else if size < 65821 then (30, be 2 (size - 285))
  else (31, be 3 (size - 65821))

/-- Control byte (type in the top three bits, 0 for an extended type), type byte of an extended type, size bytes. -/
def head (type size : Nat) : Bytes :=
  if type < 8 then UInt8.ofNat (type * 32 + (sizeBits size).1) :: (sizeBits size).2
  else UInt8.ofNat (sizeBits size).1 :: UInt8.ofNat (type - 7) :: (sizeBits size).2

/-- Sizes that can be written. -/
def SizeOK (size : Nat) : Prop := size < 65821 + 2 ^ 24

/-- A pointer to `p`: four classes with 11, 19, 27 and 32 bits. -/
def pointer (p : Nat) : Bytes :=
  if p < 2048 then UInt8.ofNat (32 + p / 256) :: be 1 p
  else if p < 526336 then UInt8.ofNat (32 + 8 + (p - 2048) / 2 ^ 16) :: be 2 (p - 2048)
  else if p < 134744064 then UInt8.ofNat (32 + 16 + (p - 526336) / 2 ^ 24) :: be 3 (p - 526336)
  else UInt8.ofNat (32 + 24) :: be 4 p

/-- `piece` stands at `off`. -/
def At (buf : Bytes) (off : Nat) (piece : Bytes) : Prop := piece <+: buf.drop off

instance (buf off piece) : Decidable (At buf off piece) := by unfold At; infer_instance

/-- The bytes of a value that has no parts; `none` for arrays and maps. -/
def Doc.scalar : Doc → Option Bytes
  | .str s => some (head 2 s.length ++ s)
  | .bytes b => some (head 4 b.length ++ b)
  | .double n => some (head 3 8 ++ be 8 n)
  | .float n => some (head 15 4 ++ be 4 n)
  | .int32 k z => some (head 8 k ++ be k (z % 2 ^ 32).toNat)
  | .uint16 k n => some (head 5 k ++ be k n)
  | .uint32 k n => some (head 6 k ++ be k n)
  | .uint64 k n => some (head 9 k ++ be k n)
  | .uint128 k n => some (head 10 k ++ be k n)
  | .bool b => some (head 14 b.toNat)
  | .array _ => none
  | .map _ => none

/-- Numbers fit the bytes they are given. -/
def Doc.Fits : Doc → Prop
  | .str s => SizeOK s.length
  | .bytes b => SizeOK b.length
  | .double n => n < 2 ^ 64
  | .float n => n < 2 ^ 32
  | .int32 k z => (k = 4 ∧ -2 ^ 31 ≤ z ∧ z < 2 ^ 31) ∨ (k < 4 ∧ 0 ≤ z ∧ z < 256 ^ k)
  | .uint16 k n => k ≤ 2 ∧ n < 256 ^ k
  | .uint32 k n => k ≤ 4 ∧ n < 256 ^ k
  | .uint64 k n => k ≤ 8 ∧ n < 256 ^ k
  | .uint128 k n => k ≤ 16 ∧ n < 256 ^ k
  | .bool _ => True
  | .array l => SizeOK l.length
  | .map l => SizeOK l.length

/-- A key stands at `off` and ends at `e`: a string, or a pointer to a string. -/
def KeyAt (buf : Bytes) (off : Nat) (key : Str) (e : Nat) : Prop :=
  SizeOK key.length ∧
  ((At buf off (head 2 key.length ++ key) ∧ e = off + (head 2 key.length ++ key).length) ∨
   ∃ p, p < 2 ^ 32 ∧ At buf off (pointer p) ∧ e = off + (pointer p).length ∧ At buf p (head 2 key.length ++ key))

/-- Values one after the other. -/
def Chain (at_ : Nat → Doc → Nat → Prop) : Nat → List Doc → Nat → Prop
  | off, [], e => e = off
  | off, d :: l, e => ∃ m, at_ off d m ∧ Chain at_ m l e

/-- Keys and values one after the other. -/
def KeyChain (buf : Bytes) (at_ : Nat → Doc → Nat → Prop) : Nat → List (Str × Doc) → Nat → Prop
  | off, [], e => e = off
  | off, kd :: l, e => ∃ m n, KeyAt buf off kd.1 m ∧ at_ m kd.2 n ∧ KeyChain buf at_ n l e

/-- The value `d` stands at `off` and ends at `e`, using at most the given number of levels: written there, or by a
pointer to where it stands; the same for its parts. -/
def Stored (buf : Bytes) : Nat → Nat → Doc → Nat → Prop
  | 0, _, _, _ => False
  | levels + 1, off, d, e =>
    (∃ p e', p < 2 ^ 32 ∧ At buf off (pointer p) ∧ e = off + (pointer p).length ∧ Stored buf levels p d e') ∨
    (d.Fits ∧ match d with
      | .array l => At buf off (head 11 l.length) ∧ Chain (Stored buf levels) (off + (head 11 l.length).length) l e
      | .map l => At buf off (head 7 l.length) ∧
          KeyChain buf (Stored buf levels) (off + (head 7 l.length).length) l e
      | d => ∃ b, d.scalar = some b ∧ At buf off b ∧ e = off + b.length)

/-- The bytes of a document written without pointers. -/
def Doc.enc : Doc → Bytes
  | .array l => head 11 l.length ++ encs l
  | .map l => head 7 l.length ++ encPairs l
  | .str s => head 2 s.length ++ s
  | .bytes b => head 4 b.length ++ b
  | .double n => head 3 8 ++ be 8 n
  | .float n => head 15 4 ++ be 4 n
  | .int32 k z => head 8 k ++ be k (z % 2 ^ 32).toNat
  | .uint16 k n => head 5 k ++ be k n
  | .uint32 k n => head 6 k ++ be k n
  | .uint64 k n => head 9 k ++ be k n
  | .uint128 k n => head 10 k ++ be k n
  | .bool b => head 14 b.toNat
where
  encs : List Doc → Bytes
    | [] => []
    | d :: l => d.enc ++ encs l
  encPairs : List (Str × Doc) → Bytes
    | [] => []
    | (k, d) :: l => head 2 k.length ++ k ++ d.enc ++ encPairs l

/-- Every part fits, keys too. -/
def Doc.AllFit : Doc → Prop
  | .array l => SizeOK l.length ∧ fitAll l
  | .map l => SizeOK l.length ∧ fitPairs l
  | d => d.Fits
where
  fitAll : List Doc → Prop
    | [] => True
    | d :: l => d.AllFit ∧ fitAll l
  fitPairs : List (Str × Doc) → Prop
    | [] => True
    | (k, d) :: l => SizeOK k.length ∧ d.AllFit ∧ fitPairs l

/-- Levels of nesting: 1 for a value without parts. -/
def Doc.levels : Doc → Nat
  | .array l => 1 + levelsAll l
  | .map l => 1 + levelsPairs l
  | _ => 1
where
  levelsAll : List Doc → Nat
    | [] => 0
    | d :: l => max d.levels (levelsAll l)
  levelsPairs : List (Str × Doc) → Nat
    | [] => 0
    | (_, d) :: l => max d.levels (levelsPairs l)

/-- The value a document denotes for an untyped target: strings come as byte slices, a map holds the last value of
each key. -/
def Doc.val : Doc → Awdb.Val
  | .str s => .bytes s
  | .bytes b => .bytes b
  | .double n => .f64 n
  | .float n => .f32 n
  | .int32 _ z => .int z
  | .uint16 _ n => .uint n
  | .uint32 _ n => .uint n
  | .uint64 _ n => .uint n
  | .uint128 _ n => .big n
  | .bool b => .bool b
  | .array l => .slice (vals l)
  | .map l => .map (entries l []) 
where
  vals : List Doc → List Awdb.Val
    | [] => []
    | d :: l => d.val :: vals l
  entries : List (Str × Doc) → List (Str × Awdb.Val) → List (Str × Awdb.Val)
    | [], m => m
    | (k, d) :: l, m => entries l ((k, d.val) :: m)

/-! ## Metadata -/

/-- A document read as a non-negative number. -/
def Doc.asUint : Doc → Option Nat
  | .uint16 _ n => some n
  | .uint32 _ n => some n
  | .uint64 _ n => some n
  | .int32 _ z => if 0 ≤ z then some z.toNat else none
  | _ => none

def Doc.asStr : Doc → Option Str
  | .str s => some s
  | _ => none

/-- Every entry read by `f`. -/
def readAll {α : Type} (f : Doc → Option α) : List Doc → Option (List α)
  | [] => some []
  | d :: l => match f d, readAll f l with
    | some v, some vs => some (v :: vs)
    | _, _ => none

/-- Entries of a map of strings put into a map, the later ones winning. -/
def readPairs {α : Type} (f : Doc → Option α) : List (Str × Doc) → GoMap α → Option (GoMap α)
  | [], m => some m
  | (k, d) :: l, m => match f d with
    | some v => readPairs f l ((k, v) :: m)
    | none => none

/-- What one entry of the metadata map says; unknown keys say nothing. -/
def metaEntry (md : Awdb.Metadata) (key : Str) (d : Doc) : Option Awdb.Metadata :=
  if key = gs "binary_format_major_version" then d.asUint.map fun n => { md with binaryFormatMajorVersion := n }
  else if key = gs "binary_format_minor_version" then d.asUint.map fun n => { md with binaryFormatMinorVersion := n }
  else if key = gs "build_epoch" then d.asUint.map fun n => { md with buildEpoch := n }
  else if key = gs "database_type" then d.asStr.map fun s => { md with databaseType := s }
  else if key = gs "description" then match d with
    | .map l => (readPairs Doc.asStr l md.description).map fun m => { md with description := m }
    | _ => none
  else if key = gs "ip_version" then d.asUint.map fun n => { md with ipVersion := n }
  else if key = gs "languages" then match d with
    | .array l => (readAll Doc.asStr l).map fun ls => { md with languages := ls }
    | _ => none
  else if key = gs "node_count" then d.asUint.map fun n => { md with nodeCount := n }
  else if key = gs "record_size" then d.asUint.map fun n => { md with recordSize := n }
  else some md

/-- What a metadata map says. -/
def metaOf : List (Str × Doc) → Awdb.Metadata → Option Awdb.Metadata
  | [], md => some md
  | (k, d) :: l, md => match metaEntry md k d with
    | some md => metaOf l md
    | none => none

/-! ## Files -/

/-- The bytes between data and metadata. -/
def metaMarker : Bytes := [0xAB, 0xCD, 0xEF] ++ gs "ipplus360.com"

/-- A database: node table, data section, metadata section. -/
structure File where
  recordSize : Nat
  nodes : List (Nat × Nat)
  data : Bytes
  meta_ : Bytes
  md : Awdb.Metadata

def File.bytes (f : File) : Bytes :=
  treeBytes f.recordSize f.nodes ++ List.replicate 16 0 ++ f.data ++ metaMarker ++ f.meta_

/-- A well-formed file: the records fit; the metadata section holds a map that says `md`, agrees with the node table,
lies in the last 2000 bytes and has no second marker; the file has at least 2000 bytes. -/
structure File.OK (f : File) : Prop where
  size : f.recordSize = 24 ∨ f.recordSize = 28 ∨ f.recordSize = 32
  fit : ∀ n ∈ f.nodes, n.1 < 2 ^ f.recordSize ∧ n.2 < 2 ^ f.recordSize
  count : f.nodes.length * f.recordSize < 2 ^ 64
  metadata : ∃ l e, Stored f.meta_ 513 0 (.map l) e ∧ metaOf l {} = some f.md
  mdSize : f.md.recordSize = f.recordSize
  mdCount : f.md.nodeCount = f.nodes.length
  long : 2000 ≤ f.bytes.length
  tail : 16 + f.meta_.length ≤ 2000
  once : ∀ i, 0 < i → ¬ At (metaMarker ++ f.meta_) i metaMarker

/-- Walk down the node table: the record reached and the number of bits used. -/
def treeWalk (nodes : List (Nat × Nat)) : List Bool → Nat → Nat → Nat × Nat
  | [], rec, d => (rec, d)
  | b :: bs, rec, d => match nodes[rec]? with
    | none => (rec, d)
    | some n => treeWalk nodes bs (if b then n.2 else n.1) (d + 1)

/-! ## Addresses and networks -/

/-- An address as the database sees it: IPv4 and IPv4-mapped addresses have four bytes. -/
def canon (a : IP) : IP := (To4 a).getD a

/-- The address lies in the network; an IPv4 address lies in a 16-byte network as `::a.b.c.d`. -/
def Inside (n : IPNet) (a : IP) : Prop :=
  InNet n (pfx n) (List.replicate (n.ip.length - (canon a).length) 0 ++ canon a)

instance (n a) : Decidable (Inside n a) := by unfold Inside; infer_instance

/-- The bits to follow in the tree for an address: an IPv4 address stands at `::a.b.c.d` in an IPv6 database. -/
def File.path (f : File) (a : IP) : List Bool :=
  bits ((if f.md.ipVersion = 6 then List.replicate (16 - (canon a).length) 0 else []) ++ canon a)

/-- The addresses a database is asked for: IPv4 addresses, and all addresses if it is an IPv6 database. -/
def File.Asks (f : File) (a : IP) : Prop := ValidIP a ∧ (f.md.ipVersion = 6 ∨ (canon a).length = 4)

instance (f : File) (a) : Decidable (f.Asks a) := by unfold File.Asks; infer_instance

/-- A record of strings. -/
def strRecord (l : List (Str × Str)) : Doc := .map (l.map fun p => (p.1, .str p.2))

/-- The last value given for a key; the empty string if there is none. -/
def lastVal : List (Str × Str) → Str → Str
  | [], _ => []
  | (k, v) :: l, key => if k = key ∧ ∀ p ∈ l, p.1 ≠ key then v else lastVal l key

/-- Both IPv4 or both IPv6. -/
def SameFamily (a b : IP) : Prop := (canon a).length = (canon b).length

instance (a b) : Decidable (SameFamily a b) := by unfold SameFamily; infer_instance

end Uip.Spec.Awdb
