import Verif.Model.GoText
import Verif.Model.Inf
import Verif.Model.Ipdb.Fields
/-!
# Package `encoding/json` (Go std, go 1.19), as far as the repository uses it

Go standard library, not repository code; part of the trusted base.  `json.Marshal` of the structs of the repository
(HTML escaping is on), `json.Unmarshal` into the metadata of an ipdb file and into the version of a `.scan` text:
the check of the whole text, then the assignment of the members.  Errors carry no detail: `none`.

Other theorems take the encoders and decoders as parameters; this file and `Verif/Props/Json.lean` show that those
of Go meet the hypotheses asked for, and when.
-/
namespace Uip.Json
open Uip

/-! ## UTF-8 (`unicode/utf8`) -/

/-- A continuation byte between two bounds. -/
def within (lo hi b : UInt8) : Bool := decide (lo ≤ b ∧ b ≤ hi)

/-- `utf8.DecodeRune` (Go std): the size of the character at the front, `none` for an invalid encoding (RuneError
of size 1). -/
def runeLen : Bytes → Option Nat
  | [] => none
  | a :: r =>
    if a < 0x80 then some 1
    else if a < 0xC2 then none
    else if a < 0xE0 then match r with
      | b :: _ => if within 0x80 0xBF b then some 2 else none
      | _ => none
    else if a < 0xF0 then match r with
      | b :: c :: _ =>
        if within (if a = 0xE0 then 0xA0 else 0x80) (if a = 0xED then 0x9F else 0xBF) b && within 0x80 0xBF c then some 3
        else none
      | _ => none
    else if a < 0xF5 then match r with
      | b :: c :: d :: _ =>
        if within (if a = 0xF0 then 0x90 else 0x80) (if a = 0xF4 then 0x8F else 0xBF) b && within 0x80 0xBF c
            && within 0x80 0xBF d then some 4
        else none
      | _ => none
    else none

/-- `utf8.RuneError` (Go std), U+FFFD, in UTF-8. -/
def runeError : Bytes := [0xEF, 0xBF, 0xBD]

/-- `utf8.EncodeRune` (Go std) of a number; surrogates and numbers too big become U+FFFD. -/
def encodeRune (n : Nat) : Bytes :=
  if n < 0x80 then [UInt8.ofNat n]
  else if n < 0x800 then [UInt8.ofNat (0xC0 + n / 64), UInt8.ofNat (0x80 + n % 64)]
  else if 0x110000 ≤ n ∨ (0xD800 ≤ n ∧ n < 0xE000) then runeError
  else if n < 0x10000 then
    [UInt8.ofNat (0xE0 + n / 4096), UInt8.ofNat (0x80 + n / 64 % 64), UInt8.ofNat (0x80 + n % 64)]
  else [UInt8.ofNat (0xF0 + n / 262144), UInt8.ofNat (0x80 + n / 4096 % 64), UInt8.ofNat (0x80 + n / 64 % 64),
    UInt8.ofNat (0x80 + n % 64)]

/-! ## Marshal -/

/-- `htmlSafeSet` of `encoding/json/tables.go` (Go std). -/
def htmlSafe (b : UInt8) : Bool :=
  decide (0x20 ≤ b ∧ b < 0x80 ∧ b ≠ 0x22 ∧ b ≠ 0x5C ∧ b ≠ 0x3C ∧ b ≠ 0x3E ∧ b ≠ 0x26)

/-- `\u00XX`. -/
def escape00 (b : UInt8) : Bytes := [0x5C, 0x75, 0x30, 0x30, digitChar (b.toNat / 16), digitChar (b.toNat % 16)]

/-- One ASCII byte in `encodeState.string` (Go std, escapeHTML = true). -/
def escapeByte (b : UInt8) : Bytes :=
  if htmlSafe b then [b]
  else if b = 0x5C ∨ b = 0x22 then [0x5C, b]
  else if b = 0x0A then [0x5C, 0x6E]
  else if b = 0x0D then [0x5C, 0x72]
  else if b = 0x09 then [0x5C, 0x74]
  else escape00 b

/-- Loop of `encodeState.string` (Go std) over the text; `fuel` is its length. -/
def escapeLoop : Nat → Bytes → Bytes
  | 0, _ => []
  | _, [] => []
  | f + 1, a :: r =>
    if a < 0x80 then escapeByte a ++ escapeLoop f r
    else match runeLen (a :: r) with
      | none => [0x5C, 0x75, 0x66, 0x66, 0x66, 0x64] ++ escapeLoop f r
      | some n =>
        let c := (a :: r).take n
        (if c = [0xE2, 0x80, 0xA8] then [0x5C, 0x75, 0x32, 0x30, 0x32, 0x38]
         else if c = [0xE2, 0x80, 0xA9] then [0x5C, 0x75, 0x32, 0x30, 0x32, 0x39]
         else c) ++ escapeLoop f ((a :: r).drop n)

/-- The text between the quotes. -/
def escape (s : Str) : Bytes := escapeLoop s.length s

/-- A JSON text: strings and numbers as they are written. -/
inductive JVal where
  | null
  | bool (b : Bool)
  | num (raw : Bytes)
  | str (raw : Bytes)
  | arr (l : List JVal)
  | obj (l : List (Bytes × JVal))

mutual
/-- The text written for a value, without white space. -/
def JVal.text : JVal → Bytes
  | .null => gs "null"
  | .bool true => gs "true"
  | .bool false => gs "false"
  | .num raw => raw
  | .str raw => 0x22 :: raw ++ [0x22]
  | .arr l => 0x5B :: (elemsText l ++ [0x5D])
  | .obj l => 0x7B :: (membersText l ++ [0x7D])
/-- Elements separated by commas. -/
def elemsText : List JVal → Bytes
  | [] => []
  | [v] => v.text
  | v :: w :: r => v.text ++ 0x2C :: elemsText (w :: r)
/-- Members separated by commas. -/
def membersText : List (Bytes × JVal) → Bytes
  | [] => []
  | [(k, v)] => 0x22 :: k ++ 0x22 :: 0x3A :: v.text
  | (k, v) :: w :: r => (0x22 :: k ++ 0x22 :: 0x3A :: v.text) ++ 0x2C :: membersText (w :: r)
end

/-- `stringEncoder`, `encodeState.string` (Go std). -/
def JVal.ofStr (s : Str) : JVal := .str (escape s)
/-- `intEncoder`, `uintEncoder` (Go std): `strconv.AppendInt`. -/
def intText (n : Int) : Bytes := if n < 0 then 0x2D :: decStr n.natAbs else decStr n.natAbs
def JVal.ofInt (n : Int) : JVal := .num (intText n)
/-- `sliceEncoder` (Go std) on `[]string`; a nil slice is written `null` (`isNil` says which one an empty slice is). -/
def JVal.ofStrings (isNil : Bool) (l : List Str) : JVal :=
  if l = [] ∧ isNil = true then .null else .arr (l.map .ofStr)

/-- Byte order of strings (`<` in Go). -/
def strLt : Str → Str → Bool
  | [], [] => false
  | [], _ :: _ => true
  | _ :: _, [] => false
  | a :: s, b :: t => if a < b then true else if b < a then false else strLt s t

/-- Insertion into a list sorted by key; an existing key is kept. -/
def insertKey (k : Str) (v : Int) : List (Str × Int) → List (Str × Int)
  | [] => [(k, v)]
  | (k', v') :: r => if k = k' then (k, v) :: r else if strLt k k' then (k, v) :: (k', v') :: r else (k', v') :: insertKey k v r

/-- The pairs of a map sorted by key (`mapEncoder`, Go std). -/
def sortedPairs : GoMap Int → List (Str × Int)
  | [] => []
  | (k, v) :: m => insertKey k v (sortedPairs m)

/-- `mapEncoder` (Go std) on `map[string]int` that is not nil. -/
def JVal.ofMap (m : GoMap Int) : JVal := .obj ((sortedPairs m).map fun p => (escape p.1, .ofInt p.2))

/-- `structEncoder` (Go std): the names of the repository's structs need no escaping. -/
def JVal.ofFields (l : List (String × JVal)) : JVal := .obj (l.map fun p => (gs p.1, p.2))

/-- `json.Marshal` (Go std) of `/repo/db/format/ipdb/fields.go:105-114` MetaData (called at `/repo/db/format/ipdb/writer.go:90`). -/
def metaVal (nilFields nilExtra : Bool) (m : Ipdb.MetaData) : JVal :=
  .ofFields [("build", .ofInt m.build), ("ip_version", .ofInt m.ipVersion), ("languages", .ofMap m.languages),
    ("node_count", .ofInt m.nodeCount), ("total_size", .ofInt m.totalSize), ("fields", .ofStrings nilFields m.fields),
    ("version", .ofStr m.version), ("extra", .ofStrings nilExtra m.extra)]
def marshalMeta (nilFields nilExtra : Bool) (m : Ipdb.MetaData) : Bytes := (metaVal nilFields nilExtra m).text

/-- `json.Marshal` (Go std) of `/repo/db/inf/db_inf.go:30-37` VersionInfo (called at `/repo/db/format/plain/packer.go:14`,
`/repo/cmd/server/server.go:17`, `/repo/db/inf/db_inf.go:68`). -/
def versionVal (nilLangs nilExtra : Bool) (v : VersionInfo) : JVal :=
  .ofFields [("IpType", .ofInt v.ipType), ("Count", .ofInt v.count.toNat), ("Build", .ofInt v.build),
    ("Version", .ofStr v.version), ("Languages", .ofStrings nilLangs v.languages), ("ExtraInfo", .ofStrings nilExtra v.extraInfo)]
def marshalVersion (nilLangs nilExtra : Bool) (v : VersionInfo) : Bytes := (versionVal nilLangs nilExtra v).text

/-- `json.Marshal` (Go std) of `/repo/db/inf/db_inf.go:8-20` IpInfo: empty members are left out (called at
`/repo/cmd/server/server.go:28`). -/
def infoVal (i : IpInfo) : JVal :=
  .ofFields (([("country", i.country), ("district", i.district), ("province", i.province), ("city", i.city), ("asn", i.asn),
    ("isp", i.isp), ("continent", i.continent), ("line", i.line)].filter fun p => decide (p.2 ≠ [])).map fun p => (p.1, .ofStr p.2))
def marshalInfo (i : IpInfo) : Bytes := (infoVal i).text

/-! ## Unmarshal: the text (`encoding/json/scanner.go`, `checkValid`) -/

/-- `isSpace` (Go std). -/
def isSpace (b : UInt8) : Bool := decide (b = 0x20 ∨ b = 0x09 ∨ b = 0x0D ∨ b = 0x0A)

def skipSpace : Bytes → Bytes
  | [] => []
  | b :: r => if isSpace b then skipSpace r else b :: r

def isHex (b : UInt8) : Bool := (hexVal b).isSome
def isDigit (b : UInt8) : Bool := decide (0x30 ≤ b ∧ b ≤ 0x39)

/-- The rest of a string after its opening quote: the text between the quotes and what follows
(`stateInString`, `stateInStringEsc`, ..., Go std). -/
def scanStr (s : Bytes) : Option (Bytes × Bytes) :=
  match s with
  | [] => none
  | b :: r =>
    if b = 0x22 then some ([], r)
    else if b = 0x5C then match r with
      | [] => none
      | c :: r' =>
        if c = 0x75 then match r' with
          | d1 :: d2 :: d3 :: d4 :: r'' =>
            if isHex d1 && isHex d2 && isHex d3 && isHex d4 then
              (scanStr r'').map fun p => (b :: c :: d1 :: d2 :: d3 :: d4 :: p.1, p.2)
            else none
          | _ => none
        else if c = 0x62 ∨ c = 0x66 ∨ c = 0x6E ∨ c = 0x72 ∨ c = 0x74 ∨ c = 0x5C ∨ c = 0x2F ∨ c = 0x22 then
          (scanStr r').map fun p => (b :: c :: p.1, p.2)
        else none
    else if b < 0x20 then none
    else (scanStr r).map fun p => (b :: p.1, p.2)
termination_by structural s

/-- Digits at the front. -/
def scanDigits : Bytes → Bytes × Bytes
  | [] => ([], [])
  | b :: r => if isDigit b then (b :: (scanDigits r).1, (scanDigits r).2) else ([], b :: r)

/-- The part of a number before the point (`state0`, `state1`, Go std). -/
def scanWhole : Bytes → Option (Bytes × Bytes)
  | 0x30 :: r => some ([0x30], r)
  | s => match scanDigits s with
    | ([], _) => none
    | p => some p

/-- The fraction (`stateDot`, `stateDot0`, Go std). -/
def scanFraction : Bytes → Option (Bytes × Bytes)
  | 0x2E :: r => match scanDigits r with
    | ([], _) => none
    | (d, r) => some (0x2E :: d, r)
  | s => some ([], s)

/-- The sign of an exponent (`stateE`, Go std). -/
def scanSign : Bytes → Bytes × Bytes
  | 0x2B :: t => ([0x2B], t)
  | 0x2D :: t => ([0x2D], t)
  | t => ([], t)

/-- The exponent (`stateE`, `stateESign`, `stateE0`, Go std). -/
def scanExponent : Bytes → Option (Bytes × Bytes)
  | [] => some ([], [])
  | e :: r =>
    if e = 0x65 ∨ e = 0x45 then
      match scanDigits (scanSign r).2 with
      | ([], _) => none
      | (d, t) => some (e :: ((scanSign r).1 ++ d), t)
    else some ([], e :: r)

/-- The minus sign (`stateNeg`, Go std). -/
def scanMinus : Bytes → Bytes × Bytes
  | 0x2D :: t => ([0x2D], t)
  | t => ([], t)

/-- A number (Go std). -/
def scanNum (s : Bytes) : Option (Bytes × Bytes) :=
  match scanWhole (scanMinus s).2 with
  | none => none
  | some (w, r) => match scanFraction r with
    | none => none
    | some (f, r) => match scanExponent r with
      | none => none
      | some (e, r) => some ((scanMinus s).1 ++ w ++ f ++ e, r)

/-- The word at the front. -/
def scanWord (w s : Bytes) : Option Bytes := if w <+: s then some (s.drop w.length) else none

/-- A value that is no array or object, after white space (`stateBeginValue`, Go std). -/
def scanScalar : Bytes → Option (JVal × Bytes)
  | [] => none
  | b :: r =>
    if b = 0x22 then (scanStr r).map fun p => (.str p.1, p.2)
    else if b = 0x6E then (scanWord (gs "null") (b :: r)).map fun t => (.null, t)
    else if b = 0x74 then (scanWord (gs "true") (b :: r)).map fun t => (.bool true, t)
    else if b = 0x66 then (scanWord (gs "false") (b :: r)).map fun t => (.bool false, t)
    else if b = 0x2D ∨ isDigit b = true then (scanNum (b :: r)).map fun p => (.num p.1, p.2)
    else none

/-- Elements of an array up to its end; `fuel` is more than the number of bytes left. -/
def scanElems (pv : Bytes → Option (JVal × Bytes)) : Nat → Bytes → Option (List JVal × Bytes)
  | 0, _ => none
  | f + 1, s => match pv s with
    | none => none
    | some (v, s) => match skipSpace s with
      | [] => none
      | b :: s =>
        if b = 0x2C then (scanElems pv f s).map fun p => (v :: p.1, p.2)
        else if b = 0x5D then some ([v], s)
        else none

/-- A key and the colon after it. -/
def scanKey (s : Bytes) : Option (Bytes × Bytes) :=
  match skipSpace s with
  | 0x22 :: s => match scanStr s with
    | none => none
    | some (k, s) => match skipSpace s with
      | 0x3A :: s => some (k, s)
      | _ => none
  | _ => none

/-- Members of an object up to its end. -/
def scanMembers (pv : Bytes → Option (JVal × Bytes)) : Nat → Bytes → Option (List (Bytes × JVal) × Bytes)
  | 0, _ => none
  | f + 1, s => match scanKey s with
    | none => none
    | some (k, s) => match pv s with
      | none => none
      | some (v, s) => match skipSpace s with
        | [] => none
        | b :: s =>
          if b = 0x2C then (scanMembers pv f s).map fun p => ((k, v) :: p.1, p.2)
          else if b = 0x7D then some ([(k, v)], s)
          else none

/-- A value; `depth` is how many more arrays and objects may be opened (`maxNestingDepth`, Go std). -/
def scanValue : Nat → Bytes → Option (JVal × Bytes)
  | 0, s => scanScalar (skipSpace s)
  | d + 1, s => match skipSpace s with
    | [] => none
    | b :: r =>
      if b = 0x5B then match skipSpace r with
        | 0x5D :: r => some (.arr [], r)
        | _ => (scanElems (scanValue d) (r.length + 1) r).map fun p => (.arr p.1, p.2)
      else if b = 0x7B then match skipSpace r with
        | 0x7D :: r => some (.obj [], r)
        | _ => (scanMembers (scanValue d) (r.length + 1) r).map fun p => (.obj p.1, p.2)
      else scanScalar (b :: r)

/-- `maxNestingDepth` (Go std). -/
def maxDepth : Nat := 10000

/-- `checkValid` (Go std): the whole text is one value. -/
def parse (s : Bytes) : Option JVal :=
  match scanValue maxDepth s with
  | none => none
  | some (v, r) => if skipSpace r = [] then some v else none

/-! ## Unmarshal: the values (`encoding/json/decode.go`) -/

/-- `getu4` (Go std) on the text after `\u`. -/
def hex4 : Bytes → Option Nat
  | a :: b :: c :: d :: _ => match hexVal a, hexVal b, hexVal c, hexVal d with
    | some a, some b, some c, some d => some (((a * 16 + b) * 16 + c) * 16 + d)
    | _, _, _, _ => none
  | _ => none

/-- The second half of a surrogate pair, written as `\uXXXX`. -/
def lowHalf : Bytes → Option Nat
  | 0x5C :: 0x75 :: r => hex4 r
  | _ => none

/-- `\uXXXX` in `unquoteBytes` (Go std), after the `\u`: what it stands for and the rest. -/
def unquoteU (r : Bytes) : Bytes × Bytes :=
  match hex4 r with
  | none => ([], [])
  | some n =>
    let r := r.drop 4
    if 0xD800 ≤ n ∧ n < 0xE000 then match lowHalf r with
      | some m =>
        if n < 0xDC00 ∧ 0xDC00 ≤ m ∧ m < 0xE000 then (encodeRune (0x10000 + (n - 0xD800) * 1024 + (m - 0xDC00)), r.drop 6)
        else (runeError, r)
      | none => (runeError, r)
    else (encodeRune n, r)

/-- The byte a one-letter escape stands for. -/
def unescape (c : UInt8) : UInt8 :=
  if c = 0x62 then 0x08 else if c = 0x66 then 0x0C else if c = 0x6E then 0x0A else if c = 0x72 then 0x0D
  else if c = 0x74 then 0x09 else c

/-- Loop of `unquoteBytes` (Go std) over the text between the quotes; `fuel` is its length. -/
def unquoteLoop : Nat → Bytes → Str
  | 0, _ => []
  | _, [] => []
  | f + 1, b :: r =>
    if b = 0x5C then match r with
      | [] => []
      | c :: r =>
        if c = 0x75 then (unquoteU r).1 ++ unquoteLoop f (unquoteU r).2
        else unescape c :: unquoteLoop f r
    else if b < 0x80 then b :: unquoteLoop f r
    else match runeLen (b :: r) with
      | none => runeError ++ unquoteLoop f r
      | some n => (b :: r).take n ++ unquoteLoop f ((b :: r).drop n)

/-- `unquote` (Go std). -/
def unquote (raw : Bytes) : Str := unquoteLoop raw.length raw

/-- `&^ 0x20` on ASCII letters. -/
def upperByte (b : UInt8) : UInt8 := if 0x61 ≤ b ∧ b ≤ 0x7A then b - 0x20 else b

/-- `equalFoldRight`, `asciiEqualFold`, `simpleLetterEqualFold` (Go std, `encoding/json/fold.go`): `name` is ASCII; the
long s and the Kelvin sign count as letters. -/
def foldEq : Str → Str → Bool
  | [], t => decide (t = [])
  | _ :: _, [] => false
  | a :: s, b :: t =>
    if b < 0x80 then (decide (upperByte a = upperByte b)) && foldEq s t
    else if upperByte a = 0x53 then match b, t with
      | 0xC5, 0xBF :: t => foldEq s t
      | _, _ => false
    else if upperByte a = 0x4B then match b, t with
      | 0xE2, 0x84 :: 0xAA :: t => foldEq s t
      | _, _ => false
    else false

/-- The member a key belongs to: an exact match, else the first that differs only in case (`decodeState.object`, Go std). -/
def fieldFor (names : List String) (key : Str) : Option String :=
  match names.find? (fun n => decide (gs n = key)) with
  | some n => some n
  | none => names.find? (fun n => foldEq (gs n) key)

/-- A whole number in decimal (`strconv.ParseInt`, Go std, on a JSON number). -/
def rawInt (raw : Bytes) : Option Int :=
  let value (d : Bytes) : Nat := d.foldl (fun n b => n * 10 + (b.toNat - 0x30)) 0
  match raw with
  | 0x2D :: d => if d ≠ [] ∧ d.all isDigit = true then some (-(value d : Int)) else none
  | d => if d ≠ [] ∧ d.all isDigit = true then some (value d) else none

/-- `literalStore` (Go std) into an integer between two bounds; `null` changes nothing. -/
def putInt (lo hi : Int) (old : Int) : JVal → Option Int
  | .null => some old
  | .num raw => match rawInt raw with
    | some n => if lo ≤ n ∧ n ≤ hi then some n else none
    | none => none
  | _ => none

/-- `literalStore` (Go std) into an unsigned integer (`strconv.ParseUint`: no sign). -/
def putUint (hi : Int) (old : Int) : JVal → Option Int
  | .null => some old
  | .num raw => if raw.head? = some 0x2D then none else putInt 0 hi old (.num raw)
  | _ => none

/-- `literalStore` (Go std) into a string. -/
def putStr (old : Str) : JVal → Option Str
  | .null => some old
  | .str raw => some (unquote raw)
  | _ => none

/-- A `[]string` being assigned to: its elements, and what its array holds after them. -/
structure SliceVal where
  elems : List Str := []
  after : List Str := []

/-- Elements of `decodeState.array` (Go std): `old` is what the array holds. -/
def putElems (old : List Str) : List JVal → Option (List Str)
  | [] => some []
  | v :: vs => match putStr (old.headD []) v with
    | none => none
    | some s => (putElems old.tail vs).map (s :: ·)

/-- `decodeState.array` (Go std) into a `[]string`; the elements of the array are reused. -/
def putStrings (old : SliceVal) : JVal → Option SliceVal
  | .null => some {}
  | .arr [] => some {}
  | .arr l => (putElems (old.elems ++ old.after) l).map fun es => ⟨es, (old.elems ++ old.after).drop l.length⟩
  | _ => none

/-- 64-bit bounds. -/
def minInt64 : Int := -(2 ^ 63)
def maxInt64 : Int := 2 ^ 63 - 1

/-- Members of an object into a `map[string]int` (`decodeState.object`, Go std): a repeated key replaces. -/
def putPairs (m : GoMap Int) : List (Bytes × JVal) → Option (GoMap Int)
  | [] => some m
  | (k, v) :: r => match putInt minInt64 maxInt64 0 v with
    | none => none
    | some n => putPairs (mapSet (m.filter fun p => p.1 ≠ unquote k) (unquote k) n) r

def putMap (m : GoMap Int) : JVal → Option (GoMap Int)
  | .null => some []
  | .obj l => putPairs m l
  | _ => none

/-- The metadata being assigned to. -/
structure MetaDest where
  build : Int := 0
  ipVersion : Int := 0
  languages : GoMap Int := []
  nodeCount : Int := 0
  totalSize : Int := 0
  fields : SliceVal := {}
  version : Str := []
  extra : SliceVal := {}

def metaNames : List String := ["build", "ip_version", "languages", "node_count", "total_size", "fields", "version", "extra"]

/-- One member of the metadata (`decodeState.object`, Go std); unknown members are skipped. -/
def putMetaField (m : MetaDest) (key : Str) (v : JVal) : Option MetaDest :=
  match fieldFor metaNames key with
  | none => some m
  | some n =>
    if n = "build" then (putInt minInt64 maxInt64 m.build v).map ({ m with build := · })
    else if n = "ip_version" then (putUint 65535 m.ipVersion v).map ({ m with ipVersion := · })
    else if n = "languages" then (putMap m.languages v).map ({ m with languages := · })
    else if n = "node_count" then (putInt minInt64 maxInt64 m.nodeCount v).map ({ m with nodeCount := · })
    else if n = "total_size" then (putInt minInt64 maxInt64 m.totalSize v).map ({ m with totalSize := · })
    else if n = "fields" then (putStrings m.fields v).map ({ m with fields := · })
    else if n = "version" then (putStr m.version v).map ({ m with version := · })
    else (putStrings m.extra v).map ({ m with extra := · })

def putMeta (m : MetaDest) : List (Bytes × JVal) → Option MetaDest
  | [] => some m
  | (k, v) :: r => match putMetaField m (unquote k) v with
    | none => none
    | some m => putMeta m r

/-- `json.Unmarshal` (Go std) into a MetaData (called at `/repo/db/format/ipdb/reader.go:54`). -/
def unmarshalMeta (s : Bytes) : Option Ipdb.MetaData :=
  match parse s with
  | some (.obj l) => (putMeta {} l).map fun m =>
    { build := m.build, ipVersion := m.ipVersion.toNat, languages := m.languages, nodeCount := m.nodeCount,
      totalSize := m.totalSize, fields := m.fields.elems, version := m.version, extra := m.extra.elems }
  | some .null => some
    { build := 0, ipVersion := 0, languages := [], nodeCount := 0, totalSize := 0, fields := [], version := [], extra := [] }
  | _ => none

/-- The version being assigned to. -/
structure VersionDest where
  ipType : Int := 0
  count : Int := 0
  build : Int := 0
  version : Str := []
  languages : SliceVal := {}
  extraInfo : SliceVal := {}

def versionNames : List String := ["IpType", "Count", "Build", "Version", "Languages", "ExtraInfo"]

/-- One member of the version (`decodeState.object`, Go std). -/
def putVersionField (d : VersionDest) (key : Str) (v : JVal) : Option VersionDest :=
  match fieldFor versionNames key with
  | none => some d
  | some n =>
    if n = "IpType" then (putInt minInt64 maxInt64 d.ipType v).map ({ d with ipType := · })
    else if n = "Count" then (putUint 4294967295 d.count v).map ({ d with count := · })
    else if n = "Build" then (putInt minInt64 maxInt64 d.build v).map ({ d with build := · })
    else if n = "Version" then (putStr d.version v).map ({ d with version := · })
    else if n = "Languages" then (putStrings d.languages v).map ({ d with languages := · })
    else (putStrings d.extraInfo v).map ({ d with extraInfo := · })

def putVersion (d : VersionDest) : List (Bytes × JVal) → Option VersionDest
  | [] => some d
  | (k, v) :: r => match putVersionField d (unquote k) v with
    | none => none
    | some d => putVersion d r

/-- `json.Unmarshal` (Go std) into a `*VersionInfo` that is nil (called at `/repo/db/format/plain/dumper.go:47`). -/
def unmarshalVersion (s : Bytes) : Option (Option VersionInfo) :=
  match parse s with
  | some (.obj l) => (putVersion {} l).map fun d =>
    some ⟨d.ipType, UInt32.ofNat d.count.toNat, d.build, d.version, d.languages.elems, d.extraInfo.elems⟩
  | some .null => some none
  | _ => none

end Uip.Json
