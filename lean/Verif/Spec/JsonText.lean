import Verif.Spec.AddrText
import Verif.Model.Ipdb.Fields
import Verif.Model.Inf
/-!
# JSON texts (RFC 8259) and what they say about the metadata of an ipdb file

Written from RFC 8259 and the documentation of the formats, not from the code of an encoder or decoder.
-/
namespace Uip.Spec.JsonText
open Uip Uip.Spec.AddrText

/-! ## The grammar -/

/-- White space (RFC 8259, 2). -/
def Space (t : Bytes) : Prop := ∀ b ∈ t, b = 0x20 ∨ b = 0x09 ∨ b = 0x0A ∨ b = 0x0D

/-- A JSON value.  Numbers are kept as written; strings and names as written between their quotes. -/
inductive Json where
  | null
  | bool (b : Bool)
  | num (t : Bytes)
  | str (t : Bytes)
  | arr (l : List Json)
  | obj (l : List (Bytes × Json))

/-- One or more decimal digits. -/
def Digits (t : Bytes) : Prop := t ≠ [] ∧ ∀ c ∈ t, digitOf c < 10

/-- A number: minus sign, whole part without superfluous zeros, fraction, exponent (RFC 8259, 6). -/
def Number (t : Bytes) : Prop := ∃ minus whole frac exp, t = minus ++ (whole ++ (frac ++ exp)) ∧
  (minus = [] ∨ minus = [0x2D]) ∧
  Digits whole ∧ (whole.head? = some 0x30 → whole = [0x30]) ∧
  (frac = [] ∨ ∃ d, frac = 0x2E :: d ∧ Digits d) ∧
  (exp = [] ∨ ∃ e sign d, exp = e :: (sign ++ d) ∧ (e = 0x65 ∨ e = 0x45) ∧ (sign = [] ∨ sign = [0x2B] ∨ sign = [0x2D]) ∧ Digits d)

/-- The escapes of one letter and the characters they stand for (RFC 8259, 7). -/
def escapes : List (UInt8 × Char) :=
  [(0x22, '"'), (0x5C, '\\'), (0x2F, '/'), (0x62, '\x08'), (0x66, '\x0C'), (0x6E, '\n'), (0x72, '\r'), (0x74, '\t')]

/-- Four hexadecimal digits. -/
def Hex4 (a b c d : UInt8) (n : Nat) : Prop := Numeral 16 [a, b, c, d] n

/-- What may stand between the quotes of a string, byte by byte. -/
inductive Quoted : Bytes → Prop
  | nil : Quoted []
  | plain {b : UInt8} {r : Bytes} : 0x20 ≤ b → b ≠ 0x22 → b ≠ 0x5C → Quoted r → Quoted (b :: r)
  | short {e : UInt8} {c : Char} {r : Bytes} : (e, c) ∈ escapes → Quoted r → Quoted (0x5C :: e :: r)
  | long {a b c d : UInt8} {n : Nat} {r : Bytes} : Hex4 a b c d n → Quoted r → Quoted (0x5C :: 0x75 :: a :: b :: c :: d :: r)

/-- Elements with commas between them and white space around them; only white space if there are none. -/
def Elems (P : Json → Bytes → Prop) : List Json → Bytes → Prop
  | [], t => Space t
  | [v], t => ∃ a u b, t = a ++ (u ++ b) ∧ Space a ∧ P v u ∧ Space b
  | v :: w :: r, t => ∃ a u b t', t = a ++ (u ++ (b ++ 0x2C :: t')) ∧ Space a ∧ P v u ∧ Space b ∧ Elems P (w :: r) t'

/-- A name, a colon and a value, with white space around them. -/
def Pair (P : Json → Bytes → Prop) (k : Bytes) (v : Json) (t : Bytes) : Prop :=
  ∃ a b c u d, t = a ++ 0x22 :: (k ++ 0x22 :: (b ++ 0x3A :: (c ++ (u ++ d)))) ∧
    Space a ∧ Quoted k ∧ Space b ∧ Space c ∧ P v u ∧ Space d

/-- Members with commas between them. -/
def Members (P : Json → Bytes → Prop) : List (Bytes × Json) → Bytes → Prop
  | [], t => Space t
  | [(k, v)], t => Pair P k v t
  | (k, v) :: w :: r, t => ∃ u t', t = u ++ 0x2C :: t' ∧ Pair P k v u ∧ Members P (w :: r) t'

/-- The text of a value with at most the given number of arrays and objects inside each other. -/
def Value : Nat → Json → Bytes → Prop
  | _, .null, t => t = gs "null"
  | _, .bool true, t => t = gs "true"
  | _, .bool false, t => t = gs "false"
  | _, .num n, t => t = n ∧ Number n
  | _, .str s, t => t = 0x22 :: (s ++ [0x22]) ∧ Quoted s
  | 0, .arr _, _ => False
  | 0, .obj _, _ => False
  | d + 1, .arr l, t => ∃ u, t = 0x5B :: (u ++ [0x5D]) ∧ Elems (Value d) l u
  | d + 1, .obj l, t => ∃ u, t = 0x7B :: (u ++ [0x7D]) ∧ Members (Value d) l u

/-- A JSON text: a value with white space around it. -/
def Text (d : Nat) (j : Json) (s : Bytes) : Prop := ∃ a t b, s = a ++ (t ++ b) ∧ Space a ∧ Value d j t ∧ Space b

/-! ## Strings and numbers -/

/-- The text begins with the second half of a surrogate pair. -/
def LowNext (t : Bytes) : Prop := ∃ a b c d r m, t = 0x5C :: 0x75 :: a :: b :: c :: d :: r ∧ Hex4 a b c d m ∧ 0xDC00 ≤ m ∧ m < 0xE000

/-- What is written between quotes and the characters it stands for.  When `lenient`, a byte that begins no UTF-8
character and a surrogate without its other half stand for U+FFFD, otherwise they stand for nothing. -/
inductive Chars (lenient : Bool) : Bytes → List Char → Prop
  | nil : Chars lenient [] []
  | plain {c : Char} {t cs} : 0x20 ≤ c.toNat → c ≠ '"' → c ≠ '\\' → Chars lenient t cs →
      Chars lenient (String.utf8EncodeChar c ++ t) (c :: cs)
  | short {e : UInt8} {c : Char} {t cs} : (e, c) ∈ escapes → Chars lenient t cs → Chars lenient (0x5C :: e :: t) (c :: cs)
  | long {x1 x2 x3 x4 : UInt8} {c : Char} {t cs} : Hex4 x1 x2 x3 x4 c.toNat → Chars lenient t cs →
      Chars lenient (0x5C :: 0x75 :: x1 :: x2 :: x3 :: x4 :: t) (c :: cs)
  | pair {x1 x2 x3 x4 y1 y2 y3 y4 : UInt8} {n m : Nat} {c : Char} {t cs} : Hex4 x1 x2 x3 x4 n → Hex4 y1 y2 y3 y4 m →
      0xD800 ≤ n → n < 0xDC00 → 0xDC00 ≤ m → m < 0xE000 → c.toNat = 0x10000 + (n - 0xD800) * 0x400 + (m - 0xDC00) →
      Chars lenient t cs →
      Chars lenient (0x5C :: 0x75 :: x1 :: x2 :: x3 :: x4 :: 0x5C :: 0x75 :: y1 :: y2 :: y3 :: y4 :: t) (c :: cs)
  | lone {x1 x2 x3 x4 : UInt8} {n : Nat} {t cs} : lenient = true → Hex4 x1 x2 x3 x4 n → 0xD800 ≤ n → n < 0xE000 →
      ¬ (n < 0xDC00 ∧ LowNext t) → Chars lenient t cs →
      Chars lenient (0x5C :: 0x75 :: x1 :: x2 :: x3 :: x4 :: t) ('\uFFFD' :: cs)
  | stray {b : UInt8} {t cs} : lenient = true → 0x80 ≤ b → (∀ (c : Char) r, b :: t ≠ String.utf8EncodeChar c ++ r) →
      Chars lenient t cs → Chars lenient (b :: t) ('\uFFFD' :: cs)

/-- What is written between the quotes stands for the text whose UTF-8 encoding is `s`. -/
def Stands (lenient : Bool) (t : Bytes) (s : Str) : Prop := ∃ cs, Chars lenient t cs ∧ s = gs (String.ofList cs)

/-- Every string and every name stands for a text: there is nothing a reader has to repair. -/
inductive Sound : Json → Prop
  | null : Sound .null
  | bool (b : Bool) : Sound (.bool b)
  | num (t : Bytes) : Sound (.num t)
  | str {t : Bytes} {s : Str} : Stands false t s → Sound (.str t)
  | arr {l : List Json} : (∀ v ∈ l, Sound v) → Sound (.arr l)
  | obj {l : List (Bytes × Json)} : (∀ p ∈ l, ∃ s, Stands false p.1 s) → (∀ p ∈ l, Sound p.2) → Sound (.obj l)

/-- The number is a whole number, written without fraction and exponent. -/
def Whole (t : Bytes) (n : Int) : Prop :=
  (∃ k, Numeral 10 t k ∧ n = k) ∨ ∃ d k, t = 0x2D :: d ∧ Numeral 10 d k ∧ n = -(k : Int)

/-! ## The metadata -/

/-- Letters without regard to case; the long s and the Kelvin sign are an s and a k (Unicode simple case folding). -/
def fold (c : Char) : Char :=
  if 'A' ≤ c ∧ c ≤ 'Z' then Char.ofNat (c.toNat + 32) else if c = 'ſ' then 's' else if c = '\u212A' then 'k' else c

/-- The name as written between quotes is `name`, without regard to case. -/
def Named (k : Bytes) (name : String) : Prop := ∃ cs, Chars true k cs ∧ cs.map fold = name.toList.map fold

/-- The object has a member of this name. -/
def Has (l : List (Bytes × Json)) (name : String) (v : Json) : Prop := ∃ k, (k, v) ∈ l ∧ Named k name

/-- None of these members is there twice. -/
def Once (names : List String) (l : List (Bytes × Json)) : Prop :=
  l.Pairwise fun p q => ∀ name ∈ names, ¬ (Named p.1 name ∧ Named q.1 name)

/-- There is no such member, or it is null. -/
def Missing (l : List (Bytes × Json)) (name : String) : Prop := ∀ v, Has l name v → v = .null

/-- A 64-bit signed number. -/
def Fits64 (n : Int) : Prop := -(2 ^ 63) ≤ n ∧ n < 2 ^ 63

/-- A member that is a whole number of 64 bits; 0 when missing. -/
def IntMember (l : List (Bytes × Json)) (name : String) (n : Int) : Prop :=
  (∃ t, Has l name (.num t) ∧ Whole t n ∧ Fits64 n) ∨ Missing l name ∧ n = 0

/-- A member that is a whole number without a sign, up to a bound; 0 when missing. -/
def NatMember (l : List (Bytes × Json)) (name : String) (hi n : Nat) : Prop :=
  (∃ t, Has l name (.num t) ∧ Numeral 10 t n ∧ n ≤ hi) ∨ Missing l name ∧ n = 0

/-- A member that is a string; empty when missing. -/
def StrMember (l : List (Bytes × Json)) (name : String) (s : Str) : Prop :=
  (∃ t, Has l name (.str t) ∧ Stands true t s) ∨ Missing l name ∧ s = []

/-- A string, or null standing for the empty one. -/
def StrElem (v : Json) (s : Str) : Prop := (∃ t, v = .str t ∧ Stands true t s) ∨ v = .null ∧ s = []

/-- A member that is an array of strings; no strings when missing. -/
def StrsMember (l : List (Bytes × Json)) (name : String) (ss : List Str) : Prop :=
  (∃ vs, Has l name (.arr vs) ∧ Each StrElem vs ss) ∨ Missing l name ∧ ss = []

/-- A name and a whole number, or null standing for 0. -/
def IntPair (p : Bytes × Json) (q : Str × Int) : Prop :=
  Stands true p.1 q.1 ∧ ((∃ t, p.2 = .num t ∧ Whole t q.2 ∧ Fits64 q.2) ∨ p.2 = .null ∧ q.2 = 0)

/-- A member that is an object of whole numbers; the last of several pairs with one name counts. -/
def CountsMember (l : List (Bytes × Json)) (name : String) (m : GoMap Int) : Prop :=
  (∃ ps qs, Has l name (.obj ps) ∧ Each IntPair ps qs ∧
    ∀ k, mapGet m k = ((qs.filter fun q => decide (q.1 = k)).getLast?).map (·.2)) ∨
  Missing l name ∧ m = []

/-- The members of the metadata of an ipdb file. -/
def metaMembers : List String := ["build", "ip_version", "languages", "node_count", "total_size", "fields", "version", "extra"]

/-- The members of the object say what `m` says. -/
structure Describes (l : List (Bytes × Json)) (m : Ipdb.MetaData) : Prop where
  build : IntMember l "build" m.build
  ipVersion : NatMember l "ip_version" 65535 m.ipVersion
  languages : CountsMember l "languages" m.languages
  nodeCount : IntMember l "node_count" m.nodeCount
  totalSize : IntMember l "total_size" m.totalSize
  fields : StrsMember l "fields" m.fields
  version : StrMember l "version" m.version
  extra : StrsMember l "extra" m.extra

/-- Two descriptions of the same: maps with the same answers. -/
def SameMeta (m m' : Ipdb.MetaData) : Prop :=
  { m' with languages := m.languages } = m ∧ ∀ k, mapGet m'.languages k = mapGet m.languages k

/-- Not null, and nothing in it is null. -/
def Filled : Json → Prop
  | .null => False
  | .arr l => ∀ v ∈ l, v ≠ .null
  | .obj l => ∀ p ∈ l, p.2 ≠ .null
  | _ => True

/-- A 32-bit signed number. -/
def Fits32 (n : Int) : Prop := -(2 ^ 31) ≤ n ∧ n < 2 ^ 31

/-- Metadata without anything unusual: a JSON object of two levels with the eight members of the format, each once and under its
exact name, nothing null except perhaps the extra texts, one language, numbers of 32 bits, strings without anything to repair. -/
structure Ordinary (s : Bytes) (l : List (Bytes × Json)) (m : Ipdb.MetaData) : Prop where
  text : Text 2 (.obj l) s
  sound : Sound (.obj l)
  names : ∀ p ∈ l, ∃ n ∈ metaMembers, Stands false p.1 (gs n)
  once : Once metaMembers l
  filled : ∀ n ∈ metaMembers, n ≠ "extra" → ∃ v, Has l n v ∧ Filled v
  extra : ∃ v, Has l "extra" v ∧ (v = .null ∨ Filled v)
  language : (∃ p, Has l "languages" (.obj [p])) ∧ ∃ k n, m.languages = [(k, n)] ∧ Fits32 n
  numbers : Fits32 m.build ∧ Fits32 m.nodeCount ∧ Fits32 m.totalSize
  says : Describes l m

/-- A decoder that reads such metadata as it says; nothing is supposed about other texts. -/
def ReadsOrdinary (dec : Bytes → Option Ipdb.MetaData) : Prop := ∀ s l m, Ordinary s l m → dec s = some m

/-- The members of the version of a `.scan` text. -/
def versionMembers : List String := ["IpType", "Count", "Build", "Version", "Languages", "ExtraInfo"]

/-- The members of the object say what `v` says. -/
structure DescribesVersion (l : List (Bytes × Json)) (v : VersionInfo) : Prop where
  ipType : IntMember l "IpType" v.ipType
  count : NatMember l "Count" 4294967295 v.count.toNat
  build : IntMember l "Build" v.build
  version : StrMember l "Version" v.version
  languages : StrsMember l "Languages" v.languages
  extraInfo : StrsMember l "ExtraInfo" v.extraInfo

end Uip.Spec.JsonText
