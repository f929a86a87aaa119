import Verif.Model.Ipdb.Fields
/-!
# Some encoder/decoder pair for the metadata

The theorems about ipdb files take `json.Marshal`/`json.Unmarshal` as parameters with a round-trip
hypothesis.  This pair (not JSON) shows that the hypothesis can be met.
-/
namespace Uip.Ipdb
open Uip

def encNat (n : Nat) : Bytes := List.replicate n 1 ++ [0]
def decNat : Bytes → Option (Nat × Bytes)
  | [] => none
  | b :: r => if b = 0 then some (0, r) else (decNat r).map (fun p => (p.1 + 1, p.2))

theorem dec_encNat (n : Nat) (r : Bytes) : decNat (encNat n ++ r) = some (n, r) := by
  induction n with
  | zero => simp [encNat, decNat]
  | succ n ih =>
    simp only [encNat, List.replicate_succ, List.cons_append, decNat] at ih ⊢
    rw [if_neg (by decide), ih]; rfl

def encInt (z : Int) : Bytes := (if z < 0 then [1] else [0]) ++ encNat z.natAbs
def decInt : Bytes → Option (Int × Bytes)
  | [] => none
  | b :: r => (decNat r).map (fun p => (if b = 0 then (p.1 : Int) else -(p.1 : Int), p.2))

theorem dec_encInt (z : Int) (r : Bytes) : decInt (encInt z ++ r) = some (z, r) := by
  unfold encInt
  split
  · simp only [List.cons_append, List.nil_append, decInt, dec_encNat, Option.map_some]
    rw [if_neg (by decide)]; congr 2; omega
  · simp only [List.cons_append, List.nil_append, decInt, dec_encNat, Option.map_some]
    rw [if_pos trivial]; congr 2; omega

def encStr (s : Str) : Bytes := encNat s.length ++ s
def decStr (b : Bytes) : Option (Str × Bytes) :=
  (decNat b).map (fun p => (p.2.take p.1, p.2.drop p.1))

theorem dec_encStr (s : Str) (r : Bytes) : decStr (encStr s ++ r) = some (s, r) := by
  unfold decStr encStr
  rw [List.append_assoc, dec_encNat]
  simp

def encL {α : Type} (e : α → Bytes) : List α → Bytes
  | [] => [0]
  | x :: xs => 1 :: (e x ++ encL e xs)
def decL {α : Type} (d : Bytes → Option (α × Bytes)) : Nat → Bytes → Option (List α × Bytes)
  | 0, _ => none
  | f + 1, b => match b with
    | [] => none
    | c :: r => if c = 0 then some ([], r) else match d r with
      | none => none
      | some (x, r) => (decL d f r).map (fun p => (x :: p.1, p.2))

theorem dec_encL {α : Type} {e : α → Bytes} {d : Bytes → Option (α × Bytes)}
    (h : ∀ x r, d (e x ++ r) = some (x, r)) (l : List α) (r : Bytes) :
    ∀ f, l.length < f → decL d f (encL e l ++ r) = some (l, r) := by
  induction l with
  | nil => intro f hf
           cases f with
           | zero => simp at hf
           | succ f => simp [decL, encL]
  | cons x l ih =>
    intro f hf
    cases f with
    | zero => simp at hf
    | succ f =>
      simp only [encL, List.cons_append, decL]
      rw [if_neg (by decide), List.append_assoc, h]
      simp only []
      rw [ih f (by simpa using hf)]; rfl

theorem encL_length {α : Type} (e : α → Bytes) (l : List α) : l.length < (encL e l).length := by
  induction l with
  | nil => simp [encL]
  | cons x l ih => simp only [encL, List.length_cons, List.length_append]; omega

def encPair (p : Str × Int) : Bytes := encStr p.1 ++ encInt p.2
def decPair (b : Bytes) : Option ((Str × Int) × Bytes) :=
  (decStr b).bind fun p => (decInt p.2).map fun q => ((p.1, q.1), q.2)

theorem dec_encPair (p : Str × Int) (r : Bytes) : decPair (encPair p ++ r) = some (p, r) := by
  unfold decPair encPair
  rw [List.append_assoc, dec_encStr]
  simp [dec_encInt]

def encMeta (m : MetaData) : Bytes :=
  encInt m.build ++ (encNat m.ipVersion ++ (encL encPair m.languages ++ (encInt m.nodeCount ++
    (encInt m.totalSize ++ (encL encStr m.fields ++ (encStr m.version ++ encL encStr m.extra))))))

def decMeta (b : Bytes) : Option MetaData := do
  let (build, b) ← decInt b
  let (ipVersion, b) ← decNat b
  let (languages, b) ← decL decPair b.length b
  let (nodeCount, b) ← decInt b
  let (totalSize, b) ← decInt b
  let (fields, b) ← decL decStr b.length b
  let (version, b) ← decStr b
  let (extra, _) ← decL decStr b.length b
  return { build, ipVersion, languages, nodeCount, totalSize, fields, version, extra }

theorem dec_encMeta (m : MetaData) : decMeta (encMeta m) = some m := by
  have hL : ∀ (r : Bytes), decL decPair (encL encPair m.languages ++ r).length (encL encPair m.languages ++ r) =
      some (m.languages, r) := by
    intro r
    apply dec_encL dec_encPair
    have := encL_length encPair m.languages
    rw [List.length_append]; omega
  have hS : ∀ (l : List Str) (r : Bytes), decL decStr (encL encStr l ++ r).length (encL encStr l ++ r) = some (l, r) := by
    intro l r
    apply dec_encL dec_encStr
    have := encL_length encStr l
    rw [List.length_append]; omega
  have hS0 : ∀ (l : List Str), decL decStr (encL encStr l).length (encL encStr l) = some (l, []) := by
    intro l; simpa using hS l []
  unfold decMeta encMeta
  rw [dec_encInt]
  simp only [Option.bind_eq_bind, Option.bind_some, dec_encNat]
  rw [hL]
  simp only [Option.bind_some, dec_encInt]
  rw [hS]
  simp only [Option.bind_some, dec_encStr]
  rw [hS0]
  rfl

end Uip.Ipdb
