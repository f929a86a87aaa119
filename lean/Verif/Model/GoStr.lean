import Verif.Base.Bits
import Verif.Base.Res
/-!
# Go strings (byte sequences) and the parts of package `strings` the repository uses (Go std)
-/
namespace Uip

/-- A Go `string`: a byte sequence. -/
abbrev Str := List UInt8

/-- A Go string literal (UTF-8 bytes). -/
def gs (s : String) : Str := s.toList.flatMap String.utf8EncodeChar

/-- `strings.Split(s, sep)` for a one-byte separator (Go std). -/
def splitByte (c : UInt8) : Str → List Str
  | [] => [[]]
  | b :: bs =>
    if b = c then [] :: splitByte c bs
    else match splitByte c bs with
      | [] => [[b]]
      | f :: fs => (b :: f) :: fs

/-- `strings.Join(l, sep)` for a one-byte separator (Go std). -/
def joinByte (c : UInt8) : List Str → Str
  | [] => []
  | [x] => x
  | x :: y :: r => x ++ c :: joinByte c (y :: r)

/-- A Go `map[string]T` that is only assigned to and read: newest assignment first. -/
abbrev GoMap (α : Type) := List (Str × α)

/-- `m[k]` with the `ok` flag. -/
def mapGet {α : Type} (m : GoMap α) (k : Str) : Option α :=
  match m with
  | [] => none
  | (k', v) :: m => if k' = k then some v else mapGet m k

/-- `m[k] = v`. -/
def mapSet {α : Type} (m : GoMap α) (k : Str) (v : α) : GoMap α := (k, v) :: m

theorem splitByte_ne_nil (c : UInt8) (s : Str) : splitByte c s ≠ [] := by
  cases s with
  | nil => simp [splitByte]
  | cons b bs => simp only [splitByte]; split
                 · simp
                 · split <;> simp

theorem splitByte_noSep {c : UInt8} {s : Str} (h : c ∉ s) : splitByte c s = [s] := by
  induction s with
  | nil => rfl
  | cons b bs ih =>
    simp at h
    rw [splitByte, if_neg (fun e => h.1 e.symm), ih h.2]

theorem splitByte_append {c : UInt8} {s t : Str} (h : c ∉ s) :
    splitByte c (s ++ c :: t) = s :: splitByte c t := by
  induction s with
  | nil => simp [splitByte]
  | cons b bs ih =>
    simp at h
    rw [List.cons_append, splitByte, if_neg (fun e => h.1 e.symm), ih h.2]

/-- Splitting a join gives the parts back when no part contains the separator. -/
theorem splitByte_joinByte {c : UInt8} {l : List Str} (hne : l ≠ []) (h : ∀ s ∈ l, c ∉ s) :
    splitByte c (joinByte c l) = l := by
  induction l with
  | nil => simp at hne
  | cons x l ih =>
    cases l with
    | nil => simp only [joinByte]; exact splitByte_noSep (h x (by simp))
    | cons y r =>
      simp only [joinByte]
      rw [splitByte_append (h x (by simp)), ih (by simp) (fun s hs => h s (by simp [hs]))]

/-- A join with more parts than one separator-free piece cannot be confused: join is injective on
lists of separator-free parts. -/
theorem joinByte_inj {c : UInt8} {l l' : List Str} (hne : l ≠ []) (hne' : l' ≠ [])
    (h : ∀ s ∈ l, c ∉ s) (h' : ∀ s ∈ l', c ∉ s) (e : joinByte c l = joinByte c l') : l = l' := by
  rw [← splitByte_joinByte hne h, e, splitByte_joinByte hne' h']

end Uip
