import Verif.Model.Inf
/-!
# Value slices with aliasing

`inf.IpRaw.FieldValues` is a Go slice: several rows may refer to the same backing array, writes through one
are seen through the others, and `append` writes into spare capacity.  A heap is the list of backing arrays;
an array has one entry per unit of capacity.  All value slices of the repository start at offset 0 of their
array.
-/
namespace Uip

/-- The backing arrays. -/
abbrev Heap := List (List Str)

/-- A slice `[]string` starting at offset 0 of array `arr`; its capacity is the length of the array. -/
structure Slice where
  arr : Nat
  len : Nat
  deriving DecidableEq, Repr

/-- One cell of the heap. -/
def Heap.cell (h : Heap) (a i : Nat) : Option Str := h[a]?.bind (·[i]?)

/-- The values a slice denotes. -/
def Heap.read (h : Heap) (s : Slice) : List Str := ((h[s.arr]?).getD []).take s.len

/-- `s[i]`; out of range panics (Go spec). -/
def Heap.get (h : Heap) (s : Slice) (i : Nat) : Res Str :=
  if i < s.len then Res.ofOption (h.cell s.arr i) else .panic

/-- `s[i] = v`; out of range panics (Go spec). -/
def Heap.put (h : Heap) (s : Slice) (i : Nat) (v : Str) : Res Heap :=
  if i < s.len then (match h.cell s.arr i with
    | some _ => .ok (h.modify s.arr (·.set i v))
    | none => .panic)
  else .panic

/-- `append(s, v)` (Go spec): in place when there is spare capacity, otherwise into a new array of capacity
`grow len` (never below `len + 1`). -/
def Heap.append (grow : Nat → Nat) (h : Heap) (s : Slice) (v : Str) : Heap × Slice :=
  if (h.cell s.arr s.len).isSome then (h.modify s.arr (·.set s.len v), ⟨s.arr, s.len + 1⟩)
  else (h ++ [h.read s ++ [v] ++ List.replicate (grow s.len - (s.len + 1)) []], ⟨h.length, s.len + 1⟩)

/-- `/repo/db/inf/intern.go:15-18` IpRaw with its value slice. -/
structure HRow where
  cidr : IPNet
  vals : Slice
  deriving DecidableEq, Repr

/-- `/repo/db/inf/intern.go:9-13` IpData with the heap its rows live in.  `Fields` is only appended to and
is kept as a value; `Version` (a pointer) as well. -/
structure HData where
  fields : List Str
  version : VersionInfo
  rows : List HRow
  heap : Heap
  deriving DecidableEq, Repr

/-- What a reader of one row sees. -/
def HData.rowView (d : HData) (r : HRow) : IpRaw := ⟨r.cidr, d.heap.read r.vals⟩

/-- What a reader of the data set sees. -/
def HData.view (d : HData) : IpData := ⟨d.fields, d.version, d.rows.map d.rowView⟩

/-- Every slice lies inside its array. -/
def HData.WF (d : HData) : Prop := ∀ r ∈ d.rows, r.vals.len ≤ ((d.heap[r.vals.arr]?).getD []).length

/-- Every row has one value per field. -/
def HData.Aligned (d : HData) : Prop := ∀ r ∈ d.rows, r.vals.len = d.fields.length

instance (d : HData) : Decidable d.WF := by unfold HData.WF; infer_instance
instance (d : HData) : Decidable d.Aligned := by unfold HData.Aligned; infer_instance

/-- `for k, row := range data.Ips { ... data.Ips[k] = row }`: the rows in order, each with the heap left by
the previous ones. -/
def forRows (f : Heap → HRow → Res (Heap × HRow)) : Heap → List HRow → Res (Heap × List HRow)
  | h, [] => .ok (h, [])
  | h, r :: rs => do
    let (h, r) ← f h r
    let (h, rs) ← forRows f h rs
    return (h, r :: rs)

/-- The slices `export.BuildIPData` (`/repo/db/field/export/export.go:206-238`) and the plain and memip dumps
produce for the values of the rows: a row with the same values as the previous one gets the previous slice
(`reflect.DeepEqual(values, prevInfo)`).  `cap n` is the capacity of a freshly built slice of `n` values:
`n` with an exporter (`make`), the size reached by repeated `append` without one. -/
def allocRows (cap : Nat → Nat) : Option Slice → List IpRaw → Heap → List HRow × Heap
  | _, [], h => ([], h)
  | prev, r :: rs, h =>
    match prev with
    | some s => if h.read s = r.values then
        let (rows, h') := allocRows cap (some s) rs h
        (⟨r.cidr, s⟩ :: rows, h')
      else
        let s' : Slice := ⟨h.length, r.values.length⟩
        let (rows, h') := allocRows cap (some s') rs (h ++ [r.values ++ List.replicate (cap r.values.length - r.values.length) []])
        (⟨r.cidr, s'⟩ :: rows, h')
    | none =>
        let s' : Slice := ⟨h.length, r.values.length⟩
        let (rows, h') := allocRows cap (some s') rs (h ++ [r.values ++ List.replicate (cap r.values.length - r.values.length) []])
        (⟨r.cidr, s'⟩ :: rows, h')

/-- A dumped data set with the sharing the dump creates. -/
def dumped (cap : Nat → Nat) (d : IpData) : HData :=
  ⟨d.fields, d.version, (allocRows cap none d.ips []).1, (allocRows cap none d.ips []).2⟩

end Uip
