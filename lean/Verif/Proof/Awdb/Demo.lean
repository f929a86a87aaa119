import Verif.Proof.Awdb.Record
/-!
# Concrete awdb files

`demo4`: an IPv4 file; the lower half of the space has a record, the upper half has none.  `demo6`: an IPv6 file with a
record for `::/96` (so for IPv4), one for `8000::/1`, none elsewhere.
-/
namespace Uip.Awdb
open Uip Uip.Spec Uip.Spec.Awdb

theorem once_of {b : Bytes} (h : ∀ i ∈ List.range b.length, 0 < i → ¬ At b i metaMarker) : ∀ i, 0 < i → ¬ At b i metaMarker := by
  intro i hi hat
  by_cases hlt : i < b.length
  · exact h i (List.mem_range.mpr hlt) hi hat
  · unfold At at hat
    rw [List.drop_eq_nil_of_le (by omega)] at hat
    have := List.prefix_nil.mp hat
    rw [marker_eq] at this
    cases this

def demoRecord : List (Str × Str) :=
  [(gs "country", gs "中国"), (gs "province", gs "广东"), (gs "asnumber", gs "4837"), (gs "isp", gs "联通")]

def demoMeta (version count size : Nat) : List (Str × Doc) :=
  [(gs "node_count", .uint32 2 count), (gs "record_size", .uint16 1 size), (gs "ip_version", .uint16 1 version),
   (gs "build_epoch", .uint64 4 1600000000), (gs "languages", .array [.str (gs "CN")]), (gs "database_type", .str (gs "demo")),
   (gs "unknown", .map [(gs "x", .double 0)])]

def demo4 : File where
  recordSize := 24
  nodes := [(17, 1)]
  data := (strRecord demoRecord).enc ++ List.replicate 2000 0
  meta_ := (Doc.map (demoMeta 4 1 24)).enc
  md := { nodeCount := 1, recordSize := 24, ipVersion := 4, buildEpoch := 1600000000, languages := [gs "CN"], databaseType := gs "demo" }

theorem demoMeta_stored (v c s : Nat) (hv : v < 256) (hc : c < 65536) (hs : s < 256) :
    Stored (Doc.map (demoMeta v c s)).enc 513 0 (.map (demoMeta v c s)) (0 + (Doc.map (demoMeta v c s)).enc.length) := by
  refine enc_stored _ _ _ _ ?_ ?_ ?_
  · unfold At; rw [List.drop_zero]; exact List.prefix_rfl
  · simp only [demoMeta, Doc.AllFit, Doc.AllFit.fitPairs, Doc.AllFit.fitAll, Doc.Fits, SizeOK, List.length_cons, List.length_nil]
    refine ⟨by omega, by decide +kernel, ⟨by omega, by omega⟩, by decide +kernel, ⟨by omega, by omega⟩, by decide +kernel, ⟨by omega, by omega⟩, by decide +kernel,
      ⟨by omega, by omega⟩, by decide +kernel, ⟨by omega, by decide +kernel, trivial⟩, by decide +kernel, by decide +kernel, by decide +kernel,
      ⟨by omega, by decide +kernel, by omega, trivial⟩, trivial⟩
  · simp [demoMeta, Doc.levels, Doc.levels.levelsPairs, Doc.levels.levelsAll]

theorem demoRecord_fits : (strRecord demoRecord).AllFit ∧ (strRecord demoRecord).levels ≤ 513 := by
  constructor
  · simp only [strRecord, demoRecord, List.map_cons, List.map_nil, Doc.AllFit, Doc.AllFit.fitPairs, Doc.Fits, SizeOK, List.length_cons, List.length_nil]
    exact ⟨by omega, by decide +kernel, by decide +kernel, by decide +kernel, by decide +kernel, by decide +kernel, by decide +kernel,
      by decide +kernel, by decide +kernel, trivial⟩
  · simp [strRecord, demoRecord, Doc.levels, Doc.levels.levelsPairs]

set_option maxRecDepth 100000 in
theorem demo4_ok : demo4.OK where
  size := Or.inl rfl
  fit := by decide +kernel
  count := by decide +kernel
  metadata := ⟨_, _, demoMeta_stored 4 1 24 (by omega) (by omega) (by omega), by decide +kernel⟩
  mdSize := rfl
  mdCount := rfl
  long := by decide +kernel
  tail := by decide +kernel
  once := once_of (by decide +kernel)

theorem demo4_stored : Stored demo4.data 513 0 (strRecord demoRecord) (0 + (strRecord demoRecord).enc.length) :=
  enc_stored _ _ _ _ (by unfold At demo4; rw [List.drop_zero]; exact List.prefix_append _ _) demoRecord_fits.1 demoRecord_fits.2

/-- Nodes 0 to 95 lead to node 96 for 96 zero bits; node 0 leads right to the second record. -/
def demo6 : File where
  recordSize := 28
  nodes := (1, 96 + 16 + 0) :: (List.range 94).map (fun i => (i + 2, 96)) ++ [(96 + 16, 96)]
  data := (strRecord demoRecord).enc ++ List.replicate 2000 0
  meta_ := (Doc.map (demoMeta 6 96 28)).enc
  md := { nodeCount := 96, recordSize := 28, ipVersion := 6, buildEpoch := 1600000000, languages := [gs "CN"], databaseType := gs "demo" }

set_option maxRecDepth 100000 in
theorem demo6_ok : demo6.OK where
  size := Or.inr (Or.inl rfl)
  fit := by decide +kernel
  count := by decide +kernel
  metadata := ⟨_, _, demoMeta_stored 6 96 28 (by omega) (by omega) (by omega), by decide +kernel⟩
  mdSize := rfl
  mdCount := by decide +kernel
  long := by decide +kernel
  tail := by decide +kernel
  once := once_of (by decide +kernel)

theorem demo6_stored : Stored demo6.data 513 0 (strRecord demoRecord) (0 + (strRecord demoRecord).enc.length) :=
  enc_stored _ _ _ _ (by unfold At demo6; rw [List.drop_zero]; exact List.prefix_append _ _) demoRecord_fits.1 demoRecord_fits.2

end Uip.Awdb
