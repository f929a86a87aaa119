import Verif.Proof.Json.Ordinary
import Verif.Props.ReadersTextExact
/-!
# Property C113: packed files and readers with another JSON library

C60, C61, C68, C69 suppose that the JSON libraries of Java and Rust give back the metadata Go wrote.  Here this follows from what
is public about them: they read ordinary metadata (`Spec.JsonText.Ordinary`: RFC 8259, exact names, nothing null where a value is
needed, 32-bit numbers) as it says.
-/
namespace Uip.Ipdb
open Uip Uip.Spec Uip.Json Uip.Spec.JsonText

/-- **C113.** The metadata of a packed file with at least one field is ordinary JSON that says what was packed. -/
theorem C113_ordinary (nilFields nilExtra : Bool) {now : Int} {v : VersionInfo} {fields : List Str} {N S : Nat}
    (hnow : Fits32 now) (hN : N < 2 ^ 31) (hS : S < 2 ^ 31) (hf : fields ≠ [])
    (h1 : Json.IsText v.version) (h2 : ∀ s ∈ v.extraInfo, Json.IsText s) (h3 : ∀ f ∈ fields, Json.IsText f) :
    ∃ l, Ordinary (marshalMeta nilFields nilExtra { buildMeta now v fields with nodeCount := N, totalSize := S }) l
      { buildMeta now v fields with nodeCount := N, totalSize := S } := by
  have h := ordinary_written nilFields nilExtra (m := { buildMeta now v fields with nodeCount := N, totalSize := S }) (lang := gs "CN") (n := 0)
    (.inr (by
      show covertFields fields ≠ []
      unfold covertFields
      intro h
      exact hf (List.map_eq_nil_iff.mp h)))
    rfl (by unfold Fits32; omega) hnow (by unfold Fits32; simp only []; omega) (by unfold Fits32; simp only []; omega)
    (by show ipVersion v < _; unfold ipVersion; split; omega; split <;> omega)
  refine ⟨writtenObj nilFields nilExtra { buildMeta now v fields with nodeCount := N, totalSize := S } (gs "CN") 0, ?_⟩
  have e : repairMeta { buildMeta now v fields with nodeCount := N, totalSize := S } =
      { buildMeta now v fields with nodeCount := N, totalSize := S } := by
    unfold repairMeta
    have hc : (repair (gs "CN")) = gs "CN" := (repair_eq_iff _).mpr (isText_gs _)
    simp only [buildMeta, List.map_cons, List.map_nil, hc, (repair_eq_iff _).mpr h1, map_repair.mpr h2, map_repair.mpr (covert_texts h3)]
  rw [e] at h
  exact h

/-- **C113.** So every reader of ordinary metadata gets back what was packed. -/
theorem C113_metadata {dec : Bytes → Option MetaData} (hd : ReadsOrdinary dec) (nilFields nilExtra : Bool) {now : Int} {v : VersionInfo}
    {fields : List Str} (hnow : Fits32 now) (hf : fields ≠ [])
    (h1 : Json.IsText v.version) (h2 : ∀ s ∈ v.extraInfo, Json.IsText s) (h3 : ∀ f ∈ fields, Json.IsText f) :
    MetaRoundTripInt (marshalMeta nilFields nilExtra) dec (buildMeta now v fields) := by
  intro N S hN hS
  obtain ⟨l, h⟩ := C113_ordinary nilFields nilExtra hnow hN hS hf h1 h2 h3
  exact hd _ l _ h

/-- **C113.** Go's own decoder is one of them. -/
theorem C113_go : ReadsOrdinary unmarshalMeta := reads_go

section
variable {decJ decR : Bytes → Option MetaData} {now : Int} {ipd : IpData} {bytes : Bytes} {utf8 : Bytes → Str}

/-- **C113 (Java).** A file packed with Go's JSON, opened by Go and by Java: on every covered address that both take, the Java answer
is the Go answer, except for the line (C60). -/
theorem C113_java (hd : ReadsOrdinary decJ) (nilFields nilExtra : Bool) (h : RowsOK ipd) (hval : ValuesOK ipd) (htx : TextValues ipd)
    (hnow : Fits32 now) (hf : ipd.fields ≠ [])
    (h1 : Json.IsText ipd.version.version) (h2 : ∀ s ∈ ipd.version.extraInfo, Json.IsText s) (h3 : ∀ f ∈ ipd.fields, Json.IsText f) (hu : KeepsTexts utf8)
    (hp : pack (marshalMeta nilFields nilExtra) now ipd = .ok bytes) (hl : bytes.length < 2 ^ 31) (ips : List Bytes) :
    ∃ g q, newQuerier unmarshalMeta bytes = .ok g ∧ Java.create decJ utf8 ips bytes = .ok q ∧
      ∀ a m, TakesLen ipd.version a → Supports ipd.version a → rowOf (keptRows (rowsOf ipd)) (addrNum a) = some m →
        ∃ go mask ja, g.Query a = .ok (go, mask) ∧ Java.query utf8 q a = .ok ja ∧
          javaTexts ja = { go with line := attr (asnNames ++ lineNames) ipd.fields m.2 } :=
  C60_java_exact h hval htx (C101_round_trip nilFields nilExtra (by unfold Fits32 at hnow; unfold IsInt64; omega) h1 h2 h3)
    (C113_metadata hd nilFields nilExtra hnow hf h1 h2 h3) hu hp hl ips

/-- **C113 (Rust).** The same for Rust, except for a continent that is not stored as a code (C61). -/
theorem C113_rust (hd : ReadsOrdinary decR) (nilFields nilExtra : Bool) (h : RowsOK ipd) (hval : ValuesOK ipd) (htx : TextValues ipd)
    (hnow : Fits32 now) (hf : ipd.fields ≠ [])
    (h1 : Json.IsText ipd.version.version) (h2 : ∀ s ∈ ipd.version.extraInfo, Json.IsText s) (h3 : ∀ f ∈ ipd.fields, Json.IsText f) (hu : KeepsTexts utf8)
    (hp : pack (marshalMeta nilFields nilExtra) now ipd = .ok bytes) (hl : bytes.length < 2 ^ 31) :
    ∃ g q, newQuerier unmarshalMeta bytes = .ok g ∧ Rust.Reader decR bytes = .ok q ∧
      ∀ a m, TakesLen ipd.version a → Supports ipd.version a → rowOf (keptRows (rowsOf ipd)) (addrNum a) = some m →
        ∃ go mask ru, g.Query a = .ok (go, mask) ∧ Rust.query utf8 q a = .ok ru ∧
          ru = if attr continentNames ipd.fields m.2 ∈ continentTable.map (·.1) then go else { go with continent := [] } :=
  C61_rust_exact h hval htx (C101_round_trip nilFields nilExtra (by unfold Fits32 at hnow; unfold IsInt64; omega) h1 h2 h3)
    (C113_metadata hd nilFields nilExtra hnow hf h1 h2 h3) hu hp hl
end

/-! ## Not vacuous -/

/-- The metadata of the packed example is ordinary. -/
example : ∃ l, Ordinary (marshalMeta false true { buildMeta 1700000000 demo.version demo.fields with nodeCount := (3 : Nat), totalSize := (99 : Nat) }) l
    { buildMeta 1700000000 demo.version demo.fields with nodeCount := (3 : Nat), totalSize := (99 : Nat) } :=
  C113_ordinary false true (by unfold Fits32; omega) (by omega) (by omega) (by decide) Json.demo_texts.1 Json.demo_texts.2.1 Json.demo_texts.2.2

/-- The example packed with Go's JSON is read by every such reader. -/
example {decJ : Bytes → Option MetaData} (hd : ReadsOrdinary decJ) : ∃ bytes g q, pack (marshalMeta false false) 0 demo = .ok bytes ∧
    newQuerier unmarshalMeta bytes = .ok g ∧ Java.create decJ id [] bytes = .ok q ∧
    ∃ go mask ja, g.Query [1, 2, 3, 4] = .ok (go, mask) ∧ Java.query id q [1, 2, 3, 4] = .ok ja ∧
      javaTexts ja = { go with line := gs "4134" } := by
  obtain ⟨bytes, hp, hl⟩ : ∃ bytes, pack (marshalMeta false false) 0 demo = .ok bytes ∧ bytes.length < 2 ^ 31 := by
    obtain ⟨bytes, hp, hq⟩ := C101_pack_query false false (now := 0) (ipd := demo) (by decide) (by decide +kernel) (by decide +kernel)
      (by decide +kernel) Json.demo_texts.1 Json.demo_texts.2.1 Json.demo_texts.2.2
    refine ⟨bytes, hp, ?_⟩
    have hlen : (match pack (marshalMeta false false) 0 demo with | .ok b => decide (b.length < 2 ^ 31) | _ => true) = true := by
      decide +kernel
    rw [hp] at hlen
    exact of_decide_eq_true hlen
  obtain ⟨g, q, e1, e2, e3⟩ := C113_java hd false false (by decide +kernel) (by decide +kernel) demo_texts (by unfold Fits32; omega) (by decide)
    Json.demo_texts.1 Json.demo_texts.2.1 Json.demo_texts.2.2 (utf8 := id) (fun _ => rfl) hp hl []
  have hm : rowOf (keptRows (rowsOf demo)) (addrNum [1, 2, 3, 4]) =
      some (⟨[1, 0, 0, 0], [255, 0, 0, 0]⟩, [gs "中国", gs "亚洲", gs "北京", gs "4134"]) := by decide +kernel
  obtain ⟨go, mask, ja, k1, k2, k3⟩ := e3 [1, 2, 3, 4] _ (by decide) (by decide) hm
  refine ⟨bytes, g, q, hp, e1, e2, go, mask, ja, k1, k2, ?_⟩
  rw [k3]
  have : attr (asnNames ++ lineNames) demo.fields [gs "中国", gs "亚洲", gs "北京", gs "4134"] = gs "4134" := by decide +kernel
  rw [this]

end Uip.Ipdb
