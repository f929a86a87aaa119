import Verif.Proof.MapOrder
import Verif.Props.IpdbExact
import Verif.Props.AwdbQueryExact
/-!
# C116: dumps and queries do not depend on the iteration order of Go maps

Vocabulary: `Verif/Spec/MapOrder.lean`.  The operations with explicit orders are in `Verif/Model/MapOrder.lean`.
-/
namespace Uip.MapOrder
open Uip Uip.Spec Uip.Awdb Uip.Export

/-- An awdb file is opened, or not, in the same way whatever the order. -/
theorem openAwdb_eq {order : GoMap Val → List (Str × Val)} (ho : ∀ m, Visits (order m) m) (data : Bytes) :
    openAwdb order data = Awdb.open_ data := by
  unfold openAwdb Awdb.open_ Awdb.Reader.check
  cases FromBytes data with
  | err e => rfl
  | panic => rfl
  | ok r =>
    simp only [Res.ok_bind]
    split
    · rcases find_same ho r (goIPv4 8 8 8 8) with ⟨e, h1, h2⟩ | ⟨h1, h2⟩ | ⟨c, d, d', h1, h2, _⟩ <;> rw [h1, h2] <;> rfl
    · rfl

theorem query_eq {order : GoMap Val → List (Str × Val)} (ho : ∀ m, Visits (order m) m) (r : Awdb.Reader) (ip : IP) :
    Query order r ip = r.Query ip := by
  unfold Query Awdb.Reader.Query
  rcases find_same ho r ip with ⟨e, h1, h2⟩ | ⟨h1, h2⟩ | ⟨c, d, d', h1, h2, hs⟩
  · rw [h1, h2]
  · rw [h1, h2]
  · rw [h1, h2]
    have : ∀ k, strAt d k = strAt d' k := fun k => by unfold strAt; rw [hs k]
    simp only [Res.ok_bind, this]

/-- **C116, awdb queries.** Whatever the iteration orders, an awdb file is opened with the same outcome and every address
gets the same answer (the one of the model without orders). -/
theorem C116_awdb_query {order order' : GoMap Val → List (Str × Val)} (ho : ∀ m, Visits (order m) m)
    (ho' : ∀ m, Visits (order' m) m) (data : Bytes) :
    openAwdb order data = openAwdb order' data ∧ openAwdb order data = Awdb.open_ data ∧
      ∀ r ip, Query order r ip = Query order' r ip ∧ Query order r ip = Awdb.Reader.Query r ip :=
  ⟨by rw [openAwdb_eq ho, openAwdb_eq ho'], openAwdb_eq ho data,
    fun r ip => ⟨by rw [query_eq ho, query_eq ho'], query_eq ho r ip⟩⟩

/-- **C116, awdb dumps.** Whatever the iteration orders, a dump of an awdb file has the same outcome: the same fields in the
same order, the same version, the same rows in the same order with the same values; also when it fails, crashes or does
not end within a number of rounds. -/
theorem C116_awdb_dump {o o' : Orders} (h : Possible Awdb.CommonFieldsMap o) (h' : Possible Awdb.CommonFieldsMap o')
    (fuel : Nat) (data : Bytes) (ept : Option Exporter) :
    dumpAwdb o fuel data ept = dumpAwdb o' fuel data ept ∧ dumpAwdb o fuel data ept = Awdb.dump fuel data ept := by
  have main : ∀ {o : Orders}, Possible Awdb.CommonFieldsMap o → dumpAwdb o fuel data ept = Awdb.dump fuel data ept := by
    intro o h
    unfold dumpAwdb Awdb.dump
    rw [openAwdb_eq h.check]
    cases Awdb.open_ data with
    | err e => rfl
    | panic => rfl
    | ok r => exact build_same awdb_oneToOne h fuel _ ept _ (fun n ip => find_same (h.record n) r ip)
  exact ⟨by rw [main h, main h'], main h⟩

/-- Two outcomes of a dump that differ in nothing but the order of the languages. -/
def AlmostSame (x y : Option (Res IpData)) : Prop :=
  (x = none ∧ y = none) ∨ (∃ e, x = some (.err e) ∧ y = some (.err e)) ∨ (x = some .panic ∧ y = some .panic) ∨
    ∃ d d', x = some (.ok d) ∧ y = some (.ok d') ∧ d'.fields = d.fields ∧ d'.ips = d.ips ∧
      d'.version = { d.version with languages := d'.version.languages } ∧ d.version.languages.Perm d'.version.languages

theorem build_almost {fuel : Nat} {f : GoMap Str} {fields : List Str} {ept : Option Exporter} {v v' : VersionInfo}
    {find : Export.Find} (hv : v' = { v with languages := v'.languages }) (hp : v.languages.Perm v'.languages) :
    AlmostSame (Export.BuildIPData fuel f fields ept v find) (Export.BuildIPData fuel f fields ept v' find) := by
  have hm : firstMarker v' = firstMarker v := by rw [hv]; rfl
  unfold Export.BuildIPData
  simp only [hm]
  cases Export.buildLoop find (Export.rowValues f (dumpFields f fields ept) ept) fuel (firstMarker v) [] with
  | none => exact .inl ⟨rfl, rfl⟩
  | some x =>
    cases x with
    | err e => exact .inr (.inl ⟨e, rfl, rfl⟩)
    | panic => exact .inr (.inr (.inl ⟨rfl, rfl⟩))
    | ok ips => exact .inr (.inr (.inr ⟨⟨_, v, ips⟩, ⟨_, v', ips⟩, rfl, rfl, rfl, rfl, hv, hp⟩))

/-- **C116, ipdb dumps.** Whatever the iteration orders, a dump of an ipdb file has the same outcome apart from the order of
the languages in the version: the same fields, the same rows in the same order with the same values, the same version
otherwise. -/
theorem C116_ipdb_dump {o o' : Orders} (h : Possible Ipdb.CommonFieldsMap o) (h' : Possible Ipdb.CommonFieldsMap o')
    (fuel : Nat) (dec : Bytes → Option Ipdb.MetaData) (fmtDate : Int → Str) (data : Bytes) (ept : Option Exporter) :
    AlmostSame (dumpIpdb o fuel dec fmtDate data ept) (dumpIpdb o' fuel dec fmtDate data ept) := by
  unfold dumpIpdb
  cases Ipdb.newReaderFromBytes dec data with
  | err e => exact .inr (.inl ⟨e, rfl, rfl⟩)
  | panic => exact .inr (.inr (.inl ⟨rfl, rfl⟩))
  | ok r =>
    simp only []
    rw [build_same ipdb_oneToOne h fuel _ ept _ (find' := fun ip => r.findMap ip (gs "CN")) (fun _ ip => SameFound.refl _),
      build_same ipdb_oneToOne h' fuel _ ept _ (find' := fun ip => r.findMap ip (gs "CN")) (fun _ ip => SameFound.refl _)]
    exact build_almost rfl ((visits_perm (h.langs _) (h'.langs _)).map _)

/-- The same dump without explicit orders (as it is used in the other modules) is one of these, if the keys in the map of
languages are distinct. -/
theorem C116_ipdb_model {o : Orders} (h : Possible Ipdb.CommonFieldsMap o) (fuel : Nat) (dec : Bytes → Option Ipdb.MetaData)
    (fmtDate : Int → Str) (data : Bytes) (ept : Option Exporter)
    (hk : ∀ b m, dec b = some m → (m.languages.map (·.1)).Nodup) :
    AlmostSame (Ipdb.dump fuel dec fmtDate data ept) (dumpIpdb o fuel dec fmtDate data ept) := by
  unfold dumpIpdb Ipdb.dump
  cases hr : Ipdb.newReaderFromBytes dec data with
  | err e => exact .inr (.inl ⟨e, rfl, rfl⟩)
  | panic => exact .inr (.inr (.inl ⟨rfl, rfl⟩))
  | ok r =>
    simp only []
    rw [build_same ipdb_oneToOne h fuel _ ept _ (find' := fun ip => r.findMap ip (gs "CN")) (fun _ ip => SameFound.refl _)]
    have hd : ∃ b, dec b = some r.md := by
      unfold Ipdb.newReaderFromBytes at hr
      simp only [] at hr
      split at hr
      · cases hr
      · split at hr
        · cases hr
        · split at hr
          · cases hr
          · rename_i m hm
            refine ⟨_, hm.trans ?_⟩
            split at hr
            · cases hr
            · split at hr
              · cases hr
              · split at hr
                · obtain ⟨_, _, hr⟩ := Res.bind_eq_ok.mp hr
                  obtain ⟨_, _, hr⟩ := Res.bind_eq_ok.mp hr
                  rw [← Res.ok.inj hr]
                · rw [← Res.ok.inj hr]
    obtain ⟨b, hb⟩ := hd
    exact build_almost rfl ((visits_perm (visits_self (hk b _ hb)) (h.langs _)).map _)

/-! ## Orders and a file with two languages -/

/-- The entries in the order of the association list, the languages in the order `langs`. -/
def plainOrders (f : GoMap Str) (langs : GoMap Int → List (Str × Int)) : Orders :=
  { ext := fun _ => f, sel := fun _ _ => f, record := fun _ => mapRange, check := mapRange, langs := langs }

/-- Backwards. -/
def backOrders (f : GoMap Str) : Orders :=
  { ext := fun _ => f.reverse, sel := fun n _ => if n % 2 = 0 then f.reverse else f, record := fun _ m => (mapRange m).reverse,
    check := fun m => (mapRange m).reverse, langs := fun m => (mapRange m).reverse }

theorem visits_reverse {α : Type} {o : List (Str × α)} {m : GoMap α} (h : Visits o m) : Visits o.reverse m := by
  refine ⟨?_, fun k v => by rw [List.mem_reverse]; exact h.2 k v⟩
  rw [List.map_reverse]
  exact (List.Perm.nodup_iff (List.reverse_perm _)).mpr h.1

theorem plain_possible {f : GoMap Str} (hf : (f.map (·.1)).Nodup) : Possible f (plainOrders f mapRange) :=
  ⟨fun _ => visits_self hf, fun _ _ => visits_self hf, fun _ => mapRange_visits, mapRange_visits, mapRange_visits⟩

theorem back_possible {f : GoMap Str} (hf : (f.map (·.1)).Nodup) : Possible f (backOrders f) := by
  refine ⟨fun _ => visits_reverse (visits_self hf), fun n _ => ?_, fun _ m => visits_reverse (mapRange_visits m),
    fun m => visits_reverse (mapRange_visits m), fun m => visits_reverse (mapRange_visits m)⟩
  show Visits (if n % 2 = 0 then f.reverse else f) f
  split
  · exact visits_reverse (visits_self hf)
  · exact visits_self hf

/-- `C116_awdb_query` on the file `demo4`, whose records have several entries, read backwards. -/
example : ∃ r, FromBytes demo4.bytes = .ok r ∧ ∃ q p, Query (fun m => (mapRange m).reverse) r [1, 2, 3, 4] = .ok (q, p) ∧ q.asn = gs "4837" := by
  obtain ⟨r, h1, _, h2, _⟩ := C63_lookup demo4 demo4_ok [1, 2, 3, 4] (by decide +kernel) 17 1 (by decide +kernel)
  obtain ⟨net, h3, _⟩ := h2 0 _ _ demo4_stored (by decide +kernel)
  obtain ⟨m, h6, h7, _⟩ := toStrings_record demoRecord
  obtain ⟨_, _, hq⟩ := C116_awdb_query (fun m => visits_reverse (mapRange_visits m)) (fun m => mapRange_visits m) demo4.bytes
  refine ⟨r, h1, _, _, (hq r [1, 2, 3, 4]).2.trans (by
    unfold Awdb.Reader.Query Awdb.Reader.Find; rw [h3, Res.ok_bind]; simp only [h6, Res.ok_bind]; rfl), ?_⟩
  simp only [h7]
  decide +kernel

/-- `C116_awdb_dump` for two different orders. -/
example (fuel : Nat) (ept : Option Exporter) : dumpAwdb (plainOrders Awdb.CommonFieldsMap mapRange) fuel demo4.bytes ept =
    dumpAwdb (backOrders Awdb.CommonFieldsMap) fuel demo4.bytes ept :=
  (C116_awdb_dump (plain_possible awdb_oneToOne.keys) (back_possible awdb_oneToOne.keys) fuel demo4.bytes ept).1

/-- One node, one field, two languages. -/
def langMeta : Ipdb.MetaData :=
  { build := 0, ipVersion := 2, languages := [(gs "CN", 0), (gs "EN", 1)], nodeCount := 1, totalSize := 23,
    fields := [gs "country_name"], version := gs "v", extra := [] }

def langFile : Bytes :=
  Ipdb.Exact.fileOf langMeta ([0, 0, 0, 2, 0, 0, 0, 2, 0] ++ [0, 12] ++ gs "中国\tChina")

/-- Both networks of the file. -/
def langRows : List IpRaw :=
  [⟨⟨List.replicate 16 0, 128 :: List.replicate 15 0⟩, [gs "中国"]⟩,
   ⟨⟨128 :: List.replicate 15 0, 128 :: List.replicate 15 0⟩, [gs "中国"]⟩]

/-- **C116.** The order of the languages does show: two dumps of one file with two languages may differ in it. -/
theorem C116_languages_vary : ∃ o o' : Orders, Possible Ipdb.CommonFieldsMap o ∧ Possible Ipdb.CommonFieldsMap o' ∧
    dumpIpdb o 5 Ipdb.decMeta (fun _ => []) langFile none =
      some (.ok ⟨[gs "country"], ⟨2, 1, 0, gs "v", [gs "CN", gs "EN"], []⟩, langRows⟩) ∧
    dumpIpdb o' 5 Ipdb.decMeta (fun _ => []) langFile none =
      some (.ok ⟨[gs "country"], ⟨2, 1, 0, gs "v", [gs "EN", gs "CN"], []⟩, langRows⟩) := by
  refine ⟨plainOrders _ mapRange, backOrders _, plain_possible ipdb_oneToOne.keys, back_possible ipdb_oneToOne.keys, ?_, ?_⟩ <;>
    decide +kernel

end Uip.MapOrder
