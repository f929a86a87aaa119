import Verif.Proof.Json.Values
import Verif.Proof.Json.Extend
import Verif.Props.Ipdb
import Verif.Props.Plain
import Verif.Props.Readers
import Verif.Props.Clients
/-!
# Properties C101-C103: the JSON the programs write and read

`Verif/Model/GoJson.lean` models Go's `encoding/json`.  `IsText` (bytes that are the UTF-8 encoding of a text) and
`repair` (every other byte replaced by U+FFFD) are in `Verif/Spec/Json.lean`.
-/
namespace Uip.Json
open Uip Uip.Spec Uip.Export

/-! ## C101: the metadata of an ipdb file -/

/-- A 64-bit signed number. -/
def IsInt64 (n : Int) : Prop := -(2 ^ 63) ≤ n ∧ n < 2 ^ 63

instance (n : Int) : Decidable (IsInt64 n) := by unfold IsInt64; infer_instance

theorem IsInt64.bounds {n : Int} (h : IsInt64 n) : minInt64 ≤ n ∧ n ≤ maxInt64 := by
  unfold IsInt64 at h; unfold minInt64 maxInt64; omega

theorem covert_texts {fields : List Str} (h : ∀ f ∈ fields, IsText f) : ∀ f ∈ Ipdb.covertFields fields, IsText f := by
  have hc : ∀ p ∈ Ipdb.CommonFieldsMap, IsText p.2 := by
    intro p hp
    have : ∀ p ∈ Ipdb.CommonFieldsMap, repair p.2 = p.2 := by decide +kernel
    exact (repair_eq_iff _).mp (this p hp)
  intro f hf
  obtain ⟨g, hg, rfl⟩ := List.mem_map.mp hf
  cases hm : mapGet Ipdb.CommonFieldsMap g with
  | none => exact h g hg
  | some v =>
    have : ∀ (m : GoMap Str) k v, mapGet m k = some v → (∀ p ∈ m, IsText p.2) → IsText v := by
      intro m
      induction m with
      | nil => intro k v h; cases h
      | cons p m ih =>
        intro k v h hp
        obtain ⟨a, b⟩ := p
        simp only [mapGet] at h
        split at h
        · cases h; exact hp (a, v) (List.mem_cons_self ..)
        · exact ih k v h fun p hm => hp p (List.mem_cons_of_mem _ hm)
    exact this _ _ _ hm hc

theorem map_repair {l : List Str} : l.map repair = l ↔ ∀ s ∈ l, IsText s := by
  induction l with
  | nil => simp
  | cons s l ih =>
    rw [List.map_cons, List.cons.injEq, ih, repair_eq_iff]
    simp

/-- **C101.** Whatever the metadata, as long as its numbers fit their types and it has one language: what `json.Unmarshal` reads
back is the metadata with every byte that is not UTF-8 replaced by U+FFFD. -/
theorem C101_decoded (nilFields nilExtra : Bool) (m : Ipdb.MetaData) {lang : Str} {n : Int} (hb : IsInt64 m.build)
    (hv : m.ipVersion < 65536) (hn : IsInt64 m.nodeCount) (hs : IsInt64 m.totalSize) (hl : m.languages = [(lang, n)])
    (hi : IsInt64 n) :
    unmarshalMeta (marshalMeta nilFields nilExtra m) = some
      { m with languages := [(repair lang, n)], fields := m.fields.map repair, version := repair m.version,
               extra := m.extra.map repair } := by
  obtain ⟨l, e, h⟩ := putMeta_eq nilFields nilExtra m hb.bounds (by omega) hn.bounds hs.bounds hl hi.bounds
  have hp := parse_text (fits_meta nilFields nilExtra m)
  rw [e] at hp
  unfold unmarshalMeta marshalMeta
  rw [e, hp]
  simp only [h, Option.map_some]
  rfl

/-- **C101.** The metadata a packed file holds comes back exactly when the version, the extra texts and the names of the fields
are texts. -/
theorem C101_round_trip_iff (nilFields nilExtra : Bool) {now : Int} (hnow : IsInt64 now) (v : VersionInfo) (fields : List Str) :
    Ipdb.MetaRoundTrip (marshalMeta nilFields nilExtra) unmarshalMeta (Ipdb.buildMeta now v fields) ↔
      IsText v.version ∧ (∀ s ∈ v.extraInfo, IsText s) ∧ ∀ f ∈ fields, IsText f := by
  have key : ∀ N S : Nat, N < 2 ^ 32 → S < 2 ^ 32 →
      unmarshalMeta (marshalMeta nilFields nilExtra { Ipdb.buildMeta now v fields with nodeCount := N, totalSize := S }) = some
        { Ipdb.buildMeta now v fields with
            nodeCount := N, totalSize := S, languages := [(gs "CN", 0)], fields := (Ipdb.covertFields fields).map repair,
            version := repair v.version, extra := v.extraInfo.map repair } := by
    intro N S hN hS
    have := C101_decoded nilFields nilExtra { Ipdb.buildMeta now v fields with nodeCount := N, totalSize := S }
      (lang := gs "CN") (n := 0) hnow
      (by show Ipdb.ipVersion v < _; unfold Ipdb.ipVersion; split; omega; split <;> omega)
      (by unfold IsInt64; simp only []; omega) (by unfold IsInt64; simp only []; omega) rfl (by decide)
    rw [this]
    have : repair (gs "CN") = gs "CN" := (repair_eq_iff _).mpr (isText_gs _)
    rw [this]
    rfl
  have hcov : (∀ f ∈ Ipdb.covertFields fields, IsText f) ↔ ∀ f ∈ fields, IsText f := by
    refine ⟨fun h f hf => ?_, covert_texts⟩
    have := h _ (List.mem_map_of_mem hf)
    cases hm : mapGet Ipdb.CommonFieldsMap f with
    | none => rw [hm] at this; exact this
    | some x =>
      have h2 : ∀ p ∈ Ipdb.CommonFieldsMap, repair p.1 = p.1 := by decide +kernel
      have : ∀ (m : GoMap Str) k v, mapGet m k = some v → (∀ p ∈ m, repair p.1 = p.1) → repair k = k := by
        intro m
        induction m with
        | nil => intro k v h; cases h
        | cons p m ih =>
          intro k v h hp
          obtain ⟨a, b⟩ := p
          simp only [mapGet] at h
          split at h
          · rename_i e; subst e; exact hp _ (List.mem_cons_self ..)
          · exact ih k v h fun p hm => hp p (List.mem_cons_of_mem _ hm)
      exact (repair_eq_iff _).mp (this _ _ _ hm h2)
  constructor
  · intro h
    have h0 := h 0 0 (by omega) (by omega)
    rw [key 0 0 (by omega) (by omega)] at h0
    have h0 := Option.some.inj h0
    refine ⟨(repair_eq_iff _).mp (congrArg Ipdb.MetaData.version h0), map_repair.mp (congrArg Ipdb.MetaData.extra h0),
      hcov.mp (map_repair.mp (congrArg Ipdb.MetaData.fields h0))⟩
  · rintro ⟨h1, h2, h3⟩ N S hN hS
    rw [key N S hN hS, (repair_eq_iff _).mpr h1, map_repair.mpr h2, map_repair.mpr (hcov.mpr h3)]
    rfl

theorem C101_round_trip (nilFields nilExtra : Bool) {now : Int} (hnow : IsInt64 now) {v : VersionInfo} {fields : List Str}
    (h1 : IsText v.version) (h2 : ∀ s ∈ v.extraInfo, IsText s) (h3 : ∀ f ∈ fields, IsText f) :
    Ipdb.MetaRoundTrip (marshalMeta nilFields nilExtra) unmarshalMeta (Ipdb.buildMeta now v fields) :=
  (C101_round_trip_iff nilFields nilExtra hnow v fields).mpr ⟨h1, h2, h3⟩

/-- **C101.** With Go's JSON, nothing assumed of the encoder: pack disjoint rows, open the file, ask for an address covered by a
row; the answer is the information of that row and its prefix length in the family of the address. -/
theorem C101_pack_query (nilFields nilExtra : Bool) {now : Int} {ipd : IpData} (hnow : IsInt64 now) (h : RowsOK ipd)
    (hval : ValuesOK ipd) (hd : DisjointRows (rowsOf ipd)) (h1 : IsText ipd.version.version)
    (h2 : ∀ s ∈ ipd.version.extraInfo, IsText s) (h3 : ∀ f ∈ ipd.fields, IsText f) :
    ∃ bytes, Ipdb.pack (marshalMeta nilFields nilExtra) now ipd = .ok bytes ∧ (bytes.length < 2 ^ 32 →
      ∃ q, Ipdb.newQuerier unmarshalMeta bytes = .ok q ∧
        ∀ a row, ValidIP a → Supports ipd.version a → row ∈ ipd.ips → Covers row.cidr (addrNum a) →
          q.Query a = .ok (infoOf ipd.fields row.values, maskFor row.cidr a)) :=
  Ipdb.C12_pack_query_mask h hval hd (C101_round_trip nilFields nilExtra hnow h1 h2 h3)

/-- **C101.** Metadata cut anywhere before its end is never accepted. -/
theorem C101_cut (nilFields nilExtra : Bool) (m : Ipdb.MetaData) {p q : Bytes} (hp : p ++ q = marshalMeta nilFields nilExtra m)
    (hq : q ≠ []) : unmarshalMeta p = none := by
  have : parse p = none := parse_prefix (fits_meta nilFields nilExtra m) hp hq
  unfold unmarshalMeta
  rw [this]

/-- Quotes, a line end, `<`, a Chinese name and a byte that is not UTF-8. -/
def demoMeta : Ipdb.MetaData :=
  { build := -5, ipVersion := 3, languages := [(gs "CN", 0)], nodeCount := 12, totalSize := 4096, fields := [gs "a\"\n<b", gs "城市", [0x61, 0xFF]],
    version := gs "v\u2028\\", extra := [] }

example : unmarshalMeta (marshalMeta false true demoMeta) = some
    { demoMeta with fields := [gs "a\"\n<b", gs "城市", gs "a\uFFFD"] } := by
  rw [C101_decoded false true demoMeta (lang := gs "CN") (n := 0) (by decide) (by decide) (by decide) (by decide) rfl (by decide)]
  decide +kernel
/-- The text itself. -/
example : marshalMeta false true { demoMeta with fields := [gs "a\"\n<b"] } =
    gs "{\"build\":-5,\"ip_version\":3,\"languages\":{\"CN\":0},\"node_count\":12,\"total_size\":4096,\"fields\":[\"a\\\"\\n\\u003cb\"],\"version\":\"v\\u2028\\\\\",\"extra\":null}" := by
  decide +kernel
/-- The data set of the ipdb examples meets the hypotheses of `C101_pack_query`. -/
example : IsInt64 1700000000 ∧ RowsOK Ipdb.demo ∧ ValuesOK Ipdb.demo ∧ DisjointRows (rowsOf Ipdb.demo) := by decide +kernel
theorem demo_texts : IsText Ipdb.demo.version.version ∧ (∀ s ∈ Ipdb.demo.version.extraInfo, IsText s) ∧ ∀ f ∈ Ipdb.demo.fields, IsText f := by
  refine ⟨isText_gs _, ?_, ?_⟩
  · apply map_repair.mp; decide +kernel
  · apply map_repair.mp; decide +kernel
/-- A field name that is not UTF-8 does not come back. -/
theorem C101_bad_name : ¬ Ipdb.MetaRoundTrip (marshalMeta false false) unmarshalMeta (Ipdb.buildMeta 0 Ipdb.demo.version [[0x61, 0xFF]]) := by
  intro h
  have h := ((C101_round_trip_iff false false (by decide) _ _).mp h).2.2 _ (List.mem_singleton.mpr rfl)
  exact absurd ((repair_eq_iff _).mpr h) (by decide +kernel)
example : unmarshalMeta ((marshalMeta false true demoMeta).take 60) = none :=
  C101_cut false true demoMeta (q := (marshalMeta false true demoMeta).drop 60) (List.take_append_drop ..) (by decide +kernel)

/-! ## C102: the version in a `.scan` text -/

/-- **C102.** What comes back of the version in a `.scan` text. -/
theorem C102_decoded (nilLangs nilExtra : Bool) (v : VersionInfo) (h1 : IsInt64 v.ipType) (h2 : IsInt64 v.build) :
    unmarshalVersion (marshalVersion nilLangs nilExtra v) = some (some
      { v with version := repair v.version, languages := v.languages.map repair, extraInfo := v.extraInfo.map repair }) := by
  obtain ⟨l, e, h⟩ := putVersion_eq nilLangs nilExtra v h1.bounds h2.bounds
  have hp := parse_text (fits_version nilLangs nilExtra v)
  rw [e] at hp
  unfold unmarshalVersion marshalVersion
  rw [e, hp]
  simp only [h, Option.map_some]
  simp

theorem C102_round_trip (nilLangs nilExtra : Bool) {v : VersionInfo} (h1 : IsInt64 v.ipType) (h2 : IsInt64 v.build)
    (h3 : IsText v.version) (h4 : ∀ s ∈ v.languages, IsText s) (h5 : ∀ s ∈ v.extraInfo, IsText s) :
    unmarshalVersion (marshalVersion nilLangs nilExtra v) = some (some v) := by
  rw [C102_decoded _ _ v h1 h2, (repair_eq_iff _).mpr h3, map_repair.mpr h4, map_repair.mpr h5]

/-- **C102.** Whatever the texts in it, the version is written on one line. -/
theorem C102_one_line (nilLangs nilExtra : Bool) (v : VersionInfo) : ∀ b ∈ marshalVersion nilLangs nilExtra v, 0x20 ≤ b :=
  text_plain _ _ (fits_version nilLangs nilExtra v)

theorem C102_line_ok {nilLangs nilExtra : Bool} {v : VersionInfo} (h : (marshalVersion nilLangs nilExtra v).length + 30 < 65536) :
    LineOK (marshalVersion nilLangs nilExtra v) := by
  have h1 := C102_one_line nilLangs nilExtra v
  refine ⟨fun hm => ?_, fun hm => ?_, h⟩
  · exact absurd (h1 _ hm) (by decide)
  · exact absurd (h1 _ (List.mem_of_getLast? hm)) (by decide)

/-- **C102.** Packing to `.scan` and reading back under a rule naming the fields of the data gives the rows up to the end of the
address family, with Go's JSON and nothing assumed of it. -/
theorem C102_scan_roundtrip (nilLangs nilExtra : Bool) {d : HData} {now : Str} (hw : d.WF) (hd : ScanOK d.view)
    (hr : DefaultsOK d.fields) (hnow : LineOK now) (h1 : IsInt64 d.version.ipType) (h2 : IsInt64 d.version.build)
    (h3 : IsText d.version.version) (h4 : ∀ s ∈ d.version.languages, IsText s) (h5 : ∀ s ∈ d.version.extraInfo, IsText s)
    (h6 : (marshalVersion nilLangs nilExtra d.version).length + 30 < 65536) :
    ∃ text d' out, Plain.pack (marshalVersion nilLangs nilExtra) now d = .ok (text, d') ∧
      Plain.dump unmarshalVersion text (ParseRule (ruleText d.fields [])) = .ok ⟨d.fields, d.version, out⟩ ∧
      Rel2 Plain.RowBack (untilEnd d.view.ips) out :=
  Plain.C44_scan_roundtrip hw hd hr (C102_line_ok h6) hnow (C102_round_trip nilLangs nilExtra h1 h2 h3 h4 h5)

/-- **C102.** A version cut anywhere before its end is never accepted. -/
theorem C102_cut (nilLangs nilExtra : Bool) (v : VersionInfo) {p q : Bytes} (hp : p ++ q = marshalVersion nilLangs nilExtra v)
    (hq : q ≠ []) : unmarshalVersion p = none := by
  have : parse p = none := parse_prefix (fits_version nilLangs nilExtra v) hp hq
  unfold unmarshalVersion
  rw [this]

/-- A version whose text has a line end. -/
def demoVer : VersionInfo := ⟨3, 7, 1700000000, gs "v1\r\n", [gs "CN"], [gs "额外", gs "<x>"]⟩

example : unmarshalVersion (marshalVersion false false demoVer) = some (some demoVer) := by decide +kernel
example : IsInt64 demoVer.ipType ∧ IsInt64 demoVer.build ∧ (marshalVersion false false demoVer).length + 30 < 65536 := by decide +kernel
/-- The data set of the `.scan` examples meets the hypotheses of `C102_scan_roundtrip`. -/
example : Plain.demoH.WF ∧ ScanOK Plain.demoH.view ∧ DefaultsOK Plain.demoH.fields ∧ LineOK Plain.demoNow ∧
    IsInt64 Plain.demoH.version.ipType ∧ IsInt64 Plain.demoH.version.build ∧
    (marshalVersion true true Plain.demoH.version).length + 30 < 65536 ∧ repair Plain.demoH.version.version = Plain.demoH.version.version ∧
    Plain.demoH.version.languages.map repair = Plain.demoH.version.languages ∧
    Plain.demoH.version.extraInfo.map repair = Plain.demoH.version.extraInfo := by decide +kernel
example : unmarshalVersion ((marshalVersion false false demoVer).take 30) = none :=
  C102_cut false false demoVer (q := (marshalVersion false false demoVer).drop 30) (List.take_append_drop ..) (by decide +kernel)

/-! ## C103: what the server sends -/

/-- The text a JSON string stands for. -/
def textOf : JVal → Option Str
  | .str raw => some (unquote raw)
  | _ => none

/-- The members a reply has: those that are not empty, in the order of the struct. -/
def replyMembers (i : IpInfo) : List (Str × Str) :=
  [(gs "country", i.country), (gs "district", i.district), (gs "province", i.province), (gs "city", i.city), (gs "asn", i.asn),
    (gs "isp", i.isp), (gs "continent", i.continent), (gs "line", i.line)].filter fun p => decide (p.2 ≠ [])

def infoNames : List String := ["country", "district", "province", "city", "asn", "isp", "continent", "line"]

theorem info_name : ∀ n ∈ infoNames, Plain n := by decide +kernel

def infoPairs (i : IpInfo) : List (String × Str) :=
  [("country", i.country), ("district", i.district), ("province", i.province), ("city", i.city), ("asn", i.asn),
    ("isp", i.isp), ("continent", i.continent), ("line", i.line)]

theorem infoPairs_name {i : IpInfo} {p : String × Str} (h : p ∈ infoPairs i) : Plain p.1 :=
  info_name _ (List.mem_map_of_mem (f := Prod.fst) h)

theorem infoVal_eq (i : IpInfo) :
    infoVal i = .ofFields (((infoPairs i).filter fun p => decide (p.2 ≠ [])).map fun p => (p.1, .ofStr p.2)) := rfl

theorem fits_info (i : IpInfo) : Fits maxDepth (infoVal i) := by
  refine Fits.mono (d := 1) (by decide) ?_
  rw [infoVal_eq]
  apply fits_ofFields
  · intro p hp
    obtain ⟨q, hq, rfl⟩ := List.mem_map.mp hp
    exact infoPairs_name (List.mem_filter.mp hq |>.1)
  · intro p hp
    obtain ⟨q, hq, rfl⟩ := List.mem_map.mp hp
    exact fits_ofStr _ _

/-- **C103.** The body of an answer is one JSON object; its members are the fields that are not empty, each with its value
(U+FFFD for bytes that are not UTF-8). -/
theorem C103_body (i : IpInfo) : ∃ l, parse (marshalInfo i) = some (.obj l) ∧
    l.map (fun p => (unquote p.1, textOf p.2)) = (replyMembers i).map fun p => (p.1, some (repair p.2)) := by
  refine ⟨_, parse_text (fits_info i), ?_⟩
  have hr : replyMembers i = ((infoPairs i).filter fun p => decide (p.2 ≠ [])).map fun p => (gs p.1, p.2) := by
    show ((infoPairs i).map fun p => (gs p.1, p.2)).filter (fun p => decide (p.2 ≠ [])) = _
    rw [List.filter_map]; rfl
  rw [hr]
  simp only [List.map_map]
  apply List.map_congr_left
  intro p hp
  have := (infoPairs_name (List.mem_filter.mp hp).1).2
  simp only [Function.comp, this, JVal.ofStr, textOf, unquote_escape]

theorem replyMembers_inj {i j : IpInfo} (h : replyMembers i = replyMembers j) : i = j := by
  have one : ∀ (k : Str) (x y : Str), [(k, x)].filter (fun p : Str × Str => decide (p.2 ≠ [])) =
      [(k, y)].filter (fun p : Str × Str => decide (p.2 ≠ [])) → x = y := by
    intro k x y h
    cases x <;> cases y <;> simp at h ⊢
    exact h
  have swap : ∀ (l : List (Str × Str)) (k : Str), (l.filter (fun p => decide (p.2 ≠ []))).filter (fun p => decide (p.1 = k)) =
      (l.filter (fun p => decide (p.1 = k))).filter (fun p => decide (p.2 ≠ [])) := by
    intro l k
    rw [List.filter_filter, List.filter_filter]
    apply List.filter_congr
    intro p _
    exact Bool.and_comm _ _
  have hf : ∀ k : Str, (replyMembers i).filter (fun p => decide (p.1 = k)) = (replyMembers j).filter (fun p => decide (p.1 = k)) :=
    fun k => by rw [h]
  unfold replyMembers at hf
  simp only [swap] at hf
  obtain ⟨a1, a2, a3, a4, a5, a6, a7, a8⟩ := i
  obtain ⟨b1, b2, b3, b4, b5, b6, b7, b8⟩ := j
  have e1 := one _ a1 b1 (hf (gs "country"))
  have e2 := one _ a2 b2 (hf (gs "district"))
  have e3 := one _ a3 b3 (hf (gs "province"))
  have e4 := one _ a4 b4 (hf (gs "city"))
  have e5 := one _ a5 b5 (hf (gs "asn"))
  have e6 := one _ a6 b6 (hf (gs "isp"))
  have e7 := one _ a7 b7 (hf (gs "continent"))
  have e8 := one _ a8 b8 (hf (gs "line"))
  subst e1 e2 e3 e4 e5 e6 e7 e8
  rfl

/-- All eight values are texts. -/
def InfoTexts (i : IpInfo) : Prop := ∀ p ∈ replyMembers i, IsText p.2

/-- Two fields are not empty. -/
def demoInfo : IpInfo := ⟨gs "中国", [], [], gs "a\"b&", [], [], [], []⟩
example : replyMembers demoInfo = [(gs "country", gs "中国"), (gs "city", gs "a\"b&")] := by decide +kernel
example : marshalInfo demoInfo = gs "{\"country\":\"中国\",\"city\":\"a\\\"b\\u0026\"}" := by decide +kernel

/-- **C103.** Nothing is lost in a body: two answers of texts with the same body are the same. -/
theorem C103_faithful {i j : IpInfo} (hi : InfoTexts i) (hj : InfoTexts j) (h : marshalInfo i = marshalInfo j) : i = j := by
  obtain ⟨l, h1, h2⟩ := C103_body i
  obtain ⟨l', h3, h4⟩ := C103_body j
  rw [h, h3] at h1
  injection h1 with h1
  injection h1 with h1
  subst h1
  rw [h2] at h4
  have drop : ∀ i, InfoTexts i → (replyMembers i).map (fun p => (p.1, some (repair p.2))) =
      (replyMembers i).map fun p => (p.1, some p.2) := by
    intro i hi
    apply List.map_congr_left
    intro p hp
    rw [(repair_eq_iff _).mpr (hi p hp)]
  rw [drop i hi, drop j hj] at h4
  apply replyMembers_inj
  have inj : ∀ x y : Str × Str, (x.1, some x.2) = (y.1, some y.2) → x = y := by
    rintro ⟨a, b⟩ ⟨c, d⟩ h
    simp only [Prod.mk.injEq, Option.some.injEq] at h
    rw [h.1, h.2]
  exact List.map_inj_right inj |>.mp h4

/-- **C103.** The server's answer to a request for an address the database knows: status 200 and a JSON object whose members are
the fields found that are not empty. -/
theorem C103_serve (w : Program.World) (nilLangs nilExtra : Bool) (q : Program.OpenDb) (ip : Str) (hv : 0x2F :: ip ≠ gs "/version")
    {i : IpInfo} {mask : Nat} (h : Db.QueryStr ParseIP q.query ip = .ok (i, mask)) :
    ∃ body l, Program.serve w marshalInfo (marshalVersion nilLangs nilExtra) q (0x2F :: ip) = .ok ⟨200, body⟩ ∧
      parse body = some (.obj l) ∧
      l.map (fun p => (unquote p.1, textOf p.2)) = (replyMembers i).map fun p => (p.1, some (repair p.2)) := by
  obtain ⟨l, h1, h2⟩ := C103_body i
  refine ⟨_, l, ?_, h1, h2⟩
  unfold Program.serve
  rw [if_neg hv]
  unfold Program.serveQuery
  simp only [h]

/-- **C103.** The body sent for `/version` read as a version is the version of the database, as far as its texts are UTF-8. -/
theorem C103_version (w : Program.World) (nilLangs nilExtra : Bool) (q : Program.OpenDb)
    (h1 : IsInt64 (q.versionInfo w).ipType) (h2 : IsInt64 (q.versionInfo w).build) :
    ∃ body, Program.serve w marshalInfo (marshalVersion nilLangs nilExtra) q (gs "/version") = .ok ⟨200, body⟩ ∧
      unmarshalVersion body = some (some
        { q.versionInfo w with version := repair (q.versionInfo w).version, languages := (q.versionInfo w).languages.map repair,
                               extraInfo := (q.versionInfo w).extraInfo.map repair }) := by
  refine ⟨_, ?_, C102_decoded nilLangs nilExtra _ h1 h2⟩
  unfold Program.serve
  rw [if_pos rfl]

end Uip.Json
