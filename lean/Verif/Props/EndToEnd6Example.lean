import Verif.Props.EndToEnd6
import Verif.Props.EndToEndExample
/-!
# C96 on an IPv6 file
-/
namespace Uip.Program
open Uip Uip.Spec Uip.Operate
open Uip.Export (sevenFields)
open Uip.Dump (Walked)
open Uip.Spec.Awdb (File strRecord Doc At Stored SizeOK treeWalk)

def awFar : List (Str × Str) := [(gs "country", gs "美国"), (gs "asnumber", gs "7922"), (gs "isp", gs "comcast")]
def lowIP : IP := [0x24, 8] ++ List.replicate 13 0 ++ [1]
def farIP : IP := [0xfe, 0x80] ++ List.replicate 13 0 ++ [1]

/-- An IPv6 file: `::/1` has one record, `8000::/1` the other. -/
def awSix : File where
  recordSize := 24
  nodes := [(17, 17 + (strRecord awLow).enc.length)]
  data := (strRecord awLow).enc ++ ((strRecord awFar).enc ++ List.replicate 2000 0)
  meta_ := (Doc.map (Awdb.demoMeta 6 1 24)).enc
  md := { nodeCount := 1, recordSize := 24, ipVersion := 6, buildEpoch := 1600000000, languages := [gs "CN"], databaseType := gs "demo" }

set_option maxRecDepth 100000 in
theorem awSix_ok : awSix.OK where
  size := Or.inl rfl
  fit := by decide +kernel
  count := by decide +kernel
  metadata := ⟨_, _, Awdb.demoMeta_stored 6 1 24 (by omega) (by omega) (by omega), by decide +kernel⟩
  mdSize := rfl
  mdCount := rfl
  long := by decide +kernel
  tail := by decide +kernel
  once := Awdb.once_of (by decide +kernel)

theorem awFar_fits : (strRecord awFar).AllFit ∧ (strRecord awFar).levels ≤ 513 := by
  constructor
  · simp only [strRecord, awFar, List.map_cons, List.map_nil, Doc.AllFit, Doc.AllFit.fitPairs, Doc.Fits, SizeOK, List.length_cons, List.length_nil]
    exact ⟨by omega, by decide +kernel, by decide +kernel, by decide +kernel, by decide +kernel, by decide +kernel, by decide +kernel,
      trivial⟩
  · simp [strRecord, awFar, Doc.levels, Doc.levels.levelsPairs]

theorem sixLow_stored : Stored awSix.data 513 0 (strRecord awLow) (0 + (strRecord awLow).enc.length) :=
  Awdb.enc_stored _ _ _ _ (by unfold At awSix; rw [List.drop_zero]; exact List.prefix_append _ _) awLow_fits.1 awLow_fits.2

theorem awFar_stored : Stored awSix.data 513 (strRecord awLow).enc.length (strRecord awFar)
    ((strRecord awLow).enc.length + (strRecord awFar).enc.length) :=
  Awdb.enc_stored _ _ _ _ (by unfold At awSix; rw [List.drop_left]; exact List.prefix_append _ _) awFar_fits.1 awFar_fits.2

/-- Every address outside `::ffff:0:0/96` has one of the two records. -/
theorem six_find {r : Awdb.Reader} (ho : Awdb.FromBytes awSix.bytes = .ok r) (ip : IP) (hv : ValidIP ip) (h4 : (To4 ip).isSome = false) :
    ∃ net l, (l = awLow ∨ l = awFar) ∧ WFNet net ∧ r.LookupNetwork ip = .ok (net, some (strRecord l).val) ∧
      r.Find ip = .ok (net, Awdb.mapRange l.reverse) ∧ r.Query ip = .ok (Awdb.infoOf l, pfx net) ∧
      ((awSix.path ip).head? = some false → l = awLow) ∧ ((awSix.path ip).head? = some true → l = awFar) := by
  have hlen : (Spec.Awdb.canon ip).length = 16 := (Awdb.canon_own6 ⟨hv, h4⟩).2
  have hasks : awSix.Asks ip := ⟨hv, .inl rfl⟩
  have hpl : (awSix.path ip).length = 128 := by
    unfold File.path
    rw [if_pos (show awSix.md.ipVersion = 6 from rfl), bits_length, List.length_append, List.length_replicate, hlen]
  have main : ∀ l off e n, Stored awSix.data 513 off (strRecord l) e → n = awSix.nodes.length + 16 + off →
      treeWalk awSix.nodes (awSix.path ip) 0 0 = (n, 1) →
      ∃ net, WFNet net ∧ r.LookupNetwork ip = .ok (net, some (strRecord l).val) ∧ r.Find ip = .ok (net, Awdb.mapRange l.reverse) ∧
        r.Query ip = .ok (Awdb.infoOf l, pfx net) := by
    intro l off e n hst hn hw
    obtain ⟨r', ho', _, h2, _⟩ := Awdb.C63_lookup awSix awSix_ok ip hasks n 1 hw
    rw [ho] at ho'
    obtain rfl := Res.ok.inj ho'
    obtain ⟨net, h3, h5, _⟩ := h2 off _ e hst hn
    obtain ⟨m, k1, _, k3⟩ := Awdb.toStrings_record l
    refine ⟨net, h5, h3, ?_, Awdb.query_record h5 h3⟩
    unfold Awdb.Reader.Find
    rw [h3, Res.ok_bind]
    simp only [k1, Res.ok_bind, k3]
    rfl
  have hn : ∀ (bs : List Bool) (n : Nat), 1 ≤ n → treeWalk awSix.nodes bs n 1 = (n, 1) := by
    intro bs n h
    cases bs with
    | nil => rfl
    | cons b bs =>
      unfold treeWalk
      rw [show awSix.nodes[n]? = none from List.getElem?_eq_none (by show 1 ≤ n; exact h)]
  cases hp : awSix.path ip with
  | nil => rw [hp] at hpl; cases hpl
  | cons b bs =>
    cases b with
    | false =>
      obtain ⟨net, g1, g2, g3, g4⟩ := main awLow 0 _ 17 sixLow_stored rfl (by
        rw [hp]
        show treeWalk awSix.nodes bs 17 1 = _
        exact hn _ _ (by omega))
      exact ⟨net, awLow, .inl rfl, g1, g2, g3, g4, fun _ => rfl, fun h => by cases h⟩
    | true =>
      obtain ⟨net, g1, g2, g3, g4⟩ := main awFar _ _ (17 + (strRecord awLow).enc.length) awFar_stored rfl (by
        rw [hp]
        show treeWalk awSix.nodes bs (17 + (strRecord awLow).enc.length) 1 = _
        exact hn _ _ (by omega))
      exact ⟨net, awFar, .inr rfl, g1, g2, g3, g4, (fun h => by cases h), fun _ => rfl⟩

def sixArgs : Args := ⟨gs "a.awdb", gs "b.ipdb", gs "default", [], false⟩
def sixFs : Fs := fun n => if n = gs "a.awdb" then some awSix.bytes else none

theorem six_opened (fuel : Nat) : ∃ R, NewDb exWorld (converterFormats exWorld fuel) sixFs sixArgs.input = .ok (.awdb R) ∧
    Awdb.FromBytes awSix.bytes = .ok R ∧ R.md = awSix.md := by
  obtain ⟨R, ho, _, _, _, hm⟩ := Awdb.file_opens awSix_ok
  refine ⟨R, ?_, ho, hm⟩
  unfold NewDb
  rw [show sixFs sixArgs.input = some awSix.bytes from if_pos rfl]
  simp only []
  rw [show pathExt sixArgs.input = gs ".awdb" by decide +kernel]
  unfold NewDbFromBytes
  rw [opener_awdb]
  have hc : Awdb.open_ awSix.bytes = .ok R := by
    unfold Awdb.open_ Awdb.Reader.check
    have hv : R.version.HasIpV4 = false := by
      unfold Awdb.Reader.version VersionInfo.HasIpV4 Awdb.Metadata.IpType
      rw [hm]; rfl
    rw [ho, Res.ok_bind, hv]
    rfl
  simp only [hc, Res.ok_bind, Res.pure_eq, OpenDb.buildCache]

theorem six_infos : Awdb.infoOf awLow = { country := gs "中国", province := gs "广东", asn := gs "4837", isp := gs "联通" } ∧
    Awdb.infoOf awFar = { country := gs "美国", asn := gs "7922", isp := gs "comcast" } := by decide +kernel

/-- C96 on the example: `200.0.0.1` of 鹏博士 (AS 17964) gets the carrier 联通 of AS 4837, and no AS number. -/
theorem ex_awdb6_answers (fuel : Nat) (hfuel : fuel ≥ 2 ^ 128) : ∃ fs' b,
    converter exWorld fuel (fun _ => [gs "联通"]) (fun _ => true) sixFs sixArgs = some (fs', .ok ()) ∧
    fs' (gs "b.ipdb") = some b ∧
    (b.length < 2 ^ 32 → ∃ q m, NewDb exWorld (serverFormats exWorld fuel) fs' (gs "b.ipdb") = .ok q ∧
      q.query farIP = .ok (⟨gs "美国", [], [], [], [], gs "联通", [], []⟩, m)) := by
  obtain ⟨R, hnew, ho, hm⟩ := six_opened fuel
  have h6 : R.md.ipVersion = 6 := by rw [hm]; rfl
  have hfam : ∀ ip, Family exWorld (.awdb R) ip ↔ ValidIP ip ∧ (To4 ip).isSome = false := by
    intro ip
    refine and_congr_right fun _ => ?_
    rw [show dumpLen (OpenDb.versionInfo exWorld (.awdb R)) = 16 from Awdb.dumpLen_six h6]; simp
  have hq : ∀ ip i, ValidIP ip → (To4 ip).isSome = false → Says (.awdb R) ip i → i = Awdb.infoOf awLow ∨ i = Awdb.infoOf awFar := by
    rintro ip i hv h4 ⟨m, h⟩
    obtain ⟨net, l, hl, _, _, _, hq, _⟩ := six_find ho ip hv h4
    have h' : R.Query ip = .ok (i, m) := h
    rw [hq] at h'
    rw [← (Prod.mk.inj (Res.ok.inj h')).1]
    rcases hl with rfl | rfl
    · exact .inl rfl
    · exact .inr rfl
  obtain ⟨n1, l1, _, _, _, _, q1, hl1, _⟩ := six_find ho lowIP (by decide) (by decide)
  obtain ⟨n2, l2, _, _, _, _, q2, _, hl2⟩ := six_find ho farIP (by decide) (by decide)
  rw [hl1 (by decide +kernel)] at q1
  rw [hl2 (by decide +kernel)] at q2
  have s1 : SaysNoAsn (.awdb R) lowIP { country := gs "中国", province := gs "广东", isp := gs "联通" } :=
    ⟨_, ⟨_, q1⟩, by rw [six_infos.1]⟩
  have s2 : SaysNoAsn (.awdb R) farIP { country := gs "美国", isp := gs "comcast" } :=
    ⟨_, ⟨_, q2⟩, by rw [six_infos.2]⟩
  have c1 : cleaned { country := gs "中国", province := gs "广东", isp := gs "联通" } =
      { country := gs "中国", province := gs "广东", isp := gs "联通" } := by decide +kernel
  have c2 : cleaned { country := gs "美国", isp := gs "comcast" } =
      { country := gs "美国" } := by decide +kernel
  have hmain : ∀ F : IP → Prop, (∀ ip, F ip → ValidIP ip ∧ (To4 ip).isSome = false) → ∀ s m,
      Carries (fun i => ∃ ip, F ip ∧ SaysNoAsn (.awdb R) ip i) s m → m = gs "联通" := by
    rintro F hF s m ⟨hm, i, ⟨ip, hf, j, hj, rfl⟩, h1, _⟩
    rcases hq ip j (hF ip hf).1 (hF ip hf).2 hj with rfl | rfl
    · rw [six_infos.1] at h1
      rw [← h1]; show (cleaned { country := gs "中国", province := gs "广东", isp := gs "联通" }).isp = _
      rw [c1]
    · rw [six_infos.2] at h1
      have h1' : (cleaned { country := gs "美国", isp := gs "comcast" }).isp = m := h1
      rw [c2] at h1'
      rw [← h1'] at hm
      exact absurd hm (by decide +kernel)
  have hw1 : Family exWorld (.awdb R) lowIP := (hfam _).mpr (by decide)
  have hw2 : Family exWorld (.awdb R) farIP := (hfam _).mpr (by decide)
  obtain ⟨fs', b, r1, r2, _, r3⟩ := C96_awdb_v6 exWorld fuel hfuel (fun _ => [gs "联通"]) (fun _ => true) sixFs sixArgs R hnew
    (by decide +kernel) h6
    (fun ip net rec hf h => by
      obtain ⟨hv, h4⟩ := (hfam ip).mp hf
      obtain ⟨net', l, hl, _, _, hf, _⟩ := six_find ho ip hv h4
      rw [h] at hf
      rw [(Prod.mk.inj (Res.ok.inj hf)).2]
      rcases hl with rfl | rfl <;> decide +kernel)
    (fun ip hf => by
      obtain ⟨hv, h4⟩ := (hfam ip).mp hf
      obtain ⟨net, l, _, _, _, _, h, _⟩ := six_find ho ip hv h4
      exact ⟨_, _, h⟩)
    (by
      obtain ⟨r', ho', _, h2, _⟩ := Awdb.C63_lookup awSix awSix_ok belowMapped (by decide +kernel) 17 1 (by decide +kernel)
      rw [ho] at ho'
      obtain rfl := Res.ok.inj ho'
      obtain ⟨net, k1, k2, _, k4⟩ := h2 0 _ _ sixLow_stored rfl
      exact ⟨_, _, Awdb.query_record k2 k1, by omega⟩) rfl rfl
    (fun ip i hf h => by
      obtain ⟨hv, h4⟩ := (hfam ip).mp hf
      rcases hq ip i hv h4 h with rfl | rfl
      · rw [six_infos.1]; decide +kernel
      · rw [six_infos.2]; decide +kernel)
    ⟨lowIP, farIP, _, _, hw1, hw2, ⟨_, q1⟩, ⟨_, q2⟩, by rw [six_infos.1, six_infos.2]; decide +kernel⟩
    (fun k => ⟨by simp, fun m => ⟨fun h => by
      rw [List.mem_singleton.mp h]
      exact ⟨by decide +kernel, _, ⟨_, hw1, s1⟩, by rw [c1]⟩, fun ⟨hm, i, hi, h⟩ =>
        List.mem_singleton.mpr (hmain _ (fun ip h => (hfam ip).mp h) _ m ⟨hm, i, hi, h, rfl⟩)⟩⟩)
    (by decide +kernel) (by decide +kernel) rfl (ex_meta _ _)
  refine ⟨fs', b, r1, r2, fun hl => ?_⟩
  obtain ⟨q, k1, k2, _⟩ := r3 hl
  obtain ⟨o, n, k3, _, hfin, _⟩ := k2 _ _ hw2 s2
  refine ⟨q, maskFor n farIP, k1, ?_⟩
  have hcar := C96_all_main _ _ _ _ _ _ o hfin s2 hw1 s1 (by rw [c1]; decide +kernel)
  obtain ⟨f1, f2, f3, f4, f5, f6, f7, f8⟩ := hfin
  rw [c2] at f1 f2 f3 f4 f5 f6 f8
  rw [k3]
  have h8 : o.isp = gs "联通" := by
    rcases f8 with ⟨_, h⟩ | ⟨h, _⟩
    · exact hmain _ (fun ip h => (hfam ip).mp h) _ _ h
    · rw [h] at hcar; exact absurd hcar (by decide +kernel)
  have : o = ⟨gs "美国", [], [], [], [], gs "联通", [], []⟩ := by
    obtain ⟨o1, o2, o3, o4, o5, o6, o7, o8⟩ := o
    simp only at f1 f2 f3 f4 f5 f6 f7 h8
    subst f1 f2 f3 f4 f5 f6 f7 h8
    decide +kernel
  rw [this]

end Uip.Program
