import Verif.Proof.Ipdb.ReaderAnswer
/-!
# The Java and Rust readers on packed files: end results, and the Java result cache
-/
namespace Uip.Ipdb
open Uip Uip.Spec

section layout
variable {enc : MetaData → Bytes} {now : Int} {ipd : IpData} {bytes : Bytes} {md : MetaData} {data : Bytes} {N : Nat}

theorem storedRec_small (hok : RowsOK ipd) {row} (hrow : row ∈ ipd.ips) : (storedRec ipd.fields row.values).length < 65536 :=
  Nat.lt_of_le_of_lt (join_convD_length _ _) (hok.small row hrow)

theorem values_ne (hok : RowsOK ipd) {row} (hrow : row ∈ ipd.ips) : row.values ≠ [] := by
  intro hc
  have := hok.len row hrow
  rw [hc] at this
  exact hok.fields (List.length_eq_zero_iff.mp this.symm)

theorem java_covered {r : Java.JReader} (hok : RowsOK ipd) (hval : ValuesOK ipd) (htx : TextValues ipd)
    (h : Layout enc now ipd bytes md data N) (hr : JOpen ipd bytes md data N r) (hc : r.resultCache = none)
    {utf8 : Bytes → Str} (hu : ∀ s : String, utf8 (gs s) = gs s) {a : IP} (ha : TakesLen ipd.version a)
    {m : IPNet × List Str} (hm : rowOf (keptRows (rowsOf ipd)) (addrNum a) = some m) :
    Java.query utf8 r a = .ok (javaInfo ipd.fields m.2) := by
  have hv : ValidIP a := by rcases ha with ⟨h, _⟩ | ⟨h, _⟩; exact .inl h; exact .inr h
  obtain ⟨a16, h16, _⟩ := To16_valid hv
  obtain ⟨o, d, rest, hw, ho, hrec⟩ := h.covered a a16 h16 m hm
  obtain ⟨row, hrow, rfl⟩ := Written.rowValues hok hm
  have hf := java_find0_ok h hr ha h16 hw
  have hlen := h.length
  have hres := java_resolve (r := r) utf8 hr.ready.nodes hr.ready.small.len (by rw [hr.data, hr.size]; omega)
    (by rw [hr.md]; exact h.langs) (storedRec_small hok hrow) (by rw [hr.data]; exact hrec)
  have hfl : r.md.fields = covertFields ipd.fields := by rw [hr.md]; exact h.flds
  rw [(IsText.storedRec (fields := ipd.fields) (fun v hv => by obtain ⟨s, rfl⟩ := htx row hrow v hv; exact .gs s)).utf8 hu, hfl,
    java_parts (values_ne hok hrow) (hok.len row hrow) (hval.noTab row hrow), Res.ok_bind] at hres
  rw [java_query_ok utf8 hc hf hres, hfl, java_stored (hok.len row hrow)]

theorem java_uncovered {r : Java.JReader} (hne : ipd.fields ≠ [])
    (h : Layout enc now ipd bytes md data N) (hr : JOpen ipd bytes md data N r) (hc : r.resultCache = none)
    {utf8 : Bytes → Str} (hu : ∀ s : String, utf8 (gs s) = gs s) {a : IP} (ha : TakesLen ipd.version a)
    (hm : rowOf (keptRows (rowsOf ipd)) (addrNum a) = none) (hN : N < 65536) :
    ((∃ f ∈ ipd.fields.tail, f ∈ continentNames) → Java.query utf8 r a = .panic) ∧
    ((∀ f ∈ ipd.fields.tail, f ∉ continentNames) → ∃ i, Java.query utf8 r a = .ok i ∧ javaTexts i = {}) := by
  have hv : ValidIP a := by rcases ha with ⟨h, _⟩ | ⟨h, _⟩; exact .inl h; exact .inr h
  obtain ⟨a16, h16, _⟩ := To16_valid hv
  obtain ⟨d, hw⟩ := h.uncovered a a16 h16 hm
  obtain ⟨rest, hrec⟩ := h.loop_empty hN
  have hf := java_find0_ok h hr ha h16 (o := 0) hw
  have hlen := h.length
  have hres := java_resolve (r := r) (o := 0) (rec := []) utf8 hr.ready.nodes hr.ready.small.len (by rw [hr.data, hr.size]; omega)
    (by rw [hr.md]; exact h.langs) (by decide) (by rw [hr.data]; exact hrec)
  have hfl : r.md.fields = covertFields ipd.fields := by rw [hr.md]; exact h.flds
  have hu0 : utf8 [] = [] := hu ""
  rw [hu0, hfl] at hres
  obtain ⟨f, fs, hfs⟩ := List.exists_cons_of_ne_nil hne
  have hcf : covertFields ipd.fields = conv1 f :: covertFields fs := by rw [hfs]; rfl
  have hparts : Java.copyStrings (Java.split [] (covertFields ipd.fields).length) 0 (covertFields ipd.fields).length =
      .ok (some [] :: List.replicate (covertFields fs).length none) := by
    rw [hcf]
    unfold Java.split
    rw [if_neg (by simp), splitPos_eq _ _ (by simp [splitByte])]
    unfold Java.copyStrings
    rw [if_neg (by simp [splitByte])]
    simp [splitByte]
  rw [hparts, Res.ok_bind] at hres
  rw [java_query_ok utf8 hc hf hres, hfl, hcf, hfs, List.tail_cons]
  have hmem : gs "continent_code" ∈ covertFields fs ↔ ∃ f ∈ fs, f ∈ continentNames := by
    rw [covertFields_eq, List.mem_map]
    constructor
    · rintro ⟨x, hx, he⟩; exact ⟨x, hx, (conv1_continent x).mp he⟩
    · rintro ⟨x, hx, he⟩; exact ⟨x, hx, (conv1_continent x).mpr he⟩
  have hset : ∃ i, Java.setAttr {} (conv1 f) (some []) = .ok i ∧ javaTexts i = {} := by
    have hcn : Java.continentName [] = [] := by decide
    unfold Java.setAttr
    simp only [hcn]
    split
    · exact ⟨_, rfl, rfl⟩
    split
    · exact ⟨_, rfl, rfl⟩
    split
    · exact ⟨_, rfl, rfl⟩
    split
    · exact ⟨_, rfl, rfl⟩
    split
    · exact ⟨_, rfl, rfl⟩
    split
    · exact ⟨_, rfl, rfl⟩
    split
    · exact ⟨_, rfl, rfl⟩
    split
    · exact ⟨_, rfl, rfl⟩
    · exact ⟨_, rfl, rfl⟩
  obtain ⟨i, hi, hit⟩ := hset
  simp only [Java.buildInfo, hi, Res.ok_bind]
  obtain ⟨g1, g2⟩ := java_buildInfo_nulls (covertFields fs) i hit
  constructor
  · intro hx; exact g1 (hmem.mpr hx)
  · intro hx
    apply g2
    rw [hmem]
    rintro ⟨x, h1, h2⟩; exact hx x h1 h2

/-! ## Rust -/

theorem rust_find0_err {r : Rust.RReader} (h : Layout enc now ipd bytes md data N) (hmd : r.md = md) {a : IP}
    (ha : ¬ TakesLen ipd.version a) : r.find0 a = .err (if a.length = 16 then .noSupportIPv6 else if a.length = 4 then .noSupportIPv4 else .ipFormat) := by
  unfold TakesLen at ha
  unfold Rust.RReader.find0 Rust.RReader.isIPv6 Rust.RReader.isIPv4
  rw [hmd, h.ver]
  have e1 := ver1 ipd.version
  have e2 := ver2 ipd.version
  by_cases h16 : a.length = 16
  · have : (ipVersion ipd.version &&& 2 == 2) = false := by
      rw [beq_eq_false_iff_ne, Ne, e2]; intro hc; exact ha (.inr ⟨h16, hc⟩)
    rw [if_pos ⟨h16, this⟩, if_pos h16]
  · rw [if_neg (by simp [h16]), if_neg h16]
    by_cases h4 : a.length = 4
    · have : (ipVersion ipd.version &&& 1 == 1) = false := by
        rw [beq_eq_false_iff_ne, Ne, e1]; intro hc; exact ha (.inl ⟨h4, hc⟩)
      rw [if_pos ⟨h4, this⟩, if_pos h4]
    · rw [if_neg (by simp [h4]), if_neg h4, if_pos ⟨h16, h4⟩]

/-- What `rust_open` gives. -/
structure ROpen (ipd : IpData) (bytes : Bytes) (md : MetaData) (data : Bytes) (N : Nat) (r : Rust.RReader) : Prop where
  md : r.md = md
  data : r.data = data
  size : r.fileSize = bytes.length
  nodes : r.nodeCount = N
  v4 : r.isIPv4 = true → ∃ v4 : Nat, v4offsetLoop r.data N 96 0 0 = .ok v4 ∧ r.v4offset = v4 ∧
        r.ipv4BitsCache ≠ [] ∧ Java.initCache r.data N v4 = .ok r.ipv4BitsCache

theorem rust_find0_ok {r : Rust.RReader} (h : Layout enc now ipd bytes md data N) (hr : ROpen ipd bytes md data N r)
    (hsm : bytes.length < 2 ^ 31) {a a16 : IP}
    (ha : TakesLen ipd.version a) (h16 : To16 a = some a16) {o d : Nat}
    (hw : readDepth data N a16 128 0 0 = .ok (N + o, d)) : r.find0 a = .ok ((N + o : Nat) : Int) := by
  have hlen := h.length
  have e1 := ver1 ipd.version
  have e2 := ver2 ipd.version
  have hv4 : r.isIPv4 = true ↔ ipd.version.ipType ≠ IpV6 := by
    unfold Rust.RReader.isIPv4; rw [hr.md, h.ver, beq_iff_eq, e1]
  have hv6 : r.isIPv6 = true ↔ ipd.version.ipType ≠ IpV4 := by
    unfold Rust.RReader.isIPv6; rw [hr.md, h.ver, beq_iff_eq, e2]
  let j : Java.JReader := { md := r.md, fileSize := r.fileSize, nodeCount := r.nodeCount, data := r.data, v4offset := r.v4offset, ipv4BitsCache := if r.ipv4BitsCache = [] then none else some r.ipv4BitsCache, resultCache := none }
  have hj : Java.Ready j N := by
    refine ⟨hr.nodes, ?_, fun hj => ?_⟩
    · show Java.Small r.data N; rw [hr.data]; exact h.small (by omega)
    · obtain ⟨v4, h1, h2, h3, h4⟩ := hr.v4 hj
      exact ⟨v4, h1, h2, r.ipv4BitsCache, if_neg h3, h4⟩
  have hfn := Java.findNode_walk hj h16 (by
    intro hl
    show r.isIPv4 = true
    rw [hv4]
    rcases ha with ⟨_, hx⟩ | ⟨hx, _⟩
    · exact hx
    · omega) (n := N + o) (d := d) (by show readDepth r.data N a16 128 0 0 = _; rw [hr.data]; exact hw) (by omega)
  have hfr := rust_findNode (r := r) (j := j) rfl rfl rfl rfl hfn
  unfold Rust.RReader.find0
  rcases ha with ⟨hl, hx⟩ | ⟨hl, hx⟩
  · rw [← hv4] at hx
    rw [if_neg (by omega), if_neg (by simp [hx]), if_neg (by omega), hfr]
  · rw [← hv6] at hx
    rw [if_neg (by simp [hx]), if_neg (by omega), if_neg (by omega), hfr]

theorem rust_covered {r : Rust.RReader} (hok : RowsOK ipd) (hval : ValuesOK ipd) (htx : TextValues ipd)
    (h : Layout enc now ipd bytes md data N) (hr : ROpen ipd bytes md data N r) (hsm : bytes.length < 2 ^ 31)
    {utf8 : Bytes → Str} (hu : ∀ s : String, utf8 (gs s) = gs s) {a : IP} (ha : TakesLen ipd.version a)
    {m : IPNet × List Str} (hm : rowOf (keptRows (rowsOf ipd)) (addrNum a) = some m) :
    Rust.query utf8 r a = .ok (rustInfo ipd.fields m.2) := by
  have hv : ValidIP a := by rcases ha with ⟨h, _⟩ | ⟨h, _⟩; exact .inl h; exact .inr h
  obtain ⟨a16, h16, _⟩ := To16_valid hv
  obtain ⟨o, d, rest, hw, ho, hrec⟩ := h.covered a a16 h16 m hm
  obtain ⟨row, hrow, rfl⟩ := Written.rowValues hok hm
  have hf := rust_find0_ok h hr hsm ha h16 hw
  have hlen := h.length
  have hres := rust_resolve (r := r) utf8 hr.nodes (by rw [hr.data]; omega) (by rw [hr.data, hr.size]; omega)
    (by rw [hr.md]; exact h.langs) (storedRec_small hok hrow) (by rw [hr.data]; exact hrec)
  have hfl : r.md.fields = covertFields ipd.fields := by rw [hr.md]; exact h.flds
  rw [(IsText.storedRec (fields := ipd.fields) (fun v hv => by obtain ⟨s, rfl⟩ := htx row hrow v hv; exact .gs s)).utf8 hu,
    split_storedRec (values_ne hok hrow) (hval.noTab row hrow)] at hres
  unfold Rust.query
  rw [hf, Res.ok_bind, hres, Res.ok_bind, hfl, rust_stored (hok.len row hrow) hval.continent]

def rustKnown : List Str := [gs "country_name", gs "region_name", gs "city_name", gs "isp_domain", gs "asn", gs "line", gs "district", gs "continent_code"]

theorem rust_buildInfo_nil (fs : List Str) :
    ((∃ f ∈ fs, f ∈ rustKnown) → Rust.buildInfo fs [] {} = .panic) ∧
    ((∀ f ∈ fs, f ∉ rustKnown) → Rust.buildInfo fs [] {} = .ok {}) := by
  induction fs with
  | nil => exact ⟨by simp, fun _ => rfl⟩
  | cons f fs ih =>
    simp only [Rust.buildInfo, List.head?_nil, List.tail_nil]
    by_cases hk : f ∈ rustKnown
    · refine ⟨fun _ => ?_, fun h => absurd hk (h f (by simp))⟩
      have : Rust.setAttr {} f none = .panic := by
        unfold rustKnown at hk
        simp only [List.mem_cons, List.not_mem_nil, or_false] at hk
        rcases hk with rfl | rfl | rfl | rfl | rfl | rfl | rfl | rfl <;> rfl
      rw [this]; rfl
    · have : Rust.setAttr {} f none = .ok {} := by
        unfold rustKnown at hk
        simp only [List.mem_cons, List.not_mem_nil, or_false, not_or] at hk
        obtain ⟨h1, h2, h3, h4, h5, h6, h7, h8⟩ := hk
        unfold Rust.setAttr
        rw [if_neg h1, if_neg h2, if_neg h3, if_neg h4, if_neg h5, if_neg h6, if_neg h7, if_neg h8]
      rw [this, Res.ok_bind]
      constructor
      · rintro ⟨x, hx, hxk⟩
        rcases List.mem_cons.mp hx with rfl | hx
        · exact absurd hxk hk
        · exact ih.1 ⟨x, hx, hxk⟩
      · intro hx
        exact ih.2 (fun x h => hx x (by simp [h]))

theorem conv1_known (f : Str) : conv1 f ∈ rustKnown ↔
    f ∈ countryNames ++ provinceNames ++ cityNames ++ ispNames ++ asnNames ++ lineNames ++ districtNames ++ continentNames := by
  simp only [List.mem_append, ← conv1_country, ← conv1_province, ← conv1_city, ← conv1_isp, ← conv1_asn, ← conv1_line,
    ← conv1_district, ← conv1_continent]
  unfold rustKnown
  simp only [List.mem_cons, List.not_mem_nil, or_false, FieldCountryName, FieldRegionName, FieldCityName, FieldISPDomain, fAsn,
    fLine, fDistrict, FieldContinentCode, or_assoc]

theorem rust_uncovered {r : Rust.RReader} (hne : ipd.fields ≠ [])
    (h : Layout enc now ipd bytes md data N) (hr : ROpen ipd bytes md data N r) (hsm : bytes.length < 2 ^ 31)
    {utf8 : Bytes → Str} (hu : ∀ s : String, utf8 (gs s) = gs s) {a : IP} (ha : TakesLen ipd.version a)
    (hm : rowOf (keptRows (rowsOf ipd)) (addrNum a) = none) (hN : N < 65536) :
    ((∃ f ∈ ipd.fields.tail, f ∈ countryNames ++ provinceNames ++ cityNames ++ ispNames ++ asnNames ++ lineNames ++
        districtNames ++ continentNames) → Rust.query utf8 r a = .panic) ∧
    ((∀ f ∈ ipd.fields.tail, f ∉ countryNames ++ provinceNames ++ cityNames ++ ispNames ++ asnNames ++ lineNames ++
        districtNames ++ continentNames) → Rust.query utf8 r a = .ok {}) := by
  have hv : ValidIP a := by rcases ha with ⟨h, _⟩ | ⟨h, _⟩; exact .inl h; exact .inr h
  obtain ⟨a16, h16, _⟩ := To16_valid hv
  obtain ⟨d, hw⟩ := h.uncovered a a16 h16 hm
  obtain ⟨rest, hrec⟩ := h.loop_empty hN
  have hf := rust_find0_ok h hr hsm ha h16 (o := 0) hw
  have hlen := h.length
  have hres := rust_resolve (r := r) (o := 0) (rec := []) utf8 hr.nodes (by rw [hr.data]; omega) (by rw [hr.data, hr.size]; omega)
    (by rw [hr.md]; exact h.langs) (by decide) (by rw [hr.data]; exact hrec)
  have hfl : r.md.fields = covertFields ipd.fields := by rw [hr.md]; exact h.flds
  have hu0 : utf8 [] = [] := hu ""
  rw [hu0, show splitByte 0x09 [] = [[]] from rfl] at hres
  obtain ⟨f, fs, hfs⟩ := List.exists_cons_of_ne_nil hne
  have hcf : covertFields ipd.fields = conv1 f :: covertFields fs := by rw [hfs]; rfl
  have hset : Rust.setAttr {} (conv1 f) (some []) = .ok {} := by
    unfold Rust.setAttr
    simp only [Res.ofOption_some, Res.ok_bind]
    repeat' split
    all_goals rfl
  have hq : Rust.query utf8 r a = Rust.buildInfo (covertFields fs) [] {} := by
    unfold Rust.query
    rw [hf, Res.ok_bind, hres, Res.ok_bind, hfl, hcf]
    simp only [Rust.buildInfo, List.head?_cons, List.tail_cons]
    rw [hset, Res.ok_bind]
  obtain ⟨g1, g2⟩ := rust_buildInfo_nil (covertFields fs)
  rw [hq, hfs, List.tail_cons]
  constructor
  · rintro ⟨x, hx, hk⟩
    exact g1 ⟨conv1 x, by rw [covertFields_eq]; exact List.mem_map_of_mem hx, (conv1_known x).mpr hk⟩
  · intro hx
    apply g2
    intro y hy
    rw [covertFields_eq, List.mem_map] at hy
    obtain ⟨x, hx', rfl⟩ := hy
    rw [conv1_known]
    exact hx x hx'

end layout

/-! ## The Java result cache -/

/-- Every cached answer is the one built for its node. -/
def JSound (utf8 : Bytes → Str) (r : Java.JReader) (c : List (Int × Java.JInfo)) : Prop :=
  ∀ n info, Java.cacheGet c n = some info →
    ∃ parts, r.resolveNode utf8 n (gs "CN") = .ok (some parts) ∧ Java.buildInfo r.md.fields parts {} = .ok info

theorem JSound.step {utf8 : Bytes → Str} {r : Java.JReader} {c : List (Int × Java.JInfo)} (h : JSound utf8 r c) {ip : Bytes}
    {n : Int} {info : Java.JInfo} (hq : r.query utf8 ip false = .ok (n, info)) : JSound utf8 r ((n, info) :: c) := by
  intro n' i' hg
  simp only [Java.cacheGet] at hg
  split at hg
  · rename_i hn
    cases hg
    subst hn
    unfold Java.JReader.query at hq
    obtain ⟨node, _, hq⟩ := Res.bind_eq_ok.mp hq
    simp only [Bool.false_eq_true, if_false] at hq
    obtain ⟨parts, hp, hq⟩ := Res.bind_eq_ok.mp hq
    cases parts with
    | none => cases hq
    | some parts =>
      simp only [] at hq
      obtain ⟨i, hi, hq⟩ := Res.bind_eq_ok.mp hq
      have hq := Res.ok.inj hq
      simp only [Prod.mk.injEq] at hq
      obtain ⟨rfl, rfl⟩ := hq
      exact ⟨parts, hp, hi⟩
  · exact h n' i' hg

theorem JSound.loop {utf8 : Bytes → Str} {r : Java.JReader} : ∀ (ips : List Bytes) (c : List (Int × Java.JInfo)),
    JSound utf8 r c → JSound utf8 r (Java.buildCacheLoop utf8 r ips c) := by
  intro ips
  induction ips with
  | nil => intro c h; exact h
  | cons ip ips ih =>
    intro c h
    unfold Java.buildCacheLoop
    cases hq : r.query utf8 ip false with
    | ok x => exact ih _ (h.step hq)
    | err e => exact ih _ h
    | panic => exact ih _ h

/-- The result cache does not change any answer. -/
theorem java_cached (utf8 : Bytes → Str) (r : Java.JReader) (hc : r.resultCache = none) (ips : List Bytes) (a : Bytes) :
    Java.query utf8 (r.buildCache utf8 ips) a = Java.query utf8 r a := by
  have hs := JSound.loop (utf8 := utf8) (r := r) ips [] (by intro n i h; cases h)
  unfold Java.query Java.JReader.query
  have e0 : (r.buildCache utf8 ips).find0 a = r.find0 a := rfl
  rw [e0]
  cases r.find0 a with
  | err e => rfl
  | panic => rfl
  | ok n =>
    rw [Res.ok_bind, Res.ok_bind, hc]
    simp only [if_true, Option.bind_none]
    have e1 : (r.buildCache utf8 ips).resultCache = some (Java.buildCacheLoop utf8 r ips []) := rfl
    have e2 : (r.buildCache utf8 ips).resolveNode utf8 n (gs "CN") = r.resolveNode utf8 n (gs "CN") := rfl
    have e3 : (r.buildCache utf8 ips).md = r.md := rfl
    rw [e1, e2, e3, Option.bind_some]
    cases hg : Java.cacheGet (Java.buildCacheLoop utf8 r ips []) n with
    | none => rfl
    | some info =>
      obtain ⟨parts, hp, hi⟩ := hs n info hg
      rw [hp, Res.ok_bind]
      simp only [hi]
      rfl

end Uip.Ipdb
