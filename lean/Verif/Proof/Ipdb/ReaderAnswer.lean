import Verif.Proof.Ipdb.ReaderOpen
/-!
# The answers of the Java and Rust readers
-/
namespace Uip.Ipdb
open Uip Uip.Spec
open Uip.Java (i32_id)

theorem ver1 (v : VersionInfo) : (ipVersion v &&& 1 = 1) ↔ v.ipType ≠ IpV6 := by
  unfold ipVersion
  split
  · rename_i h; rw [h]; simp [IpV4, IpV6]
  · split
    · rename_i h; rw [h]; simp
    · rename_i h; simp [h]

theorem ver2 (v : VersionInfo) : (ipVersion v &&& 2 = 2) ↔ v.ipType ≠ IpV4 := by
  unfold ipVersion
  split
  · rename_i h; rw [h]; simp
  · split
    · rename_i h; rw [h]; simp [IpV4, IpV6]
    · rename_i h _; simp [h]

theorem ver1_ne (v : VersionInfo) : (ipVersion v &&& 1 ≠ 0) ↔ v.ipType ≠ IpV6 := by
  rw [← ver1]
  unfold ipVersion
  split
  · simp
  · split <;> simp

theorem rust_findNode {r : Rust.RReader} {j : Java.JReader} (h1 : j.nodeCount = r.nodeCount) (h2 : j.data = r.data)
    (h3 : j.v4offset = r.v4offset) (h4 : j.ipv4BitsCache = if r.ipv4BitsCache = [] then none else some r.ipv4BitsCache)
    {a : Bytes} {n : Int} (h : j.findNode a = .ok (some n)) : r.findNode a = .ok n := by
  unfold Java.JReader.findNode at h
  unfold Rust.RReader.findNode
  simp only [] at h ⊢
  rw [h4] at h
  rw [h1, h2, h3] at h
  have fin : ∀ (node : Int) (i : Nat) (hit : Bool),
      (if hit = true then (pure (some node) : Res (Option Int)) else do
        let node ← Java.readDepth r.data r.nodeCount a (a.length * 8 - i) node i
        if node ≥ r.nodeCount then pure (some node) else pure none) = .ok (some n) →
      (if hit = true then (pure node : Res Int) else do
        let node ← Rust.readDepth r.data r.nodeCount a (a.length * 8 - i) node i
        if node ≥ r.nodeCount then pure node else .err .dataNotExists) = .ok n := by
    intro node i hit hx
    cases hit with
    | true =>
      rw [if_pos rfl] at hx ⊢
      have := Res.ok.inj hx
      rw [Option.some.inj this]; rfl
    | false =>
      rw [if_neg (by decide)] at hx ⊢
      rw [Java.rust_readDepth]
      obtain ⟨m, hm, hx⟩ := Res.bind_eq_ok.mp hx
      rw [hm, Res.ok_bind]
      split at hx
      · rename_i hc
        rw [if_pos hc]
        rw [Option.some.inj (Res.ok.inj hx)]; rfl
      · exact absurd (Res.ok.inj hx) (by simp)
  by_cases hc : r.ipv4BitsCache = []
  · rw [if_pos hc] at h
    simp only [Res.ok_bind] at h
    rw [if_neg (by rw [hc]; simp), Res.ok_bind]
    exact fin _ _ _ h
  · rw [if_neg hc] at h
    simp only [] at h
    have hcl : r.ipv4BitsCache.length > 0 := List.length_pos_iff.mpr hc
    by_cases hb : a.length * 8 = 32
    · rw [if_pos hb] at h
      rw [if_pos ⟨hcl, hb⟩]
      obtain ⟨x, hx, h⟩ := Res.bind_eq_ok.mp h
      obtain ⟨idx, hidx, hx⟩ := Res.bind_eq_ok.mp hx
      obtain ⟨node, hnode, hx⟩ := Res.bind_eq_ok.mp hx
      have hx := Res.ok.inj hx
      subst hx
      rw [show @Rust.bytesToIndex = @Java.bytesToIndex from rfl, hidx, Res.ok_bind, hnode, Res.ok_bind]
      exact fin _ _ _ h
    · rw [if_neg hb] at h
      rw [if_neg (by omega)]
      rw [Res.ok_bind] at h ⊢
      exact fin _ _ _ h

/-! ## Resolving -/

theorem at_size {data : Bytes} {o : Nat} {rec rest : Bytes} (hr : rec.length < 65536)
    (h : data.drop o = intToBE16 rec.length ++ (rec ++ rest)) :
    o + 2 + rec.length ≤ data.length ∧ val ((data.drop o).take 2) = rec.length ∧
      (data.drop (o + 2)).take rec.length = rec := by
  have hb2 : (intToBE16 rec.length).length = 2 := rfl
  have hl := congrArg List.length h
  rw [List.length_drop, List.length_append, hb2, List.length_append] at hl
  refine ⟨by omega, ?_, ?_⟩
  · rw [h, List.take_left' hb2, val_intToBE16 hr]
  · rw [← List.drop_drop, h, List.drop_left' hb2, List.take_left]

theorem java_resolve {r : Java.JReader} {N o : Nat} {rec rest : Bytes} (utf8 : Bytes → Str) (hn : r.nodeCount = N)
    (hsm : r.data.length < 2 ^ 31) (hfs : (r.data.length : Int) < r.fileSize)
    (hlang : r.md.languages = [(gs "CN", 0)]) (hr : rec.length < 65536)
    (h : r.data.drop (8 * N + o) = intToBE16 rec.length ++ (rec ++ rest)) :
    r.resolveNode utf8 ((N + o : Nat) : Int) (gs "CN") =
      (Java.copyStrings (Java.split (utf8 rec) r.md.fields.length) 0 r.md.fields.length >>= fun p => .ok (some p)) := by
  obtain ⟨h1, h2, h3⟩ := at_size hr h
  unfold Java.JReader.resolveNode
  rw [hlang, show mapGet [(gs "CN", (0 : Int))] (gs "CN") = some 0 from by simp [mapGet]]
  simp only []
  have e : Java.i32 (Java.i32 (((N + o : Nat) : Int) - r.nodeCount) + Java.i32 (r.nodeCount * 8)) = ((8 * N + o : Nat) : Int) := by
    rw [hn, i32_id (x := ((N + o : Nat) : Int) - N) (by omega) (by omega), i32_id (x := (N : Int) * 8) (by omega) (by omega),
      i32_id (by omega) (by omega)]
    omega
  rw [e, if_neg (by omega), if_neg (by omega), Int.toNat_natCast, h2, if_neg (by omega), h3]
  simp only [List.length_singleton, Nat.mul_one]
  rfl

theorem rust_resolve {r : Rust.RReader} {N o : Nat} {rec rest : Bytes} (utf8 : Bytes → Str) (hn : r.nodeCount = N)
    (hsm : r.data.length < 2 ^ 31) (hfs : (r.data.length : Int) < r.fileSize)
    (hlang : r.md.languages = [(gs "CN", 0)]) (hr : rec.length < 65536)
    (h : r.data.drop (8 * N + o) = intToBE16 rec.length ++ (rec ++ rest)) :
    r.resolveNode utf8 ((N + o : Nat) : Int) (gs "CN") = .ok (splitByte 0x09 (utf8 rec)) := by
  obtain ⟨h1, h2, h3⟩ := at_size hr h
  unfold Rust.RReader.resolveNode
  rw [hlang, show mapGet [(gs "CN", (0 : Int))] (gs "CN") = some 0 from by simp [mapGet]]
  simp only []
  have e : Rust.i32 (Rust.i32 (((N + o : Nat) : Int) - r.nodeCount) + Rust.i32 (r.nodeCount * 8)) = ((8 * N + o : Nat) : Int) := by
    rw [show @Rust.i32 = @Java.i32 from rfl, hn, i32_id (x := ((N + o : Nat) : Int) - N) (by omega) (by omega),
      i32_id (x := (N : Int) * 8) (by omega) (by omega), i32_id (by omega) (by omega)]
    omega
  rw [e, if_neg (by omega), if_neg (by omega), Int.toNat_natCast, h2, if_neg (by omega), h3]

/-- The parts of a stored record, as Java splits them. -/
theorem java_parts {fields values : List Str} (hne : values ≠ []) (hl : values.length = fields.length)
    (ht : ∀ v ∈ values, (0x09 : UInt8) ∉ v) :
    Java.copyStrings (Java.split (storedRec fields values) (covertFields fields).length) 0 (covertFields fields).length =
      .ok ((convD (continentIdx (covertFields fields) 0 none) values).map some) := by
  have hs := split_storedRec (fields := fields) hne ht
  have hcl := convD_length (continentIdx (covertFields fields) 0 none) values
  have hfl := covertFields_length fields
  have hpos : 0 < values.length := List.length_pos_iff.mpr hne
  unfold Java.split
  rw [if_neg (by omega), splitPos_eq _ _ (by rw [hs]; omega), hs]
  unfold Java.copyStrings
  rw [if_neg (by omega)]
  simp only [Int.toNat_zero, List.drop_zero]
  rw [List.take_of_length_le (by omega)]
  simp [hcl, hl, hfl]

theorem java_stored {fields values : List Str} (hl : values.length = fields.length) :
    Java.buildInfo (covertFields fields) ((convD (continentIdx (covertFields fields) 0 none) values).map some) {} =
      .ok (javaInfo fields values) := by
  rw [java_buildInfo _ _ _ (by rw [convD_length, covertFields_length, hl])]
  refine congrArg Res.ok ?_
  unfold javaInfo
  have hcont : foldCol (fun f => decide (f = FieldContinentCode)) (fun v _ => some (Java.continentName v)) (covertFields fields)
      (convD (continentIdx (covertFields fields) 0 none) values) none = (attr? continentNames fields values).map spellContinent := by
    rw [foldCol_convD _ _ _ _ (by intro f hf; rw [decide_eq_false_iff_not]; rintro rfl; revert hf; decide), foldCol_covert, foldCol_some]
    unfold attr?
    rw [show Java.continentName = spellContinent from funext fun s => continentName_eq s]
    congr 4
    funext x
    simp only [conv1_continent]
  have hline : foldCol (fun f => decide (f = fAsn ∨ f = fLine)) (fun v _ => some v) (covertFields fields)
      (convD (continentIdx (covertFields fields) 0 none) values) none = attr? (asnNames ++ lineNames) fields values := by
    rw [foldCol_convD _ _ _ _ (by
      intro f hf; rw [decide_eq_false_iff_not]; rintro (rfl | rfl) <;> (revert hf; decide)), foldCol_covert]
    rw [show (fun (v : Str) (_ : Option Str) => some v) = (fun v _ => some (id v)) from rfl, foldCol_some, Option.map_id_fun, id]
    unfold attr?
    congr 3
    funext x
    simp only [conv1_asn, conv1_line, List.mem_append]
  rw [hcont, hline, col_attr? conv1_country (by decide), col_attr? conv1_district (by decide), col_attr? conv1_province (by decide),
    col_attr? conv1_city (by decide), col_attr? conv1_asn (by decide), col_attr? conv1_isp (by decide)]

theorem col_attr {k : Str} {names fields values : List Str} (hn : ∀ f, conv1 f = k ↔ f ∈ names)
    (hk : asciiLower k ≠ fContinent) :
    foldCol (fun f => decide (f = k)) (fun v _ => v) (covertFields fields)
      (convD (continentIdx (covertFields fields) 0 none) values) [] = attr names fields values := by
  rw [foldCol_convD _ _ _ _ (by intro f hf; rw [decide_eq_false_iff_not]; rintro rfl; exact hk hf), foldCol_covert]
  rw [show (fun (v : Str) (_ : Str) => v) = (fun v _ => id v) from rfl, foldCol_const]
  unfold attr
  congr 4
  funext x
  simp only [hn]

theorem foldCol_none {α : Type} {p : Str → Bool} {g : Str → α → α} {fs vs : List Str} {acc : α} (h : ∀ f ∈ fs, p f = false) :
    foldCol p g fs vs acc = acc := by
  induction fs generalizing vs acc with
  | nil => rfl
  | cons f fs ih =>
    cases vs with
    | nil => rfl
    | cons v vs =>
      rw [foldCol, if_neg (by rw [h f (by simp)]; decide)]
      exact ih (fun f' hf => h f' (by simp [hf]))

theorem foldCol_one {α : Type} {p : Str → Bool} {g : Str → α → α} {fs vs : List Str} {acc : α}
    (h1 : (fs.filter p).length ≤ 1) :
    foldCol p g fs vs acc = foldCol p (fun v _ => g v acc) fs vs acc := by
  induction fs generalizing vs acc with
  | nil => rfl
  | cons f fs ih =>
    cases vs with
    | nil => rfl
    | cons v vs =>
      simp only [foldCol]
      by_cases hp : p f = true
      · rw [if_pos hp]
        rw [List.filter_cons_of_pos hp, List.length_cons] at h1
        have hn : ∀ f ∈ fs, p f = false := by
          intro x hx
          have h0 := List.length_eq_zero_iff.mp (Nat.le_zero.mp (Nat.le_of_succ_le_succ h1))
          cases hpx : p x with
          | false => rfl
          | true =>
            have : x ∈ fs.filter p := List.mem_filter.mpr ⟨hx, hpx⟩
            rw [h0] at this; cases this
        rw [foldCol_none hn, foldCol_none hn]
      · rw [if_neg hp]
        rw [List.filter_cons_of_neg hp] at h1
        exact ih h1

theorem rust_continent (v : Str) : Rust.continentName v [] = spellCode v := by
  unfold spellCode Rust.continentName continentTable
  simp only [List.find?_cons, List.find?_nil]
  by_cases e1 : gs "AS" = v
  · subst e1; rfl
  rw [if_neg (Ne.symm e1), decide_eq_false e1]
  by_cases e2 : gs "EU" = v
  · subst e2; rfl
  rw [if_neg (Ne.symm e2), decide_eq_false e2]
  by_cases e3 : gs "NA" = v
  · subst e3; rfl
  rw [if_neg (Ne.symm e3), decide_eq_false e3]
  by_cases e4 : gs "SA" = v
  · subst e4; rfl
  rw [if_neg (Ne.symm e4), decide_eq_false e4]
  by_cases e5 : gs "AF" = v
  · subst e5; rfl
  rw [if_neg (Ne.symm e5), decide_eq_false e5]
  by_cases e6 : gs "OC" = v
  · subst e6; rfl
  rw [if_neg (Ne.symm e6), decide_eq_false e6]
  by_cases e7 : gs "AN" = v
  · subst e7; rfl
  rw [if_neg (Ne.symm e7), decide_eq_false e7]

theorem rust_stored {fields values : List Str} (hl : values.length = fields.length) (h1 : OneContinent fields) :
    Rust.buildInfo (covertFields fields) (convD (continentIdx (covertFields fields) 0 none) values) {} =
      .ok (rustInfo fields values) := by
  rw [rust_buildInfo _ _ _ (by rw [convD_length, covertFields_length, hl])]
  refine congrArg Res.ok ?_
  unfold rustInfo infoOf
  have hcont : foldCol (fun f => decide (f = FieldContinentCode)) Rust.continentName (covertFields fields)
      (convD (continentIdx (covertFields fields) 0 none) values) [] = spellCode (attr continentNames fields values) := by
    rw [foldCol_convD _ _ _ _ (by intro f hf; rw [decide_eq_false_iff_not]; rintro rfl; revert hf; decide), foldCol_covert]
    have hp : (fun f => decide (conv1 f = FieldContinentCode)) = (fun f => decide (f ∈ continentNames)) := by
      funext f; simp only [conv1_continent]
    rw [hp, foldCol_one h1]
    simp only [rust_continent]
    rw [foldCol_const]
    unfold attr
    cases ((fields.zip values).filter (fun x => decide (x.1 ∈ continentNames))).getLast? with
    | none => show ([] : Str) = spellCode []; decide
    | some x => rfl
  rw [show ({} : IpInfo).continent = [] from rfl, hcont]
  simp only [col_attr conv1_country (by decide), col_attr conv1_district (by decide), col_attr conv1_province (by decide),
    col_attr conv1_city (by decide), col_attr conv1_asn (by decide), col_attr conv1_isp (by decide), col_attr conv1_line (by decide)]

/-! ## Whole answers -/

section layout
variable {enc : MetaData → Bytes} {now : Int} {ipd : IpData} {bytes : Bytes} {md : MetaData} {data : Bytes} {N : Nat}

theorem Layout.ver (h : Layout enc now ipd bytes md data N) : md.ipVersion = ipVersion ipd.version := by rw [h.meta']; rfl
theorem Layout.langs (h : Layout enc now ipd bytes md data N) : md.languages = [(gs "CN", 0)] := by rw [h.meta']; rfl
theorem Layout.flds (h : Layout enc now ipd bytes md data N) : md.fields = covertFields ipd.fields := by rw [h.meta']; rfl

/-- What `java_open` gives. -/
structure JOpen (ipd : IpData) (bytes : Bytes) (md : MetaData) (data : Bytes) (N : Nat) (r : Java.JReader) : Prop where
  md : r.md = md
  data : r.data = data
  size : r.fileSize = bytes.length
  ready : Java.Ready r N

theorem java_find0_err {r : Java.JReader} (h : Layout enc now ipd bytes md data N) (hr : JOpen ipd bytes md data N r) {a : IP}
    (ha : ¬ TakesLen ipd.version a) : r.find0 a = .err (if a.length = 16 then .noSupportIPv6 else if a.length = 4 then .noSupportIPv4 else .ipFormat) := by
  unfold TakesLen at ha
  unfold Java.JReader.find0 Java.JReader.isIPv6 Java.JReader.isIPv4
  rw [hr.md, h.ver]
  have e1 := ver1 ipd.version
  have e2 := ver2 ipd.version
  by_cases h16 : a.length = 16
  · have : (ipVersion ipd.version &&& 2 == 2) = false := by
      rw [beq_eq_false_iff_ne, Ne, e2]; intro hc; exact ha (.inr ⟨h16, hc⟩)
    rw [if_pos ⟨h16, this⟩, if_pos h16]
  · rw [if_neg (by simp [h16]), if_neg h16]
    by_cases h4 : a.length = 4
    · have : (ipVersion ipd.version &&& 1 == 1) = false := by
        rw [beq_eq_false_iff_ne, Ne, e1]; intro hc; exact ha (.inl ⟨h4, hc⟩)
      rw [if_pos ⟨h4, this⟩, if_pos h4]
    · rw [if_neg (by simp [h4]), if_neg h4, if_pos ⟨h16, h4⟩]

theorem java_find0_ok {r : Java.JReader} (h : Layout enc now ipd bytes md data N) (hr : JOpen ipd bytes md data N r) {a a16 : IP}
    (ha : TakesLen ipd.version a) (h16 : To16 a = some a16) {o d : Nat}
    (hw : readDepth data N a16 128 0 0 = .ok (N + o, d)) : r.find0 a = .ok ((N + o : Nat) : Int) := by
  have e1 := ver1 ipd.version
  have e2 := ver2 ipd.version
  have hv4 : r.isIPv4 = true ↔ ipd.version.ipType ≠ IpV6 := by
    unfold Java.JReader.isIPv4; rw [hr.md, h.ver, beq_iff_eq, e1]
  have hv6 : r.isIPv6 = true ↔ ipd.version.ipType ≠ IpV4 := by
    unfold Java.JReader.isIPv6; rw [hr.md, h.ver, beq_iff_eq, e2]
  have hfn := Java.findNode_walk hr.ready h16 (by
    intro hl
    rw [hv4]
    rcases ha with ⟨_, hx⟩ | ⟨hx, _⟩
    · exact hx
    · omega) (n := N + o) (d := d) (by rw [hr.data]; exact hw) (by omega)
  unfold Java.JReader.find0
  rcases ha with ⟨hl, hx⟩ | ⟨hl, hx⟩
  · rw [← hv4] at hx
    rw [if_neg (by omega), if_neg (by simp [hx]), if_neg (by omega), hfn, Res.ok_bind]; rfl
  · rw [← hv6] at hx
    rw [if_neg (by simp [hx]), if_neg (by omega), if_neg (by omega), hfn, Res.ok_bind]; rfl

theorem java_query_err {r : Java.JReader} (utf8 : Bytes → Str) {a : IP} {e : Err} (h : r.find0 a = .err e) :
    Java.query utf8 r a = .err e := by
  unfold Java.query Java.JReader.query
  rw [h]; rfl

theorem java_query_ok {r : Java.JReader} (utf8 : Bytes → Str) {a : IP} {n : Int} {parts : List (Option Str)} (hc : r.resultCache = none)
    (h : r.find0 a = .ok n) (hres : r.resolveNode utf8 n (gs "CN") = .ok (some parts)) :
    Java.query utf8 r a = Java.buildInfo r.md.fields parts {} := by
  unfold Java.query Java.JReader.query
  rw [h, Res.ok_bind, hc]
  simp only [Option.bind_none, if_true, hres, Res.ok_bind]
  cases Java.buildInfo r.md.fields parts {} <;> rfl

/-- The information a Java reader builds from an empty record: the first column is empty, the others null. -/
theorem java_buildInfo_nulls (fs : List Str) (info : Java.JInfo) (hi : javaTexts info = {}) :
    (gs "continent_code" ∈ fs → Java.buildInfo fs (List.replicate fs.length none) info = .panic) ∧
    (gs "continent_code" ∉ fs → ∃ info', Java.buildInfo fs (List.replicate fs.length none) info = .ok info' ∧ javaTexts info' = {}) := by
  induction fs generalizing info with
  | nil => exact ⟨by simp, fun _ => ⟨info, rfl, hi⟩⟩
  | cons f fs ih =>
    simp only [List.length_cons, List.replicate_succ, Java.buildInfo]
    by_cases hf : f = gs "continent_code"
    · refine ⟨fun _ => ?_, fun h => absurd (by rw [hf]; simp) h⟩
      have : Java.setAttr info f none = .panic := by subst hf; rfl
      rw [this]; rfl
    · have : ∃ i2, Java.setAttr info f none = .ok i2 ∧ javaTexts i2 = {} := by
        unfold javaTexts at hi
        simp only [IpInfo.mk.injEq] at hi
        obtain ⟨a1, a2, a3, a4, a5, a6, a7, a8⟩ := hi
        unfold Java.setAttr
        repeat' split
        all_goals first
          | exact ⟨_, rfl, by simp [javaTexts, a1, a2, a3, a4, a5, a6, a7, a8]⟩
          | (exact absurd ‹f = gs "continent_code"› hf)
      obtain ⟨i2, h2, h3⟩ := this
      rw [h2, Res.ok_bind]
      obtain ⟨g1, g2⟩ := ih i2 h3
      constructor
      · intro hm
        exact g1 (by rcases List.mem_cons.mp hm with h | h; exact absurd h.symm hf; exact h)
      · intro hm
        exact g2 (fun h => hm (List.mem_cons_of_mem _ h))

/-- The loop-back node read as a record: empty when there are fewer than 65536 nodes. -/
theorem Layout.loop_empty (h : Layout enc now ipd bytes md data N) (hN : N < 65536) :
    ∃ rest, data.drop (8 * N + 0) = intToBE16 ([] : Bytes).length ++ (([] : Bytes) ++ rest) := by
  obtain ⟨rest, hr⟩ := h.loop
  refine ⟨[UInt8.ofNat (N / 256), UInt8.ofNat N] ++ rest, ?_⟩
  rw [Nat.add_zero, hr]
  have : intToBE32 N = [0, 0, UInt8.ofNat (N / 256), UInt8.ofNat N] := by
    unfold intToBE32
    rw [show N / 2 ^ 24 = 0 by omega, show N / 2 ^ 16 = 0 by omega]
    rfl
  rw [this]
  rfl

end layout

end Uip.Ipdb
