import Verif.Proof.Ipdb.AnyFile
/-!
# The answers of the three readers on well-formed files of any origin
-/
namespace Uip.Ipdb
open Uip Uip.Spec
open Uip.Java (i32_id)

/-! ## Columns -/

theorem attr_one (k : Str) (fields cols : List Str) :
    attr [k] fields cols = lastOf (fun f => decide (f = k)) fields cols [] := by
  rw [attr_eq_lastOf]
  apply lastOf_congr
  intro f
  simp

theorem foldCol_attr (k : Str) (fields cols : List Str) :
    foldCol (fun f => decide (f = k)) (fun v _ => v) fields cols [] = attr [k] fields cols := by
  rw [show (fun (v : Str) (_ : Str) => v) = (fun v _ => id v) from rfl, foldCol_const]
  unfold attr
  simp

theorem foldCol_attr? (k : Str) (fields cols : List Str) :
    (foldCol (fun f => decide (f = k)) (fun v _ => some v) fields cols none).getD [] = attr [k] fields cols := by
  rw [show (fun (v : Str) (_ : Option Str) => some v) = (fun v _ => some (id v)) from rfl, foldCol_some]
  unfold attr
  simp

/-- The columns with the first continent spelled out, as the Go reader decodes them. -/
def spelled (fields cols : List Str) : List Str :=
  match Offset FieldContinentCode fields with
  | none => cols
  | some i => cols.modify i continentName

theorem go_info {fields cols : List Str} (hl : cols.length = fields.length)
    (h1 : (fields.filter fun f => decide (f = gs "continent_code")).length ≤ 1) :
    buildInfo fields (spelled fields cols) {} = fileInfo fields cols := by
  have other : ∀ k : Str, k ≠ FieldContinentCode →
      lastOf (fun f => decide (f = k)) fields (spelled fields cols) [] = attr [k] fields cols := by
    intro k hk
    rw [attr_one]
    unfold spelled
    split
    · rfl
    · rename_i i hi
      apply lastOf_modify_other
      intro f hf
      rw [Offset_some hi] at hf
      cases hf
      simp only [decide_eq_false_iff_not]
      exact Ne.symm hk
  have hcont : lastOf (fun f => decide (f = FieldContinentCode)) fields (spelled fields cols) [] = spellContinent (attr [gs "continent_code"] fields cols) := by
    rw [attr_one, ← continentName_eq]
    unfold spelled
    split
    · rename_i ho
      have hn : ∀ f ∈ fields, decide (f = FieldContinentCode) = false := by
        intro f hf
        simp only [decide_eq_false_iff_not]
        rintro rfl; exact Offset_none ho hf
      rw [lastOf_none hn, show gs "continent_code" = FieldContinentCode from rfl, lastOf_none hn]
      rfl
    · rename_i i hi
      exact lastOf_modify_only (Offset_some hi) (by simp) h1 hl
  unfold fileInfo
  rw [← hcont, ← other (gs "country_name") (by decide), ← other (gs "district") (by decide), ← other (gs "region_name") (by decide),
    ← other (gs "city_name") (by decide), ← other (gs "asn") (by decide), ← other (gs "isp_domain") (by decide),
    ← other (gs "line") (by decide)]
  have e : ∀ i : IpInfo, i = ⟨i.country, i.district, i.province, i.city, i.asn, i.isp, i.continent, i.line⟩ := fun _ => rfl
  rw [e (buildInfo _ _ _), buildInfo_country, buildInfo_district, buildInfo_province, buildInfo_city, buildInfo_asn,
    buildInfo_isp, buildInfo_continent, buildInfo_line]
  rfl

theorem java_info {fields cols : List Str} (hl : cols.length = fields.length) :
    ∃ ja, Java.buildInfo fields (cols.map some) {} = .ok ja ∧
      javaTexts ja = { fileInfo fields cols with line := attr [gs "asn", gs "line"] fields cols } := by
  refine ⟨_, java_buildInfo _ _ _ hl, ?_⟩
  have hcont : (foldCol (fun f => decide (f = FieldContinentCode)) (fun v _ => some (Java.continentName v)) fields cols none).getD [] =
      spellContinent (attr [gs "continent_code"] fields cols) := by
    rw [foldCol_some]
    have e : attr [gs "continent_code"] fields cols =
      (((fields.zip cols).filter (fun x => decide (x.1 = FieldContinentCode))).getLast?.map (·.2)).getD [] := by
      unfold attr; simp; rfl
    rw [e]
    cases (((fields.zip cols).filter (fun x => decide (x.1 = FieldContinentCode))).getLast?.map (·.2)) with
    | none => show ([] : Str) = spellContinent []; decide
    | some v => exact continentName_eq v
  have hline : (foldCol (fun f => decide (f = fAsn ∨ f = fLine)) (fun v _ => some v) fields cols none).getD [] =
      attr [gs "asn", gs "line"] fields cols := by
    rw [show (fun (v : Str) (_ : Option Str) => some v) = (fun v _ => some (id v)) from rfl, foldCol_some]
    unfold attr
    simp
    rfl
  unfold javaTexts fileInfo
  simp only []
  rw [hcont, hline]
  simp only [foldCol_attr?]
  rfl

theorem rust_take : ∀ (fs vs : List Str) (info : IpInfo), Rust.buildInfo fs vs info = Rust.buildInfo fs (vs.take fs.length) info := by
  intro fs
  induction fs with
  | nil => intros; rfl
  | cons f fs ih =>
    intro vs info
    cases vs with
    | nil => rfl
    | cons v vs =>
      simp only [Rust.buildInfo, List.length_cons, List.take_succ_cons, List.head?_cons, List.tail_cons]
      cases Rust.setAttr info f (some v) with
      | ok i => simp only [Res.ok_bind]; exact ih vs i
      | err e => rfl
      | panic => rfl

theorem rust_info {fields cols : List Str} (hl : cols.length = fields.length)
    (h1 : (fields.filter fun f => decide (f = gs "continent_code")).length ≤ 1) :
    Rust.buildInfo fields cols {} =
      .ok { fileInfo fields cols with continent := spellCode (attr [gs "continent_code"] fields cols) } := by
  rw [rust_buildInfo _ _ _ hl]
  refine congrArg Res.ok ?_
  have hcont : foldCol (fun f => decide (f = FieldContinentCode)) Rust.continentName fields cols [] =
      spellCode (attr [gs "continent_code"] fields cols) := by
    have h1' : (fields.filter fun f => decide (f = FieldContinentCode)).length ≤ 1 := h1
    rw [foldCol_one h1']
    simp only [rust_continent]
    rw [foldCol_const]
    have e : attr [gs "continent_code"] fields cols =
      (((fields.zip cols).filter (fun x => decide (x.1 = FieldContinentCode))).getLast?.map (·.2)).getD [] := by
      unfold attr; simp; rfl
    rw [e]
    cases ((fields.zip cols).filter (fun x => decide (x.1 = FieldContinentCode))).getLast? with
    | none => show ([] : Str) = spellCode []; decide
    | some x => rfl
  unfold fileInfo
  rw [show ({} : IpInfo).continent = [] from rfl, hcont]
  simp only [foldCol_attr]
  rfl

/-! ## The record of an address -/

/-- What `HasRecord` says, in the terms of the readers. -/
theorem record_at {m : MetaData} {file : Bytes} {N : Nat} {a : IP} {rec : Bytes} {depth : Nat} (h : Parts m file N)
    (hr : HasRecord m file a rec depth) :
    ∃ a16 o rest, To16 a = some a16 ∧ a16.length = 16 ∧ 0 < o ∧
      trieWalk (fileBody file) N (bits a16) 0 0 = some (N + o, depth) ∧ rec.length < 65536 ∧
      (fileBody file).drop (8 * N + o) = intToBE16 rec.length ++ (rec ++ rest) := by
  obtain ⟨a16, v, hi, lo, rest, h1, h2, h3, h4, h5⟩ := hr
  rw [h.count] at h2 h3 h4
  have hhi := hi.toNat_lt
  have hlo := lo.toNat_lt
  refine ⟨a16, v - N, rest, h1, (To16_eq_some h1).2.1, by omega, ?_, by omega, ?_⟩
  · rw [h2]; congr 2; omega
  · rw [show (8 * N + (v - N) : Nat) = ((v : Int) + 7 * (N : Int)).toNat by omega, h4]
    unfold intToBE16
    rw [← h5]
    have e1 : UInt8.ofNat ((hi.toNat * 256 + lo.toNat) / 256) = hi := by
      rw [show (hi.toNat * 256 + lo.toNat) / 256 = hi.toNat by omega, UInt8.ofNat_toNat]
    have e2 : UInt8.ofNat (hi.toNat * 256 + lo.toNat) = lo := by
      apply UInt8.toNat_inj.mp
      rw [UInt8.toNat_ofNat']
      omega
    rw [e1, e2]
    rfl

theorem walk_readDepth {data : Bytes} {N : Nat} {a16 : IP} {x : Nat × Nat} (hl : a16.length = 16)
    (h : trieWalk data N (bits a16) 0 0 = some x) : readDepth data N a16 128 0 0 = .ok x := by
  rw [readDepth_trieWalk _ _ _ (by rw [bits_length, hl]; decide), List.drop_zero,
    List.take_of_length_le (by rw [bits_length, hl]; decide), h]
  rfl

theorem go_find0 {dec : Bytes → Option MetaData} {m : MetaData} {file : Bytes} {N : Nat} {r : Reader}
    (h : newReaderFromBytes dec file = .ok r) (hm : r.md = m) (hd : r.data = fileBody file) (hn : r.nodeCount = N)
    (hfs : r.fileSize = file.length) (hp : Parts m file N)
    {a : IP} {rec : Bytes} {depth : Nat} (ha : Taken m a) (hr : HasRecord m file a rec depth) :
    ∃ node, r.find0 a = .ok (node, rec, if (To4 a).isSome then depth - 96 else depth) := by
  obtain ⟨a16, o, rest, h1, h2, h3, h4, h5, h6⟩ := record_at hp hr
  obtain ⟨s1, s2, s3⟩ := at_size h5 h6
  have hlen := hp.length
  have hres : r.resolve (N + o) = .ok rec := by
    unfold Reader.resolve
    simp only []
    rw [hn, show (((N + o : Nat) : Int) - (N : Int) + (N : Int) * 8) = ((8 * N + o : Nat) : Int) by omega, hfs, hd,
      if_neg (by omega), if_neg (by omega), Int.toNat_natCast, s2, if_neg (by omega), s3]
  refine ⟨N + o, ?_⟩
  have hv := (To16_eq_some h1).1
  unfold Reader.find0
  cases h4' : To4 a with
  | some ip =>
    have hip := To4_eq_some h4'
    have hmap : addrNum a / 2 ^ 32 = 0xffff := (To4_isSome_iff hv).mp (by rw [h4']; rfl)
    have h4m : r.md.HasIPv4 = true := by
      unfold MetaData.HasIPv4
      rw [hm, beq_iff_eq]
      rcases ha with ⟨_, hx⟩ | ⟨_, _, hx⟩
      · exact hx
      · exact hx hmap
    have hpath : a16 = v4InV6Prefix ++ ip := by
      unfold To4 at h4'
      unfold To16 at h1
      split at h4'
      · rename_i hl
        rw [if_pos hl] at h1
        cases h1; cases h4'; rfl
      · rename_i hl
        rw [if_neg hl] at h1
        split at h4'
        · rename_i hl2
          rw [if_pos hl2.1] at h1
          cases h1; cases h4'
          rw [← hl2.2, List.take_append_drop]
        · cases h4'
    simp only [h4m, Bool.not_true, Bool.false_eq_true, if_false]
    rw [search_plain h h4m hip.2.1, hd, hn, ← hpath, h4]
    simp only []
    rw [if_pos (by omega)]
    simp only [Res.ok_bind, hres]
    rfl
  | none =>
    have hl16 : a.length = 16 := by
      rcases hv with hl | hl
      · unfold To4 at h4'; rw [if_pos hl] at h4'; cases h4'
      · exact hl
    have h6m : r.md.HasIPv6 = true := by
      unfold MetaData.HasIPv6
      rw [hm, beq_iff_eq]
      rcases ha with ⟨hx, _⟩ | ⟨_, hx, _⟩
      · omega
      · exact hx
    simp only [h1, h6m, Bool.not_true, Bool.false_eq_true, if_false]
    rw [search_v6]
    unfold plainSearch
    rw [hd, hn, walk_readDepth h2 h4, Res.ok_bind]
    simp only []
    rw [if_pos (by omega)]
    simp only [Res.ok_bind, Res.pure_eq, hres]
    rfl

theorem java_find0_any {r : Java.JReader} {m : MetaData} {file : Bytes} {N : Nat} (hm : r.md = m) (hd : r.data = fileBody file)
    (hr : Java.Ready r N) {a a16 : IP} (ha : Taken m a) (h16 : To16 a = some a16) {n d : Nat}
    (hw : readDepth (fileBody file) N a16 128 0 0 = .ok (n, d)) (hge : N ≤ n) : r.find0 a = .ok (n : Int) := by
  have hfn := Java.findNode_walk hr h16 (by
    intro hl
    unfold Java.JReader.isIPv4
    rw [hm, beq_iff_eq]
    rcases ha with ⟨_, hx⟩ | ⟨hx, _⟩
    · exact hx
    · omega) (n := n) (d := d) (by rw [hd]; exact hw) hge
  unfold Java.JReader.find0
  rcases ha with ⟨hl, hx⟩ | ⟨hl, hx, _⟩
  · have : r.isIPv4 = true := by unfold Java.JReader.isIPv4; rw [hm, beq_iff_eq]; exact hx
    rw [if_neg (by omega), if_neg (by simp [this]), if_neg (by omega), hfn]
    rfl
  · have : r.isIPv6 = true := by unfold Java.JReader.isIPv6; rw [hm, beq_iff_eq]; exact hx
    rw [if_neg (by simp [this]), if_neg (by omega), if_neg (by omega), hfn]
    rfl

theorem rust_find0_any {r : Rust.RReader} {m : MetaData} {file : Bytes} {N : Nat} (hm : r.md = m) (hd : r.data = fileBody file)
    (hn : r.nodeCount = N) (hsmall : Java.Small (fileBody file) N)
    (hv : r.isIPv4 = true → ∃ v4 : Nat, v4offsetLoop (fileBody file) N 96 0 0 = .ok v4 ∧ r.v4offset = v4 ∧
        r.ipv4BitsCache ≠ [] ∧ Java.initCache (fileBody file) N v4 = .ok r.ipv4BitsCache)
    {a a16 : IP} (ha : Taken m a) (h16 : To16 a = some a16) {n d : Nat}
    (hw : readDepth (fileBody file) N a16 128 0 0 = .ok (n, d)) (hge : N ≤ n) : r.find0 a = .ok (n : Int) := by
  let j : Java.JReader := { md := r.md, fileSize := r.fileSize, nodeCount := r.nodeCount, data := r.data, v4offset := r.v4offset, ipv4BitsCache := if r.ipv4BitsCache = [] then none else some r.ipv4BitsCache, resultCache := none }
  have hj : Java.Ready j N := by
    refine ⟨hn, ?_, fun hj => ?_⟩
    · show Java.Small r.data N; rw [hd]; exact hsmall
    · obtain ⟨v4, h1, h2, h3, h4⟩ := hv hj
      refine ⟨v4, ?_, h2, r.ipv4BitsCache, if_neg h3, ?_⟩
      · show v4offsetLoop r.data N 96 0 0 = _; rw [hd]; exact h1
      · show Java.initCache r.data N v4 = _; rw [hd]; exact h4
  have hfn := Java.findNode_walk hj h16 (by
    intro hl
    show r.isIPv4 = true
    unfold Rust.RReader.isIPv4
    rw [hm, beq_iff_eq]
    rcases ha with ⟨_, hx⟩ | ⟨hx, _⟩
    · exact hx
    · omega) (n := n) (d := d) (by show readDepth r.data N a16 128 0 0 = _; rw [hd]; exact hw) hge
  have hfr := rust_findNode (r := r) (j := j) rfl rfl rfl rfl hfn
  unfold Rust.RReader.find0
  rcases ha with ⟨hl, hx⟩ | ⟨hl, hx, _⟩
  · have : r.isIPv4 = true := by unfold Rust.RReader.isIPv4; rw [hm, beq_iff_eq]; exact hx
    rw [if_neg (by omega), if_neg (by simp [this]), if_neg (by omega), hfr]
  · have : r.isIPv6 = true := by unfold Rust.RReader.isIPv6; rw [hm, beq_iff_eq]; exact hx
    rw [if_neg (by simp [this]), if_neg (by omega), if_neg (by omega), hfr]

end Uip.Ipdb
