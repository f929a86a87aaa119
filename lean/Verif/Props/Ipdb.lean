import Verif.Proof.Ipdb.Plain
import Verif.Proof.Ipdb.Codec
import Verif.Props.IpNet
/-!
# Properties C11-C23: the `.ipdb` format

Vocabulary: `Verif/Spec/{Table,Info,Trie}.lean`.  `json.Marshal`/`json.Unmarshal` appear as parameters
`enc`/`dec` with the hypothesis `MetaRoundTrip` (the metadata written survives); `encMeta`/`decMeta` in
`Verif/Proof/Ipdb/Codec.lean` is a pair for which it holds.  Files are assumed to be below 4 GiB, the
limit of the 32-bit node words.
-/
namespace Uip.Ipdb
open Uip Uip.Spec

/-! ## A concrete data set for the examples -/

/-- Two IPv4 rows and one IPv6 row with four fields. -/
def demo : IpData :=
  { fields := [gs "country", gs "continent", gs "city", gs "asn"]
    version := { ipType := IpAll, count := 3, build := 0, version := gs "v1", languages := [], extraInfo := [gs "x"] }
    ips := [
      { cidr := ⟨[1, 0, 0, 0], [255, 0, 0, 0]⟩, values := [gs "中国", gs "亚洲", gs "北京", gs "4134"] },
      { cidr := ⟨[2, 0, 0, 0], [255, 255, 0, 0]⟩, values := [gs "法国", gs "EU", gs "", gs "3215"] },
      { cidr := ⟨0x20 :: 0x01 :: List.replicate 14 0, 255 :: 255 :: List.replicate 14 0⟩,
        values := [gs "中国", gs "亚洲", gs "北京", gs "4134"] }] }

/-- A data set with a single field. -/
def demo1 : IpData :=
  { fields := [gs "city"]
    version := { ipType := IpV4, count := 1, build := 0, version := [], languages := [], extraInfo := [] }
    ips := [{ cidr := ⟨[1, 0, 0, 0], [255, 0, 0, 0]⟩, values := [gs "北京"] }] }

/-- The packed size, 0 if packing fails. -/
def packedSize (ipd : IpData) : Nat := match pack encMeta 0 ipd with | .ok b => b.length | _ => 0

example : RowsOK demo ∧ ValuesOK demo ∧ DisjointRows (rowsOf demo) := by decide +kernel
example : MetaRoundTrip encMeta decMeta (buildMeta 0 demo.version demo.fields) := fun _ _ _ _ => dec_encMeta _
theorem demo_size : packedSize demo < 2 ^ 32 := by decide +kernel
theorem demo1_size : packedSize demo1 < 2 ^ 32 := by decide +kernel

theorem size_of_packed {ipd : IpData} (h : packedSize ipd < 2 ^ 32) {bytes : Bytes}
    (hp : pack encMeta 0 ipd = .ok bytes) : bytes.length < 2 ^ 32 := by
  unfold packedSize at h; rw [hp] at h; exact h

section
variable {enc : MetaData → Bytes} {dec : Bytes → Option MetaData} {now : Int} {ipd : IpData}

theorem opens (h : RowsOK ipd) (hj : MetaRoundTrip enc dec (buildMeta now ipd.version ipd.fields)) :
    ∃ bytes, pack enc now ipd = .ok bytes ∧ (bytes.length < 2 ^ 32 →
      ∃ r, newReaderFromBytes dec bytes = .ok r ∧ newQuerier dec bytes = .ok ⟨r, []⟩ ∧ Written now ipd r) := by
  obtain ⟨bytes, h1, h2⟩ := pack_written h hj
  refine ⟨bytes, h1, fun hl => ?_⟩
  obtain ⟨r, h3, h4⟩ := h2 hl
  exact ⟨r, h3, by unfold newQuerier; rw [h3]; rfl, h4⟩

theorem rowOf_disjoint_wf (h : RowsWF ipd) (hd : DisjointRows (rowsOf ipd)) {a : IP} {row : IpRaw}
    (hm : row ∈ ipd.ips) (hc : Covers row.cidr (addrNum a)) :
    rowOf (keptRows (rowsOf ipd)) (addrNum a) = some (row.cidr, row.values) := by
  have hwf : ∀ m ∈ rowsOf ipd, WFNet m.1 := by
    intro m hm
    unfold rowsOf at hm
    rw [List.mem_map] at hm
    obtain ⟨x, hx, rfl⟩ := hm
    exact h.wf x hx
  rw [keptRows_of_disjoint hwf hd]
  have hmem : (row.cidr, row.values) ∈ rowsOf ipd := List.mem_map.mpr ⟨row, hm, rfl⟩
  unfold rowOf
  cases hf : (rowsOf ipd).find? (fun m => decide (Covers m.1 (addrNum a))) with
  | none =>
    rw [List.find?_eq_none] at hf
    exact absurd (by simpa using hc) (hf _ hmem)
  | some m =>
    have h1 := List.mem_of_find?_eq_some hf
    have h2 := List.find?_some hf
    rw [decide_eq_true_eq] at h2
    have : m = (row.cidr, row.values) := by
      apply Classical.byContradiction
      intro hne
      have hov : Overlap m.1 row.cidr := by unfold Overlap; unfold Covers at hc h2; omega
      have hpw := List.pairwise_iff_getElem.mp hd
      obtain ⟨i, hi, hie⟩ := List.getElem_of_mem h1
      obtain ⟨j, hj, hje⟩ := List.getElem_of_mem hmem
      rcases Nat.lt_trichotomy i j with hlt | heq | hgt
      · exact hpw i j hi hj hlt (by rw [hie, hje]; exact hov)
      · subst heq; exact hne (by rw [← hie, ← hje])
      · exact hpw j i hj hi hgt (by rw [hie, hje]; exact Overlap_comm.mp hov)
    rw [this]

theorem rowOf_disjoint (h : RowsOK ipd) (hd : DisjointRows (rowsOf ipd)) {a : IP} {row : IpRaw}
    (hm : row ∈ ipd.ips) (hc : Covers row.cidr (addrNum a)) :
    rowOf (keptRows (rowsOf ipd)) (addrNum a) = some (row.cidr, row.values) := rowOf_disjoint_wf h.toWF hd hm hc

/-! ## C11, C12, C14: what is packed is what is found -/

/-- C11 + C12: pack disjoint rows, open the file, ask for an address covered by a row: the answer is the
information of that row and its prefix length in the family of the address. -/
theorem C12_pack_query_mask (h : RowsOK ipd) (hval : ValuesOK ipd) (hd : DisjointRows (rowsOf ipd))
    (hj : MetaRoundTrip enc dec (buildMeta now ipd.version ipd.fields)) :
    ∃ bytes, pack enc now ipd = .ok bytes ∧ (bytes.length < 2 ^ 32 →
      ∃ q, newQuerier dec bytes = .ok q ∧
        ∀ a row, ValidIP a → Supports ipd.version a → row ∈ ipd.ips → Covers row.cidr (addrNum a) →
          q.Query a = .ok (infoOf ipd.fields row.values, maskFor row.cidr a)) := by
  obtain ⟨bytes, h1, h2⟩ := opens h hj
  refine ⟨bytes, h1, fun hl => ?_⟩
  obtain ⟨r, _, h4, h5⟩ := h2 hl
  exact ⟨_, h4, fun a row ha hs hm hc => h5.query_covered h hval ha hs (rowOf_disjoint h hd hm hc)⟩

theorem C11_pack_query (h : RowsOK ipd) (hval : ValuesOK ipd) (hd : DisjointRows (rowsOf ipd))
    (hj : MetaRoundTrip enc dec (buildMeta now ipd.version ipd.fields)) :
    ∃ bytes, pack enc now ipd = .ok bytes ∧ (bytes.length < 2 ^ 32 →
      ∃ q, newQuerier dec bytes = .ok q ∧
        ∀ a row, ValidIP a → Supports ipd.version a → row ∈ ipd.ips → Covers row.cidr (addrNum a) →
          ∃ mask, q.Query a = .ok (infoOf ipd.fields row.values, mask)) := by
  obtain ⟨bytes, h1, h2⟩ := C12_pack_query_mask h hval hd hj
  refine ⟨bytes, h1, fun hl => ?_⟩
  obtain ⟨q, h4, h5⟩ := h2 hl
  exact ⟨q, h4, fun a row ha hs hm hc => ⟨_, h5 a row ha hs hm hc⟩⟩

/-- C14: arbitrary rows; the answer comes from the rows that survive insertion in order. -/
theorem C14_overlapping_rows (h : RowsOK ipd) (hval : ValuesOK ipd)
    (hj : MetaRoundTrip enc dec (buildMeta now ipd.version ipd.fields)) :
    ∃ bytes, pack enc now ipd = .ok bytes ∧ (bytes.length < 2 ^ 32 →
      ∃ q, newQuerier dec bytes = .ok q ∧
        ∀ a, ValidIP a → Supports ipd.version a →
          match rowOf (keptRows (rowsOf ipd)) (addrNum a) with
          | some m => q.Query a = .ok (infoOf ipd.fields m.2, maskFor m.1 a)
          | none => q.r.find0 a = .err .dataNotExists) := by
  obtain ⟨bytes, h1, h2⟩ := opens h hj
  refine ⟨bytes, h1, fun hl => ?_⟩
  obtain ⟨r, _, h4, h5⟩ := h2 hl
  refine ⟨_, h4, fun a ha hs => ?_⟩
  cases hr : rowOf (keptRows (rowsOf ipd)) (addrNum a) with
  | some m => exact h5.query_covered h hval ha hs hr
  | none =>
    have := h5.uncovered (a := a) (.inr (.inr hr))
    rw [if_neg (by simpa using ha), if_pos hs] at this
    exact this

/-- The rows that survive are disjoint and each is one of the given rows. -/
theorem C14_kept_rows (h : RowsOK ipd) :
    DisjointRows (keptRows (rowsOf ipd)) ∧ ∀ m ∈ keptRows (rowsOf ipd), m ∈ rowsOf ipd := by
  obtain ⟨h1, h2⟩ := keptRows_spec (rows := rowsOf ipd) (by
    intro m hm
    unfold rowsOf at hm
    rw [List.mem_map] at hm
    obtain ⟨x, hx, rfl⟩ := hm
    exact h.wf x hx)
  exact ⟨h1, fun m hm => (h2 m hm).2⟩

/-- The demo file: 1.2.3.4 is found in the first row, 2001::1 in the third. -/
example : ∃ bytes q, pack encMeta 0 demo = .ok bytes ∧ newQuerier decMeta bytes = .ok q ∧
    q.Query [1, 2, 3, 4] = .ok ({ country := gs "中国", continent := gs "亚洲", city := gs "北京", asn := gs "4134" }, 8) ∧
    q.Query [2, 0, 9, 9] = .ok ({ country := gs "法国", continent := gs "欧洲", city := gs "", asn := gs "3215" }, 16) ∧
    q.Query (0x20 :: 0x01 :: List.replicate 13 0 ++ [1]) =
      .ok ({ country := gs "中国", continent := gs "亚洲", city := gs "北京", asn := gs "4134" }, 16) := by
  obtain ⟨bytes, h1, h2⟩ := C12_pack_query_mask (enc := encMeta) (dec := decMeta) (now := 0) (ipd := demo)
    (by decide +kernel) (by decide +kernel) (by decide +kernel) (fun _ _ _ _ => dec_encMeta _)
  obtain ⟨q, h3, h4⟩ := h2 (size_of_packed demo_size h1)
  refine ⟨bytes, q, h1, h3, ?_, ?_, ?_⟩
  · have := h4 [1, 2, 3, 4] _ (by decide) (by decide) (List.mem_cons_self ..) (by decide)
    rw [this]; decide +kernel
  · have := h4 [2, 0, 9, 9] _ (by decide) (by decide) (List.mem_cons_of_mem _ (List.mem_cons_self ..)) (by decide)
    rw [this]; decide +kernel
  · have := h4 (0x20 :: 0x01 :: List.replicate 13 0 ++ [1]) _ (by decide) (by decide)
      (List.mem_cons_of_mem _ (List.mem_cons_of_mem _ (List.mem_cons_self ..))) (by decide +kernel)
    rw [this]; decide +kernel

/-! ## C13, C23: addresses without a record -/

/-- C13 for databases with two or more fields: an address no row covers, of an undeclared family or of a
wrong length gives an error. -/
theorem C13_uncovered (h : RowsOK ipd) (h2 : 2 ≤ ipd.fields.length)
    (hj : MetaRoundTrip enc dec (buildMeta now ipd.version ipd.fields)) :
    ∃ bytes, pack enc now ipd = .ok bytes ∧ (bytes.length < 2 ^ 32 →
      ∃ q, newQuerier dec bytes = .ok q ∧
        ∀ a, (¬ ValidIP a ∨ ¬ Supports ipd.version a ∨ ∀ row ∈ ipd.ips, ¬ Covers row.cidr (addrNum a)) →
          q.Query a = .err .databaseError) := by
  obtain ⟨bytes, h1, h3⟩ := opens h hj
  refine ⟨bytes, h1, fun hl => ?_⟩
  obtain ⟨r, _, h4, h5⟩ := h3 hl
  refine ⟨_, h4, fun a hc => ?_⟩
  refine (h5.query_uncovered (h5.uncovered (a := a) ?_)).1 h2
  rcases hc with hc | hc | hc
  · exact .inl hc
  · exact .inr (.inl hc)
  · right; right
    cases hr : rowOf (keptRows (rowsOf ipd)) (addrNum a) with
    | none => rfl
    | some m =>
      obtain ⟨row, hrow, rfl⟩ := Written.rowValues h hr
      have := List.find?_some hr
      rw [decide_eq_true_eq] at this
      exact absurd this (hc row hrow)

/-- C13 is false for databases with a single field: the answer to any such address is an empty record with
mask 0 and no error. -/
theorem C13_single_field_negation (h : RowsOK ipd) (h1f : ipd.fields.length = 1)
    (hj : MetaRoundTrip enc dec (buildMeta now ipd.version ipd.fields)) :
    ∃ bytes, pack enc now ipd = .ok bytes ∧ (bytes.length < 2 ^ 32 →
      ∃ q, newQuerier dec bytes = .ok q ∧
        ∀ a, (¬ ValidIP a ∨ ¬ Supports ipd.version a ∨ ∀ row ∈ ipd.ips, ¬ Covers row.cidr (addrNum a)) →
          q.Query a = .ok ({}, 0)) := by
  obtain ⟨bytes, h1, h3⟩ := opens h hj
  refine ⟨bytes, h1, fun hl => ?_⟩
  obtain ⟨r, _, h4, h5⟩ := h3 hl
  refine ⟨_, h4, fun a hc => ?_⟩
  refine (h5.query_uncovered (h5.uncovered (a := a) ?_)).2 h1f
  rcases hc with hc | hc | hc
  · exact .inl hc
  · exact .inr (.inl hc)
  · right; right
    cases hr : rowOf (keptRows (rowsOf ipd)) (addrNum a) with
    | none => rfl
    | some m =>
      obtain ⟨row, hrow, rfl⟩ := Written.rowValues h hr
      have := List.find?_some hr
      rw [decide_eq_true_eq] at this
      exact absurd this (hc row hrow)

/-- C23: the lookup used by the dump (`findMap`) reports the right error... -/
theorem C23_lookup_error (h : RowsOK ipd) (hj : MetaRoundTrip enc dec (buildMeta now ipd.version ipd.fields)) :
    ∃ bytes, pack enc now ipd = .ok bytes ∧ (bytes.length < 2 ^ 32 →
      ∃ r, newReaderFromBytes dec bytes = .ok r ∧ ∀ a,
        (¬ ValidIP a → r.findMap a (gs "CN") = .err .ipFormat) ∧
        (ValidIP a → ¬ Supports ipd.version a → r.findMap a (gs "CN") =
          .err (if (To4 a).isSome then .noSupportIPv4 else .noSupportIPv6)) ∧
        (ValidIP a → Supports ipd.version a → (∀ row ∈ ipd.ips, ¬ Covers row.cidr (addrNum a)) →
          r.findMap a (gs "CN") = .err .dataNotExists)) := by
  obtain ⟨bytes, h1, h3⟩ := opens h hj
  refine ⟨bytes, h1, fun hl => ?_⟩
  obtain ⟨r, h2, _, h5⟩ := h3 hl
  refine ⟨r, h2, fun a => ?_⟩
  have hfm : ∀ e, r.find0 a = .err e → r.findMap a (gs "CN") = .err e := by
    intro e he
    unfold Reader.findMap Reader.find1
    rw [h5.langs]
    simp only [he, Res.err_bind]
  refine ⟨fun hv => ?_, fun hv hs => ?_, fun hv hs hc => ?_⟩
  · apply hfm
    rw [h5.uncovered (.inl hv), if_pos hv]
  · apply hfm
    rw [h5.uncovered (.inr (.inl hs)), if_neg (by simpa using hv), if_neg hs]
  · apply hfm
    have hn : rowOf (keptRows (rowsOf ipd)) (addrNum a) = none := by
      cases hr : rowOf (keptRows (rowsOf ipd)) (addrNum a) with
      | none => rfl
      | some m =>
        obtain ⟨row, hrow, rfl⟩ := Written.rowValues h hr
        have := List.find?_some hr
        rw [decide_eq_true_eq] at this
        exact absurd this (hc row hrow)
    rw [h5.uncovered (.inr (.inr hn)), if_neg (by simpa using hv), if_pos hs]

end

/-- ... but C23 is false of `Query`: it drops the error of the lookup.  On the demo file (four fields) every
failure, whatever its cause, surfaces as ErrDatabaseError; on the one-field file there is no error at all. -/
theorem C23_query_error_negation :
    (∃ bytes q, pack encMeta 0 demo = .ok bytes ∧ newQuerier decMeta bytes = .ok q ∧
      q.r.find0 [9, 9, 9, 9] = .err .dataNotExists ∧ q.Query [9, 9, 9, 9] = .err .databaseError ∧
      q.r.find0 [9] = .err .ipFormat ∧ q.Query [9] = .err .databaseError) ∧
    (∃ bytes q, pack encMeta 0 demo1 = .ok bytes ∧ newQuerier decMeta bytes = .ok q ∧
      q.r.find0 [9, 9, 9, 9] = .err .dataNotExists ∧ q.Query [9, 9, 9, 9] = .ok ({}, 0) ∧
      q.r.find0 (List.replicate 16 0) = .err .noSupportIPv6 ∧ q.Query (List.replicate 16 0) = .ok ({}, 0)) := by
  constructor
  · obtain ⟨bytes, h1, h2⟩ := opens (enc := encMeta) (dec := decMeta) (now := 0) (ipd := demo)
      (by decide +kernel) (fun _ _ _ _ => dec_encMeta _)
    obtain ⟨r, _, h4, h5⟩ := h2 (size_of_packed demo_size h1)
    have e1 : r.find0 [9, 9, 9, 9] = .err .dataNotExists := by
      rw [h5.uncovered (a := [9, 9, 9, 9]) (.inr (.inr (by decide +kernel)))]; decide
    have e2 : r.find0 [9] = .err .ipFormat := by rw [h5.uncovered (a := [9]) (.inl (by decide))]; decide
    exact ⟨bytes, _, h1, h4, e1, (h5.query_uncovered e1).1 (by decide), e2, (h5.query_uncovered e2).1 (by decide)⟩
  · obtain ⟨bytes, h1, h2⟩ := opens (enc := encMeta) (dec := decMeta) (now := 0) (ipd := demo1)
      (by decide +kernel) (fun _ _ _ _ => dec_encMeta _)
    obtain ⟨r, _, h4, h5⟩ := h2 (size_of_packed demo1_size h1)
    have e1 : r.find0 [9, 9, 9, 9] = .err .dataNotExists := by
      rw [h5.uncovered (a := [9, 9, 9, 9]) (.inr (.inr (by decide +kernel)))]; decide
    have e2 : r.find0 (List.replicate 16 0) = .err .noSupportIPv6 := by
      rw [h5.uncovered (a := List.replicate 16 0) (.inr (.inl (by decide)))]; decide
    exact ⟨bytes, _, h1, h4, e1, (h5.query_uncovered e1).2 (by decide), e2, (h5.query_uncovered e2).2 (by decide)⟩

/-! ## C15: the acceleration table -/

/-- C15: for any accepted file, the IPv4 lookup (which starts from the 2^14-entry table) is the plain walk of
the 128-bit form of the address from the root. -/
theorem C15_cache_transparent {dec : Bytes → Option MetaData} {bytes : Bytes} {r : Reader}
    (h : newReaderFromBytes dec bytes = .ok r) (h4 : r.md.HasIPv4 = true) (b : IP) (hb : b.length = 4) :
    r.search b 32 = match trieWalk r.data r.nodeCount (bits (v4InV6Prefix ++ b)) 0 0 with
      | none => .panic
      | some (node, depth) => if (node : Int) > r.nodeCount then .ok (node, depth - 96) else .err .dataNotExists :=
  search_plain h h4 hb

/-- The demo file is accepted and has IPv4. -/
example : ∃ bytes r, newReaderFromBytes decMeta bytes = .ok r ∧ r.md.HasIPv4 = true := by
  obtain ⟨bytes, h1, h2⟩ := opens (enc := encMeta) (dec := decMeta) (now := 0) (ipd := demo)
    (by decide +kernel) (fun _ _ _ _ => dec_encMeta _)
  obtain ⟨r, h3, h4, h5⟩ := h2 (size_of_packed demo_size h1)
  exact ⟨bytes, r, h3, h5.has4.mpr (by decide)⟩

/-! ## C16: BuildCache -/

/-- Queriers a caller can hold: opened from bytes, then warmed up any number of times. -/
inductive Opened (dec : Bytes → Option MetaData) : Querier → Prop
  | new {bytes q} : newQuerier dec bytes = .ok q → Opened dec q
  | warm {q q' ips} : Opened dec q → q.BuildCache ips = .ok q' → Opened dec q'

theorem Opened.sound {dec : Bytes → Option MetaData} {q : Querier} (h : Opened dec q) :
    CacheSound q ∧ ∃ bytes, newReaderFromBytes dec bytes = .ok q.r := by
  induction h with
  | new h =>
    rename_i bytes q
    unfold newQuerier at h
    simp only [Res.bind_eq_ok, Res.pure_eq, Res.ok.injEq] at h
    obtain ⟨r, h1, rfl⟩ := h
    exact ⟨CacheSound_nil r, bytes, h1⟩
  | warm h1 h2 ih =>
    obtain ⟨hr, hs⟩ := (BuildCache_spec _ _ ih.1).1 _ h2
    exact ⟨hs, by rw [hr]; exact ih.2⟩

/-- C16: warming up never changes an answer. -/
theorem C16_build_cache {dec : Bytes → Option MetaData} {q q' : Querier} (h : Opened dec q) {ips : List IP}
    (hb : q.BuildCache ips = .ok q') (a : IP) : q'.Query a = q.Query a := by
  obtain ⟨hr, hs⟩ := (BuildCache_spec _ _ h.sound.1).1 _ hb
  exact Query_congr hr h.sound.1 hs a

/-- C16: warming up itself fails only by crashing, and only on an address whose query crashes. -/
theorem C16_build_cache_total {dec : Bytes → Option MetaData} {q : Querier} (h : Opened dec q) {ips : List IP}
    (hq : ∀ a ∈ ips, q.Query a ≠ .panic) : ∃ q', q.BuildCache ips = .ok q' := by
  obtain ⟨_, h2, h3⟩ := BuildCache_spec ips q h.sound.1
  cases hb : q.BuildCache ips with
  | ok q' => exact ⟨q', rfl⟩
  | err e => exact absurd hb (h3 e)
  | panic => obtain ⟨a, ha, hp⟩ := h2 hb; exact absurd hp (hq a ha)

/-! ## C17: one answer per network -/

theorem decodeInfo_nil {r : Reader} (h2 : 2 ≤ r.md.fields.length) {off : Int} {v : List Str}
    (h : r.decodeInfo [] off = .ok v) : False := by
  unfold Reader.decodeInfo at h
  dsimp only [splitByte] at h
  by_cases hc : off + (r.md.fields.length : Int) > (([[]] : List Str).length : Int)
  · rw [if_pos hc] at h; cases h
  · rw [if_neg hc, if_pos (by simp only [List.length_cons, List.length_nil] at hc; omega)] at h; cases h

/-- C17 for databases with two or more fields. -/
theorem C17_answer_for_network {dec : Bytes → Option MetaData} {q : Querier} (h : Opened dec q)
    (h2 : 2 ≤ q.r.md.fields.length) {a a' : IP} {info : IpInfo} {mask : Nat} (hq : q.Query a = .ok (info, mask))
    (ha' : ValidIP a') (hfam : (To4 a).isSome = (To4 a').isSome)
    (hbits : (famBits a).take mask = (famBits a').take mask) : q.Query a' = .ok (info, mask) := by
  obtain ⟨hs, bytes, hr⟩ := h.sound
  rw [Query_congr (q := ⟨q.r, []⟩) (q' := q) rfl (CacheSound_nil _) hs] at hq ⊢
  cases hf : q.r.find0 a with
  | panic =>
    unfold Querier.Query Querier.QueryInternal at hq
    simp only [hf] at hq
    cases hq
  | err e =>
    rw [Query_find0_err hf] at hq
    split at hq
    · cases hq
    · rename_i off _
      exfalso
      rw [Res.bind_eq_ok] at hq
      obtain ⟨v, hv, _⟩ := hq
      exact decodeInfo_nil h2 hv
  | ok x =>
    obtain ⟨n, body, m⟩ := x
    rw [Query_find0 hf] at hq
    split at hq
    · cases hq
    · rename_i off hoff
      simp only [Res.bind_eq_ok, Res.ok.injEq, Prod.mk.injEq] at hq
      obtain ⟨values, h3, h4, h5⟩ := hq
      subst h5
      rw [Query_find0 (find0_congr (newReader_cacheOK hr) ha' hfam hf hbits), hoff]
      simp only [h3, Res.ok_bind, h4]

/-- C17 is false for a single-field file: 9.9.9.9 is answered with mask 0, yet 1.0.0.0 has another answer. -/
theorem C17_single_field_negation : ∃ bytes q, pack encMeta 0 demo1 = .ok bytes ∧ newQuerier decMeta bytes = .ok q ∧
    q.Query [9, 9, 9, 9] = .ok ({}, 0) ∧ q.Query [1, 0, 0, 0] = .ok ({ city := gs "北京" }, 8) := by
  obtain ⟨bytes, h1, h2⟩ := opens (enc := encMeta) (dec := decMeta) (now := 0) (ipd := demo1)
    (by decide +kernel) (fun _ _ _ _ => dec_encMeta _)
  obtain ⟨r, _, h4, h5⟩ := h2 (size_of_packed demo1_size h1)
  have e1 := h5.uncovered (a := [9, 9, 9, 9]) (.inr (.inr (by decide +kernel)))
  refine ⟨bytes, _, h1, h4, (h5.query_uncovered e1).2 (by decide), ?_⟩
  rw [h5.query_covered (m := (⟨[1, 0, 0, 0], [255, 0, 0, 0]⟩, [gs "北京"])) (by decide +kernel) (by decide +kernel)
    (by decide) (by decide) (by decide +kernel)]
  decide +kernel

/-! ## C18: forms of an address -/

/-- C18: the lookup does not depend on the form of an IPv4 address. -/
theorem C18_forms (q : Querier) (a b : IP) (ha : a.length = 4) (hb : b = v4InV6Prefix ++ a) : q.Query a = q.Query b := by
  have h1 : To4 a = some a := by simp [To4, ha]
  have h2 : To4 b = some a := by
    subst hb
    unfold To4
    rw [if_neg (by simp [v4InV6Prefix, ha]), if_pos ⟨by simp [v4InV6Prefix, ha], by simp [v4InV6Prefix]⟩]
    simp [v4InV6Prefix]
  unfold Querier.Query Querier.QueryInternal Reader.find0
  rw [h1, h2]

/-- C18: `QueryU32(x)` asks for the address whose value is `x`, in whatever form. -/
theorem C18_queryU32 (q : Querier) (x : UInt32) (a : IP) (hv : ValidIP a)
    (ha : addrNum a = 0xffff * 2 ^ 32 + x.toNat) : Db.QueryU32 q.Query x = q.Query a := by
  obtain ⟨l, hl, hu, hvl⟩ := C01_uint32_value x
  have hu16 : (Uint32ToIPv4 x).length = 16 := by rw [hu]; simp [v4InV6Prefix, hl]
  unfold Db.QueryU32 Db.Query
  rw [hu]
  rcases hv with h4 | h16
  · have : a = l := by
      rw [addrNum_4 h4] at ha
      exact val_inj (by rw [h4, hl]) (by omega)
    subst this
    exact (C18_forms q a _ h4 rfl).symm
  · have : a = v4InV6Prefix ++ l := by
      apply val_inj (by rw [h16]; simp [v4InV6Prefix, hl])
      rw [addrNum_16 h16] at ha
      rw [val_mapped hl, addrNum_4 hl, ha, hvl]
    rw [this]

/-! ## C19: truncated files -/

theorem pack_bytes {enc : MetaData → Bytes} {now : Int} {ipd : IpData} {bytes : Bytes} (h : RowsOK ipd)
    (hp : pack enc now ipd = .ok bytes) :
    ∃ w, bytes = w.Save enc ∧
      w.savedMeta = { buildMeta now ipd.version ipd.fields with
        nodeCount := w.node.length, totalSize := (w.nodeChunk.length + w.dataChunk.length : Nat) } ∧
      DataInv w ∧
      (w.dataHash.map (·.1)).reverse =
        ((acceptedRows [] (rowsOf ipd)).map (fun m => storedRec ipd.fields m.2)).foldl addNew [] := by
  obtain ⟨w, hw1, hw2, hw3, hw4⟩ := insertAll_pack h.toWF now
  unfold pack at hp
  rw [hw1] at hp
  cases hp
  refine ⟨w, rfl, by unfold Writer.savedMeta; rw [hw3], ?_, hw4⟩
  obtain ⟨_, _, _, hd, _⟩ := hw2
  exact hd

/-- C19: a packed file cut anywhere is not accepted: with fewer than 4 bytes left opening panics, otherwise
it returns ErrFileSize. -/
theorem C19_truncated {enc : MetaData → Bytes} {dec : Bytes → Option MetaData} {now : Int} {ipd : IpData} {bytes : Bytes}
    (h : RowsOK ipd) (hj : MetaRoundTrip enc dec (buildMeta now ipd.version ipd.fields))
    (hp : pack enc now ipd = .ok bytes) (hlen : bytes.length < 2 ^ 32) (k : Nat) (hk : k < bytes.length) :
    newQuerier dec (bytes.take k) = if k < 4 then .panic else .err .fileSize := by
  obtain ⟨w, hb, hsm, _⟩ := pack_bytes h hp
  have hL := Writer.Save_length enc w
  rw [← hb] at hL
  have hdec : dec (enc w.savedMeta) = some w.savedMeta := by
    rw [hsm]; exact hj _ _ (by omega) (by rw [nodeChunk_length]; omega)
  have htl : (bytes.take k).length = k := by rw [List.length_take]; omega
  unfold newQuerier newReaderFromBytes
  simp only [htl]
  split
  · rfl
  · rename_i hk4
    have hbe : (intToBE32 (enc w.savedMeta).length).length = 4 := rfl
    have htake : (bytes.take k).take 4 = intToBE32 (enc w.savedMeta).length := by
      rw [List.take_take, Nat.min_eq_left (by omega), hb]
      unfold Writer.Save
      rw [List.append_assoc, List.append_assoc, List.take_left' hbe]
    rw [htake, val_intToBE32 (by omega)]
    split
    · rfl
    · rename_i hk5
      have hmeta : ((bytes.take k).drop 4).take (enc w.savedMeta).length = enc w.savedMeta := by
        rw [List.drop_take, List.take_take, Nat.min_eq_left (by omega), hb]
        unfold Writer.Save
        rw [List.append_assoc, List.append_assoc, List.drop_left' hbe, List.take_left]
      rw [hmeta, hdec]
      simp only []
      have hfl : (covertFields ipd.fields).length ≠ 0 := by
        rw [covertFields_length]; intro hc; exact h.fields (List.length_eq_zero_iff.mp hc)
      have hmdl : w.savedMeta.languages = [(gs "CN", 0)] := by rw [hsm]; rfl
      have hmdf : w.savedMeta.fields = covertFields ipd.fields := by rw [hsm]; rfl
      have hts : w.savedMeta.totalSize = ((8 * w.node.length + 8 + w.dataChunk.length : Nat) : Int) := by
        rw [hsm, nodeChunk_length]
      rw [if_neg (by rw [hmdl, hmdf]; simp; exact fun hc => hfl (by rw [hc]; rfl)), if_pos (by rw [hts]; omega)]
      rfl

example : ∃ bytes, pack encMeta 0 demo = .ok bytes ∧ bytes.length < 2 ^ 32 ∧ 0 < bytes.length := by
  have : (match pack encMeta 0 demo with | .ok b => decide (0 < b.length) | _ => false) = true := by decide +kernel
  cases hp : pack encMeta 0 demo with
  | ok b => exact ⟨b, rfl, size_of_packed demo_size hp, by rw [hp] at this; simpa using this⟩
  | err e => rw [hp] at this; cases this
  | panic => rw [hp] at this; cases this

/-! ## C20: version information -/

/-- C20: a packed file opens, and the reported version information is the packed one. -/
theorem C20_version {enc : MetaData → Bytes} {dec : Bytes → Option MetaData} {now : Int} {ipd : IpData}
    (fmtDate : Int → Str) (h : RowsOK ipd) (hj : MetaRoundTrip enc dec (buildMeta now ipd.version ipd.fields)) :
    ∃ bytes, pack enc now ipd = .ok bytes ∧ (bytes.length < 2 ^ 32 →
      ∃ r, newReaderFromBytes dec bytes = .ok r ∧
        (ipd.version.ipType ∈ [IpV4, IpV6, IpAll] → (r.version fmtDate).ipType = ipd.version.ipType) ∧
        (r.version fmtDate).extraInfo = ipd.version.extraInfo ∧
        (r.version fmtDate).build = now ∧
        (r.version fmtDate).version =
          (if ipd.version.version = [] then gs "ipip.net-" ++ fmtDate now else ipd.version.version) ∧
        (r.version fmtDate).languages = [gs "CN"]) := by
  obtain ⟨bytes, h1, h2⟩ := opens h hj
  refine ⟨bytes, h1, fun hl => ?_⟩
  obtain ⟨r, h3, _, h5⟩ := h2 hl
  refine ⟨r, h3, ?_⟩
  obtain ⟨N, S, hmd⟩ := h5.md
  unfold Reader.version
  rw [hmd]
  refine ⟨?_, rfl, rfl, rfl, rfl⟩
  intro hm
  simp only [List.mem_cons, List.not_mem_nil, or_false] at hm
  unfold MetaData.IpType buildMeta ipVersion
  rcases hm with hm | hm | hm <;> rw [hm] <;> rfl

example : RowsOK demo ∧ demo.version.ipType ∈ [IpV4, IpV6, IpAll] := by decide +kernel

/-! ## C21: records are shared -/

theorem continentIdx_plain {fields : List Str} (hc : ∀ f ∈ fields, f ≠ gs "continent" → asciiLower f ≠ gs "continent") :
    continentIdx (covertFields fields) 0 none = none := by
    cases hi : continentIdx (covertFields fields) 0 none with
    | none => rfl
    | some i =>
      rcases continentIdx_lt hi with ⟨_, _, g, hg, hl⟩ | h
      · exfalso
        rw [covertFields_eq, Nat.sub_zero, List.getElem?_map] at hg
        cases hf : fields[i]? with
        | none => rw [hf] at hg; cases hg
        | some f =>
          rw [hf] at hg
          simp only [Option.map_some, Option.some.injEq] at hg
          subst hg
          have hm : f ∈ fields := List.mem_of_getElem? hf
          have h := hc f hm
          revert hl h
          apply conv1_cases f (fun f g => asciiLower g = fContinent →
            (f ≠ gs "continent" → asciiLower f ≠ gs "continent") → False)
          all_goals try (intro hl; exact absurd hl (by decide))
          intro _ _ _ _ h5 hl h
          exact h h5 hl
      · cases h

theorem storedRec_plain {fields : List Str} (hc : ∀ f ∈ fields, f ≠ gs "continent" → asciiLower f ≠ gs "continent")
    (values : List Str) : storedRec fields values = joinByte 0x09 values := by
  unfold storedRec
  rw [continentIdx_plain hc]; rfl

/-- C21: the file is header, metadata, (node count + 1) nodes of 8 bytes, then each distinct accepted record
exactly once, in order of first use, each with its 2-byte length. -/
theorem C21_records_once {enc : MetaData → Bytes} {now : Int} {ipd : IpData} {bytes : Bytes}
    (h : RowsOK ipd) (hc : ∀ f ∈ ipd.fields, f ≠ gs "continent" → asciiLower f ≠ gs "continent")
    (hp : pack enc now ipd = .ok bytes) :
    ∃ (recs : List Str) (md nodes : Bytes) (N : Nat),
      recs = ((acceptedRows [] (rowsOf ipd)).map (fun m => joinByte 0x09 m.2)).foldl addNew [] ∧
      recs.Nodup ∧
      nodes.length = 8 * (N + 1) ∧
      md = enc { buildMeta now ipd.version ipd.fields with
        nodeCount := N, totalSize := (nodes.length + (recs.map (fun d => 2 + d.length)).sum : Nat) } ∧
      bytes = intToBE32 md.length ++ md ++ nodes ++ recs.flatMap (fun d => intToBE16 d.length ++ d) := by
  obtain ⟨w, hb, hsm, hd, hk⟩ := pack_bytes h hp
  have hplain : (fun m : IPNet × List Str => storedRec ipd.fields m.2) = fun m => joinByte 0x09 m.2 := by
    funext m; exact storedRec_plain hc _
  rw [hplain] at hk
  have hchunk : w.dataChunk = ((w.dataHash.map (·.1)).reverse).flatMap (fun d => intToBE16 d.length ++ d) := by
    rw [hd.chunk, ← List.map_reverse, List.flatMap_map]; rfl
  have hlen : w.dataChunk.length = (((w.dataHash.map (·.1)).reverse).map (fun d => 2 + d.length)).sum := by
    rw [hchunk]
    generalize (w.dataHash.map (·.1)).reverse = l
    induction l with
    | nil => rfl
    | cons x l ih => simp only [List.flatMap_cons, List.length_append, ih, List.map_cons, List.sum_cons]; simp [intToBE16]
  refine ⟨(w.dataHash.map (·.1)).reverse, enc w.savedMeta, w.nodeChunk, w.node.length, hk, ?_, ?_, ?_, ?_⟩
  · refine List.pairwise_reverse.mpr (List.Pairwise.imp ?_ hd.nodup)
    intro a b hab; exact fun e => hab e.symm
  · rw [nodeChunk_length]; omega
  · rw [hsm, hlen]
  · rw [hb, ← hchunk]; rfl

/-- In the demo the first and third rows share one record. -/
example : (((acceptedRows [] (rowsOf demo)).map (fun m => joinByte 0x09 m.2)).foldl addNew []).length = 2 ∧
    ∀ f ∈ demo.fields, f ≠ gs "continent" → asciiLower f ≠ gs "continent" := by decide +kernel

/-! ## C22: crashes on arbitrary bytes -/

/-- C22 is false: the empty byte string makes opening panic (no length check before `data[0:4]`) ... -/
theorem C22_short_negation (dec : Bytes → Option MetaData) (bytes : Bytes) (h : bytes.length < 4) :
    newReaderFromBytes dec bytes = .panic := by
  unfold newReaderFromBytes; rw [if_pos h]

/-- ... and a file whose metadata gives a negative node count is accepted and then panics on every IPv6
address. -/
theorem C22_negative_count_negation : ∃ bytes q, newQuerier decMeta bytes = .ok q ∧
    q.Query (List.replicate 16 1) = .panic := by
  let md : MetaData := { build := 0, ipVersion := 2, languages := [(gs "CN", 0)], nodeCount := -1, totalSize := 0,
                         fields := [gs "a"], version := [], extra := [] }
  have h : (match newQuerier decMeta (intToBE32 (encMeta md).length ++ encMeta md) with
    | .ok q => decide (q.Query (List.replicate 16 1) = .panic)
    | _ => false) = true := by decide +kernel
  cases hq : newQuerier decMeta (intToBE32 (encMeta md).length ++ encMeta md) with
  | ok q => rw [hq] at h; exact ⟨_, q, hq, by simpa using h⟩
  | err e => rw [hq] at h; cases h
  | panic => rw [hq] at h; cases h

theorem decodeInfo_no_panic {r : Reader} {off : Int} (h0 : 0 ≤ off)
    (hc : ∀ i, r.continentOffset = some i → i < r.md.fields.length) (body : Bytes) : r.decodeInfo body off ≠ .panic := by
  unfold Reader.decodeInfo
  simp only []
  split
  · simp
  · rename_i hl
    rw [if_neg (by omega)]
    split
    · simp
    · rename_i i hi
      have hlen : (List.take r.md.fields.length (List.drop off.toNat (splitByte 9 body))).length = r.md.fields.length := by
        rw [List.length_take, List.length_drop]; omega
      rw [List.getElem?_eq_getElem (by rw [hlen]; exact hc i hi)]
      simp

/-- C22 for packed files: no address, of whatever length, makes a query panic. -/
theorem C22_packed {enc : MetaData → Bytes} {dec : Bytes → Option MetaData} {now : Int} {ipd : IpData}
    (h : RowsOK ipd) (hj : MetaRoundTrip enc dec (buildMeta now ipd.version ipd.fields)) :
    ∃ bytes, pack enc now ipd = .ok bytes ∧ (bytes.length < 2 ^ 32 →
      ∃ q, newQuerier dec bytes = .ok q ∧ ∀ a, q.Query a ≠ .panic) := by
  obtain ⟨bytes, h1, h2⟩ := opens h hj
  refine ⟨bytes, h1, fun hl => ?_⟩
  obtain ⟨r, _, h4, h5⟩ := h2 hl
  refine ⟨_, h4, fun a => ?_⟩
  have hco : ∀ i, r.continentOffset = some i → i < r.md.fields.length := by
    intro i hi
    rw [h5.continent] at hi
    rw [h5.fields_eq]
    have := Offset_some hi
    exact (List.getElem?_eq_some_iff.mp this).1
  have key : ∀ body mask, (r.decodeInfo body 0 >>= fun values => (.ok (buildInfo r.md.fields values {}, mask) : Res (IpInfo × Nat)))
      ≠ .panic := by
    intro body mask
    have := decodeInfo_no_panic (r := r) (off := 0) (by omega) hco body
    cases hd : r.decodeInfo body 0 with
    | ok v => simp
    | err e => simp
    | panic => exact absurd hd this
  by_cases hcov : ValidIP a ∧ Supports ipd.version a ∧ (rowOf (keptRows (rowsOf ipd)) (addrNum a)).isSome
  · obtain ⟨m, hm⟩ := Option.isSome_iff_exists.mp hcov.2.2
    obtain ⟨node, _, hf⟩ := h5.covered h hcov.1 hcov.2.1 hm
    rw [Query_find0 hf, h5.langs]
    exact key _ _
  · have hf := h5.uncovered (a := a) (by
      by_cases h1 : ValidIP a
      · by_cases h2 : Supports ipd.version a
        · right; right
          cases hr : rowOf (keptRows (rowsOf ipd)) (addrNum a) with
          | none => rfl
          | some m => exact absurd ⟨h1, h2, by rw [hr]; rfl⟩ hcov
        · exact .inr (.inl h2)
      · exact .inl h1)
    rw [Query_find0_err hf, h5.langs]
    exact key _ _

theorem readNode_ok {data : Bytes} {nc : Int} (hb : 8 * nc ≤ data.length) {node bit : Nat} (hn : (node : Int) < nc)
    (hbit : bit ≤ 1) : ∃ x, readNode data node bit = .ok x := by
  unfold readNode
  simp only []
  rw [if_neg (by omega)]
  exact ⟨_, rfl⟩

theorem readDepth_no_panic {data : Bytes} {nc : Int} (hb : 8 * nc ≤ data.length) {ip : Bytes} :
    ∀ (s node i : Nat), i + s ≤ (bits ip).length → ∃ x, readDepth data nc ip s node i = .ok x := by
  intro s
  induction s with
  | zero => intro node i _; exact ⟨_, rfl⟩
  | succ s ih =>
    intro node i h
    unfold readDepth
    split
    · exact ⟨_, rfl⟩
    · rename_i hn
      have hi : i < (bits ip).length := by omega
      rw [ipBit_lt (List.getElem?_eq_getElem hi), Res.ok_bind]
      obtain ⟨x, hx⟩ := readNode_ok hb (node := node) (bit := (bits ip)[i].toNat) (by omega) (by cases (bits ip)[i] <;> decide)
      rw [hx, Res.ok_bind]
      exact ih _ _ (by omega)

/-- C22 for opening: at least 4 bytes, and a metadata block whose node table fits in the file, never panic. -/
theorem C22_open (dec : Bytes → Option MetaData) (bytes : Bytes) (h4 : 4 ≤ bytes.length)
    (hm : ∀ b m, dec b = some m → 8 * m.nodeCount ≤ m.totalSize) : newQuerier dec bytes ≠ .panic := by
  unfold newQuerier newReaderFromBytes
  simp only []
  rw [if_neg (by omega)]
  split
  · simp
  · rename_i hl
    split
    · simp
    · rename_i m hdec
      have hmm := hm _ _ hdec
      split
      · simp
      · split
        · simp
        · rename_i hsz
          have hbl : 8 * m.nodeCount ≤ ((bytes.drop (4 + val (bytes.take 4))).length : Int) := by
            rw [List.length_drop]
            have : ((bytes.length : Nat) : Int) = 4 + (val (bytes.take 4) : Int) + m.totalSize := by omega
            omega
          split
          · rw [v4offsetLoop_eq _ _ _ _ _ rfl]
            obtain ⟨x, hx⟩ := readDepth_no_panic hbl (ip := v4InV6Prefix) 96 0 0 (by decide)
            rw [hx]
            simp only [Res.ok_bind]
            have hcache : ∃ c, initBitsCache (bytes.drop (4 + val (bytes.take 4))) m.nodeCount x.1 = .ok c := by
              apply mapM_ok
              intro i _
              obtain ⟨y, hy⟩ := readDepth_no_panic hbl (ip := indexToBytes i) 14 x.1 0 (by rw [bits_length]; simp [indexToBytes])
              exact ⟨_, by unfold cacheEntry; rw [hy]; rfl⟩
            obtain ⟨c, hc⟩ := hcache
            rw [hc]
            simp
          · simp

/-- A decoder meeting the hypothesis: one that rejects metadata whose node table cannot fit. -/
example : ∃ (dec : Bytes → Option MetaData), (∀ b m, dec b = some m → 8 * m.nodeCount ≤ m.totalSize) ∧
    dec (encMeta { buildMeta 0 demo.version demo.fields with nodeCount := 2, totalSize := 30 }) ≠ none := by
  refine ⟨fun b => (decMeta b).filter (fun m => decide (8 * m.nodeCount ≤ m.totalSize)), ?_, ?_⟩
  · intro b m h
    have := Option.filter_eq_some_iff.mp h
    simpa using this.2
  · simp [dec_encMeta]

end Uip.Ipdb
