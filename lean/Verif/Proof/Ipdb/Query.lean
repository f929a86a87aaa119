import Verif.Proof.Ipdb.Info
import Verif.Model.Query
/-!
# Queries on packed files, caches
-/
namespace Uip.Ipdb
open Uip Uip.Spec

/-- The metadata survives `json.Marshal` followed by `json.Unmarshal`, whatever the node count and the
size, as long as both fit 32 bits. -/
def MetaRoundTrip (enc : MetaData → Bytes) (dec : Bytes → Option MetaData) (md : MetaData) : Prop :=
  ∀ N S : Nat, N < 2 ^ 32 → S < 2 ^ 32 →
    dec (enc { md with nodeCount := N, totalSize := S }) = some { md with nodeCount := N, totalSize := S }

theorem HasIPv4_iff (now : Int) (v : VersionInfo) (fs : List Str) (N S : Int) :
    ({ buildMeta now v fs with nodeCount := N, totalSize := S } : MetaData).HasIPv4 = true ↔ v.ipType ≠ IpV6 := by
  unfold MetaData.HasIPv4 buildMeta ipVersion
  dsimp only
  split
  · rename_i h; rw [h]; simp [IpV4, IpV6]
  · split
    · rename_i h; rw [h]; simp
    · rename_i h; simp [h]

theorem HasIPv6_iff (now : Int) (v : VersionInfo) (fs : List Str) (N S : Int) :
    ({ buildMeta now v fs with nodeCount := N, totalSize := S } : MetaData).HasIPv6 = true ↔ v.ipType ≠ IpV4 := by
  unfold MetaData.HasIPv6 buildMeta ipVersion
  dsimp only
  split
  · rename_i h; rw [h]; simp
  · split
    · rename_i h; rw [h]; simp [IpV4, IpV6]
    · rename_i h _; simp [h]

/-- What a query answers when the lookup succeeds and nothing is cached. -/
theorem Query_find0 {r : Reader} {a : IP} {node mask : Nat} {body : Bytes} (h : r.find0 a = .ok (node, body, mask)) :
    Querier.Query ⟨r, []⟩ a = (match mapGet r.md.languages (gs "CN") with
      | none => .err .noSupportLanguage
      | some off => r.decodeInfo body off >>= fun values => .ok (buildInfo r.md.fields values {}, mask)) := by
  unfold Querier.Query Querier.QueryInternal
  simp only [h, cacheGet, ite_true]
  cases mapGet r.md.languages (gs "CN") with
  | none => rfl
  | some off => simp only []; cases r.decodeInfo body off <;> rfl

theorem Query_find0_err {r : Reader} {a : IP} {e : Err} (h : r.find0 a = .err e) :
    Querier.Query ⟨r, []⟩ a = (match mapGet r.md.languages (gs "CN") with
      | none => .err .noSupportLanguage
      | some off => r.decodeInfo [] off >>= fun values => .ok (buildInfo r.md.fields values {}, 0)) := by
  unfold Querier.Query Querier.QueryInternal
  simp only [h, cacheGet, ite_true]
  cases mapGet r.md.languages (gs "CN") with
  | none => rfl
  | some off => simp only []; cases r.decodeInfo [] off <;> rfl

section packed
variable {now : Int} {ipd : IpData} {r : Reader}

theorem Written.langs (h : Written now ipd r) : mapGet r.md.languages (gs "CN") = some 0 := by
  obtain ⟨N, S, e⟩ := h.md; rw [e]; rfl

theorem Written.fields_eq (h : Written now ipd r) : r.md.fields = covertFields ipd.fields := by
  obtain ⟨N, S, e⟩ := h.md; rw [e]; rfl

theorem Written.has4 (h : Written now ipd r) : r.md.HasIPv4 = true ↔ ipd.version.ipType ≠ IpV6 := by
  obtain ⟨N, S, e⟩ := h.md; rw [e]; exact HasIPv4_iff ..

theorem Written.has6 (h : Written now ipd r) : r.md.HasIPv6 = true ↔ ipd.version.ipType ≠ IpV4 := by
  obtain ⟨N, S, e⟩ := h.md; rw [e]; exact HasIPv6_iff ..

theorem Written.covered (h : Written now ipd r) (hok : RowsOK ipd) {a : IP} (ha : ValidIP a)
    (hs : Supports ipd.version a) {m : IPNet × List Str} (hm : rowOf (keptRows (rowsOf ipd)) (addrNum a) = some m) :
    ∃ node, 0 < node ∧ r.find0 a = .ok (node, storedRec ipd.fields m.2, maskFor m.1 a) := by
  obtain ⟨nodeOf, hpos, hf⟩ := h.find
  have h4 : (To4 a).isSome → r.md.HasIPv4 = true := by
    intro h4; rw [h.has4]; unfold Supports at hs; rwa [if_pos h4] at hs
  have h6 : (To4 a).isSome = false → r.md.HasIPv6 = true := by
    intro h6; rw [h.has6]; unfold Supports at hs; rwa [if_neg (by simp [h6])] at hs
  have hwf := (keptRows_spec (rows := rowsOf ipd) (by
    intro m hm
    unfold rowsOf at hm
    rw [List.mem_map] at hm
    obtain ⟨x, hx, rfl⟩ := hm
    exact hok.wf x hx)).2
  have hmem : m ∈ keptRows (rowsOf ipd) := List.mem_of_find?_eq_some hm
  have hl := prefix128_length (hwf m hmem).1
  refine ⟨nodeOf (storedRec ipd.fields m.2), hpos _, ?_⟩
  rw [(hf a ha h4 h6).1 m hm]
  unfold maskFor
  congr 3
  split <;> omega

theorem Written.uncovered (h : Written now ipd r) {a : IP}
    (hs : ¬ ValidIP a ∨ ¬ Supports ipd.version a ∨ rowOf (keptRows (rowsOf ipd)) (addrNum a) = none) :
    r.find0 a = .err (if ¬ ValidIP a then .ipFormat else if Supports ipd.version a then .dataNotExists
      else if (To4 a).isSome then .noSupportIPv4 else .noSupportIPv6) := by
  obtain ⟨nodeOf, hpos, hf⟩ := h.find
  by_cases hv : ValidIP a
  · rw [if_neg (by simpa using hv)]
    by_cases hsup : Supports ipd.version a
    · rw [if_pos hsup]
      have h4 : (To4 a).isSome → r.md.HasIPv4 = true := by
        intro h4; rw [h.has4]; unfold Supports at hsup; rwa [if_pos h4] at hsup
      have h6 : (To4 a).isSome = false → r.md.HasIPv6 = true := by
        intro h6; rw [h.has6]; unfold Supports at hsup; rwa [if_neg (by simp [h6])] at hsup
      apply (hf a hv h4 h6).2
      rcases hs with h1 | h1 | h1
      · exact absurd hv h1
      · exact absurd hsup h1
      · exact h1
    · rw [if_neg hsup]
      unfold Supports at hsup
      unfold Reader.find0
      cases h4 : To4 a with
      | some b =>
        have : r.md.HasIPv4 = false := by
          rw [← Bool.not_eq_true, h.has4]; simpa [h4] using hsup
        simp [this]
      | none =>
        have : r.md.HasIPv6 = false := by
          rw [← Bool.not_eq_true, h.has6]; simpa [h4] using hsup
        rw [To16_16 (To4_none_length hv h4)]
        simp [this]
  · rw [if_pos hv]
    have hl : ¬ a.length = 4 ∧ ¬ a.length = 16 := by unfold ValidIP at hv; omega
    unfold Reader.find0 To4 To16
    simp [hl.1, hl.2]

theorem Written.rowValues (hok : RowsOK ipd) {a : IP} {m : IPNet × List Str}
    (hm : rowOf (keptRows (rowsOf ipd)) (addrNum a) = some m) : ∃ row ∈ ipd.ips, m = (row.cidr, row.values) := by
  have hwf := (keptRows_spec (rows := rowsOf ipd) (by
    intro m hm
    unfold rowsOf at hm
    rw [List.mem_map] at hm
    obtain ⟨x, hx, rfl⟩ := hm
    exact hok.wf x hx)).2
  have h2 := (hwf m (List.mem_of_find?_eq_some hm)).2
  unfold rowsOf at h2
  rw [List.mem_map] at h2
  obtain ⟨row, h3, h4⟩ := h2
  exact ⟨row, h3, h4.symm⟩

theorem Written.query_covered (h : Written now ipd r) (hok : RowsOK ipd) (hval : ValuesOK ipd) {a : IP} (ha : ValidIP a)
    (hs : Supports ipd.version a) {m : IPNet × List Str} (hm : rowOf (keptRows (rowsOf ipd)) (addrNum a) = some m) :
    Querier.Query ⟨r, []⟩ a = .ok (infoOf ipd.fields m.2, maskFor m.1 a) := by
  obtain ⟨node, _, hf⟩ := h.covered hok ha hs hm
  obtain ⟨row, hrow, rfl⟩ := Written.rowValues hok hm
  rw [Query_find0 hf, h.langs]
  simp only []
  rw [decodeInfo_stored h.fields_eq h.continent (hok.len row hrow) hok.fields (hval.noTab row hrow), Res.ok_bind,
    h.fields_eq, buildInfo_decoded hval.continent (hok.len row hrow)]

theorem buildInfo_nil (f : Str) : buildInfo [f] [[]] {} = {} := by
  simp only [buildInfo, setAttr]
  repeat' split
  all_goals rfl

/-- A failed lookup: the error is lost; with two or more fields the caller sees a database error, with one
field an empty record. -/
theorem Written.query_uncovered (h : Written now ipd r) {a : IP} {e : Err} (hf : r.find0 a = .err e) :
    (2 ≤ ipd.fields.length → Querier.Query ⟨r, []⟩ a = .err .databaseError) ∧
    (ipd.fields.length = 1 → Querier.Query ⟨r, []⟩ a = .ok ({}, 0)) := by
  rw [Query_find0_err hf, h.langs]
  have hl : r.md.fields.length = ipd.fields.length := by rw [h.fields_eq, covertFields_length]
  constructor
  · intro h2
    unfold Reader.decodeInfo
    simp only [splitByte, hl]
    rw [if_pos (by simp; omega)]
    rfl
  · intro h1
    obtain ⟨f, hfe⟩ := List.length_eq_one_iff.mp (hl.trans h1)
    unfold Reader.decodeInfo
    simp only [splitByte, hl, h1]
    rw [if_neg (by simp), if_neg (by omega)]
    simp only [Int.toNat_zero, List.drop_zero, List.take_succ_cons, List.take_zero]
    rw [h.continent]
    cases ho : Offset FieldContinentCode (covertFields ipd.fields) with
    | none => simp only [Res.ok_bind, hfe, buildInfo_nil]
    | some i =>
      have hi := Offset_some ho
      rw [← h.fields_eq, hfe] at hi
      cases i with
      | succ i => simp at hi
      | zero =>
        simp only [List.getElem?_cons_zero, List.set_cons_zero, Res.ok_bind, hfe]
        rw [show continentName [] = [] by decide, buildInfo_nil]

end packed

/-! ## Caching -/

theorem search_gt {r : Reader} {ip : IP} {bc n i : Nat} (h : r.search ip bc = .ok (n, i)) : (n : Int) > r.nodeCount := by
  unfold Reader.search at h
  simp only [Res.bind_eq_ok] at h
  obtain ⟨⟨n0, i0⟩, h1, h⟩ := h
  simp only [] at h
  split at h
  · rename_i hc
    simp only [Res.pure_eq, Res.ok.injEq, Prod.mk.injEq] at h
    rw [← h.1]; exact hc.2.2
  · simp only [Res.bind_eq_ok] at h
    obtain ⟨⟨n1, i1⟩, h2, h⟩ := h
    simp only [] at h
    split at h
    · simp only [Res.pure_eq, Res.ok.injEq, Prod.mk.injEq] at h
      rw [← h.1]; assumption
    · cases h

/-- A successful lookup's node is positive and determines the record. -/
theorem find0_node {r : Reader} {a : IP} {n m : Nat} {body : Bytes} (h : r.find0 a = .ok (n, body, m)) :
    r.resolve n = .ok body ∧ 0 < n := by
  have key : ∀ ip bc, (r.search ip bc >>= fun p => r.resolve p.1 >>= fun b => .ok (p.1, b, p.2)) = .ok (n, body, m) →
      r.resolve n = .ok body ∧ 0 < n := by
    intro ip bc h
    simp only [Res.bind_eq_ok] at h
    obtain ⟨⟨n', m'⟩, h1, b, h2, h3⟩ := h
    simp only [Res.ok.injEq, Prod.mk.injEq] at h3
    obtain ⟨rfl, rfl, rfl⟩ := h3
    refine ⟨h2, ?_⟩
    have hg := search_gt h1
    rcases Nat.eq_zero_or_pos n' with rfl | hp
    · exfalso
      unfold Reader.resolve at h2
      simp only [] at h2
      split at h2
      · cases h2
      · rw [if_pos (by left; simp at hg ⊢; omega)] at h2
        cases h2
    · exact hp
  unfold Reader.find0 at h
  split at h
  · split at h
    · cases h
    · exact key _ _ h
  · split at h
    · split at h
      · cases h
      · exact key _ _ h
    · cases h

/-- Every cached entry is what an uncached query of an address with that node would build. -/
def CacheSound (q : Querier) : Prop :=
  ∀ node info, cacheGet q.queryCache node = some info →
    ∃ body off values, (r_resolve q.r node = .ok body) ∧ mapGet q.r.md.languages (gs "CN") = some off ∧
      q.r.decodeInfo body off = .ok values ∧ info = buildInfo q.r.md.fields values {}
where
  /-- the record behind a node; node 0 stands for a failed lookup -/
  r_resolve (r : Reader) (node : Nat) : Res Bytes := if node = 0 then .ok [] else r.resolve node

theorem QueryInternal_eq (q : Querier) (a : IP) (hs : CacheSound q) (b : Bool) :
    q.QueryInternal a b = Querier.QueryInternal ⟨q.r, []⟩ a false := by
  unfold Querier.QueryInternal
  have key : ∀ node body mask, CacheSound.r_resolve q.r node = .ok body →
      (match (if b then cacheGet q.queryCache node else none) with
        | some v => (.ok (node, v, mask) : Res (Nat × IpInfo × Nat))
        | none => match mapGet q.r.md.languages (gs "CN") with
          | none => .err .noSupportLanguage
          | some off => do
            let values ← q.r.decodeInfo body off
            return (node, buildInfo q.r.md.fields values {}, mask)) =
      (match mapGet q.r.md.languages (gs "CN") with
          | none => .err .noSupportLanguage
          | some off => do
            let values ← q.r.decodeInfo body off
            return (node, buildInfo q.r.md.fields values {}, mask)) := by
    intro node body mask hb
    cases hg : (if b then cacheGet q.queryCache node else none) with
    | none => rfl
    | some v =>
      cases b with
      | false => cases hg
      | true =>
        obtain ⟨body', off, values, h1, h2, h3, h4⟩ := hs node v hg
        rw [hb] at h1; cases h1
        simp only [h2, h3, Res.ok_bind, Res.pure_eq, h4]
  cases hf : q.r.find0 a with
  | panic => rfl
  | err e => exact key 0 [] 0 rfl
  | ok x =>
    obtain ⟨node, body, mask⟩ := x
    apply key
    have := find0_node hf
    unfold CacheSound.r_resolve
    rw [if_neg (by omega)]; exact this.1

theorem QueryInternal_node {q : Querier} {a : IP} {node mask : Nat} {info : IpInfo}
    (h : Querier.QueryInternal ⟨q.r, []⟩ a false = .ok (node, info, mask)) :
    ∃ body off values, CacheSound.r_resolve q.r node = .ok body ∧ mapGet q.r.md.languages (gs "CN") = some off ∧
      q.r.decodeInfo body off = .ok values ∧ info = buildInfo q.r.md.fields values {} := by
  unfold Querier.QueryInternal at h
  cases hf : q.r.find0 a with
  | panic => rw [hf] at h; cases h
  | err e =>
    simp only [hf, Bool.false_eq_true, if_false] at h
    cases hl : mapGet q.r.md.languages (gs "CN") with
    | none => rw [hl] at h; cases h
    | some off =>
      simp only [hl, Res.bind_eq_ok, Res.pure_eq, Res.ok.injEq, Prod.mk.injEq] at h
      obtain ⟨values, h1, rfl, rfl, rfl⟩ := h
      exact ⟨[], off, values, rfl, rfl, h1, rfl⟩
  | ok x =>
    obtain ⟨node', body, mask'⟩ := x
    simp only [hf, Bool.false_eq_true, if_false] at h
    cases hl : mapGet q.r.md.languages (gs "CN") with
    | none => rw [hl] at h; cases h
    | some off =>
      simp only [hl, Res.bind_eq_ok, Res.pure_eq, Res.ok.injEq, Prod.mk.injEq] at h
      obtain ⟨values, h1, rfl, rfl, rfl⟩ := h
      have := find0_node hf
      refine ⟨body, off, values, ?_, rfl, h1, rfl⟩
      unfold CacheSound.r_resolve
      rw [if_neg (by omega)]; exact this.1

theorem CacheSound.step {q : Querier} (hs : CacheSound q) {a : IP} {node mask : Nat} {info : IpInfo}
    (h : q.QueryInternal a false = .ok (node, info, mask)) :
    CacheSound { q with queryCache := (node, info) :: q.queryCache } := by
  rw [QueryInternal_eq q a hs] at h
  intro n i hg
  simp only [cacheGet] at hg
  split at hg
  · rename_i hn
    cases hg
    subst hn
    exact QueryInternal_node h
  · exact hs n i hg

theorem BuildCache_spec : ∀ (ips : List IP) (q : Querier), CacheSound q →
    (∀ q', q.BuildCache ips = .ok q' → q'.r = q.r ∧ CacheSound q') ∧
    (q.BuildCache ips = .panic → ∃ a ∈ ips, q.Query a = .panic) ∧ (∀ e, q.BuildCache ips ≠ .err e) := by
  intro ips
  induction ips with
  | nil => intro q hs
           refine ⟨?_, (by intro h; cases h), (by intro e h; cases h)⟩
           intro q' h; cases h; exact ⟨rfl, hs⟩
  | cons a ips ih =>
    intro q hs
    unfold Querier.BuildCache
    cases hq : q.QueryInternal a false with
    | panic =>
      refine ⟨(by intro q' h; cases h), ?_, (by intro e h; cases h)⟩
      intro _
      refine ⟨a, by simp, ?_⟩
      unfold Querier.Query
      rw [QueryInternal_eq q a hs, ← QueryInternal_eq q a hs false, hq]; rfl
    | err e =>
      obtain ⟨h1, h2, h3⟩ := ih q hs
      exact ⟨h1, fun h => by obtain ⟨b, hb, hb'⟩ := h2 h; exact ⟨b, by simp [hb], hb'⟩, h3⟩
    | ok x =>
      obtain ⟨node, info, mask⟩ := x
      have hs' := hs.step hq
      obtain ⟨h1, h2, h3⟩ := ih _ hs'
      refine ⟨h1, fun h => ?_, h3⟩
      obtain ⟨b, hb, hb'⟩ := h2 h
      refine ⟨b, by simp [hb], ?_⟩
      unfold Querier.Query at hb' ⊢
      rw [QueryInternal_eq _ b hs'] at hb'
      rw [QueryInternal_eq _ b hs]; exact hb'

theorem Query_congr {q q' : Querier} (hr : q'.r = q.r) (hs : CacheSound q) (hs' : CacheSound q') (a : IP) :
    q'.Query a = q.Query a := by
  unfold Querier.Query
  rw [QueryInternal_eq q a hs, QueryInternal_eq q' a hs', hr]

theorem CacheSound_nil (r : Reader) : CacheSound ⟨r, []⟩ := by
  intro n i h; cases h

/-! ## Plain lookups of accepted files -/

theorem readDepth_prefix {data : Bytes} {nc : Int} {ip ip' : Bytes} : ∀ (s node i n' i' : Nat),
    readDepth data nc ip s node i = .ok (n', i') →
    (∀ j, i ≤ j → j < i' → ipBit ip j = ipBit ip' j) →
    ((n' : Int) ≥ nc) →
    readDepth data nc ip' s node i = .ok (n', i') := by
  intro s
  induction s with
  | zero => intro node i n' i' h _ _; exact h
  | succ s ih =>
    intro node i n' i' h hb hn
    unfold readDepth at h ⊢
    split
    · rename_i hc; rw [if_pos hc] at h; exact h
    · rename_i hc
      rw [if_neg hc] at h
      simp only [Res.bind_eq_ok] at h
      obtain ⟨bit, h1, node', h2, h3⟩ := h
      have hi := readDepth_bounds _ _ _ _ _ h3
      rw [← hb i (Nat.le_refl i) (by omega), h1, Res.ok_bind, h2, Res.ok_bind]
      exact ih _ _ _ _ h3 (fun j hj hj' => hb j (by omega) hj') hn

theorem ipBit_eq_of_bits {a b : IP} {m j : Nat} (h : (bits a).take m = (bits b).take m)
    (hj : j < m) : ipBit a j = ipBit b j := by
  have hka : (bits a)[j]? = (bits b)[j]? := by
    have := congrArg (fun l => l[j]?) h
    simpa [List.getElem?_take, hj] using this
  rw [ipBit_eq, ipBit_eq, hka]

end Uip.Ipdb
