import Verif.Props.Ipdb
/-!
# C17, C23: what a query answers when the lookup fails
-/
namespace Uip.Ipdb
open Uip Uip.Spec

theorem decodeInfo_nil_ok {r : Reader} (hf : r.md.fields ≠ []) (hc : r.continentOffset = Offset FieldContinentCode r.md.fields)
    {off : Int} {v : List Str} (h : r.decodeInfo [] off = .ok v) : r.md.fields.length = 1 ∧ v = [[]] := by
  have h1 : r.md.fields.length = 1 := by
    have : r.md.fields.length ≠ 0 := fun e => hf (List.length_eq_zero_iff.mp e)
    rcases Nat.lt_or_ge r.md.fields.length 2 with h2 | h2
    · omega
    · exact (decodeInfo_nil h2 h).elim
  refine ⟨h1, ?_⟩
  unfold Reader.decodeInfo at h
  dsimp only [splitByte] at h
  rw [h1] at h
  by_cases hgt : off + ((1 : Nat) : Int) > (([[]] : List Str).length : Int)
  · rw [if_pos hgt] at h; cases h
  rw [if_neg hgt] at h
  by_cases h0 : off < 0
  · rw [if_pos h0] at h; cases h
  rw [if_neg h0] at h
  have e0 : off = 0 := by simp only [List.length_cons, List.length_nil] at hgt; omega
  subst e0
  simp only [Int.toNat_zero, List.drop_zero, List.take_succ_cons, List.take_zero] at h
  cases ho : r.continentOffset with
  | none => rw [ho] at h; exact (Res.ok.inj h).symm
  | some i =>
    rw [ho] at h
    rw [hc] at ho
    have hi := (List.getElem?_eq_some_iff.mp (Offset_some ho)).1
    have : i = 0 := by omega
    subst this
    simp only [List.getElem?_cons_zero, List.set_cons_zero] at h
    rw [show continentName [] = [] by decide] at h
    exact (Res.ok.inj h).symm

theorem newReader_fields {dec : Bytes → Option MetaData} {data : Bytes} {r : Reader}
    (h : newReaderFromBytes dec data = .ok r) :
    r.md.fields ≠ [] ∧ r.continentOffset = Offset FieldContinentCode r.md.fields := by
  unfold newReaderFromBytes at h
  simp only [] at h
  split at h
  · cases h
  split at h
  · cases h
  split at h
  · cases h
  split at h
  · cases h
  split at h
  · cases h
  rename_i m _ h3 _
  have hne : m.fields ≠ [] := fun e => h3 (.inr (by rw [e]; rfl))
  split at h
  · simp only [Res.bind_eq_ok] at h
    obtain ⟨node, _, c, _, h⟩ := h
    cases h
    exact ⟨hne, rfl⟩
  · cases h
    exact ⟨hne, rfl⟩

/-- C17, for every database: an answer holds for the whole returned network, except the empty answer with mask 0
that a single-field database gives when the lookup fails. -/
theorem C17_exact {dec : Bytes → Option MetaData} {q : Querier} (h : Opened dec q)
    {a : IP} {info : IpInfo} {mask : Nat} (hq : q.Query a = .ok (info, mask)) :
    (∀ a', ValidIP a' → (To4 a).isSome = (To4 a').isSome → (famBits a).take mask = (famBits a').take mask →
      q.Query a' = .ok (info, mask)) ∨
    (q.r.md.fields.length = 1 ∧ info = {} ∧ mask = 0 ∧ ∃ e, q.r.find0 a = .err e) := by
  obtain ⟨hs, bytes, hr⟩ := h.sound
  have hcong : ∀ x, q.Query x = Querier.Query ⟨q.r, []⟩ x :=
    fun x => (Query_congr (q := ⟨q.r, []⟩) (q' := q) rfl (CacheSound_nil _) hs x)
  rw [hcong] at hq
  cases hf : q.r.find0 a with
  | panic =>
    unfold Querier.Query Querier.QueryInternal at hq
    simp only [hf] at hq
    cases hq
  | err e =>
    right
    rw [Query_find0_err hf] at hq
    split at hq
    · cases hq
    · rename_i off _
      rw [Res.bind_eq_ok] at hq
      obtain ⟨v, hv, hq⟩ := hq
      obtain ⟨hfl, rfl⟩ := decodeInfo_nil_ok (newReader_fields hr).1 (newReader_fields hr).2 hv
      simp only [Res.ok.injEq, Prod.mk.injEq] at hq
      obtain ⟨f, hfe⟩ := List.length_eq_one_iff.mp hfl
      rw [hfe, buildInfo_nil] at hq
      exact ⟨hfl, hq.1.symm, hq.2.symm, e, rfl⟩
  | ok x =>
    left
    intro a' ha' hfam hbits
    rw [hcong]
    obtain ⟨n, body, m⟩ := x
    rw [Query_find0 hf] at hq
    split at hq
    · cases hq
    · rename_i off hoff
      simp only [Res.bind_eq_ok, Res.ok.injEq, Prod.mk.injEq] at hq
      obtain ⟨values, h3, h4, h5⟩ := hq
      subst h5
      rw [Query_find0 (find0_congr (newReader_cacheOK hr) ha' hfam hf hbits), hoff]
      simp only [h3, Res.ok_bind, h4]

/-- C13, for every number of fields: the answer for an address no row covers, of an undeclared family or of a wrong
length is ErrDatabaseError, or, in a database of one field, the empty record with mask 0. -/
theorem C13_exact {enc : MetaData → Bytes} {dec : Bytes → Option MetaData} {now : Int} {ipd : IpData}
    (h : RowsOK ipd) (hj : MetaRoundTrip enc dec (buildMeta now ipd.version ipd.fields)) :
    ∃ bytes, pack enc now ipd = .ok bytes ∧ (bytes.length < 2 ^ 32 →
      ∃ q, newQuerier dec bytes = .ok q ∧
        ∀ a, (¬ ValidIP a ∨ ¬ Supports ipd.version a ∨ ∀ row ∈ ipd.ips, ¬ Covers row.cidr (addrNum a)) →
          q.Query a = if ipd.fields.length = 1 then .ok ({}, 0) else .err .databaseError) := by
  by_cases h1 : ipd.fields.length = 1
  · simp only [h1, if_true]
    exact C13_single_field_negation h h1 hj
  · simp only [h1, if_false]
    have := h.fields
    exact C13_uncovered h (by
      have : ipd.fields.length ≠ 0 := fun e => h.fields (List.length_eq_zero_iff.mp e)
      omega) hj

/-- C23 is false of every packed file: whatever address is asked for, the only error a query ever reports is
ErrDatabaseError. -/
theorem C23_query_never {enc : MetaData → Bytes} {dec : Bytes → Option MetaData} {now : Int} {ipd : IpData}
    (h : RowsOK ipd) (hj : MetaRoundTrip enc dec (buildMeta now ipd.version ipd.fields)) :
    ∃ bytes, pack enc now ipd = .ok bytes ∧ (bytes.length < 2 ^ 32 →
      ∃ q, newQuerier dec bytes = .ok q ∧ ∀ a e, q.Query a = .err e → e = .databaseError) := by
  obtain ⟨bytes, h1, h2⟩ := opens h hj
  refine ⟨bytes, h1, fun hl => ?_⟩
  obtain ⟨r, _, h4, h5⟩ := h2 hl
  refine ⟨_, h4, fun a e hq => ?_⟩
  have key : ∀ body mask, (r.decodeInfo body 0 >>= fun values => (.ok (buildInfo r.md.fields values {}, mask) : Res (IpInfo × Nat)))
      = .err e → e = .databaseError := by
    intro body mask hk
    cases hd : r.decodeInfo body 0 with
    | ok v => rw [hd] at hk; cases hk
    | panic => rw [hd] at hk; cases hk
    | err e' =>
      rw [hd] at hk
      cases hk
      unfold Reader.decodeInfo at hd
      simp only [] at hd
      split at hd
      · cases hd; rfl
      · split at hd
        · cases hd
        · split at hd
          · cases hd
          · split at hd <;> cases hd
  cases hf : r.find0 a with
  | panic =>
    unfold Querier.Query Querier.QueryInternal at hq
    simp only [hf] at hq
    cases hq
  | ok x =>
    obtain ⟨n, b, m⟩ := x
    rw [Query_find0 hf, h5.langs] at hq
    exact key _ _ hq
  | err e' =>
    rw [Query_find0_err hf, h5.langs] at hq
    exact key _ _ hq

/-- Both sides of `C17_exact` occur on the one-field file: 1.0.0.0 has an answer for the whole of 1.0.0.0/8, and
9.9.9.9 gets the empty one; `C23_query_never` applies to the same file. -/
example : ∃ bytes q, pack encMeta 0 demo1 = .ok bytes ∧ newQuerier decMeta bytes = .ok q ∧ Opened decMeta q ∧
    q.Query [1, 0, 0, 0] = .ok ({ city := gs "北京" }, 8) ∧ q.Query [9, 9, 9, 9] = .ok ({}, 0) := by
  obtain ⟨bytes, q, h1, h2, h3, h4⟩ := C17_single_field_negation
  exact ⟨bytes, q, h1, h2, .new h2, h4, h3⟩

end Uip.Ipdb
