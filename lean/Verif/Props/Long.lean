import Verif.Props.Size
/-!
# Property C86: rows whose values are longer than 65535 bytes
-/
namespace Uip.Ipdb
open Uip Uip.Spec

/-- What is left of a row of values, written one after the other with one separator between two, when only its first `k`
bytes are kept: the values before are whole, the last one is cut; nothing if a separator is missing. -/
def cutRow : List Str → Nat → Option (List Str)
  | [], _ => some []
  | [x], k => some [x.take k]
  | x :: y :: r, k => if k ≤ x.length then none else (cutRow (y :: r) (k - x.length - 1)).map (x :: ·)

theorem cutRow_some : ∀ {vs : List Str} {k : Nat} {vs' : List Str}, cutRow vs k = some vs' →
    (joinByte 0x09 vs).take k = joinByte 0x09 vs' ∧ vs'.length = vs.length ∧
      ((∀ v ∈ vs, (0x09 : UInt8) ∉ v) → ∀ v ∈ vs', (0x09 : UInt8) ∉ v)
  | [], k, vs', h => by
    simp only [cutRow, Option.some.injEq] at h; subst h; simp [joinByte]
  | [x], k, vs', h => by
    simp only [cutRow, Option.some.injEq] at h; subst h
    refine ⟨rfl, rfl, fun hv v hm => ?_⟩
    rw [List.mem_singleton] at hm; subst hm
    exact fun hc => hv x (by simp) (List.mem_of_mem_take hc)
  | x :: y :: r, k, vs', h => by
    unfold cutRow at h
    split at h
    · cases h
    · rename_i hk
      obtain ⟨l, hl, rfl⟩ := Option.map_eq_some_iff.mp h
      obtain ⟨h1, h2, h3⟩ := cutRow_some hl
      match l, h2 with
      | z :: l, h2 =>
        refine ⟨?_, by simpa using h2, fun hv v hm => ?_⟩
        · simp only [joinByte]
          rw [← h1, List.take_append, List.take_of_length_le (by omega)]
          congr 1
          rw [show k - x.length = (k - x.length - 1) + 1 by omega, List.take_succ_cons]
          rfl
        · rcases List.mem_cons.mp hm with rfl | hm
          · exact hv _ (by simp)
          · exact h3 (fun v hv' => hv v (List.mem_cons_of_mem _ hv')) v hm

theorem splitByte_length (c : UInt8) (s : Str) : (splitByte c s).length = s.count c + 1 := by
  induction s with
  | nil => rfl
  | cons b s ih =>
    unfold splitByte
    by_cases h : b = c
    · subst h; rw [if_pos rfl, List.length_cons, ih, List.count_cons_self]
    · rw [if_neg h, List.count_cons_of_ne h]
      cases hs : splitByte c s with
      | nil => rw [hs] at ih; simp at ih
      | cons f fs => rw [hs] at ih; simpa using ih

theorem cutRow_none : ∀ {vs : List Str} {k : Nat}, cutRow vs k = none → (∀ v ∈ vs, (0x09 : UInt8) ∉ v) →
    (splitByte 0x09 ((joinByte 0x09 vs).take k)).length < vs.length
  | [], k, h, _ => by simp [cutRow] at h
  | [x], k, h, _ => by simp [cutRow] at h
  | x :: y :: r, k, h, hv => by
    rw [splitByte_length]
    have hx : x.count 0x09 = 0 := List.count_eq_zero.mpr (hv x (by simp))
    unfold cutRow at h
    split at h
    · rename_i hk
      simp only [joinByte]
      rw [List.take_append_of_le_length hk]
      have : (x.take k).count 0x09 ≤ x.count 0x09 := (List.take_sublist _ _).count_le _
      simp only [List.length_cons]; omega
    · rename_i hk
      have h' : cutRow (y :: r) (k - x.length - 1) = none := by
        cases hc : cutRow (y :: r) (k - x.length - 1) with
        | none => rfl
        | some l => rw [hc] at h; cases h
      have ih := cutRow_none h' (fun v hv' => hv v (List.mem_cons_of_mem _ hv'))
      rw [splitByte_length] at ih
      simp only [joinByte]
      rw [List.take_append, List.take_of_length_le (by omega), show k - x.length = (k - x.length - 1) + 1 by omega,
        List.take_succ_cons, List.count_append, List.count_cons_self, hx]
      simp only [List.length_cons] at ih ⊢
      omega

/-- **C86 (what happens).** A table is packed and opened whatever the length of its values.  The two bytes for the length of a
record hold it modulo 65536, and Query answers for an address from that many bytes of the row: its values if the row has at
most 65535 bytes; otherwise the leading values that are left, the last one cut, or an error if a separator is lost. -/
theorem C86_long_exact {enc : MetaData → Bytes} {dec : Bytes → Option MetaData} {now : Int} {ipd : IpData}
    (h : RowsWF ipd) (hval : ValuesOK ipd) (hd : DisjointRows (rowsOf ipd))
    (hc : ∀ f ∈ ipd.fields, f ≠ gs "continent" → asciiLower f ≠ gs "continent")
    (hj : MetaRoundTrip enc dec (buildMeta now ipd.version ipd.fields)) :
    ∃ bytes, pack enc now ipd = .ok bytes ∧ (bytes.length < 2 ^ 32 →
      ∃ q, newQuerier dec bytes = .ok q ∧ ∀ a row, ValidIP a → Supports ipd.version a → row ∈ ipd.ips →
        Covers row.cidr (addrNum a) →
        q.Query a = match cutRow row.values ((joinByte 0x09 row.values).length % 65536) with
          | some vs => .ok (infoOf ipd.fields vs, maskFor row.cidr a)
          | none => .err .databaseError) := by
  obtain ⟨bytes, h1, h2⟩ := pack_written_long h hj
  refine ⟨bytes, h1, fun hl => ?_⟩
  obtain ⟨r, h3, h4⟩ := h2 hl
  refine ⟨⟨r, []⟩, by unfold newQuerier; rw [h3]; rfl, fun a row hv hs hr hcov => ?_⟩
  obtain ⟨N, S, hmd⟩ := h4.md
  have hlang : mapGet r.md.languages (gs "CN") = some 0 := by rw [hmd]; rfl
  have hfe : r.md.fields = covertFields ipd.fields := by rw [hmd]; rfl
  obtain ⟨nodeOf, hpos, hf⟩ := h4.find
  have hm := rowOf_disjoint_wf h hd hr hcov
  have hfind := (hf a hv (by
    intro h4; rw [hmd, HasIPv4_iff]; unfold Supports at hs; rwa [if_pos h4] at hs) (by
    intro h6; rw [hmd, HasIPv6_iff]; unfold Supports at hs; rwa [if_neg (by simp [h6])] at hs)).1 _ hm
  have hmask : (prefix128 row.cidr).length - (if (To4 a).isSome then 96 else 0) = maskFor row.cidr a := by
    have hl := prefix128_length (h.wf row hr)
    unfold maskFor
    split <;> omega
  simp only [storedRec_plain hc, hmask] at hfind
  rw [Query_find0 hfind, hlang]
  simp only []
  cases hcut : cutRow row.values ((joinByte 0x09 row.values).length % 65536) with
  | some vs =>
    obtain ⟨e1, e2, e3⟩ := cutRow_some hcut
    rw [e1, ← storedRec_plain hc, decodeInfo_stored hfe h4.continent (e2.trans (h.len row hr)) h.fields (e3 (hval.noTab row hr)),
      Res.ok_bind, hfe, buildInfo_decoded hval.continent (e2.trans (h.len row hr))]
  | none =>
    have hlt := cutRow_none hcut (hval.noTab row hr)
    unfold Reader.decodeInfo
    rw [if_pos (by rw [hfe, covertFields_length, ← h.len row hr]; omega)]
    rfl

/-- A row of at most 65535 bytes is answered unchanged. -/
theorem cutRow_all : ∀ (vs : List Str) (k : Nat), (joinByte 0x09 vs).length ≤ k → cutRow vs k = some vs
  | [], _, _ => rfl
  | [x], k, h => by unfold cutRow; rw [List.take_of_length_le (show x.length ≤ k from h)]
  | x :: y :: r, k, h => by
    simp only [joinByte, List.length_append, List.length_cons] at h
    unfold cutRow
    rw [if_neg (by omega), cutRow_all (y :: r) _ (by omega)]
    rfl

/-- **C86 (what holds).** Rows of at most 65535 bytes, separators included, are answered with all their values, whatever the
length of the other rows. -/
theorem C86_short {enc : MetaData → Bytes} {dec : Bytes → Option MetaData} {now : Int} {ipd : IpData}
    (h : RowsWF ipd) (hval : ValuesOK ipd) (hd : DisjointRows (rowsOf ipd))
    (hc : ∀ f ∈ ipd.fields, f ≠ gs "continent" → asciiLower f ≠ gs "continent")
    (hj : MetaRoundTrip enc dec (buildMeta now ipd.version ipd.fields)) :
    ∃ bytes, pack enc now ipd = .ok bytes ∧ (bytes.length < 2 ^ 32 →
      ∃ q, newQuerier dec bytes = .ok q ∧ ∀ a row, ValidIP a → Supports ipd.version a → row ∈ ipd.ips →
        Covers row.cidr (addrNum a) → (joinByte 0x09 row.values).length < 65536 →
        q.Query a = .ok (infoOf ipd.fields row.values, maskFor row.cidr a)) := by
  obtain ⟨bytes, h1, h2⟩ := C86_long_exact h hval hd hc hj
  refine ⟨bytes, h1, fun hl => ?_⟩
  obtain ⟨q, h3, h4⟩ := h2 hl
  refine ⟨q, h3, fun a row hv hs hr hcov hlt => ?_⟩
  rw [h4 a row hv hs hr hcov, Nat.mod_eq_of_lt hlt, cutRow_all _ _ (Nat.le_refl _)]

/-- **C86 is false**: a row with a single value of 65536 bytes or more is accepted, and Query answers only the first bytes of
the value (as many as its length modulo 65536), without an error. -/
theorem C86_long_negation {enc : MetaData → Bytes} {dec : Bytes → Option MetaData} {now : Int} (n : IPNet) (hn : WFNet n)
    (hh : hostBits n < 128) (v : Str) (hv : (0x09 : UInt8) ∉ v) (hl : 65536 ≤ v.length) (version : VersionInfo)
    (hj : MetaRoundTrip enc dec (buildMeta now version [fCountry])) :
    ∃ bytes, pack enc now ⟨[fCountry], version, [⟨n, [v]⟩]⟩ = .ok bytes ∧ (bytes.length < 2 ^ 32 →
      ∃ q, newQuerier dec bytes = .ok q ∧ ∀ a, ValidIP a → Supports version a → Covers n (addrNum a) →
        q.Query a = .ok ({ country := v.take (v.length % 65536) }, maskFor n a) ∧ v.take (v.length % 65536) ≠ v) := by
  obtain ⟨bytes, h1, h2⟩ := C86_long_exact (enc := enc) (dec := dec) (now := now) (ipd := ⟨[fCountry], version, [⟨n, [v]⟩]⟩)
    ⟨by simp, by simpa using hn, by simpa using hh, by simp⟩
    ⟨by simpa using hv, by show OneContinent [fCountry]; decide +kernel⟩ (List.pairwise_singleton _ _)
    (by show ∀ f ∈ [fCountry], _; decide +kernel) hj
  refine ⟨bytes, h1, fun hlt => ?_⟩
  obtain ⟨q, h3, h4⟩ := h2 hlt
  refine ⟨q, h3, fun a ha hs hc => ⟨?_, fun he => ?_⟩⟩
  · rw [h4 a ⟨n, [v]⟩ ha hs (by simp) hc]
    simp only [joinByte, cutRow]
    have e : ∀ (w : Str), infoOf [fCountry] [w] = { country := w } := by
      intro w
      have a1 : ∀ names : List Str, fCountry ∈ names → attr names [fCountry] [w] = w := by
        intro names hm; unfold attr; simp [hm]
      have a2 : ∀ names : List Str, fCountry ∉ names → attr names [fCountry] [w] = [] := by
        intro names hm; unfold attr; simp [hm]
      unfold infoOf
      rw [a1 countryNames (by decide +kernel), a2 districtNames (by decide +kernel), a2 provinceNames (by decide +kernel),
        a2 cityNames (by decide +kernel), a2 asnNames (by decide +kernel), a2 ispNames (by decide +kernel),
        a2 continentNames (by decide +kernel), a2 lineNames (by decide +kernel),
        show spellContinent [] = [] by decide +kernel]
    rw [e]
  · have := congrArg List.length he
    rw [List.length_take] at this
    have := Nat.mod_lt v.length (show 0 < 65536 by omega)
    omega

/-- Such a row: 70000 times the letter a. -/
example : ∃ v : Str, (0x09 : UInt8) ∉ v ∧ 65536 ≤ v.length ∧ WFNet ⟨[8, 8, 8, 0], [255, 255, 255, 0]⟩ ∧
    hostBits ⟨[8, 8, 8, 0], [255, 255, 255, 0]⟩ < 128 ∧
    MetaRoundTrip encMeta decMeta (buildMeta 0 demo.version [fCountry]) :=
  ⟨List.replicate 70000 0x61, fun h => absurd (List.eq_of_mem_replicate h) (by decide), by rw [List.length_replicate]; omega, by decide, by decide, fun _ _ _ _ => dec_encMeta _⟩

end Uip.Ipdb
