import Verif.Proof.Dump6
import Verif.Props.EndToEnd
import Verif.Proof.Awdb.Demo
/-!
# Property C99: dumping IPv6 awdb files

In an IPv6 awdb file the addresses of `::ffff:0:0/96` are looked up as IPv4 addresses, all others as themselves.  The
dump walks the IPv6 space from `::`; what it gives depends on the network found for the last address before
`::ffff:0:0`.
-/
namespace Uip.Awdb
open Uip Uip.Spec Uip.Spec.Awdb Uip.Export Uip.Program

/-- The row holds what the lookup of the address gives. -/
def Agrees (r : Reader) (ept : Option Export.Exporter) (d : IpData) (x : IpRaw) (a : IP) : Prop :=
  ∃ info, r.Find a = .ok (x.cidr, info) ∧ Export.rowValues CommonFieldsMap d.fields ept info = .ok x.values

/-- A row of a dump: a well-formed network of the given address length that holds what the lookups of its addresses
give, for the addresses outside `::ffff:0:0/96` (`len = 16`) or inside it (`len = 4`). -/
def GoodRow (r : Reader) (ept : Option Export.Exporter) (d : IpData) (len : Nat) (x : IpRaw) : Prop :=
  WFNet x.cidr ∧ x.cidr.ip.length = len ∧
    ∀ a, ValidIP a → ((To4 a).isSome = true ↔ len = 4) → Covers x.cidr (addrNum a) → Agrees r ept d x a

theorem canon_own6 {a : IP} (h : Own6 a) : canon a = a ∧ (canon a).length = 16 := by
  have hn : To4 a = none := by
    have := h.2
    cases ht : To4 a with
    | none => rfl
    | some b => rw [ht] at this; cases this
  unfold canon
  rw [hn, Option.getD_none]
  exact ⟨rfl, h.length⟩

theorem inside6 {net : IPNet} (hw : WFNet net) (hl : net.ip.length = 16) {a : IP} (ha : Own6 a) :
    Inside net a ↔ Covers net (addrNum a) := by
  obtain ⟨hc, hcl⟩ := canon_own6 ha
  unfold Inside
  rw [hcl, hl, show (16 : Nat) - 16 = 0 from rfl, List.replicate_zero, List.nil_append, hc]
  exact inNet_covers hw (by rw [hl]; exact ha.length)

theorem finds6 {r : Reader} (hs : StartOK r) : Finds6 r.Find := by
  have own : ∀ a c i, Own6 a → r.Find a = .ok (c, i) → WFNet c ∧ c.ip.length = 16 ∧ Covers c (addrNum a) := by
    intro a c i ha h
    obtain ⟨rec, h1, _⟩ := find_ok h
    obtain ⟨g1, g2⟩ := lookup_own hs ha.1 h1
    obtain ⟨n, k, h4, hw, han, hk⟩ := lookup_walk ha.1 h1
    have hl : c.ip.length = 16 := by
      have hcl := (canon_own6 ha).2
      rw [canon_norm] at hcl
      rw [(answer_ok han).1, ← hcl]
      exact (cidr_net (norm_valid ha.1) hk (fun h => by have := h.2.1; omega)).1
    exact ⟨g1, hl, (inside6 g1 hl ha).mp g2⟩
  refine ⟨own, ?_⟩
  intro a b c i ha hb h hcov
  obtain ⟨g1, hl, _⟩ := own a c i ha h
  obtain ⟨rec, h1, h2⟩ := find_ok h
  have := lookup_inside hs ha.1 hb.1 (by unfold SameFamily; rw [(canon_own6 ha).2, (canon_own6 hb).2]) h1
    ((inside6 g1 hl hb).mpr hcov)
  unfold Reader.Find
  rw [this, Res.ok_bind]
  simp only [h2, Res.ok_bind]
  rfl

theorem dumpLen_six {r : Reader} (h6 : r.md.ipVersion = 6) : dumpLen r.version = 16 := by
  unfold dumpLen VersionInfo.IsIpV6 Reader.version Metadata.IpType
  rw [h6]; rfl

theorem firstMarker_six {r : Reader} (h6 : r.md.ipVersion = 6) : firstMarker r.version = IPv6zero := by
  have := dumpLen_six h6
  unfold dumpLen at this
  unfold firstMarker
  split at this
  · rename_i h; rw [if_pos h]
  · cases this

theorem below_own6 : Own6 belowMapped := by decide +kernel
theorem below_num : addrNum belowMapped = mapped0 - 1 := by decide +kernel
theorem zero_own6 : Own6 IPv6zero := by decide +kernel
theorem zero_num : addrNum IPv6zero = 0 := by decide +kernel

theorem row6_good {r : Reader} (hs : StartOK r) {ept : Option Export.Exporter} {d : IpData} {x : IpRaw}
    (h : Row6 r.Find (Export.rowValues CommonFieldsMap d.fields ept) x) : GoodRow r ept d 16 x := by
  obtain ⟨hw, hl, a, info, ha, hfa, hr, _⟩ := h
  refine ⟨hw, hl, fun b hb h4 hcov => ⟨info, (finds6 hs).coh a b _ _ ha ⟨hb, ?_⟩ hfa hcov, hr⟩⟩
  cases hh : (To4 b).isSome with
  | false => rfl
  | true => exact absurd (h4.mp hh) (by decide)

/-- The rows of a run that passes `::ffff:0:0` without stopping there cover the address before it by a network that
reaches into the block. -/
theorem full_crosses {find : Find} (hf : Finds6 find) {row : GoMap Str → Res (List Str)} {rows : List IpRaw} {lo : Nat} (hlo : lo < mapped0)
    (h1 : ∀ x ∈ rows, Row6 find row x) (h2 : Tiles lo (rows.map (·.cidr)) (2 ^ 128)) :
    ∃ c i, find belowMapped = .ok (c, i) ∧ Covers c mapped0 := by
  obtain ⟨n, hn, hcv⟩ := ((tiles_covers h2).2 mapped0).mpr ⟨by omega, by decide⟩
  obtain ⟨x, hx, rfl⟩ := List.mem_map.mp hn
  obtain ⟨hw, hl, a, info, ha, hfa, _, hst⟩ := h1 x hx
  have hne := ha.num
  have hb : Covers x.cidr (addrNum belowMapped) := by
    rw [below_num]
    unfold Covers at hcv ⊢
    unfold mapped0 at *
    omega
  exact ⟨_, _, hf.coh a belowMapped _ _ ha below_own6 hfa hb, hcv⟩

/-- The rows of a run that stops at `::ffff:0:0` end with the network found for the address before it. -/
theorem part_stops {find : Find} (hf : Finds6 find) {row : GoMap Str → Res (List Str)} {rows : List IpRaw} {lo : Nat} (hlo : lo < mapped0)
    (h1 : ∀ x ∈ rows, Row6 find row x) (h2 : Tiles lo (rows.map (·.cidr)) mapped0) :
    ∃ c i, find belowMapped = .ok (c, i) ∧ ¬ Covers c mapped0 := by
  obtain ⟨n, hn, hcv⟩ := ((tiles_covers h2).2 (mapped0 - 1)).mpr ⟨by omega, by decide⟩
  obtain ⟨x, hx, rfl⟩ := List.mem_map.mp hn
  obtain ⟨hw, hl, a, info, ha, hfa, _, hst⟩ := h1 x hx
  refine ⟨_, _, hf.coh a belowMapped _ _ ha below_own6 hfa (by rw [below_num]; exact hcv), fun h => ?_⟩
  have := ((tiles_covers h2).2 mapped0).mp ⟨_, hn, h⟩
  omega

/-! ## The IPv4 part -/

theorem find4_own {r : Reader} (hs : StartOK r) (hd : r.ipv4StartBitDepth = 96) : ReturnsOwnNet 4 r.Find := by
  intro a c i ha h
  obtain ⟨rec, h1, _⟩ := find_ok h
  obtain ⟨g1, g2⟩ := lookup_own hs ha.1 h1
  obtain ⟨n, k, h4, hw, han, hk⟩ := lookup_walk ha.1 h1
  have hl : c.ip.length = 4 := by
    have hcl := (famFour ha).1
    rw [canon_norm] at hcl
    rw [(answer_ok han).1, ← hcl]
    exact (cidr_net (norm_valid ha.1) hk (fun h => h.2.2 hd)).1
  exact ⟨g1, hl, (inside_covers g1 hl ha).mp g2⟩

theorem find4_inside {r : Reader} (hs : StartOK r) (hd : r.ipv4StartBitDepth = 96) {a b : IP} {c : IPNet} {i : GoMap Str}
    (ha : InFam 4 a) (hb : InFam 4 b) (h : r.Find a = .ok (c, i)) (hcov : Covers c (addrNum b)) : r.Find b = .ok (c, i) := by
  obtain ⟨g1, hl, _⟩ := find4_own hs hd a c i ha h
  obtain ⟨rec, h1, h2⟩ := find_ok h
  have := lookup_inside hs ha.1 hb.1 (by unfold SameFamily; rw [(famFour ha).1, (famFour hb).1]) h1
    ((inside_covers g1 hl hb).mpr hcov)
  unfold Reader.Find
  rw [this, Res.ok_bind]
  simp only [h2, Res.ok_bind]
  rfl

theorem find4_coherent {r : Reader} (hs : StartOK r) (hd : r.ipv4StartBitDepth = 96) : Coherent 4 r.Find := by
  intro a b c i c' j ha hb h h' hcov
  rw [find4_inside hs hd ha hb h hcov] at h'
  injection h' with h'
  injection h' with e1 e2
  exact ⟨e1.symm, e2.symm⟩

theorem infam4_of {a : IP} (hv : ValidIP a) (h : (To4 a).isSome = true) : InFam 4 a := by
  have := (To4_isSome_iff hv).mp h
  refine ⟨hv, ?_, ?_⟩
  · unfold famLo; rw [if_pos rfl]; omega
  · unfold famEnd; rw [if_pos rfl]; omega

/-- In an IPv6 file without a `::/96` node, 0.0.0.0 is found where `::` is. -/
theorem zero_like {r : Reader} (hs : StartOK r) (h6 : r.md.ipVersion = 6) (hd : r.ipv4StartBitDepth ≠ 96) :
    r.LookupNetwork IPv4zero = r.LookupNetwork IPv6zero := by
  have hz4 : norm IPv4zero = [0, 0, 0, 0] := by decide +kernel
  have hz6 : norm IPv6zero = IPv6zero := by decide +kernel
  obtain ⟨ht, hlt⟩ := start_terminal hs h6 hd
  have hst := hs.2 h6
  rw [lookup_eq (by decide +kernel), lookup_eq (by decide +kernel), hz4, hz6, h6]
  have hb : bits IPv6zero = List.replicate 96 false ++ List.replicate 32 false := by
    rw [List.replicate_append_replicate]; exact bits_replicate_zero 16
  have hw : walk r (bits IPv6zero) 0 0 = .ok (r.ipv4Start, r.ipv4StartBitDepth) := by
    rw [hb]; exact walk_append_stop _ _ _ _ _ _ hst ht
  rw [if_neg (by decide : ¬ ([(0 : UInt8), 0, 0, 0].length = 16 ∧ 6 = 4)), if_pos (by decide : [(0 : UInt8), 0, 0, 0].length = 4),
    if_neg (by decide : ¬ (List.length IPv6zero = 16 ∧ 6 = 4)), if_neg (by decide : ¬ List.length IPv6zero = 4), hw, walk_stop ht]
  simp only [Res.ok_bind]
  have e1 : r.cidr [0, 0, 0, 0] 0 = ⟨IPv6zero, cidrMaskLoop 16 r.ipv4StartBitDepth⟩ := by
    unfold Reader.cidr
    rw [if_pos ⟨h6, rfl, hd⟩, CIDRMask_128 (by omega)]; rfl
  have e2 : r.cidr IPv6zero r.ipv4StartBitDepth = ⟨IPv6zero, cidrMaskLoop 16 r.ipv4StartBitDepth⟩ := by
    obtain ⟨a, h1, h2, h3⟩ := cidr_plain (r := r) (q := IPv6zero) (k := r.ipv4StartBitDepth) (Or.inr rfl)
      (by simp [IPv6zero]; omega) (by rintro ⟨_, h, _⟩; cases h)
    rw [h1]
    have hz : bits IPv6zero = List.replicate 128 false := bits_replicate_zero 16
    have : a = IPv6zero := by
      apply bits_inj h2
      rw [h3, hz, List.take_replicate, List.replicate_append_replicate]
      congr 1
      simp only [IPv6zero, List.length_replicate]; omega
    rw [this]; rfl
  unfold answer
  simp only [e1, e2]

theorem noend {r : Reader} (hs : StartOK r) (h6 : r.md.ipVersion = 6) (hd : r.ipv4StartBitDepth ≠ 96) {C : IPNet} {I : GoMap Str}
    (hC : r.Find belowMapped = .ok (C, I)) (hn : ¬ Covers C mapped0) {row : GoMap Str → Res (List Str)} :
    ∀ (fuel : Nat) (out : List IpRaw), buildLoop r.Find row fuel IPv4zero [] ≠ some (.ok out) := by
  have hf := finds6 hs
  intro fuel
  induction fuel using Nat.strongRecOn with
  | _ fuel ih =>
    intro out h
    obtain ⟨c, i, hfz⟩ := find_of_run h
    have hfz6 : r.Find IPv6zero = .ok (c, i) := by
      unfold Reader.Find at hfz ⊢; rw [← zero_like hs h6 hd]; exact hfz
    obtain ⟨hw, hl, hcv⟩ := hf.own _ c i zero_own6 hfz6
    rw [zero_num] at hcv
    have hlo : netLo c = 0 := by unfold Covers at hcv; omega
    have hend : netEnd c ≤ mapped0 := by
      rcases Nat.lt_or_ge mapped0 (netEnd c) with hlt | hge
      · exfalso
        have hcb : Covers c (addrNum belowMapped) := by
          rw [below_num]; unfold Covers; omega
        have := hf.coh _ _ _ _ zero_own6 below_own6 hfz6 hcb
        rw [hC] at this
        have e := (Prod.mk.inj (Res.ok.inj this)).1
        exact hn (by rw [e]; unfold Covers; omega)
      · exact hge
    have hend' : netEnd c ≤ 2 ^ 47 := by
      have e : netEnd c = netLo c + 2 ^ hostBits c := rfl
      rw [hlo, Nat.zero_add] at e
      rcases Nat.lt_or_ge (hostBits c) 48 with g | g
      · rw [e]; exact Nat.pow_le_pow_right (by decide) (by omega)
      · have := Nat.pow_le_pow_right (n := 2) (by decide) g
        rw [e] at hend
        unfold mapped0 at hend
        omega
    obtain ⟨values, fuel', _, hfe, hcase⟩ := round h hfz hw hl (Or.inr rfl)
    rcases hcase with ⟨h1, _⟩ | ⟨m', rest, hl', hn', _, _, hrun⟩
    · rw [h1] at hend'
      exact absurd hend' (by decide)
    · have hm' : Own6 m' := own6_of hl' (by omega)
      rcases run6 hf fuel' m' rest hrun hm' (by rw [hn']; exact Boundary.next hf zero_own6 hfz6) with ⟨g1, g2⟩ | ⟨rows, rest', f', _, _, _, _, g3, g4⟩
      · obtain ⟨c', i', k1, k2⟩ := full_crosses hf (lo := addrNum m') (by unfold mapped0; omega) g1 g2
        rw [hC] at k1
        have e := (Prod.mk.inj (Res.ok.inj k1)).1
        exact hn (by rw [e]; exact k2)
      · exact ih f' (by omega) rest' g4

/-! ## C99 -/

/-- **C99 (what a dump can be).** A successful dump of an IPv6 awdb file has one of two shapes.  Either its rows cover
the whole IPv6 space, in address order; or they cover the space up to `::ffff:0:0`, then the IPv4 space by IPv4 networks,
and nothing after `::ffff:255.255.255.255`.  In both the rows hold what the lookups give. -/
theorem C99_shape (fuel : Nat) (data : Bytes) (ept : Option Export.Exporter) (d : IpData) (r : Reader) (ho : FromBytes data = .ok r)
    (h6 : r.md.ipVersion = 6) (h : dump fuel data ept = some (.ok d)) :
    ((∃ c i, r.Find belowMapped = .ok (c, i) ∧ Covers c (0xffff * 2 ^ 32)) ∧
      Tiles 0 (d.ips.map (·.cidr)) (2 ^ 128) ∧ ∀ x ∈ d.ips, GoodRow r ept d 16 x) ∨
    ((∃ c i, r.Find belowMapped = .ok (c, i) ∧ ¬ Covers c (0xffff * 2 ^ 32)) ∧
      ∃ six four, d.ips = six ++ four ∧
        Tiles 0 (six.map (·.cidr)) (0xffff * 2 ^ 32) ∧ (∀ x ∈ six, GoodRow r ept d 16 x) ∧
        Tiles (0xffff * 2 ^ 32) (four.map (·.cidr)) (0x10000 * 2 ^ 32) ∧ (∀ x ∈ four, GoodRow r ept d 4 x)) := by
  obtain ⟨r', ho', h⟩ := dump_opened h
  rw [ho] at ho'; injection ho' with ho'; subst ho'
  obtain ⟨_, _, h⟩ := Dump.build_ok h
  rw [firstMarker_six h6] at h
  have hs := (opened ho).start
  have hf := finds6 hs
  rcases run6 hf fuel _ _ h zero_own6 (by rw [zero_num]; exact Boundary.zero _) with ⟨g1, g2⟩ | ⟨rows, rest, f', he, hne, g1, g2, g3, g4⟩
  · rw [zero_num] at g2
    exact Or.inl ⟨full_crosses hf (by decide) g1 g2, g2, fun x hx => row6_good hs (g1 x hx)⟩
  · rw [zero_num] at g2
    obtain ⟨c, i, k1, k2⟩ := part_stops hf (by decide) g1 g2
    refine Or.inr ⟨⟨c, i, k1, k2⟩, rows, rest, he, g2, fun x hx => row6_good hs (g1 x hx), ?_⟩
    have hd : r.ipv4StartBitDepth = 96 := by
      by_cases hd : r.ipv4StartBitDepth = 96
      · exact hd
      · exact absurd g4 (noend hs h6 hd k1 k2 _ _)
    obtain ⟨t1, t2⟩ := buildLoop_sound (len := 4) (Or.inl rfl) (find4_own hs hd) (find4_coherent hs hd) _ _ _ _ g4
      (by decide +kernel) (by simp only [List.map_nil, Tiles]; decide +kernel) (by simp)
    refine ⟨t1, fun x hx => ?_⟩
    obtain ⟨hw, hl, a, info, ha, hfa, hr, _⟩ := t2 x hx
    exact ⟨hw, hl, fun b hb h4 hcov => ⟨info, find4_inside hs hd ha (infam4_of hb (h4.mpr rfl)) hfa hcov, hr⟩⟩

/-- **C99 (nothing lost).** If the network found for the last address before `::ffff:0:0` reaches into that block, every
IPv6 address is in exactly one row of a successful dump, and the row of an address outside the block holds what its lookup
gives. -/
theorem C99_complete (fuel : Nat) (data : Bytes) (ept : Option Export.Exporter) (d : IpData) (r : Reader) (ho : FromBytes data = .ok r)
    (h6 : r.md.ipVersion = 6) (c : IPNet) (i : GoMap Str) (hb : r.Find belowMapped = .ok (c, i)) (hc : Covers c (0xffff * 2 ^ 32))
    (h : dump fuel data ept = some (.ok d)) :
    Tiles 0 (d.ips.map (·.cidr)) (2 ^ 128) ∧ ∀ x ∈ d.ips, GoodRow r ept d 16 x := by
  rcases C99_shape fuel data ept d r ho h6 h with ⟨_, h⟩ | ⟨⟨c', i', h1, h2⟩, _⟩
  · exact h
  · rw [hb] at h1
    have e := (Prod.mk.inj (Res.ok.inj h1)).1
    exact absurd (by rw [← e]; exact hc) h2

/-- **C99 (everything after the IPv4 block is lost).** If that network ends at `::ffff:0:0`, no row of a successful dump
covers an address after `::ffff:255.255.255.255`, whatever the database holds for it. -/
theorem C99_lost (fuel : Nat) (data : Bytes) (ept : Option Export.Exporter) (d : IpData) (r : Reader) (ho : FromBytes data = .ok r)
    (h6 : r.md.ipVersion = 6) (c : IPNet) (i : GoMap Str) (hb : r.Find belowMapped = .ok (c, i)) (hc : ¬ Covers c (0xffff * 2 ^ 32))
    (h : dump fuel data ept = some (.ok d)) (x : IpRaw) (hx : x ∈ d.ips) (n : Nat) (hn : Covers x.cidr n) : n < 0x10000 * 2 ^ 32 := by
  rcases C99_shape fuel data ept d r ho h6 h with ⟨⟨c', i', h1, h2⟩, _⟩ | ⟨_, six, four, he, t1, _, t2, _⟩
  · rw [hb] at h1
    have e := (Prod.mk.inj (Res.ok.inj h1)).1
    exact absurd (by rw [e]; exact h2) hc
  · rw [he, List.mem_append] at hx
    rcases hx with hx | hx
    · have := ((tiles_covers t1).2 n).mp ⟨_, List.mem_map_of_mem hx, hn⟩
      omega
    · have := ((tiles_covers t2).2 n).mp ⟨_, List.mem_map_of_mem hx, hn⟩
      omega

/-- **C99 (no dump).** If that network ends at `::ffff:0:0` and 0.0.0.0 is found in an IPv6 network (the file has no node
at `::/96`), the dump never ends successfully, however long it runs. -/
theorem C99_endless (data : Bytes) (ept : Option Export.Exporter) (r : Reader) (ho : FromBytes data = .ok r)
    (h6 : r.md.ipVersion = 6) (c : IPNet) (i : GoMap Str) (hb : r.Find belowMapped = .ok (c, i)) (hc : ¬ Covers c (0xffff * 2 ^ 32))
    (c0 : IPNet) (i0 : GoMap Str) (hz : r.Find IPv4zero = .ok (c0, i0)) (hl : c0.ip.length = 16) (fuel : Nat) (d : IpData) :
    dump fuel data ept ≠ some (.ok d) := by
  intro h
  rcases C99_shape fuel data ept d r ho h6 h with ⟨⟨c', i', h1, h2⟩, _⟩ | ⟨_, six, four, he, t1, _, t2, g⟩
  · rw [hb] at h1
    have e := (Prod.mk.inj (Res.ok.inj h1)).1
    exact absurd (by rw [e]; exact h2) hc
  · obtain ⟨n, hn, hcv⟩ := ((tiles_covers t2).2 (0xffff * 2 ^ 32)).mpr (by omega)
    obtain ⟨x, hx, rfl⟩ := List.mem_map.mp hn
    obtain ⟨_, hl4, hag⟩ := g x hx
    obtain ⟨info, hag, _⟩ := hag IPv4zero (by decide +kernel) (by decide +kernel) (by
      have : addrNum IPv4zero = 0xffff * 2 ^ 32 := by decide +kernel
      rw [this]; exact hcv)
    rw [hz] at hag
    have e := (Prod.mk.inj (Res.ok.inj hag)).1
    rw [e, hl4] at hl
    cases hl

/-! ## Termination -/

theorem walk_total {find : Find} {row : GoMap Str → Res (List Str)} {P : IP → Prop}
    (hP : ∀ m, P m → addrNum m < 2 ^ 128 ∧ ∃ c i vs last, find m = .ok (c, i) ∧ row i = .ok vs ∧ LastIP c = .ok last ∧
      (IsAllMask last = false → P (NextIP last) ∧ addrNum m < addrNum (NextIP last))) :
    ∀ (fuel : Nat) (m : IP) (acc : List IpRaw), P m → 2 ^ 128 ≤ fuel + addrNum m →
      ∃ out, buildLoop find row fuel m acc = some (.ok out) := by
  intro fuel
  induction fuel with
  | zero => intro m acc hm hle; have := (hP m hm).1; omega
  | succ fuel ih =>
    intro m acc hm hle
    obtain ⟨_, c, i, vs, last, h1, h2, h3, h4⟩ := hP m hm
    unfold buildLoop
    simp only [h1, h2, h3, NextStart_ok h3]
    split
    · exact ⟨_, rfl⟩
    · rename_i ha
      obtain ⟨h5, h6⟩ := h4 (by simpa using ha)
      exact ih _ _ h5 (by omega)

theorem build_of_walk {find : Find} {fm : GoMap Str} {fields : List Str} {ept : Option Export.Exporter} {v : VersionInfo}
    (h : ∀ fuel ≥ 2 ^ 128, ∃ out, buildLoop find (Export.rowValues fm (dumpFields fm fields ept) ept) fuel (firstMarker v) [] = some (.ok out)) :
    ∃ d, ∀ fuel ≥ 2 ^ 128, BuildIPData fuel fm fields ept v find = some (.ok d) := by
  obtain ⟨out, ho⟩ := h (2 ^ 128) (Nat.le_refl _)
  refine ⟨⟨dumpFields fm fields ept, v, out⟩, fun fuel hge => ?_⟩
  obtain ⟨k, rfl⟩ := Nat.exists_eq_add_of_le hge
  unfold BuildIPData
  simp only []
  rw [buildLoop_mono _ k _ _ _ ho]
  rfl

/-- **C99 (a crossing network: the dump ends).** -/
theorem C99_ends_crossing (data : Bytes) (ept : Option Export.Exporter) (r : Reader) (ho : open_ data = .ok r)
    (h6 : r.md.ipVersion = 6) (c : IPNet) (i : GoMap Str) (hb : r.Find belowMapped = .ok (c, i)) (hc : Covers c (0xffff * 2 ^ 32))
    (hrow : ∀ i, ∃ vs, Export.rowValues CommonFieldsMap (dumpFields CommonFieldsMap Fields ept) ept i = .ok vs)
    (hall : ∀ a, ValidIP a → (To4 a).isSome = false → ∃ c i, r.Find a = .ok (c, i)) :
    ∃ d, ∀ fuel ≥ 2 ^ 128, dump fuel data ept = some (.ok d) := by
  have hfb : FromBytes data = .ok r := by
    unfold open_ at ho
    obtain ⟨r', h1, ho⟩ := Res.bind_eq_ok.mp ho
    obtain ⟨_, _, ho⟩ := Res.bind_eq_ok.mp ho
    injection ho with ho
    rw [← ho]; exact h1
  have hf := finds6 (opened hfb).start
  unfold dump
  simp only [ho]
  refine build_of_walk (fun fuel hge => ?_)
  rw [firstMarker_six h6]
  refine walk_total (P := Own6) (fun m hm => ⟨addrNum_lt hm.1, ?_⟩) fuel _ [] zero_own6 (by omega)
  obtain ⟨c', i', hfm⟩ := hall m hm.1 hm.2
  obtain ⟨vs, hvs⟩ := hrow i'
  obtain ⟨hw, hl, hcv⟩ := hf.own m c' i' hm hfm
  obtain ⟨_, _, last, hlast, hll, _, hnext⟩ := net_end hw hl (Or.inr rfl)
  refine ⟨c', i', vs, last, hfm, hvs, hlast, fun hna => ?_⟩
  obtain ⟨hnum, hlt⟩ := hnext hna
  unfold Covers at hcv
  refine ⟨own6_of (by rw [NextIP_length, hll]) (fun hm' => ?_), by omega⟩
  -- the network would end inside the block
  have hmn := hm.num
  by_cases hx : netEnd c' = mapped0
  · have hcb : Covers c' (addrNum belowMapped) := by
      rw [below_num]; unfold Covers; omega
    have := hf.coh _ _ _ _ hm below_own6 hfm hcb
    rw [hb] at this
    have e := (Prod.mk.inj (Res.ok.inj this)).1
    rw [e] at hc
    unfold Covers at hc
    unfold mapped0 at hx
    omega
  · have := hf.mapped hm hfm (x := netEnd c' - 1) (by unfold mapped0 at hx; omega) (by omega)
    unfold mapped0 at this
    omega

/-- **C99 (a node at `::/96`: the dump ends).** -/
theorem C99_ends_mapped (data : Bytes) (ept : Option Export.Exporter) (r : Reader) (ho : open_ data = .ok r)
    (h6 : r.md.ipVersion = 6) (c0 : IPNet) (i0 : GoMap Str) (hz : r.Find IPv4zero = .ok (c0, i0)) (hl0 : c0.ip.length = 4)
    (hrow : ∀ i, ∃ vs, Export.rowValues CommonFieldsMap (dumpFields CommonFieldsMap Fields ept) ept i = .ok vs)
    (hall : ∀ a, ValidIP a → ∃ c i, r.Find a = .ok (c, i)) :
    ∃ d, ∀ fuel ≥ 2 ^ 128, dump fuel data ept = some (.ok d) := by
  have hfb : FromBytes data = .ok r := by
    unfold open_ at ho
    obtain ⟨r', h1, ho⟩ := Res.bind_eq_ok.mp ho
    obtain ⟨_, _, ho⟩ := Res.bind_eq_ok.mp ho
    injection ho with ho
    rw [← ho]; exact h1
  have hs := (opened hfb).start
  have hf := finds6 hs
  have hd : r.ipv4StartBitDepth = 96 := by
    by_cases hd : r.ipv4StartBitDepth = 96
    · exact hd
    · exfalso
      have : r.Find IPv6zero = .ok (c0, i0) := by
        unfold Reader.Find at hz ⊢; rw [← zero_like hs h6 hd]; exact hz
      have := (hf.own _ _ _ zero_own6 this).2.1
      omega
  unfold dump
  simp only [ho]
  refine build_of_walk (fun fuel hge => ?_)
  rw [firstMarker_six h6]
  refine walk_total (P := ValidIP) (fun m hm => ⟨addrNum_lt hm, ?_⟩) fuel _ [] (Or.inr rfl) (by omega)
  obtain ⟨c', i', hfm⟩ := hall m hm
  obtain ⟨vs, hvs⟩ := hrow i'
  have hown : ∃ len, (len = 4 ∨ len = 16) ∧ WFNet c' ∧ c'.ip.length = len ∧ Covers c' (addrNum m) := by
    cases h4 : (To4 m).isSome with
    | false =>
      obtain ⟨g1, g2, g3⟩ := hf.own m c' i' ⟨hm, h4⟩ hfm
      exact ⟨16, Or.inr rfl, g1, g2, g3⟩
    | true =>
      obtain ⟨g1, g2, g3⟩ := find4_own hs hd m c' i' (infam4_of hm h4) hfm
      exact ⟨4, Or.inl rfl, g1, g2, g3⟩
  obtain ⟨len, hlen, hw, hl, hcv⟩ := hown
  obtain ⟨_, _, last, hlast, hll, _, hnext⟩ := net_end hw hl hlen
  refine ⟨c', i', vs, last, hfm, hvs, hlast, fun hna => ?_⟩
  obtain ⟨hnum, hlt⟩ := hnext hna
  unfold Covers at hcv
  exact ⟨by unfold ValidIP; rw [NextIP_length, hll]; exact hlen, by omega⟩

/-! ## Three files -/

/-- An IPv6 file with the given tree and one record. -/
def sixFile (nodes : List (Nat × Nat)) : File where
  recordSize := 24
  nodes := nodes
  data := (strRecord demoRecord).enc ++ List.replicate 2000 0
  meta_ := (Doc.map (demoMeta 6 nodes.length 24)).enc
  md := { nodeCount := nodes.length, recordSize := 24, ipVersion := 6, buildEpoch := 1600000000, languages := [gs "CN"], databaseType := gs "demo" }

/-- The networks `::/1` and `8000::/1`. -/
def halves : List (Nat × Nat) := [(17, 17)]

/-- Networks down to `::fffe:0:0/96` and `::ffff:0:0/96`, and a network `::/81`. -/
def noV4 : List (Nat × Nat) :=
  (List.range 80).map (fun i => (i + 1, 112)) ++ (List.range 15).map (fun i => (112, 81 + i)) ++ [(112, 112)]

/-- The same, with networks down to `::/96`. -/
def withV4 : List (Nat × Nat) :=
  (List.range 80).map (fun i => (i + 1, 127)) ++ [(96, 81)] ++ (List.range 14).map (fun i => (127, 82 + i)) ++ [(127, 127)] ++
    (List.range 14).map (fun i => (97 + i, 127)) ++ [(127, 127)]

/-- The networks dumped. -/
def dumpedNets (f : File) : Option (List (IP × Nat)) :=
  match dump 200 f.bytes none with
  | some (.ok d) => some (d.ips.map fun x => (x.cidr.ip, pfx x.cidr))
  | _ => none

/-- IP version, and the networks found for the last address before `::ffff:0:0` and for 0.0.0.0. -/
def foundNets (f : File) : Option (Nat × (IP × Nat) × (IP × Nat)) :=
  match open_ f.bytes with
  | .ok r => match r.Find belowMapped, r.Find IPv4zero with
    | .ok (c, _), .ok (c0, _) => some (r.md.ipVersion, (c.ip, pfx c), (c0.ip, pfx c0))
    | _, _ => none
  | _ => none

set_option maxRecDepth 100000 in
/-- Nothing lost. -/
example : foundNets (sixFile halves) = some (6, (List.replicate 16 0, 1), (List.replicate 16 0, 1)) ∧
    dumpedNets (sixFile halves) = some [(List.replicate 16 0, 1), (0x80 :: List.replicate 15 0, 1)] := by decide +kernel

set_option maxRecDepth 100000 in
/-- Cut off after the IPv4 block: the last row of the dump is 0.0.0.0/0, though `8000::` has a record. -/
example : foundNets (sixFile withV4) = some (6, (List.replicate 10 0 ++ [0xff, 0xfe, 0, 0, 0, 0], 96), ([0, 0, 0, 0], 0)) ∧
    ((dumpedNets (sixFile withV4)).map fun l => (l.length, l.getLast?)) = some (32, some ([0, 0, 0, 0], 0)) ∧
    (match open_ (sixFile withV4).bytes with
     | .ok r => match r.Find (0x80 :: List.replicate 15 0) with
       | .ok (_, i) => mapGet i (gs "country")
       | _ => none
     | _ => none) = some (gs "中国") := by decide +kernel

set_option maxRecDepth 100000 in
/-- Endless. -/
example : foundNets (sixFile noV4) = some (6, (List.replicate 10 0 ++ [0xff, 0xfe, 0, 0, 0, 0], 96), (List.replicate 16 0, 81)) := by
  decide +kernel

end Uip.Awdb
