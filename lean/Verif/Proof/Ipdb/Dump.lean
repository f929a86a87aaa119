import Verif.Proof.Ipdb.Plain
import Verif.Proof.Dump
import Verif.Model.Ipdb.Dump
import Verif.Props.IpNet
/-!
# ipdb lookups as seen by the dump loop
-/
namespace Uip.Ipdb
open Uip Uip.Spec

/-- Two networks of one prefix length and address length that share a number are equal. -/
theorem WFNet_eq {c d : IPNet} (hc : WFNet c) (hd : WFNet d) (hl : c.ip.length = d.ip.length) (hp : pfx c = pfx d)
    {x : Nat} (h1 : Covers c x) (h2 : Covers d x) : c = d := by
  have hh : hostBits c = hostBits d := by unfold hostBits; rw [hl, hp]
  have b1 := (WFNet_bounds hc).1
  have b2 := (WFNet_bounds hd).1
  unfold Covers at h1 h2
  have e1 : netEnd c = netLo c + 2 ^ hostBits c := rfl
  have e2 : netEnd d = netLo d + 2 ^ hostBits d := rfl
  have hlo : netLo c = netLo d := by
    rw [← hh] at b2 e2
    rcases laminar b1 b2 (Nat.le_refl _) with h | h | h <;> omega
  have hip : c.ip = d.ip := addrNum_inj hl hlo
  have hm : c.mask = d.mask := by
    rw [IsMask_eq hc.1.2.2, IsMask_eq hd.1.2.2, hc.1.2.1, hd.1.2.1, hl, hp]
  cases c; cases d; simp_all

theorem famBytes (a : IP) (ha : ValidIP a) : ((To4 a).getD a).length = (if (To4 a).isSome then 4 else 16) ∧
    addrNum ((To4 a).getD a) = addrNum a := by
  cases h : To4 a with
  | none => simp [To4_none_length ha h]
  | some b => obtain ⟨_, h1, h2⟩ := To4_eq_some h; simp [h1, addrNum_4 h1, h2]

/-- An address of the network `IpNet a m` agrees with `a` on the first `m` bits. -/
theorem famBits_of_covers {a b : IP} {m : Nat} (ha : ValidIP a) (hb : ValidIP b)
    (hfam : (To4 a).isSome = (To4 b).isSome) (hm : m ≤ if (To4 a).isSome then 32 else 128)
    (hc : Covers (IpNet a m) (addrNum b)) : (famBits a).take m = (famBits b).take m := by
  obtain ⟨h1, h2, h3, h4⟩ := C04_ip_net a ha m hm
  obtain ⟨fa1, fa2⟩ := famBytes a ha
  obtain ⟨fb1, fb2⟩ := famBytes b hb
  rw [← hfam] at fb1
  have hh : hostBits (IpNet a m) = 8 * ((To4 a).getD a).length - m := by
    unfold hostBits; rw [h2, h3, fa1]
  have bd := (WFNet_bounds h1).1
  unfold famBits
  rw [take_eq_iff_div (by rw [bits_length, bits_length, fa1, fb1])]
  rw [bitsNat_bits, bitsNat_bits, bits_length]
  rw [← hh]
  have hle : hostBits (IpNet a m) ≤ 8 * ((To4 a).getD a).length := by rw [hh]; omega
  unfold Covers netEnd at hc h4
  have hnl : addrNum (IpNet a m).ip = netLo (IpNet a m) := rfl
  rw [hnl] at hc h4
  generalize hostBits (IpNet a m) = h at *
  generalize netLo (IpNet a m) = lo at *
  obtain ⟨q, rfl⟩ := bd
  have hpos := Nat.two_pow_pos h
  have da : addrNum a / 2 ^ h = q := by
    apply Nat.div_eq_of_lt_le
    · rw [Nat.mul_comm]; exact h4.1
    · rw [Nat.add_mul, Nat.mul_comm q]; omega
  have db : addrNum b / 2 ^ h = q := by
    apply Nat.div_eq_of_lt_le
    · rw [Nat.mul_comm]; exact hc.1
    · rw [Nat.add_mul, Nat.mul_comm q]; omega
  rw [← fa2] at da
  rw [← fb2] at db
  by_cases hs : (To4 a).isSome = true
  · rw [if_pos hs] at fa1 fb1
    rw [addrNum_4 fa1] at da
    rw [addrNum_4 fb1] at db
    rw [fa1] at hle
    obtain ⟨k, hk⟩ := Nat.pow_dvd_pow 2 hle
    have e32 : (2 : Nat) ^ 32 = 2 ^ (8 * 4) := rfl
    rw [e32, hk, ← Nat.mul_assoc, Nat.mul_comm 65535, Nat.mul_assoc, Nat.mul_add_div hpos] at da db
    omega
  · rw [if_neg hs] at fa1 fb1
    rw [addrNum_16 fa1] at da
    rw [addrNum_16 fb1] at db
    omega

/-- The prefix length a lookup reports fits the family. -/
theorem find0_mask {r : Reader} (hc : CacheOK r) {a : IP} {n m : Nat} {body : Bytes}
    (h : r.find0 a = .ok (n, body, m)) : m ≤ (if (To4 a).isSome then 32 else 128) ∧
      ((To4 a).isSome → r.md.HasIPv4 = true) ∧ ((To4 a).isSome = false → r.md.HasIPv6 = true) := by
  have key : ∀ (x : IP) (root bc : Nat), bc ≤ (bits x).length →
      (plainSearch r.data r.nodeCount root x bc >>= fun p => r.resolve p.1 >>= fun b => .ok (p.1, b, p.2)) =
        .ok (n, body, m) → m ≤ bc := by
    intro x root bc hx h
    rw [Res.bind_eq_ok] at h
    obtain ⟨⟨n', m'⟩, h1, h2⟩ := h
    rw [Res.bind_eq_ok] at h2
    obtain ⟨b, _, h3⟩ := h2
    simp only [Res.ok.injEq, Prod.mk.injEq] at h3
    obtain ⟨rfl, rfl, rfl⟩ := h3
    unfold plainSearch at h1
    rw [Res.bind_eq_ok] at h1
    obtain ⟨⟨n1, i1⟩, h4, h5⟩ := h1
    simp only [] at h5
    split at h5
    · simp only [Res.pure_eq, Res.ok.injEq, Prod.mk.injEq] at h5
      obtain ⟨rfl, rfl⟩ := h5
      rw [readDepth_trieWalk _ _ _ (by omega), Res.ofOption_eq_ok] at h4
      have := (trieWalk_depth _ _ _ _ _ h4).2.1
      simp at this; omega
    · cases h5
  unfold Reader.find0 at h
  cases h4 : To4 a with
  | some x =>
    simp only [h4] at h
    split at h
    · cases h
    · rename_i hh
      have hl := (path128_v4 h4).2
      rw [search_v4 hc hl] at h
      exact ⟨by simpa using key _ _ _ (by rw [bits_length, hl]; decide) h, fun _ => by simpa using hh, by simp⟩
  | none =>
    simp only [h4] at h
    cases h6 : To16 a with
    | none => rw [h6] at h; cases h
    | some y =>
      rw [h6] at h
      simp only [] at h
      split at h
      · cases h
      · rename_i hh
        rw [search_v6] at h
        have hl : y.length = 16 := by
          unfold To16 at h6
          split at h6
          · cases h6; rename_i hl; simp [hl]
          · split at h6
            · cases h6; assumption
            · cases h6
        refine ⟨by simpa using key _ _ _ (by rw [bits_length, hl]; decide) h, by simp, fun _ => by simpa using hh⟩

theorem findMap_ok {r : Reader} {a : IP} {c : IPNet} {i : GoMap Str} (h : r.findMap a (gs "CN") = .ok (c, i)) :
    ∃ off n body m values, mapGet r.md.languages (gs "CN") = some off ∧ r.find0 a = .ok (n, body, m) ∧
      r.decodeInfo body off = .ok values ∧ fillMap r.md.fields values [] = .ok i ∧ c = IpNet a m := by
  unfold Reader.findMap Reader.find1 at h
  cases hl : mapGet r.md.languages (gs "CN") with
  | none => rw [hl] at h; cases h
  | some off =>
    rw [hl] at h
    simp only [Res.bind_eq_ok, Res.pure_eq, Res.ok.injEq] at h
    obtain ⟨⟨v, m⟩, ⟨⟨n, body, m'⟩, h1, h2⟩, mp, h3, h4⟩ := h
    simp only [Res.bind_eq_ok, Res.ok.injEq, Prod.mk.injEq] at h2
    obtain ⟨v', h5, rfl, rfl⟩ := h2
    simp only [Prod.mk.injEq] at h4
    obtain ⟨rfl, rfl⟩ := h4
    exact ⟨off, n, body, m', v', rfl, h1, h5, h3, rfl⟩

theorem findMap_of {r : Reader} {a : IP} {off : Int} {n m : Nat} {body : Bytes} {values : List Str} {i : GoMap Str}
    (hl : mapGet r.md.languages (gs "CN") = some off) (h1 : r.find0 a = .ok (n, body, m))
    (h2 : r.decodeInfo body off = .ok values) (h3 : fillMap r.md.fields values [] = .ok i) :
    r.findMap a (gs "CN") = .ok (IpNet a m, i) := by
  unfold Reader.findMap Reader.find1
  rw [hl]
  simp only [h1, h2, Res.ok_bind, Res.pure_eq, h3]

theorem findMap_ownNet {r : Reader} (hc : CacheOK r) {a : IP} (ha : ValidIP a) {c : IPNet} {i : GoMap Str}
    (h : r.findMap a (gs "CN") = .ok (c, i)) : WFNet c ∧ c.ip.length = (if (To4 a).isSome then 4 else 16) ∧
      Covers c (addrNum a) ∧ ((To4 a).isSome → r.md.HasIPv4 = true) := by
  obtain ⟨off, n, body, m, values, h1, h2, h3, h4, rfl⟩ := findMap_ok h
  obtain ⟨hm, h5, _⟩ := find0_mask hc h2
  obtain ⟨k1, k2, k3, k4⟩ := C04_ip_net a ha m hm
  exact ⟨k1, k3, k4, h5⟩

theorem findMap_whole {r : Reader} (hc : CacheOK r) {a b : IP} (ha : ValidIP a) (hb : ValidIP b)
    (hfam : (To4 a).isSome = (To4 b).isSome) {c : IPNet} {i : GoMap Str}
    (h : r.findMap a (gs "CN") = .ok (c, i)) (hcov : Covers c (addrNum b)) : r.findMap b (gs "CN") = .ok (c, i) := by
  obtain ⟨off, n, body, m, values, h1, h2, h3, h4, rfl⟩ := findMap_ok h
  obtain ⟨hm, _, _⟩ := find0_mask hc h2
  have hf := find0_congr hc hb hfam h2 (famBits_of_covers ha hb hfam hm hcov)
  rw [findMap_of h1 hf h3 h4]
  obtain ⟨k1, k2, k3, k4⟩ := C04_ip_net a ha m hm
  obtain ⟨l1, l2, l3, l4⟩ := C04_ip_net b hb m (by rw [← hfam]; exact hm)
  have : IpNet b m = IpNet a m := WFNet_eq l1 k1 (by rw [k3, l3, hfam]) (by rw [k2, l2]) l4 hcov
  rw [this]

theorem InFam4_iff {a : IP} (ha : ValidIP a) : InFam 4 a ↔ (To4 a).isSome = true := by
  rw [To4_isSome_iff ha]
  unfold InFam famLo famEnd
  simp only [ha, true_and, if_true]
  omega

/-- Any accepted file, IPv4 walk. -/
theorem reader_fam4 {r : Reader} (hc : CacheOK r) :
    ReturnsOwnNet 4 (fun ip => r.findMap ip (gs "CN")) ∧ Coherent 4 (fun ip => r.findMap ip (gs "CN")) := by
  constructor
  · intro a c i ha h
    have hv := ha.1
    rw [InFam4_iff hv] at ha
    obtain ⟨h1, h2, h3, _⟩ := findMap_ownNet hc hv h
    rw [if_pos ha] at h2
    exact ⟨h1, h2, h3⟩
  · intro a b c i c' j ha hb h1 h2 hcov
    have hva := ha.1
    have hvb := hb.1
    rw [InFam4_iff hva] at ha
    rw [InFam4_iff hvb] at hb
    have := findMap_whole hc hva hvb (by rw [ha, hb]) h1 hcov
    simp only [] at h2
    rw [this] at h2
    simp only [Res.ok.injEq, Prod.mk.injEq] at h2
    exact ⟨h2.1.symm, h2.2.symm⟩

/-- Any accepted file without IPv4, IPv6 walk. -/
theorem reader_fam16 {r : Reader} (hc : CacheOK r) (h4 : r.md.HasIPv4 = false) :
    ReturnsOwnNet 16 (fun ip => r.findMap ip (gs "CN")) ∧ Coherent 16 (fun ip => r.findMap ip (gs "CN")) := by
  have hno : ∀ a c i, ValidIP a → r.findMap a (gs "CN") = .ok (c, i) → (To4 a).isSome = false := by
    intro a c i ha h
    obtain ⟨_, _, _, h5⟩ := findMap_ownNet hc ha h
    cases hs : (To4 a).isSome with
    | false => rfl
    | true => have := h5 hs; rw [h4] at this; cases this
  constructor
  · intro a c i ha h
    obtain ⟨h1, h2, h3, _⟩ := findMap_ownNet hc ha.1 h
    rw [hno a c i ha.1 h] at h2
    exact ⟨h1, h2, h3⟩
  · intro a b c i c' j ha hb h1 h2 hcov
    have := findMap_whole hc ha.1 hb.1 (by rw [hno a _ _ ha.1 h1, hno b _ _ hb.1 h2]) h1 hcov
    simp only [] at h2
    rw [this] at h2
    simp only [Res.ok.injEq, Prod.mk.injEq] at h2
    exact ⟨h2.1.symm, h2.2.symm⟩

/-- Any accepted file, the walk its dump makes. -/
theorem reader_dumpLen {r : Reader} (hc : CacheOK r) (fmtDate : Int → Str) :
    ReturnsOwnNet (dumpLen (r.version fmtDate)) (fun ip => r.findMap ip (gs "CN")) ∧
      Coherent (dumpLen (r.version fmtDate)) (fun ip => r.findMap ip (gs "CN")) := by
  unfold dumpLen
  split
  · rename_i h
    apply reader_fam16 hc
    unfold VersionInfo.IsIpV6 Reader.version MetaData.IpType at h
    unfold MetaData.HasIPv4
    by_cases h1 : r.md.ipVersion = 1
    · rw [if_pos h1] at h; simp [IpV4, IpV6] at h
    · by_cases h2 : r.md.ipVersion = 2
      · rw [h2]; decide
      · rw [if_neg h1, if_neg h2] at h; simp [IpAll, IpV6] at h
  · exact reader_fam4 hc

end Uip.Ipdb
