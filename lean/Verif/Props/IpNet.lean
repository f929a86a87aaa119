import Verif.Proof.Range
/-!
# Properties C01-C10: package `ipnet`

Vocabulary: `Verif/Spec/Addr.lean`, `Verif/Spec/Range.lean`.
-/
namespace Uip
open Spec

/-! ## C01 -/

private theorem shr_byte (x : UInt32) (k : Nat) (hk : k < 32) :
    ((x >>> UInt32.ofNat k) &&& 0xFF).toUInt8.toNat = x.toNat / 2 ^ k % 256 := by
  rw [UInt32.toNat_toUInt8, UInt32.toNat_and, UInt32.toNat_shiftRight]
  have : (255 : UInt32).toNat = 2 ^ 8 - 1 := rfl
  have e : (UInt32.ofNat k).toNat = k := by
    simp; omega
  rw [this, Nat.and_two_pow_sub_one_eq_mod, e, Nat.mod_eq_of_lt hk, Nat.shiftRight_eq_div_pow]
  omega

private theorem uint32ToIPv4_val (x : UInt32) :
    ∃ l, l.length = 4 ∧ Uint32ToIPv4 x = v4InV6Prefix ++ l ∧ val l = x.toNat := by
  refine ⟨_, ?_, rfl, ?_⟩
  · rfl
  · have h24 := shr_byte x 24 (by decide)
    have h16 := shr_byte x 16 (by decide)
    have h8 := shr_byte x 8 (by decide)
    have h0 : (x &&& 0xFF).toUInt8.toNat = x.toNat % 256 := by
      rw [UInt32.toNat_toUInt8, UInt32.toNat_and]
      have : (255 : UInt32).toNat = 2 ^ 8 - 1 := rfl
      rw [this, Nat.and_two_pow_sub_one_eq_mod]; omega
    have e1 : UInt32.ofNat 24 = 24 := rfl
    have e2 : UInt32.ofNat 16 = 16 := rfl
    have e3 : UInt32.ofNat 8 = 8 := rfl
    rw [e1] at h24; rw [e2] at h16; rw [e3] at h8
    simp only [val, List.length_cons, List.length_nil, h24, h16, h8, h0]
    have := x.toNat_lt
    omega

private theorem to4_mapped (l : IP) (h : l.length = 4) : To4 (v4InV6Prefix ++ l) = some l := by
  simp only [To4, List.length_append, v4InV6Prefix_length, h]
  rw [if_neg (by decide), if_pos ⟨by decide, List.take_left' rfl⟩]; rfl

private theorem four {l : IP} (h : l.length = 4) : ∃ a b c d, l = [a, b, c, d] := by
  match l, h with
  | [a, b, c, d], _ => exact ⟨a, b, c, d, rfl⟩

private theorem ipv4ToUint32_val {ip l : IP} (h : To4 ip = some l) :
    ∃ x, IPv4ToUint32 ip = .ok x ∧ x.toNat = val l := by
  obtain ⟨a, b, c, d, rfl⟩ := four (To4_eq_some h).2.1
  refine ⟨_, by simp only [IPv4ToUint32, h]; rfl, ?_⟩
  have ha := a.toNat_lt
  have hb := b.toNat_lt
  have hc := c.toNat_lt
  have hd := d.toNat_lt
  simp only [val, UInt32.toNat_add, UInt32.toNat_shiftLeft, UInt8.toNat_toUInt32, List.length_cons,
    List.length_nil, Nat.shiftLeft_eq]
  have e1 : (24 : UInt32).toNat = 24 := rfl
  have e2 : (16 : UInt32).toNat = 16 := rfl
  have e3 : (8 : UInt32).toNat = 8 := rfl
  rw [e1, e2, e3, show (24 : Nat) % 32 = 24 from rfl, show (16 : Nat) % 32 = 16 from rfl,
    show (8 : Nat) % 32 = 8 from rfl]
  omega

/-- C01: Uint32ToIPv4 gives the mapped 16-byte form whose last 32 bits have the value `x`. -/
theorem C01_uint32_value (x : UInt32) : ∃ l, l.length = 4 ∧ Uint32ToIPv4 x = v4InV6Prefix ++ l ∧ val l = x.toNat :=
  uint32ToIPv4_val x

/-- C01: number to address and back. -/
theorem C01_uint32_roundtrip (x : UInt32) : IPv4ToUint32 (Uint32ToIPv4 x) = .ok x := by
  obtain ⟨l, hl, he, hv⟩ := uint32ToIPv4_val x
  obtain ⟨y, hy, hyv⟩ := ipv4ToUint32_val (to4_mapped l hl)
  rw [he, hy]
  congr 1
  exact UInt32.toNat_inj.mp (by omega)

/-- C01: address to number and back gives the 16-byte form; the number is the big-endian value. -/
theorem C01_ipv4_roundtrip (ip l : IP) (h : To4 ip = some l) :
    ∃ x, IPv4ToUint32 ip = .ok x ∧ x.toNat = val l ∧ Uint32ToIPv4 x = v4InV6Prefix ++ l ∧
      To16 ip = some (Uint32ToIPv4 x) := by
  obtain ⟨x, hx, hv⟩ := ipv4ToUint32_val h
  obtain ⟨l', hl', he, hv'⟩ := uint32ToIPv4_val x
  have : l' = l := val_inj (by rw [hl', (To4_eq_some h).2.1]) (by omega)
  subst this
  refine ⟨x, hx, hv, he, ?_⟩
  obtain ⟨hval, h4, hn⟩ := To4_eq_some h
  obtain ⟨a, ha, hal, hav⟩ := To16_valid hval
  rw [ha, he]
  congr 1
  exact val_inj (by simp [hal, hl']) (by rw [hav, hn, val_mapped hl', addrNum_4 hl'])

/-- C01: every other address panics. -/
theorem C01_not_ipv4_panics (ip : IP) (h : To4 ip = none) : IPv4ToUint32 ip = .panic := by
  simp [IPv4ToUint32, h]

/-- C01: which addresses count as IPv4: 4 bytes, or 16 bytes inside ::ffff:0:0/96. -/
theorem C01_ipv4_domain (ip : IP) :
    (To4 ip).isSome ↔ ValidIP ip ∧ addrNum ip / 2 ^ 32 = 0xffff := by
  constructor
  · intro h
    obtain ⟨l, hl⟩ := Option.isSome_iff_exists.mp h
    exact ⟨(To4_eq_some hl).1, (To4_isSome_iff (To4_eq_some hl).1).mp h⟩
  · rintro ⟨h1, h2⟩; exact (To4_isSome_iff h1).mpr h2

example : IPv4ToUint32 [1, 2, 3, 4] = .ok 0x01020304 ∧ To4 (goIPv4 1 2 3 4) = some [1, 2, 3, 4] ∧
    To4 (List.replicate 16 1) = none := by decide

/-! ## C02 -/

/-- C02: `NextIP` is the successor modulo the size of the space. -/
theorem C02_next_ip (ip : IP) :
    (NextIP ip).length = ip.length ∧ val (NextIP ip) = (val ip + 1) % 256 ^ ip.length :=
  ⟨NextIP_length ip, NextIP_val ip⟩

/-- C02: it wraps to zero exactly on the all-ones address. -/
theorem C02_wraps_iff (ip : IP) :
    val (NextIP ip) = 0 ↔ ip = List.replicate ip.length 0xff := by
  have h1 := NextIP_val ip
  have h2 := val_lt ip
  constructor
  · intro h
    apply val_inj (by simp)
    rw [val_replicate_ff]
    rcases Nat.lt_or_ge (val ip + 1) (256 ^ ip.length) with h' | h'
    · rw [Nat.mod_eq_of_lt h'] at h1; omega
    · omega
  · intro h
    have h3 : val ip = 256 ^ ip.length - 1 := by
      have := congrArg val h
      rwa [val_replicate_ff] at this
    rw [h1, show val ip + 1 = 256 ^ ip.length by omega, Nat.mod_self]

example : NextIP [10, 0, 255, 255] = [10, 1, 0, 0] ∧ NextIP [255, 255, 255, 255] = [0, 0, 0, 0] := by decide

/-! ## C03 -/

/-- C03: `IPLess` compares positions in the 128-bit space. -/
theorem C03_ip_less (a b : IP) (ha : ValidIP a) (hb : ValidIP b) :
    IPLess a b = true ↔ addrNum a < addrNum b := IPLess_iff ha hb

/-- C03: irreflexive, transitive and total up to equal position. -/
theorem C03_strict_total_order :
    (∀ a, ValidIP a → IPLess a a = false) ∧
    (∀ a b c, ValidIP a → ValidIP b → ValidIP c → IPLess a b = true → IPLess b c = true → IPLess a c = true) ∧
    (∀ a b, ValidIP a → ValidIP b → IPLess a b = true ∨ IPLess b a = true ∨ To16 a = To16 b) := by
  refine ⟨fun a ha => (IPLess_false_iff ha ha).mpr (Nat.le_refl _), fun a b c ha hb hc h1 h2 => ?_,
    fun a b ha hb => ?_⟩
  · rw [IPLess_iff ha hb] at h1; rw [IPLess_iff hb hc] at h2; rw [IPLess_iff ha hc]; omega
  · rw [IPLess_iff ha hb, IPLess_iff hb ha]
    rcases Nat.lt_trichotomy (addrNum a) (addrNum b) with h | h | h
    · exact .inl h
    · right; right
      obtain ⟨x, hx, hxl, hxv⟩ := To16_valid ha
      obtain ⟨y, hy, hyl, hyv⟩ := To16_valid hb
      rw [hx, hy, val_inj (by rw [hxl, hyl]) (by omega : val x = val y)]
    · exact .inr (.inl h)

example : IPLess [1, 2, 3, 4] (goIPv4 1 2 3 5) = true ∧ IPLess (goIPv4 1 2 3 4) [1, 2, 3, 4] = false := by decide

/-! ## C04 -/

/-- C04: membership in an aligned CIDR block is the interval up to `LastIP`, and `NextStart`
is the address after it. -/
theorem C04_last_ip (n : IPNet) (k : Nat) (h : IsCIDR n k) (ha : Aligned n k) :
    ∃ last next, LastIP n = .ok last ∧ NextStart n = .ok next ∧ last.length = n.ip.length ∧
      (∀ a : IP, a.length = n.ip.length → (InNet n k a ↔ val n.ip ≤ val a ∧ val a ≤ val last)) ∧
      next.length = n.ip.length ∧ val next = (val last + 1) % 256 ^ n.ip.length := by
  obtain ⟨last, h1, h2, h3, h4⟩ := LastIP_spec h
  refine ⟨last, NextIP last, h1, ?_, h2, fun a hl => ?_, ?_, ?_⟩
  · simp [NextStart, h1]
  · rw [InNet_iff_div hl, h4]
    rw [Aligned_iff] at ha
    have hp := Nat.two_pow_pos (8 * n.ip.length - k)
    have e := Nat.div_add_mod (val n.ip) (2 ^ (8 * n.ip.length - k))
    rw [ha, Nat.mul_comm] at e
    generalize hq : val n.ip / 2 ^ (8 * n.ip.length - k) = q at *
    rw [Nat.div_eq_iff hp]
    omega
  · rw [NextIP_length, h2]
  · rw [NextIP_val, h2]

/-- C04 without alignment: `LastIP` is the greatest address of the block. -/
theorem C04_last_ip_greatest (n : IPNet) (k : Nat) (h : IsCIDR n k) :
    ∃ last, LastIP n = .ok last ∧ InNet n k last ∧ ∀ a, InNet n k a → val a ≤ val last := by
  obtain ⟨last, h1, h2, h3, h4⟩ := LastIP_spec h
  have hk := h.2.2.1
  rw [h.2.1] at hk
  refine ⟨last, h1, ⟨h2, ?_⟩, fun a ha => ?_⟩
  · rw [h3, List.take_append_of_le_length (by simp [bits_length]; omega), List.take_take, Nat.min_self]
  · rw [InNet_iff_div ha.1] at ha
    rw [h4, ← ha]
    have hp := Nat.two_pow_pos (8 * n.ip.length - k)
    have e := Nat.div_add_mod (val a) (2 ^ (8 * n.ip.length - k))
    have := Nat.mod_lt (val a) hp
    rw [Nat.mul_comm] at e; omega

/-- C04: the block built by `IpNet(addr, k)` is well formed, has prefix length `k` and contains `addr`
(IPv4 addresses in either form give a 4-byte block). -/
theorem C04_ip_net (addr : IP) (hv : ValidIP addr) (k : Nat)
    (hk : k ≤ if (To4 addr).isSome then 32 else 128) :
    WFNet (IpNet addr k) ∧ pfx (IpNet addr k) = k ∧
      (IpNet addr k).ip.length = (if (To4 addr).isSome then 4 else 16) ∧
      Covers (IpNet addr k) (addrNum addr) := by
  -- the address actually masked
  obtain ⟨a, hal, hnum, hnet⟩ : ∃ a : IP, (a.length = if (To4 addr).isSome then 4 else 16) ∧
      addrNum a = addrNum addr ∧
      IpNet addr k = { ip := (ipMask a (cidrMaskLoop a.length k)).getD [], mask := cidrMaskLoop a.length k } := by
    cases h4 : To4 addr with
    | some l =>
      obtain ⟨_, hl, hn⟩ := To4_eq_some h4
      simp only [h4, Option.isSome_some, if_true] at hk
      refine ⟨l, by simp [hl], by rw [hn, addrNum_4 hl], ?_⟩
      unfold IpNet
      simp only [h4, hl]
      rw [CIDRMask_valid (.inl rfl) (by omega)]
      simp only [Option.getD_some]
      congr 1
      rcases hv with h | h
      · have : l = addr := by simpa [To4, h] using h4.symm
        rw [this]
      · have hp : addr.take 12 = v4InV6Prefix ∧ l = addr.drop 12 := by
          simp only [To4, h] at h4
          simp at h4
          exact ⟨h4.1, h4.2.symm⟩
        unfold ipMask
        simp [cidrMaskLoop_length, h, hp.1, hp.2]
    | none =>
      have h16 : addr.length = 16 := by
        rcases hv with h | h
        · simp [To4, h] at h4
        · exact h
      simp only [h4, Option.isSome_none, Bool.false_eq_true, if_false] at hk
      refine ⟨addr, by simp [h16], rfl, ?_⟩
      unfold IpNet
      simp only [h4, To16_16 h16, Option.getD_some, h16]
      rw [CIDRMask_valid (.inr rfl) (by omega)]; rfl
  have hav : ValidIP a := by unfold ValidIP; rw [hal]; split <;> simp
  have hk' : k ≤ 8 * a.length := by rw [hal]; split at hk <;> simp_all
  have hm := IsMask_cidrMaskLoop a.length k hk'
  obtain ⟨r, hr, hrl, hrb⟩ := ipMask_spec (cidrMaskLoop_length a.length k) hm
  rw [hnet, hr]
  simp only [Option.getD_some]
  have hpfx : pfx { ip := r, mask := cidrMaskLoop a.length k } = k := pfx_of_IsMask hm
  have hc : IsCIDR { ip := r, mask := cidrMaskLoop a.length k } k := by
    refine ⟨by unfold ValidIP; simp only [hrl]; exact hav, by simp [cidrMaskLoop_length, hrl], hm⟩
  have hal' : Aligned { ip := r, mask := cidrMaskLoop a.length k } k := by
    unfold Aligned
    simp only [hrb, hrl]
    rw [List.drop_left' (by simp [bits_length]; omega)]
  refine ⟨⟨by rw [hpfx]; exact hc, by rw [hpfx]; exact hal'⟩, hpfx, by rw [← hal, hrl], ?_⟩
  have hin : InNet { ip := r, mask := cidrMaskLoop a.length k } k a := by
    refine ⟨hrl.symm, ?_⟩
    simp only [hrb]
    rw [List.take_append_of_le_length (by simp [bits_length]; omega), List.take_take, Nat.min_self]
  rw [InNet_iff_div hrl.symm] at hin
  rw [Aligned_iff] at hal'
  simp only at hin hal'
  unfold Covers netLo netEnd hostBits
  rw [hpfx]
  have hp := Nat.two_pow_pos (8 * r.length - k)
  have e := Nat.div_add_mod (val a) (2 ^ (8 * r.length - k))
  have e' := Nat.div_add_mod (val r) (2 ^ (8 * r.length - k))
  have := Nat.mod_lt (val a) hp
  rw [hal', ← hin] at e'
  rw [← hnum]
  unfold addrNum
  simp only [hrl] at *
  split <;> omega

example : IsCIDR { ip := [10, 1, 0, 0], mask := [255, 255, 128, 0] } 17 ∧
    Aligned { ip := [10, 1, 0, 0], mask := [255, 255, 128, 0] } 17 ∧
    LastIP { ip := [10, 1, 0, 0], mask := [255, 255, 128, 0] } = .ok [10, 1, 127, 255] ∧
    IpNet [10, 1, 77, 3] 17 = { ip := [10, 1, 0, 0], mask := [255, 255, 128, 0] } := by decide

/-! ## C05 -/

/-- C05, restricted to an end that is not the all-ones address of its length (the full claim
`Contains start end ip ↔ start ≤ ip ≤ end` is false there, see `C05_contains_top`). -/
theorem C05_contains_below_top (start end_ ip : IP) (hs : ValidIP start) (he : ValidIP end_) (hi : ValidIP ip)
    (ht : NotTop end_) :
    (Contains start end_ ip = true ↔ Between start end_ (addrNum ip)) ∧
    (Range.Contains ⟨start, end_⟩ ip = true ↔ Between start end_ (addrNum ip)) :=
  ⟨Contains_iff hs he hi ht, Contains_iff hs he hi ht⟩

/-- C05, the exact behaviour on all inputs. -/
theorem C05_contains_exact (start end_ ip : IP) (hs : ValidIP start) (he : ValidIP end_) (hi : ValidIP ip) :
    Contains start end_ ip = true ↔ addrNum start ≤ addrNum ip ∧ addrNum ip < wrapSucc end_ :=
  Contains_exact hs he hi

/-- C05 fails at the top of the space: nothing is contained in a range that ends at the last IPv6
address, and no IPv4 address (4-byte start) in one that ends at 255.255.255.255. -/
theorem C05_contains_top (start end_ ip : IP) (hs : ValidIP start) (he : ValidIP end_) (hi : ValidIP ip)
    (ht : ¬ NotTop end_) (h : end_.length = 16 ∨ start.length = 4) : Contains start end_ ip = false := by
  rw [Bool.eq_false_iff, Ne, Contains_exact hs he hi]
  unfold NotTop at ht
  unfold wrapSucc
  rw [if_neg ht]
  rcases h with h | h
  · simp [h]
  · rw [addrNum_4 h]; split <;> omega

/-- The negation of the full claim, on a concrete case. -/
theorem C05_contains_negation :
    ¬ (∀ start end_ ip : IP, ValidIP start → ValidIP end_ → ValidIP ip →
      (Contains start end_ ip = true ↔ Between start end_ (addrNum ip))) := by
  intro h
  have := h [240, 0, 0, 0] [255, 255, 255, 255] [250, 0, 0, 1] (by decide) (by decide) (by decide)
  revert this; decide

example : NotTop [10, 0, 0, 255] ∧ Contains [10, 0, 0, 0] [10, 0, 0, 255] [10, 0, 0, 7] = true := by decide

/-! ## C06 -/

/-- C06 for `Range.Join`, exact on all inputs: the result, and the range afterwards. -/
theorem C06_join_exact (r r2 : Range) (hs : ValidIP r.start) (he : ValidIP r.end_)
    (hs2 : ValidIP r2.start) (he2 : ValidIP r2.end_) :
    ((r.Join r2).2 = true ↔ addrNum r.start ≤ addrNum r2.start ∧ addrNum r2.start ≤ wrapSucc r.end_) ∧
    ((r.Join r2).2 = true → (r.Join r2).1.start = r.start ∧
      addrNum (r.Join r2).1.end_ = max (addrNum r.end_) (addrNum r2.end_)) ∧
    ((r.Join r2).2 = false → (r.Join r2).1 = r) := by
  unfold Range.Join
  have h1 := IPLess_iff hs2 hs
  have h2 := IPLess_iff (NextIP_valid he) hs2
  have h3 := IPLess_iff he2 he
  rw [NextIP_wrapSucc he] at h2
  by_cases hc : (IPLess r2.start r.start || IPLess (NextIP r.end_) r2.start) = true
  · rw [if_pos hc]
    rw [Bool.or_eq_true, h1, h2] at hc
    simp; omega
  · rw [if_neg hc]
    rw [Bool.or_eq_true, h1, h2] at hc
    by_cases hc2 : IPLess r2.end_ r.end_ = true
    · simp only [hc2, Bool.not_true, Bool.false_eq_true, if_false]
      rw [h3] at hc2
      simp; omega
    · simp only [Bool.not_eq_true] at hc2
      simp only [hc2, Bool.not_false, if_true]
      rw [IPLess_false_iff he2 he] at hc2
      simp; omega

/-- C06 for `Range.Join`: union or no change, for a range not ending at the all-ones address. -/
theorem C06_join_below_top (r r2 : Range) (hs : ValidIP r.start) (he : ValidIP r.end_)
    (hs2 : ValidIP r2.start) (he2 : ValidIP r2.end_) (ht : NotTop r.end_) :
    ((r.Join r2).2 = true ↔
      addrNum r.start ≤ addrNum r2.start ∧ addrNum r2.start ≤ addrNum r.end_ + 1) ∧
    ((r.Join r2).2 = true → ∀ x, Between (r.Join r2).1.start (r.Join r2).1.end_ x ↔
      Between r.start r.end_ x ∨ Between r2.start r2.end_ x) ∧
    ((r.Join r2).2 = false → (r.Join r2).1 = r) := by
  obtain ⟨h1, h2, h3⟩ := C06_join_exact r r2 hs he hs2 he2
  rw [wrapSucc_notTop ht] at h1
  refine ⟨h1, fun h x => ?_, h3⟩
  obtain ⟨h4, h5⟩ := h2 h
  have := h1.mp h
  unfold Between
  rw [h4, h5]; omega

/-- C06 fails at the top: a range ending at the last IPv6 address refuses every block that does not
start at `::`, even one it contains. -/
theorem C06_join_top (r r2 : Range) (hs : ValidIP r.start) (he : r.end_.length = 16)
    (hs2 : ValidIP r2.start) (he2 : ValidIP r2.end_) (ht : ¬ NotTop r.end_)
    (h0 : 0 < addrNum r2.start) : r.Join r2 = (r, false) := by
  obtain ⟨h1, _, h3⟩ := C06_join_exact r r2 hs (.inr he) hs2 he2
  have hf : (r.Join r2).2 = false := by
    rw [Bool.eq_false_iff, Ne, h1]
    unfold NotTop at ht
    unfold wrapSucc; rw [if_neg ht, if_neg (by omega)]; omega
  exact Prod.ext (h3 hf) hf

/-- The numbers behind `JoinIPNet`: it is `Join` with the range of the network. -/
theorem C06_joinIPNet_is_join (r : Range) (n : IPNet) (hn : WFNet n) :
    ∃ r2, NewRange n = .ok r2 ∧ r2.start.length = 16 ∧ r2.end_.length = 16 ∧
      addrNum r2.start = netLo n ∧ addrNum r2.end_ + 1 = netEnd n ∧ r.JoinIPNet n = .ok (r.Join r2) := by
  obtain ⟨hc, ha⟩ := hn
  obtain ⟨last, h1, h2, _, h4⟩ := LastIP_spec hc
  obtain ⟨a, ha1, ha2, ha3⟩ := To16_valid hc.1
  have hlv : ValidIP last := by unfold ValidIP; rw [h2]; exact hc.1
  obtain ⟨b, hb1, hb2, hb3⟩ := To16_valid hlv
  refine ⟨⟨a, b⟩, by simp [NewRange, h1, ha1, hb1], ha2, hb2, ?_, ?_, ?_⟩
  · rw [addrNum_16 ha2, ha3]; rfl
  · rw [addrNum_16 hb2, hb3]
    rw [Aligned_iff] at ha
    have e := Nat.div_add_mod (val n.ip) (2 ^ (8 * n.ip.length - pfx n))
    rw [ha, Nat.mul_comm] at e
    have hp := Nat.two_pow_pos (8 * n.ip.length - pfx n)
    unfold netEnd hostBits addrNum
    rw [h2]
    split <;> omega
  · unfold Range.JoinIPNet Range.Join
    simp only [ha1, Option.getD_some, h1]
    split
    · rfl
    · simp only [Res.ok_bind, Res.pure_eq, hb1, Option.getD_some]; split <;> rfl

/-- C06 for `Range.JoinIPNet`, for a range not ending at the all-ones address. -/
theorem C06_joinIPNet_below_top (r : Range) (n : IPNet) (hs : ValidIP r.start) (he : ValidIP r.end_)
    (hn : WFNet n) (ht : NotTop r.end_) :
    ∃ r' joined, r.JoinIPNet n = .ok (r', joined) ∧
      (joined = true ↔ addrNum r.start ≤ netLo n ∧ netLo n ≤ addrNum r.end_ + 1) ∧
      (joined = true → ∀ x, Between r'.start r'.end_ x ↔ Between r.start r.end_ x ∨ Covers n x) ∧
      (joined = false → r' = r) := by
  obtain ⟨r2, _, hl1, hl2, hn1, hn2, hj⟩ := C06_joinIPNet_is_join r n hn
  have hlo : netLo n < netEnd n := by
    unfold netLo netEnd; have := Nat.two_pow_pos (hostBits n); omega
  obtain ⟨h1, h2, h3⟩ := C06_join_below_top r r2 hs he (.inr hl1) (.inr hl2) ht
  refine ⟨(r.Join r2).1, (r.Join r2).2, hj, by rw [h1, hn1], fun h x => ?_, h3⟩
  rw [h2 h x]
  unfold Covers Between at *
  omega

/-- The negation of the full claim, on a concrete case: `ff00::/8` does not take `ff80::/16`. -/
theorem C06_joinIPNet_negation :
    ∃ r n, NewRange { ip := 0xff :: List.replicate 15 0, mask := 0xff :: List.replicate 15 0 } = .ok r ∧
      WFNet n ∧ addrNum r.start ≤ netLo n ∧ netLo n ≤ addrNum r.end_ ∧ r.JoinIPNet n = .ok (r, false) := by
  refine ⟨⟨0xff :: List.replicate 15 0, List.replicate 16 0xff⟩,
    { ip := 0xff :: 0x80 :: List.replicate 14 0, mask := 0xff :: 0xff :: List.replicate 14 0 }, ?_⟩
  decide

example : ∃ r, Range.JoinIPNet ⟨[10, 0, 0, 0], [10, 0, 0, 255]⟩ { ip := [10, 0, 1, 0], mask := [255, 255, 255, 0] }
    = .ok (r, true) ∧ NotTop [10, 0, 0, 255] := ⟨⟨[10, 0, 0, 0], goIPv4 10 0 1 255⟩, by decide⟩

/-! ## C07 -/

/-- C07 for ranges that do not end at an all-ones address. -/
theorem C07_commonRange_below_top (r r2 : Range) (ip : IP) (hs : ValidIP r.start) (he : ValidIP r.end_)
    (hs2 : ValidIP r2.start) (he2 : ValidIP r2.end_) (hi : ValidIP ip)
    (ht : NotTop r.end_) (ht2 : r2.end_.length = 16 ∨ NotTop r2.end_) :
    ((r.CommonRange ip r2).2 = true ↔
      Between r.start r.end_ (addrNum ip) ∧ Between r2.start r2.end_ (addrNum ip)) ∧
    ((r.CommonRange ip r2).2 = true → ∀ x,
      Between (r.CommonRange ip r2).1.start (r.CommonRange ip r2).1.end_ x ↔
        Between r.start r.end_ x ∧ Between r2.start r2.end_ x) ∧
    ((r.CommonRange ip r2).2 = false → (r.CommonRange ip r2).1 = r) := by
  unfold Range.CommonRange
  have h1 := IPLess_iff he2 hs
  have h2 := IPLess_iff (NextIP_valid he) hs2
  rw [NextIP_addrNum' ht] at h2
  by_cases hc : (IPLess r2.end_ r.start || IPLess (NextIP r.end_) r2.start) = true
  · rw [if_pos hc]
    rw [Bool.or_eq_true, h1, h2] at hc
    unfold Between
    simp; omega
  · rw [if_neg hc]
    rw [Bool.or_eq_true, h1, h2] at hc
    have h3 := IPLess_iff hs hs2
    have h4 := IPLess_iff he2 he
    -- the two chosen ends
    obtain ⟨st, hst, hstv, hstn⟩ : ∃ st, (if IPLess r.start r2.start = true then r2.start else r.start) = st ∧
        ValidIP st ∧ addrNum st = max (addrNum r.start) (addrNum r2.start) := by
      refine ⟨_, rfl, ?_, ?_⟩
      · split <;> assumption
      · split <;> rename_i h <;> rw [h3] at h <;> omega
    obtain ⟨en, hen, henv, henn, hent⟩ : ∃ en, (if IPLess r2.end_ r.end_ = true then r2.end_ else r.end_) = en ∧
        ValidIP en ∧ addrNum en = min (addrNum r.end_) (addrNum r2.end_) ∧ NotTop en := by
      refine ⟨_, rfl, ?_, ?_, ?_⟩
      · split <;> assumption
      · split <;> rename_i h <;> rw [h4] at h <;> omega
      · split
        · rename_i h; rw [h4] at h
          rcases ht2 with h' | h'
          · have := addrNum_lt he
            rw [addrNum_16 h'] at h
            unfold NotTop; rw [h']; omega
          · exact h'
        · exact ht
    simp only [hst, hen]
    have hcon := Contains_iff (start := st) (end_ := en) hstv henv hi hent
    unfold Between at *
    rw [hstn, henn] at hcon
    by_cases hk : Uip.Contains st en ip = true
    · simp only [hk, Bool.not_true, Bool.false_eq_true, if_false]
      have := hcon.mp hk
      refine ⟨⟨fun _ => by omega, fun _ => trivial⟩, fun _ x => ?_, fun h => by simp at h⟩
      rw [hstn, henn]; omega
    · simp only [Bool.not_eq_true] at hk
      simp only [hk, Bool.not_false, if_true]
      rw [hk] at hcon
      simp at hcon ⊢
      omega

/-- C07 fails at the top: a range that ends at the last IPv6 address has no common range with any
other range that does not start at `::`. -/
theorem C07_commonRange_top (r r2 : Range) (ip : IP) (he : r.end_.length = 16)
    (hs2 : ValidIP r2.start) (ht : ¬ NotTop r.end_) (h0 : 0 < addrNum r2.start) :
    r.CommonRange ip r2 = (r, false) := by
  unfold Range.CommonRange
  have h2 := IPLess_iff (NextIP_valid (.inr he)) hs2
  rw [NextIP_top16 he ht] at h2
  rw [if_pos (by rw [Bool.or_eq_true]; right; exact h2.mpr h0)]

/-- The negation of the full claim, on a concrete case. -/
theorem C07_commonRange_negation :
    ∃ (r r2 : Range) (ip : IP), ValidIP r.start ∧ ValidIP r.end_ ∧ ValidIP r2.start ∧ ValidIP r2.end_ ∧ ValidIP ip ∧
      Between r.start r.end_ (addrNum ip) ∧ Between r2.start r2.end_ (addrNum ip) ∧
      (r.CommonRange ip r2).2 = false :=
  ⟨⟨[200, 0, 0, 0], [255, 255, 255, 255]⟩, ⟨[210, 0, 0, 0], [220, 0, 0, 0]⟩, [215, 0, 0, 0], by decide⟩

example : (Range.CommonRange ⟨[10, 0, 0, 0], [10, 0, 0, 255]⟩ [10, 0, 0, 100] ⟨[10, 0, 0, 64], [10, 0, 1, 0]⟩)
    = (⟨[10, 0, 0, 64], [10, 0, 0, 255]⟩, true) ∧ NotTop [10, 0, 0, 255] ∧ NotTop [10, 0, 1, 0] := by decide

/-! ## C08, C09, C10 -/

private theorem ipNets_spec (r : Range) (hs : ValidIP r.start) (he : ValidIP r.end_)
    (hle : addrNum r.start ≤ addrNum r.end_) :
    ∃ blocks, r.IPNets = some (.ok blocks) ∧ blocks.length ≤ 254 ∧
      GreedyTiling (addrNum r.start) (addrNum r.end_ + 1) blocks := by
  obtain ⟨a, ha1, ha2, ha3⟩ := To16_valid hs
  obtain ⟨b, hb1, hb2, hb3⟩ := To16_valid he
  obtain ⟨l, hl, hlen⟩ := ipNetsLoop_total (fuel := ipNetsFuel) ha2 hb2 (by omega) (by decide)
  obtain ⟨l', he', hg⟩ := ipNetsLoop_sound ha2 hb2 (by omega) hl
  cases he'
  refine ⟨l, by simp [Range.IPNets, ha1, hb1, hl], hlen, ?_⟩
  rw [← ha3, ← hb3]; exact hg

/-- C08: the returned blocks are well-formed 16-byte networks that tile `[start, end]` in order. -/
theorem C08_ipNets_tiles (r : Range) (hs : ValidIP r.start) (he : ValidIP r.end_)
    (hle : addrNum r.start ≤ addrNum r.end_) :
    ∃ blocks, r.IPNets = some (.ok blocks) ∧
      (∀ n ∈ blocks, WFNet n ∧ n.ip.length = 16) ∧
      Tiles (addrNum r.start) blocks (addrNum r.end_ + 1) := by
  obtain ⟨l, h1, _, h3⟩ := ipNets_spec r hs he hle
  exact ⟨l, h1, h3.wf, h3.tiles⟩

/-- C08: every number of the range lies in exactly one block, no other number in any. -/
theorem C08_ipNets_exact_cover (r : Range) (hs : ValidIP r.start) (he : ValidIP r.end_)
    (hle : addrNum r.start ≤ addrNum r.end_) :
    ∃ blocks, r.IPNets = some (.ok blocks) ∧
      (∀ x, (∃ n ∈ blocks, Covers n x) ↔ Between r.start r.end_ x) ∧
      (∀ (x i j : Nat) (n m : IPNet), blocks[i]? = some n → blocks[j]? = some m → Covers n x → Covers m x → i = j) := by
  obtain ⟨l, h1, _, h3⟩ := ipNets_spec r hs he hle
  refine ⟨l, h1, fun x => ?_, fun x i j n m hi hj hn hm => tiles_unique h3.tiles x hi hj hn hm⟩
  rw [(tiles_covers h3.tiles).2 x]; unfold Between; omega

/-- C09: no list of CIDR networks whose union is the range is shorter. -/
theorem C09_ipNets_minimal (r : Range) (hs : ValidIP r.start) (he : ValidIP r.end_)
    (hle : addrNum r.start ≤ addrNum r.end_) (other : List IPNet) (hwf : ∀ n ∈ other, WFNet n)
    (hcov : ∀ x, (∃ n ∈ other, Covers n x) ↔ Between r.start r.end_ x) :
    ∃ blocks, r.IPNets = some (.ok blocks) ∧ blocks.length ≤ other.length := by
  obtain ⟨l, h1, _, h3⟩ := ipNets_spec r hs he hle
  refine ⟨l, h1, ?_⟩
  have := h3.min (other.map (fun n => (netLo n, hostBits n)))
    (by
      intro p hp
      obtain ⟨n, hn, rfl⟩ := List.mem_map.mp hp
      exact (WFNet_bounds (hwf n hn)).1)
    (by
      intro p hp
      obtain ⟨n, hn, rfl⟩ := List.mem_map.mp hp
      have hpos := Nat.two_pow_pos (hostBits n)
      have h1 := (hcov (netLo n)).mp ⟨n, hn, by unfold Covers netEnd netLo; omega⟩
      have h2 := (hcov (netEnd n - 1)).mp ⟨n, hn, by unfold Covers netEnd netLo; omega⟩
      unfold Between netLo netEnd at *
      simp only; omega)
    (by
      intro x h1 h2
      obtain ⟨n, hn, hc⟩ := (hcov x).mpr (by unfold Between; omega)
      exact ⟨_, List.mem_map.mpr ⟨n, hn, rfl⟩, hc⟩)
  simpa using this

/-- C09: every CIDR network inside the range lies inside one of the blocks (they are as large as possible). -/
theorem C09_ipNets_largest (r : Range) (hs : ValidIP r.start) (he : ValidIP r.end_)
    (hle : addrNum r.start ≤ addrNum r.end_) (n : IPNet) (hwf : WFNet n) (hin : ∀ x, Covers n x → Between r.start r.end_ x) :
    ∃ blocks, r.IPNets = some (.ok blocks) ∧ ∃ b ∈ blocks, ∀ x, Covers n x → Covers b x := by
  obtain ⟨l, h1, _, h3⟩ := ipNets_spec r hs he hle
  have hpos := Nat.two_pow_pos (hostBits n)
  have hend : netEnd n = netLo n + 2 ^ hostBits n := rfl
  have k1 := hin (netLo n) ⟨Nat.le_refl _, by omega⟩
  have k2 := hin (netEnd n - 1) ⟨by omega, by omega⟩
  unfold Between at k1 k2
  obtain ⟨b, hb, b1, b2⟩ := h3.inside (WFNet_bounds hwf).1 k1.1 (by omega)
  exact ⟨l, h1, b, hb, fun x hx => ⟨Nat.le_trans b1 hx.1, by have := hx.2; omega⟩⟩

example : WFNet ⟨[10, 0, 0, 128], [255, 255, 255, 192]⟩ ∧ ∀ x, Covers ⟨[10, 0, 0, 128], [255, 255, 255, 192]⟩ x → Between [10, 0, 0, 3] [10, 0, 1, 9] x := by
  refine ⟨by decide, fun x hx => ?_⟩
  have h1 : netLo ⟨[10, 0, 0, 128], [255, 255, 255, 192]⟩ = 0xffff * 2 ^ 32 + 0x0a000080 := by decide
  have h2 : netEnd ⟨[10, 0, 0, 128], [255, 255, 255, 192]⟩ = 0xffff * 2 ^ 32 + 0x0a0000c0 := by decide
  have h3 : addrNum [10, 0, 0, 3] = 0xffff * 2 ^ 32 + 0x0a000003 := by decide
  have h4 : addrNum [10, 0, 1, 9] = 0xffff * 2 ^ 32 + 0x0a000109 := by decide
  unfold Covers at hx
  unfold Between
  omega

/-- C10: at most 254 blocks; the loop returns (`none` would mean it is still running after
`ipNetsFuel = 256` iterations). -/
theorem C10_ipNets_terminates (r : Range) (hs : ValidIP r.start) (he : ValidIP r.end_)
    (hle : addrNum r.start ≤ addrNum r.end_) :
    ∃ blocks, r.IPNets = some (.ok blocks) ∧ blocks.length ≤ 254 := by
  obtain ⟨l, h1, h2, _⟩ := ipNets_spec r hs he hle
  exact ⟨l, h1, h2⟩

/-- The range of the README example: 1.1.1.1 - 1.1.1.6 gives four blocks. -/
example : Range.IPNets ⟨[1, 1, 1, 1], [1, 1, 1, 6]⟩ = some (.ok
    [⟨goIPv4 1 1 1 1, cidrMaskLoop 16 128⟩, ⟨goIPv4 1 1 1 2, cidrMaskLoop 16 127⟩,
     ⟨goIPv4 1 1 1 4, cidrMaskLoop 16 127⟩, ⟨goIPv4 1 1 1 6, cidrMaskLoop 16 128⟩]) := by decide +kernel

/-- The bound of C10 is attained: `::1` to `ff..fe` needs 254 blocks. -/
theorem C10_bound_attained :
    ∃ blocks, Range.IPNets ⟨List.replicate 15 0 ++ [1], List.replicate 15 0xff ++ [0xfe]⟩ = some (.ok blocks) ∧
      blocks.length = 254 := by
  have : (match Range.IPNets ⟨List.replicate 15 0 ++ [1], List.replicate 15 0xff ++ [0xfe]⟩ with
    | some (.ok b) => some b.length | _ => none) = some 254 := by decide +kernel
  split at this
  · rename_i b hb; exact ⟨b, hb, by simpa using this⟩
  · simp at this

end Uip
