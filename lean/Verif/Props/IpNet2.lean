import Verif.Model.IpNetText
import Verif.Proof.Range
import Verif.Props.IpNet
import Verif.Props.Text
/-!
# Properties C73-C78: the rest of package `ipnet`
-/
namespace Uip
open Spec

/-! ## C73 -/

private theorem shr64 (x : UInt64) (k : Nat) (hk : k < 64) :
    ((x >>> UInt64.ofNat k) &&& 0xFF).toUInt8.toNat = x.toNat / 2 ^ k % 256 := by
  rw [UInt64.toNat_toUInt8, UInt64.toNat_and, UInt64.toNat_shiftRight]
  have : (255 : UInt64).toNat = 2 ^ 8 - 1 := rfl
  have e : (UInt64.ofNat k).toNat = k := by
    rw [UInt64.toNat_ofNat']; omega
  rw [this, Nat.and_two_pow_sub_one_eq_mod, e, Nat.mod_eq_of_lt hk, Nat.shiftRight_eq_div_pow]
  omega

private theorem val64 (x : UInt64) :
    val [(x >>> 56 &&& 0xFF).toUInt8, (x >>> 48 &&& 0xFF).toUInt8, (x >>> 40 &&& 0xFF).toUInt8,
      (x >>> 32 &&& 0xFF).toUInt8, (x >>> 24 &&& 0xFF).toUInt8, (x >>> 16 &&& 0xFF).toUInt8,
      (x >>> 8 &&& 0xFF).toUInt8, (x &&& 0xFF).toUInt8] = x.toNat := by
  have h56 := shr64 x 56 (by decide)
  have h48 := shr64 x 48 (by decide)
  have h40 := shr64 x 40 (by decide)
  have h32 := shr64 x 32 (by decide)
  have h24 := shr64 x 24 (by decide)
  have h16 := shr64 x 16 (by decide)
  have h8 := shr64 x 8 (by decide)
  have h0 : (x &&& 0xFF).toUInt8.toNat = x.toNat % 256 := by
    rw [UInt64.toNat_toUInt8, UInt64.toNat_and]
    have : (255 : UInt64).toNat = 2 ^ 8 - 1 := rfl
    rw [this, Nat.and_two_pow_sub_one_eq_mod]; omega
  rw [show UInt64.ofNat 56 = 56 from rfl] at h56
  rw [show UInt64.ofNat 48 = 48 from rfl] at h48
  rw [show UInt64.ofNat 40 = 40 from rfl] at h40
  rw [show UInt64.ofNat 32 = 32 from rfl] at h32
  rw [show UInt64.ofNat 24 = 24 from rfl] at h24
  rw [show UInt64.ofNat 16 = 16 from rfl] at h16
  rw [show UInt64.ofNat 8 = 8 from rfl] at h8
  simp only [val, List.length_cons, List.length_nil, h56, h48, h40, h32, h24, h16, h8, h0]
  have := x.toNat_lt
  omega

/-- C73: two 64-bit numbers are the upper and the lower half of an IPv6 address. -/
theorem C73_halves (high low : UInt64) :
    (Uint64ToIP2 high low).length = 16 ∧ addrNum (Uint64ToIP2 high low) = high.toNat * 2 ^ 64 + low.toNat := by
  refine ⟨rfl, ?_⟩
  rw [addrNum_16 rfl]
  have h := val64 high
  have l := val64 low
  have e := val_append
    [(high >>> 56 &&& 0xFF).toUInt8, (high >>> 48 &&& 0xFF).toUInt8, (high >>> 40 &&& 0xFF).toUInt8,
      (high >>> 32 &&& 0xFF).toUInt8, (high >>> 24 &&& 0xFF).toUInt8, (high >>> 16 &&& 0xFF).toUInt8,
      (high >>> 8 &&& 0xFF).toUInt8, (high &&& 0xFF).toUInt8]
    [(low >>> 56 &&& 0xFF).toUInt8, (low >>> 48 &&& 0xFF).toUInt8, (low >>> 40 &&& 0xFF).toUInt8,
      (low >>> 32 &&& 0xFF).toUInt8, (low >>> 24 &&& 0xFF).toUInt8, (low >>> 16 &&& 0xFF).toUInt8,
      (low >>> 8 &&& 0xFF).toUInt8, (low &&& 0xFF).toUInt8]
  rw [h, l] at e
  rw [show (256 : Nat) ^ _ = 2 ^ 64 from by simp only [List.length_cons, List.length_nil]] at e
  rw [← e]
  rfl

/-- C73: every IPv6 address is given by exactly one pair of halves. -/
theorem C73_unique (ip : IP) (h : ip.length = 16) :
    ∃ high low, Uint64ToIP2 high low = ip ∧ ∀ h' l', Uint64ToIP2 h' l' = ip → h' = high ∧ l' = low := by
  have hb := val_lt ip
  rw [h] at hb
  refine ⟨UInt64.ofNat (val ip / 2 ^ 64), UInt64.ofNat (val ip % 2 ^ 64), ?_, fun h' l' e => ?_⟩
  · apply val_inj (by rw [h]; rfl)
    have := (C73_halves (UInt64.ofNat (val ip / 2 ^ 64)) (UInt64.ofNat (val ip % 2 ^ 64))).2
    rw [addrNum_16 rfl] at this
    rw [this, UInt64.toNat_ofNat', UInt64.toNat_ofNat']
    omega
  · have := (C73_halves h' l').2
    rw [e, addrNum_16 h] at this
    have b1 := h'.toNat_lt
    have b2 := l'.toNat_lt
    constructor
    · apply UInt64.toNat_inj.mp
      rw [UInt64.toNat_ofNat']; omega
    · apply UInt64.toNat_inj.mp
      rw [UInt64.toNat_ofNat']; omega

/-- C73: one 64-bit number is the upper half, the lower half is zero. -/
theorem C73_upper (x : UInt64) : Uint64ToIP x = Uint64ToIP2 x 0 ∧ addrNum (Uint64ToIP x) = x.toNat * 2 ^ 64 := by
  have : Uint64ToIP x = Uint64ToIP2 x 0 := rfl
  refine ⟨this, ?_⟩
  rw [this, (C73_halves x 0).2, show (0 : UInt64).toNat = 0 from rfl, Nat.add_zero]

example : Uint64ToIP2 0x20010db800000001 0x42 = [0x20, 1, 0x0d, 0xb8, 0, 0, 0, 1, 0, 0, 0, 0, 0, 0, 0, 0x42] := by decide

/-! ## C74 -/

/-- C74: networks compare by family (IPv4 first), then by size, the smaller first. -/
theorem C74_mask_less (a b : IPNet) (ka kb : Nat) (ha : IsCIDR a ka) (hb : IsCIDR b kb) :
    MaskLess a b = true ↔ a.ip.length < b.ip.length ∨
      (a.ip.length = b.ip.length ∧ 2 ^ (8 * a.ip.length - ka) < 2 ^ (8 * b.ip.length - kb)) := by
  unfold MaskLess
  rw [maskSize_of_IsMask ha.2.2, maskSize_of_IsMask hb.2.2]
  have h1 := ha.2.2.1
  have h2 := hb.2.2.1
  rw [ha.2.1] at h1
  rw [hb.2.1] at h2
  rw [Nat.pow_lt_pow_iff_right (by decide)]
  split
  · simp; omega
  · rename_i h; simp at h; simp [h]; omega

/-- C74: it is a strict order whose incomparable networks have the same family and size. -/
theorem C74_strict_weak_order :
    (∀ a, MaskLess a a = false) ∧
    (∀ a b c, MaskLess a b = true → MaskLess b c = true → MaskLess a c = true) ∧
    (∀ a b c, MaskLess a b = false → MaskLess b c = false → MaskLess a c = false) := by
  refine ⟨fun a => by simp [MaskLess], fun a b c => ?_, fun a b c => ?_⟩
  · unfold MaskLess
    split <;> split <;> split <;> simp <;> omega
  · unfold MaskLess
    split <;> split <;> split <;> simp <;> omega

/-- C74: a network strictly inside another of its family is less. -/
theorem C74_subnet (a b : IPNet) (ha : WFNet a) (hb : WFNet b) (hl : a.ip.length = b.ip.length)
    (h : ∀ x, Covers a x → Covers b x) (hne : a ≠ b) : MaskLess a b = true := by
  rw [C74_mask_less a b _ _ ha.1 hb.1]
  refine Or.inr ⟨hl, ?_⟩
  have h1 : netLo b ≤ netLo a := by
    have := h (netLo a) (by unfold Covers netEnd netLo; have := Nat.two_pow_pos (hostBits a); omega)
    exact this.1
  have hp := Nat.two_pow_pos (hostBits a)
  have h2 := (h (netEnd a - 1) (by unfold Covers netEnd netLo; omega)).2
  have h3 : netLo b + 2 ^ hostBits b = netEnd b := rfl
  have h4 : netLo a + 2 ^ hostBits a = netEnd a := rfl
  show 2 ^ hostBits a < 2 ^ hostBits b
  rcases Nat.lt_or_ge (2 ^ hostBits a) (2 ^ hostBits b) with h5 | h5
  · exact h5
  · exfalso
    apply hne
    have e1 : netLo a = netLo b := by omega
    have e2 : 2 ^ hostBits a = 2 ^ hostBits b := by omega
    have e3 : hostBits a = hostBits b := by
      rcases Nat.lt_trichotomy (hostBits a) (hostBits b) with h | h | h
      · have := Nat.pow_lt_pow_right (a := 2) (by decide) h; omega
      · exact h
      · have := Nat.pow_lt_pow_right (a := 2) (by decide) h; omega
    have ea := ha.1.2.2
    have eb := hb.1.2.2
    have c1 := ea.1
    have c2 := eb.1
    rw [ha.1.2.1] at c1
    rw [hb.1.2.1] at c2
    unfold hostBits at e3
    have e4 : pfx a = pfx b := by omega
    cases a with | mk ia ma =>
    cases b with | mk ib mb =>
    simp only [IPNet.mk.injEq]
    refine ⟨addrNum_inj hl e1, bits_inj ?_ ?_⟩
    · have := ha.1.2.1; have := hb.1.2.1; simp only at *; omega
    · rw [ea.2, eb.2, e4]
      have := ha.1.2.1; have := hb.1.2.1
      simp only at *
      rw [show ma.length = mb.length by omega]

example : MaskLess ⟨[10, 1, 0, 0], [255, 255, 0, 0]⟩ ⟨[10, 0, 0, 0], [255, 0, 0, 0]⟩ = true :=
  C74_subnet _ _ (by decide) (by decide) rfl
    (fun x hx => by unfold Covers netLo netEnd at *; simp only [show hostBits ⟨[10, 1, 0, 0], [255, 255, 0, 0]⟩ = 16 by decide,
      show hostBits ⟨[10, 0, 0, 0], [255, 0, 0, 0]⟩ = 24 by decide, show addrNum [10, 1, 0, 0] = 0xffff0a010000 by decide,
      show addrNum [10, 0, 0, 0] = 0xffff0a000000 by decide] at *; omega) (by decide)

/-! ## C75 -/

/-- C75: asked for IPv6, the first address is `::` alone; asked for IPv4, among the IPv4 addresses (in either form)
it is `0.0.0.0` alone. -/
theorem C75_first_ip (ip : IP) (h : ValidIP ip) :
    (IsFirstIP ip true = true ↔ addrNum ip = 0) ∧
    (∀ v, To4 ip = some v → (IsFirstIP ip false = true ↔ v = [0, 0, 0, 0])) := by
  constructor
  · unfold IsFirstIP ipEqual
    rw [if_pos rfl]
    rcases h with h | h
    · have : ¬ (ip.length = IPv6zero.length) := by rw [h]; decide
      rw [if_neg this, if_pos ⟨h, rfl⟩, addrNum_4 h]
      have e : (IPv6zero.take 12 == v4InV6Prefix) = false := by decide
      rw [e, Bool.false_and]
      simp
    · rw [if_pos (by rw [h]; rfl), addrNum_16 h]
      constructor
      · intro e
        rw [beq_iff_eq] at e
        rw [e]; decide
      · intro e
        rw [beq_iff_eq]
        exact val_inj (by rw [h]; rfl) (by rw [e]; decide)
  · intro v hv
    unfold IsFirstIP
    rw [if_neg (by decide)]
    rcases h with h | h
    · have e : v = ip := by
        unfold To4 at hv; rw [if_pos h] at hv; exact (Option.some.inj hv).symm
      subst e
      rw [if_neg (by omega)]
      unfold ipEqual
      rw [if_neg (by rw [h]; decide), if_pos ⟨h, rfl⟩]
      have e1 : (IPv4zero.take 12 == v4InV6Prefix) = true := by decide
      have e2 : IPv4zero.drop 12 = [0, 0, 0, 0] := by decide
      rw [e1, e2, Bool.true_and, beq_iff_eq]
    · rw [if_pos h]
      unfold To4 at hv
      rw [if_neg (by omega)] at hv
      split at hv
      · rw [← Option.some.inj hv, beq_iff_eq]
      · cases hv

/-- C75: asked for IPv4 with an address that is not IPv4 the function looks at the last four bytes only. -/
theorem C75_not_ipv4 : To4 [0x20, 1, 0, 0, 0, 0, 0, 0, 0, 0, 0, 0, 0, 0, 0, 0] = none ∧
    IsFirstIP [0x20, 1, 0, 0, 0, 0, 0, 0, 0, 0, 0, 0, 0, 0, 0, 0] false = true := by decide

example : IsFirstIP [0, 0, 0, 0] false = true ∧ IsFirstIP IPv4zero false = true ∧ IsFirstIP IPv6zero true = true ∧
    IsFirstIP [1, 0, 0, 0] false = false := by decide

/-! ## C76 -/

/-- C76: the text of an IPv4 address, in either form, gives its number; a text that is not an IPv4 address gives 0. -/
theorem C76_text (ip v : IP) (h : To4 ip = some v) : ∃ x, IPv4StrToUint32 (IPString ip) = .ok x ∧ x.toNat = val v := by
  have hv : ValidIP ip := (To4_eq_some h).1
  unfold IPv4StrToUint32
  rw [C62_address ip hv]
  have : (To16 ip).bind To4 = some v := by
    rcases hv with h4 | h6
    · rw [To16_4 h4]
      have : v = ip := by unfold To4 at h; rw [if_pos h4] at h; exact (Option.some.inj h).symm
      subst this
      show To4 (v4InV6Prefix ++ v) = some v
      unfold To4
      rw [if_neg (by simp [h4]), if_pos ⟨by simp [h4], List.take_left' rfl⟩]; rfl
    · rw [To16_16 h6]; exact h
  rw [this]
  have hv4 : To4 v = some v := by
    unfold To4; rw [if_pos (To4_eq_some h).2.1]
  obtain ⟨x, h1, h2, _⟩ := C01_ipv4_roundtrip v v hv4
  exact ⟨x, h1, h2⟩

theorem C76_other (s : Str) (h : ∀ ip, ParseIP s = some ip → To4 ip = none) : IPv4StrToUint32 s = .ok 0 := by
  unfold IPv4StrToUint32
  cases hp : ParseIP s with
  | none => rfl
  | some ip => show (match To4 ip with | some ip => IPv4ToUint32 ip | none => .ok 0) = _; rw [h ip hp]

example : IPv4StrToUint32 (gs "1.1.1.1") = .ok 0x01010101 ∧ IPv4StrToUint32 (gs "fake") = .ok 0 ∧
    IPv4StrToUint32 (gs "2001::1") = .ok 0 := by decide +kernel

/-! ## C77 -/

/-- C77: the number of leading bits two addresses of one family share. -/
theorem C77_prefix (a b : IP) (h : a.length = b.length) :
    PrefixSameLength a b ≤ 8 * a.length ∧
    (bits a).take (PrefixSameLength a b) = (bits b).take (PrefixSameLength a b) ∧
    ∀ k, k ≤ 8 * a.length → (bits a).take k = (bits b).take k → k ≤ PrefixSameLength a b := by
  have e : PrefixSameLength a b = cpl (bits a) (bits b) := by
    unfold PrefixSameLength; rw [if_neg (by simp [h]), prefixSameLoop_eq a b h]
  have hl : (bits a).length = (bits b).length := by rw [bits_length, bits_length, h]
  have hle : cpl (bits a) (bits b) ≤ (bits a).length := cpl_le
  rw [e]
  refine ⟨by rw [← bits_length]; exact hle, take_cpl _ _ hl, fun k hk hkk => ?_⟩
  rcases Nat.lt_or_ge (cpl (bits a) (bits b)) k with hlt | hge
  · exfalso
    have := take_cpl_succ _ _ hl (by rw [bits_length] at *; omega)
    apply this
    have t := congrArg (List.take (cpl (bits a) (bits b) + 1)) hkk
    rw [List.take_take, List.take_take, Nat.min_eq_left (by omega)] at t
    exact t
  · exact hge

/-- C77: addresses of different lengths share nothing. -/
theorem C77_mixed (a b : IP) (h : a.length ≠ b.length) : PrefixSameLength a b = 0 := by
  unfold PrefixSameLength; rw [if_pos h]

/-- C77: the number of trailing zero bits: the largest power of two, up to the size of the space, that divides the number
of the address. -/
theorem C77_suffix (ip : IP) (k : Nat) (hk : k ≤ 8 * ip.length) : 2 ^ k ∣ val ip ↔ k ≤ SuffixZeroLength ip := by
  have := suffixZeroLoop_spec ip 0
  simp only [List.replicate_zero, List.append_nil, Nat.add_zero] at this
  obtain ⟨h1, h2, h3⟩ := this
  unfold SuffixZeroLength
  constructor
  · intro hd
    rcases Nat.lt_or_ge (suffixZeroLoop ip ip.length) k with hlt | hge
    · exfalso
      exact h3 (by omega) (Nat.dvd_trans (Nat.pow_dvd_pow 2 (by omega)) hd)
    · exact hge
  · intro hle
    exact Nat.dvd_trans (Nat.pow_dvd_pow 2 hle) h2

theorem C77_suffix_le (ip : IP) : SuffixZeroLength ip ≤ 8 * ip.length := by
  have := suffixZeroLoop_spec ip 0
  simp only [List.replicate_zero, List.append_nil, Nat.add_zero] at this
  exact this.1

example : PrefixSameLength [10, 0, 0, 0] [10, 0, 16, 1] = 19 ∧ SuffixZeroLength [10, 0, 16, 0] = 12 := by decide

/-! ## C78 -/

/-- C78: sorting ranges compares the addresses they start at, and exchanging two elements of a list of ranges moves
nothing else. -/
theorem C78_less (r : List Range) (i j : Nat) (hi : i < r.length) (hj : j < r.length)
    (h : ∀ x ∈ r, ValidIP x.start) :
    Ranges.Less r i j = .ok (decide (addrNum r[i].start < addrNum r[j].start)) := by
  unfold Ranges.Less
  rw [List.getElem?_eq_getElem hi, List.getElem?_eq_getElem hj]
  have := IPLess_iff (h _ (List.getElem_mem hi)) (h _ (List.getElem_mem hj))
  simp only [Res.ok.injEq]
  rw [Bool.eq_iff_iff, this, decide_eq_true_iff]

theorem C78_swap (r : List Range) (i j : Nat) (hi : i < r.length) (hj : j < r.length) :
    ∃ r', Ranges.Swap r i j = .ok r' ∧ r'.length = r.length ∧ r'[i]? = r[j]? ∧ r'[j]? = r[i]? ∧
      ∀ k, k ≠ i → k ≠ j → r'[k]? = r[k]? := by
  unfold Ranges.Swap
  rw [List.getElem?_eq_getElem hi, List.getElem?_eq_getElem hj]
  refine ⟨_, rfl, by simp, ?_, ?_, fun k h1 h2 => ?_⟩
  · by_cases e : i = j
    · subst e; simp [hi]
    · rw [List.getElem?_set_ne (Ne.symm e), List.getElem?_set_self hi]
  · rw [List.getElem?_set_self (by simpa using hj)]
  · rw [List.getElem?_set_ne (Ne.symm h2), List.getElem?_set_ne (Ne.symm h1)]

example : Ranges.Less [⟨[10, 0, 0, 0], [10, 0, 0, 9]⟩, ⟨[9, 0, 0, 0], [9, 0, 0, 9]⟩] 0 1 = .ok false ∧
    Ranges.Less [⟨[10, 0, 0, 0], [10, 0, 0, 9]⟩, ⟨[9, 0, 0, 0], [9, 0, 0, 9]⟩] 1 0 = .ok true := by decide

end Uip
