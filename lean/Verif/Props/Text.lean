import Verif.Proof.Text
import Verif.Proof.Range
/-!
# Property C62: addresses and networks survive printing and parsing

`IPString`/`IPNetString` print (`net.IP.String`, `net.IPNet.String`), `ParseIP`/`ParseCIDR` read.
-/
namespace Uip
open Spec

theorem idxOf?_append_sep {b : UInt8} {a t : Str} (h : b ∉ a) : (a ++ b :: t).idxOf? b = some a.length := by
  induction a with
  | nil => simp [List.idxOf?_cons]
  | cons x a ih =>
    have hx : ¬ (x == b) = true := by
      intro e; exact h (by simp [eq_of_beq e])
    rw [List.cons_append, List.idxOf?_cons, if_neg hx, ih (fun hh => h (List.mem_cons_of_mem _ hh))]
    rfl

private theorem find_eq {s : Str} {p : UInt8 → Bool} {x : UInt8} (hx : x ∈ s) (hp : ∀ c ∈ s, p c = true → c = x) (hpx : p x = true) :
    s.find? p = some x := by
  cases h : s.find? p with
  | none => have := List.find?_eq_none.mp h x hx; exact absurd hpx this
  | some y =>
    have := List.find?_some (p := p) h
    rw [hp y (List.mem_of_find?_eq_some h) this]

private theorem list4 {p : List UInt8} (h : p.length = 4) : ∃ a b c d, p = [a, b, c, d] := by
  match p, h with
  | [a, b, c, d], _ => exact ⟨a, b, c, d, rfl⟩

private theorem dotted_dot {p : List UInt8} (h : p.length = 4) : (0x2E : UInt8) ∈ dotted p := by
  obtain ⟨a, b, c, d, rfl⟩ := list4 h
  simp [dotted, joinByte]

private theorem dotted_noslash {p : List UInt8} : (0x2F : UInt8) ∉ dotted p := by
  intro h
  rcases dotted_chars h with h | h
  · revert h; decide
  · revert h; decide

private theorem parseIPv4_dotted' {p : List UInt8} (h : p.length = 4) : parseIPv4 (dotted p) = some p := by
  obtain ⟨a, b, c, d, rfl⟩ := list4 h
  exact parseIPv4_dotted a b c d

private theorem print4 {ip p : IP} (h : To4 ip = some p) : IPString ip = dotted p := by
  have := To4_eq_some h
  have hv : ip.length ≠ 0 := by rcases this.1 with h | h <;> omega
  unfold IPString
  rw [if_neg hv, h]

private theorem v4prefix_of_To4 {ip p : IP} (h : To4 ip = some p) : To16 ip = some (v4InV6Prefix ++ p) := by
  unfold To4 at h
  unfold To16
  split at h
  · rename_i hl; cases h; rw [if_pos hl]
  · rename_i hl
    split at h
    · rename_i hh
      injection h with h
      rw [if_neg hl, if_pos hh.1, ← h, ← hh.2, List.take_append_drop]
    · cases h

/-- **C62 (addresses).** Parsing the printed form of any address gives the same address, in 16-byte form. -/
theorem C62_address (ip : IP) (h : ValidIP ip) : ParseIP (IPString ip) = To16 ip := by
  cases h4 : To4 ip with
  | some p =>
    have hp := To4_eq_some h4
    rw [print4 h4]
    unfold ParseIP
    rw [find_eq (dotted_dot hp.2.1) (fun c hc hd => ?_) (by decide)]
    · rw [parseIPv4_dotted' hp.2.1, v4prefix_of_To4 h4]; rfl
    · rcases dotted_chars hc with hc | hc
      · simp only [decide_eq_true_eq] at hd
        rcases hd with rfl | rfl
        · rfl
        · revert hc; decide
      · exact hc
  | none =>
    have hl : ip.length = 16 := by
      rcases h with h | h
      · unfold To4 at h4; rw [if_pos h] at h4; cases h4
      · exact h
    obtain ⟨h1, h2, h3⟩ := parse6_print ip hl h4
    unfold ParseIP
    rw [find_eq h2 (fun c hc hd => ?_) (by decide)]
    · rw [h1]; unfold To16; rw [if_neg (by omega), if_pos hl]; rfl
    · rcases h3 c hc with hc | hc
      · exact hc
      · simp only [decide_eq_true_eq] at hd
        rcases hd with rfl | rfl
        · revert hc; decide
        · rfl

/-- The same, as a number. -/
theorem C62_address_num (ip : IP) (h : ValidIP ip) :
    ∃ r, ParseIP (IPString ip) = some r ∧ r.length = 16 ∧ addrNum r = addrNum ip := by
  rw [C62_address ip h]
  unfold To16
  rcases h with h | h
  · rw [if_pos h]
    refine ⟨_, rfl, by simp [v4InV6Prefix, h], ?_⟩
    rw [addrNum_16 (by simp [v4InV6Prefix, h]), addrNum_4 h, val_append, h]
    rw [show val v4InV6Prefix = 0xffff from by decide]
  · rw [if_neg (by omega), if_pos h]
    exact ⟨_, rfl, h, rfl⟩

/-- A masked aligned address is itself. -/
private theorem ipMask_aligned {ip mask : Bytes} {k : Nat} (hl : mask.length = ip.length) (hm : IsMask mask k)
    (ha : (bits ip).drop k = List.replicate (8 * ip.length - k) false) : ipMask ip mask = some ip := by
  obtain ⟨r, h1, h2, h3⟩ := ipMask_spec hl hm
  rw [h1]
  congr 1
  apply bits_inj h2
  rw [h3, ← ha, List.take_append_drop]

private theorem ipMask_v4 {p mask : Bytes} (hp : p.length = 4) (hm : mask.length = 4) :
    ipMask (v4InV6Prefix ++ p) mask = ipMask p mask := by
  unfold ipMask
  have e1 : ¬ (mask.length = 16 ∧ (v4InV6Prefix ++ p).length = 4 ∧ ((mask.take 12).all (· == 0xff)) = true) := by omega
  have e2 : ¬ (mask.length = 16 ∧ p.length = 4 ∧ ((mask.take 12).all (· == 0xff)) = true) := by omega
  have e3 : mask.length = 4 ∧ (v4InV6Prefix ++ p).length = 16 ∧ (v4InV6Prefix ++ p).take 12 = v4InV6Prefix :=
    ⟨hm, by simp [v4InV6Prefix, hp], rfl⟩
  have e4 : ¬ (mask.length = 4 ∧ p.length = 16 ∧ p.take 12 = v4InV6Prefix) := by omega
  simp only []
  rw [if_neg e1, if_neg e2, if_pos e3, if_neg e4]
  rfl

private theorem dtoi_pfx {k : Nat} (h : k ≤ 128) : dtoi (decStr k) = some (k, (decStr k).length, []) := by
  have := dtoi_decStr (n := k) (by unfold big; omega) (rest := []) noDig_nil
  rwa [List.append_nil] at this

/-- Reading a dotted block. -/
private theorem parse_block4 {p : IP} {k : Nat} (hp : p.length = 4) (hk : k ≤ 32)
    (ha : (bits p).drop k = List.replicate (8 * p.length - k) false) :
    ParseCIDR (dotted p ++ 0x2F :: decStr k) = some ⟨p, cidrMaskLoop 4 k⟩ := by
  unfold ParseCIDR
  rw [idxOf?_append_sep dotted_noslash]
  simp only []
  have hs : (dotted p ++ 0x2F :: decStr k).take (dotted p).length = dotted p := by
    rw [List.take_append_of_le_length (Nat.le_refl _), List.take_length]
  have hd : (dotted p ++ 0x2F :: decStr k).drop ((dotted p).length + 1) = decStr k := by
    rw [show dotted p ++ 0x2F :: decStr k = (dotted p ++ [0x2F]) ++ decStr k by simp]
    rw [List.drop_append_of_le_length (by simp), List.drop_eq_nil_of_le (by simp)]; rfl
  rw [hs, hd, parseIPv4_dotted' hp, dtoi_pfx (by omega)]
  simp only []
  rw [if_neg (by omega), show 8 * 4 = 32 from rfl, CIDRMask_32 hk]
  simp only []
  rw [ipMask_v4 hp (cidrMaskLoop_length 4 k),
    ipMask_aligned (k := k) (by rw [cidrMaskLoop_length, hp]) (IsMask_cidrMaskLoop 4 k (by omega)) ha]
  rfl

/-- Reading a block with colons. -/
private theorem parse_block16 {ip : IP} {k : Nat} (hp : ip.length = 16) (h4 : To4 ip = none) (hk : k ≤ 128)
    (ha : (bits ip).drop k = List.replicate (8 * ip.length - k) false) :
    ParseCIDR (IPString ip ++ 0x2F :: decStr k) = some ⟨ip, cidrMaskLoop 16 k⟩ := by
  obtain ⟨h1, h2, h3⟩ := parse6_print ip hp h4
  have hns : (0x2F : UInt8) ∉ IPString ip := by
    intro h
    rcases h3 _ h with h | h
    · revert h; decide
    · revert h; decide
  unfold ParseCIDR
  rw [idxOf?_append_sep hns]
  simp only []
  have hs : (IPString ip ++ 0x2F :: decStr k).take (IPString ip).length = IPString ip := by
    rw [List.take_append_of_le_length (Nat.le_refl _), List.take_length]
  have hd : (IPString ip ++ 0x2F :: decStr k).drop ((IPString ip).length + 1) = decStr k := by
    rw [show IPString ip ++ 0x2F :: decStr k = (IPString ip ++ [0x2F]) ++ decStr k by simp]
    rw [List.drop_append_of_le_length (by simp), List.drop_eq_nil_of_le (by simp)]; rfl
  rw [hs, hd, parseIPv4_colon h2, dtoi_pfx (by omega)]
  simp only [h1]
  rw [if_neg (by omega), show 8 * 16 = 128 from rfl, CIDRMask_128 hk]
  simp only []
  rw [ipMask_aligned (k := k) (by rw [cidrMaskLoop_length, hp]) (IsMask_cidrMaskLoop 16 k (by omega)) ha]
  rfl

private theorem nets_of (ip : IP) (m : Bytes) (k : Nat) (hv : ValidIP ip) (hm : IsMask m k) (hl : m.length = ip.length)
    (ha : (bits ip).drop k = List.replicate (8 * ip.length - k) false) : WFNet ⟨ip, m⟩ ∧ pfx ⟨ip, m⟩ = k := by
  have hp : pfx ⟨ip, m⟩ = k := pfx_of_IsMask hm
  refine ⟨⟨⟨hv, hl, ?_⟩, ?_⟩, hp⟩
  · rw [hp]; exact hm
  · rw [hp]; exact ha

/-- **C62 (networks).** A printed network parses to the same network, unless it is an IPv4 network in 16-byte form. -/
theorem C62_network_same (n : IPNet) (h : WFNet n) (hf : n.ip.length = 4 ∨ To4 n.ip = none) : ParseCIDR (IPNetString n) = some n := by
  obtain ⟨⟨hv, hl, hm⟩, ha⟩ := h
  have hms := (simpleMaskLength_iff _ _).mpr hm
  rcases n with ⟨ip, m⟩
  simp only at hv hl hm hms hf ha
  have hmk := hm.1
  have hme := IsMask_eq hm
  by_cases h4 : ip.length = 4
  · have ht : To4 ip = some ip := by unfold To4; rw [if_pos h4]
    have hs : IPNetString ⟨ip, m⟩ = dotted ip ++ 0x2F :: decStr (pfx ⟨ip, m⟩) := by
      unfold IPNetString networkNumberAndMask
      simp only [ht]
      rw [if_pos (by omega), if_pos h4]
      simp only []
      rw [hms, print4 ht]
    rw [hs, parse_block4 h4 (by omega) ha]
    rw [hl, h4] at hme
    rw [← hme]
  · have h16 : ip.length = 16 := hv.resolve_left h4
    have hn : To4 ip = none := hf.resolve_left h4
    have hs : IPNetString ⟨ip, m⟩ = IPString ip ++ 0x2F :: decStr (pfx ⟨ip, m⟩) := by
      unfold IPNetString networkNumberAndMask
      simp only [hn]
      rw [if_pos h16]
      simp only []
      rw [if_neg (by omega), if_pos (by omega), if_neg h4]
      simp only []
      rw [hms]
    rw [hs, parse_block16 h16 hn (by omega) ha]
    rw [hl, h16] at hme
    rw [← hme]

/-- A 16-byte network around an IPv4 address that is aligned has at least 96 prefix bits. -/
private theorem mapped_pfx {n : IPNet} (h : WFNet n) (h16 : n.ip.length = 16) (ht : n.ip.take 12 = v4InV6Prefix) : 96 ≤ pfx n := by
  obtain ⟨_, ha⟩ := h
  unfold Aligned at ha
  by_cases hlt : 96 ≤ pfx n
  · exact hlt
  · exfalso
    have e : bits n.ip = bits v4InV6Prefix ++ bits (n.ip.drop 12) := by
      rw [← bits_append, ← ht, List.take_append_drop]
    have hg : (bits n.ip)[95]? = some true := by
      rw [e, List.getElem?_append_left (by decide)]; decide
    have h2 := congrArg (fun l => l[95 - pfx n]?) ha
    simp only [List.getElem?_drop] at h2
    rw [show pfx n + (95 - pfx n) = 95 by omega, hg, List.getElem?_replicate, if_pos (by omega)] at h2
    cases h2

/-- **C62 (networks, any form).** A printed network parses to a network with the same addresses; an IPv4 network
always comes back in 4-byte form. -/
theorem C62_network (n : IPNet) (h : WFNet n) :
    ∃ n', ParseCIDR (IPNetString n) = some n' ∧ WFNet n' ∧ netLo n' = netLo n ∧ netEnd n' = netEnd n ∧
      ((To4 n.ip).isSome → n'.ip.length = 4) := by
  by_cases hf : n.ip.length = 4 ∨ To4 n.ip = none
  · refine ⟨n, C62_network_same n h hf, h, rfl, rfl, fun hs => ?_⟩
    rcases hf with hf | hf
    · exact hf
    · rw [hf] at hs; cases hs
  · have h' := h
    obtain ⟨⟨hv, hl, hm⟩, ha⟩ := h
    have h16 : n.ip.length = 16 := by
      rcases hv with h | h
      · exact absurd (Or.inl h) hf
      · exact h
    obtain ⟨p, h4⟩ : ∃ p, To4 n.ip = some p := by
      cases e : To4 n.ip with
      | none => exact absurd (Or.inr e) hf
      | some p => exact ⟨p, rfl⟩
    obtain ⟨_, hp4, hnum⟩ := To4_eq_some h4
    have ht : n.ip.take 12 = v4InV6Prefix ∧ p = n.ip.drop 12 := by
      unfold To4 at h4
      rw [if_neg (by omega)] at h4
      split at h4
      · rename_i hh; injection h4 with h4; exact ⟨hh.2, h4.symm⟩
      · cases h4
    have hk := mapped_pfx h' h16 ht.1
    have hk2 : pfx n ≤ 128 := by have := hm.1; omega
    have hbm : bits (n.mask.drop 12) = (bits n.mask).drop 96 := by
      have e : (bits (n.mask.take 12)).length = 96 := by simp [bits_length]; omega
      conv => rhs; rw [← List.take_append_drop 12 n.mask, bits_append]
      rw [← e, List.drop_left]
    have hbp : bits p = (bits n.ip).drop 96 := by
      rw [ht.2]
      have e : (bits (n.ip.take 12)).length = 96 := by simp [bits_length]; omega
      conv => rhs; rw [← List.take_append_drop 12 n.ip, bits_append]
      rw [← e, List.drop_left]
    have hml : (n.mask.drop 12).length = 4 := by simp; omega
    have hm4 : IsMask (n.mask.drop 12) (pfx n - 96) := by
      refine ⟨by omega, ?_⟩
      rw [hbm, hm.2, List.drop_append_of_le_length (by simp; omega), List.drop_replicate, hml, hl, h16]
      congr 2
      omega
    have ha4 : (bits p).drop (pfx n - 96) = List.replicate (8 * p.length - (pfx n - 96)) false := by
      rw [hbp, List.drop_drop, show 96 + (pfx n - 96) = pfx n by omega]
      unfold Aligned at ha
      rw [ha, h16, hp4]
      congr 1
      omega
    have hs : IPNetString n = dotted p ++ 0x2F :: decStr (pfx n - 96) := by
      unfold IPNetString networkNumberAndMask
      simp only [h4]
      rw [if_neg (by omega), if_pos (by omega), if_pos hp4]
      simp only []
      rw [(simpleMaskLength_iff _ _).mpr hm4, print4 (p := p) (by unfold To4; rw [if_pos hp4])]
    rw [hs, parse_block4 hp4 (by omega) ha4]
    obtain ⟨hw, hpf⟩ := nets_of p (cidrMaskLoop 4 (pfx n - 96)) (pfx n - 96) (.inl hp4) (IsMask_cidrMaskLoop 4 _ (by omega))
      (by rw [cidrMaskLoop_length, hp4]) ha4
    have hlo : netLo (⟨p, cidrMaskLoop 4 (pfx n - 96)⟩ : IPNet) = netLo n := by
      unfold netLo
      rw [hnum, addrNum_4 hp4]
    refine ⟨_, rfl, hw, hlo, ?_, fun _ => hp4⟩
    have hhb : hostBits (⟨p, cidrMaskLoop 4 (pfx n - 96)⟩ : IPNet) = hostBits n := by
      unfold hostBits
      rw [hpf, hp4, h16]; omega
    show netLo _ + 2 ^ hostBits _ = netLo n + 2 ^ hostBits n
    rw [hlo, hhb]

/-- Non-trivial cases. -/
example : IPString [192, 168, 0, 10] = gs "192.168.0.10" := by decide +kernel
example : IPString [0x20, 0x01, 0x0d, 0xb8, 0, 0, 0, 0, 0, 0, 0, 0, 0, 0, 0, 1] = gs "2001:db8::1" := by decide +kernel
example : WFNet ⟨[10, 16, 0, 0], [255, 240, 0, 0]⟩ := by decide +kernel
example : IPNetString ⟨[10, 16, 0, 0], [255, 240, 0, 0]⟩ = gs "10.16.0.0/12" := by decide +kernel
example : WFNet ⟨v4InV6Prefix ++ [10, 16, 0, 0], List.replicate 12 255 ++ [255, 240, 0, 0]⟩ := by decide +kernel
/-- The 16-byte form of an IPv4 network is not preserved, only its addresses. -/
example : ParseCIDR (IPNetString ⟨v4InV6Prefix ++ [10, 16, 0, 0], List.replicate 12 255 ++ [255, 240, 0, 0]⟩) =
    some ⟨[10, 16, 0, 0], [255, 240, 0, 0]⟩ := by decide +kernel

end Uip
