import Verif.Proof.AddrText
import Verif.Proof.Range
import Verif.Props.Text
/-!
# Property C111: which texts are addresses and networks, and how they are written
-/
namespace Uip
open Spec Spec.AddrText

/-! ## Numbers -/

theorem parseUintLoop_iff : ∀ (s : Str) (n m : Nat), n < 2 ^ 32 →
    (parseUintLoop s n = some m ↔ (∀ c ∈ s, digitOf c < 10) ∧ numOf 10 n s = m ∧ m < 2 ^ 32) := by
  intro s
  induction s with
  | nil =>
    intro n m hn
    constructor
    · intro h; cases h; exact ⟨fun c h => (nomatch h), rfl, hn⟩
    · rintro ⟨_, h, _⟩; subst h; rfl
  | cons c s ih =>
    intro n m hn
    have hd := digitOf_dec c
    unfold parseUintLoop
    by_cases h : digitOf c < 10
    · rw [if_pos (hd.1.mpr h), hd.2 h]
      simp only []
      by_cases hb : 2 ^ 32 ≤ n * 10 + digitOf c
      · rw [if_pos hb]
        constructor
        · intro h; cases h
        · rintro ⟨_, h2, h3⟩
          rw [numOf_cons] at h2
          have := le_numOf (by decide : 1 ≤ 10) s (n * 10 + digitOf c)
          omega
      · rw [if_neg hb, ih _ _ (by omega), numOf_cons]
        simp [h]
    · rw [if_neg (fun e => h (hd.1.mp e))]
      constructor
      · intro h; cases h
      · rintro ⟨h1, _⟩
        exact absurd (h1 c (List.mem_cons_self ..)) h

/-- **C111 (numbers).** A text is read as number exactly when it consists of decimal digits, at least one, and stands for
a number below `2 ^ 32`; it is read as that number. -/
theorem C111_number (s : Str) (n : Nat) : ParseUint32 s = some n ↔ Numeral 10 s n ∧ n < 2 ^ 32 := by
  unfold ParseUint32
  by_cases h : s = []
  · rw [if_pos h]
    exact ⟨fun h => (nomatch h), fun ⟨h1, _⟩ => absurd h h1.some⟩
  · rw [if_neg h, parseUintLoop_iff s 0 n (by decide)]
    exact ⟨fun ⟨h1, h2, h3⟩ => ⟨⟨h, h1, h2⟩, h3⟩, fun ⟨h1, h3⟩ => ⟨h1.digit, h1.value, h3⟩⟩

/-- Leading zeros are no matter; `2 ^ 32` is too much. -/
example : ParseUint32 (gs "004294967295") = some 4294967295 ∧ ParseUint32 (gs "4294967296") = none ∧
    ParseUint32 (gs "+1") = none := by decide +kernel

/-! ## Addresses -/

theorem quad_no_colon {s : Str} {p : Bytes} (h : Quad s p) : (0x3A : UInt8) ∉ s := by
  intro hc
  have h1 := (parseIPv4_iff s p).mpr h
  rw [parseIPv4_colon hc] at h1
  cases h1

theorem quad_find {s : Str} {p : Bytes} (h : Quad s p) : s.find? (fun c => c = 0x2E ∨ c = 0x3A) = some 0x2E := by
  obtain ⟨w, n, u, hx, _⟩ := quad_first h
  obtain ⟨t, e, h2, _⟩ := (xtoi_iff _ _ _ _).mp hx
  rw [e, List.find?_append]
  have hn : t.find? (fun c => c = 0x2E ∨ c = 0x3A) = none := by
    rw [List.find?_eq_none]
    intro c hc
    have hd := h2.digit c hc
    simp only [decide_eq_true_eq]
    rintro (rfl | rfl)
    · revert hd; decide
    · revert hd; decide
  rw [hn]
  rfl

theorem eight_find {s : Str} {ws : List Nat} (h : Eight s ws) : s.find? (fun c => c = 0x2E ∨ c = 0x3A) = some 0x3A := by
  have hg : ∀ {t : Str} {w : Nat}, Group t w → ∀ r : Str, (t ++ 0x3A :: r).find? (fun c => c = 0x2E ∨ c = 0x3A) = some 0x3A := by
    intro t w hg r
    rw [List.find?_append]
    have hn : t.find? (fun c => c = 0x2E ∨ c = 0x3A) = none := by
      rw [List.find?_eq_none]
      intro c hc
      have hd := hg.1.digit c hc
      simp only [decide_eq_true_eq]
      rintro (rfl | rfl)
      · revert hd; decide
      · revert hd; decide
    rw [hn]
    rfl
  rcases h with ⟨h8, h | ⟨l, r, lw, rw, n, rfl, hl, _⟩⟩
  · cases h with
    | one h => simp at h8
    | quad h => simp at h8
    | cons h _ => exact hg h _
  · rcases hl with ⟨rfl, rfl⟩ | hl
    · rfl
    · cases hl with
      | one h => exact hg h _
      | cons h _ =>
        rw [List.append_assoc]
        exact hg h _

theorem mapped_16 {p : Bytes} (h : p.length = 4) : (v4InV6Prefix ++ p).length = 16 ∧ addrNum (v4InV6Prefix ++ p) = addrNum p := by
  have h16 : (v4InV6Prefix ++ p).length = 16 := by simp [v4InV6Prefix, h]
  refine ⟨h16, ?_⟩
  rw [addrNum_16 h16, addrNum_4 h, val_append, h]
  rw [show val v4InV6Prefix = 0xffff from by decide]

/-- **C111 (reading addresses).** A text is taken as an address exactly if it is one, and as that address. -/
theorem C111_parse (s : Str) (ip : IP) : ParseIP s = some ip ↔ ip.length = 16 ∧ Spells s ip := by
  unfold ParseIP
  constructor
  · intro h
    split at h
    · obtain ⟨p, h1, rfl⟩ := Option.map_eq_some_iff.mp h
      have hq := (parseIPv4_iff _ _).mp h1
      obtain ⟨h2, h3⟩ := mapped_16 hq.1
      exact ⟨h2, .inl ⟨p, hq, h3⟩⟩
    · obtain ⟨h1, h2⟩ := (parseIPv6_iff _ _).mp h
      exact ⟨h1, .inr h2⟩
    · cases h
  · rintro ⟨h16, ⟨p, hq, e⟩ | h⟩
    · rw [quad_find hq]
      simp only []
      rw [(parseIPv4_iff _ _).mpr hq]
      obtain ⟨h2, h3⟩ := mapped_16 hq.1
      rw [Option.map_some, addrNum_inj (a := v4InV6Prefix ++ p) (b := ip) (by omega) (by rw [h3, e])]
    · obtain ⟨ws, h1, h2⟩ := h
      rw [eight_find h1]
      exact (parseIPv6_iff _ _).mpr ⟨h16, ws, h1, h2⟩

/-- **C111 (what is no address).** -/
theorem C111_parse_none (s : Str) : ParseIP s = none ↔ ¬ ∃ ip, ValidIP ip ∧ Spells s ip := by
  constructor
  · rintro h ⟨ip, hv, hs⟩
    obtain ⟨a, h1, h2, h3⟩ := To16_valid hv
    have : ParseIP s = some a := by
      rw [C111_parse]
      refine ⟨h2, ?_⟩
      unfold Spells at hs ⊢
      rw [addrNum_16 h2, h3]
      exact hs
    rw [h] at this
    cases this
  · intro h
    cases e : ParseIP s with
    | none => rfl
    | some ip =>
      obtain ⟨h1, h2⟩ := (C111_parse s ip).mp e
      exact absurd ⟨ip, .inr h1, h2⟩ h

/-- **C111 (writing IPv4 addresses).** In either form an IPv4 address is written as dotted quad, with no superfluous zeros. -/
theorem C111_print4 (ip p : IP) (hv : ValidIP ip) (hp : p.length = 4) (h : addrNum ip = addrNum p) (t : Str) : IPString ip = t ↔ Quad t p := by
  have h4 : To4 ip = some p := by
    have hs : (To4 ip).isSome := by
      rw [To4_isSome_iff hv, h, addrNum_4 hp]
      have := val_lt p
      rw [hp] at this
      omega
    obtain ⟨q, hq⟩ := Option.isSome_iff_exists.mp hs
    obtain ⟨_, h1, h2⟩ := To4_eq_some hq
    rw [hq]
    congr 1
    apply addrNum_inj (by omega)
    rw [← h, h2, addrNum_4 h1]
  have hpr : IPString ip = dotted p := by
    unfold IPString
    rw [h4, if_neg (by rcases hv with h | h <;> omega)]
  obtain ⟨a, b, c, d, rfl⟩ : ∃ a b c d, p = [a, b, c, d] := by
    match p, hp with
    | [a, b, c, d], _ => exact ⟨a, b, c, d, rfl⟩
  rw [hpr, quad_dotted]
  exact eq_comm

theorem bytesToWords_number : ∀ (k : Nat) (b : Bytes), b.length = 2 * k → number (bytesToWords b) = val b := by
  intro k b hb
  obtain ⟨h1, h2, h3⟩ := words_bytes k b hb
  have := (words_number (bytesToWords b) h3 []).2
  rw [List.nil_append, h1] at this
  rw [this]
  rfl

/-- **C111 (writing IPv6 addresses).** Any other address is written as RFC 5952 prescribes. -/
theorem C111_print6 (ip : IP) (hv : ValidIP ip) (h4 : ¬ ∃ p : IP, p.length = 4 ∧ addrNum ip = addrNum p) (t : Str) :
    IPString ip = t ↔ ∃ ws, ws.length = 8 ∧ (∀ w ∈ ws, w < 65536) ∧ addrNum ip = number ws ∧ Rfc5952 t ws := by
  have h16 : ip.length = 16 := by
    rcases hv with h | h
    · exact absurd ⟨ip, h, rfl⟩ h4
    · exact h
  have hn : To4 ip = none := by
    cases e : To4 ip with
    | none => rfl
    | some p =>
      obtain ⟨_, h1, h2⟩ := To4_eq_some e
      exact absurd ⟨p, h1, by rw [h2, addrNum_4 h1]⟩ h4
  obtain ⟨hb, hwl, hw⟩ := words_bytes 8 ip (by omega)
  rw [rfc_iff t ip h16 hn]
  constructor
  · intro h
    exact ⟨_, hwl, hw, by rw [addrNum_16 h16, bytesToWords_number 8 ip (by omega)], h⟩
  · rintro ⟨ws, h1, h2, h3, h4⟩
    have e := words_number ws h2 []
    have : wordsToBytes ws = ip := by
      apply addrNum_inj (by rw [e.1, h1]; omega)
      rw [addrNum_16 (by rw [e.1, h1]), h3, ← List.nil_append (wordsToBytes ws), e.2]
      rfl
    have hinj : ∀ ws : List Nat, (∀ w ∈ ws, w < 65536) → bytesToWords (wordsToBytes ws) = ws := by
      intro ws
      induction ws with
      | nil => intro _; rfl
      | cons w ws ih =>
        intro hlt
        have hw := hlt w (List.mem_cons_self ..)
        show ((UInt8.ofNat (w / 256)).toNat * 256 + (UInt8.ofNat w).toNat) :: bytesToWords (wordsToBytes ws) = _
        rw [ih (fun x hx => hlt x (List.mem_cons_of_mem _ hx)), UInt8.toNat_ofNat', UInt8.toNat_ofNat']
        congr 1
        omega
    rw [← this, hinj ws h2]
    exact h4

/-! ## Networks -/

theorem masked_net {a : IP} {k : Nat} (ha : ValidIP a) (hk : k ≤ 8 * a.length) :
    ∃ r, ipMask a (cidrMaskLoop a.length k) = some r ∧
      ∀ n : IPNet, n = ⟨r, cidrMaskLoop a.length k⟩ ↔ WFNet n ∧ pfx n = k ∧ n.ip.length = a.length ∧ Covers n (addrNum a) := by
  have hl := cidrMaskLoop_length a.length k
  have hm := IsMask_cidrMaskLoop a.length k hk
  obtain ⟨r, h1, h2, h3⟩ := ipMask_spec (ip := a) hl hm
  have hr : ValidIP r := by unfold ValidIP at ha ⊢; omega
  have hp : pfx ⟨r, cidrMaskLoop a.length k⟩ = k := pfx_of_IsMask hm
  have hal : Aligned ⟨r, cidrMaskLoop a.length k⟩ k := by
    unfold Aligned
    show (bits r).drop k = List.replicate (8 * r.length - k) false
    rw [h3, List.drop_append_of_le_length (by simp [bits_length]; omega), List.drop_eq_nil_of_le (by simp [bits_length]; omega), List.nil_append, h2]
  have hwf : WFNet ⟨r, cidrMaskLoop a.length k⟩ := by
    refine ⟨⟨hr, by rw [hl, h2], ?_⟩, ?_⟩
    · rw [hp]; exact hm
    · rw [hp]; exact hal
  have hv : val a / 2 ^ (8 * a.length - k) * 2 ^ (8 * a.length - k) = val r := by
    rw [← bitsNat_bits r, h3, bitsNat_append, List.length_replicate, bitsNat_replicate_false, Nat.add_zero,
      ← bitsNat_div (bits a) k, bits_length, bitsNat_bits]
  have hcov : ∀ x : Nat, x / 2 ^ (8 * a.length - k) * 2 ^ (8 * a.length - k) ≤ x ∧
      x < x / 2 ^ (8 * a.length - k) * 2 ^ (8 * a.length - k) + 2 ^ (8 * a.length - k) := by
    intro x
    have hpos : 0 < 2 ^ (8 * a.length - k) := Nat.two_pow_pos _
    generalize 2 ^ (8 * a.length - k) = m at hpos
    have := Nat.div_add_mod x m
    have := Nat.mod_lt x hpos
    rw [Nat.mul_comm]
    omega
  have hc : Covers ⟨r, cidrMaskLoop a.length k⟩ (addrNum a) := by
    have hx := hcov (val a)
    rw [hv] at hx
    unfold Covers netLo netEnd hostBits
    rw [hp]
    show addrNum r ≤ addrNum a ∧ addrNum a < addrNum r + 2 ^ (8 * r.length - k)
    rw [h2]
    rcases ha with ha | ha
    · rw [addrNum_4 ha, addrNum_4 (h2.trans ha)]
      omega
    · rw [addrNum_16 ha, addrNum_16 (h2.trans ha)]
      exact hx
  refine ⟨r, h1, fun n => ⟨?_, ?_⟩⟩
  · rintro rfl
    exact ⟨hwf, hp, h2, hc⟩
  · rintro ⟨k1, k2, k3, k4⟩
    obtain ⟨ip, mask⟩ := n
    have e1 : mask = cidrMaskLoop a.length k := by
      have := IsMask_eq k1.1.2.2
      rw [k2, k1.1.2.1] at this
      rw [k3] at this
      exact this
    subst e1
    congr 1
    apply addrNum_inj (by rw [h2]; exact k3)
    obtain ⟨d1, _, _⟩ := WFNet_bounds k1
    obtain ⟨d2, _, _⟩ := WFNet_bounds hwf
    have b1 : hostBits ⟨ip, cidrMaskLoop a.length k⟩ = 8 * a.length - k := by
      unfold hostBits
      rw [k2]
      show 8 * ip.length - k = _
      rw [show ip.length = a.length from k3]
    have b2 : hostBits ⟨r, cidrMaskLoop a.length k⟩ = 8 * a.length - k := by
      unfold hostBits
      rw [hp]
      show 8 * r.length - k = _
      rw [h2]
    have hlam := laminar d1 d2 (by rw [b1, b2]; exact Nat.le_refl _)
    unfold Covers netEnd netLo at k4 hc
    unfold netLo at hlam
    rw [b1, b2] at hlam
    rw [b1] at k4
    rw [b2] at hc
    show addrNum ip = addrNum r
    simp only [] at hlam k4 hc
    omega

theorem no_slash_quad {a : Str} {p : Bytes} (h : Quad a p) : (0x2F : UInt8) ∉ a := by
  obtain ⟨a', b, c, d, rfl⟩ : ∃ a b c d, p = [a, b, c, d] := by
    match p, h.1 with
    | [a, b, c, d], _ => exact ⟨a, b, c, d, rfl⟩
  rw [(quad_dotted _ _ _ _ _).mp h]
  intro hm
  rcases dotted_chars hm with h | h
  · revert h; decide
  · revert h; decide

theorem no_slash_groups {s : Str} {ws : List Nat} (h : Groups4 s ws) : (0x2F : UInt8) ∉ s := by
  induction h with
  | one h => intro hm; have := h.1.digit _ hm; revert this; decide
  | quad h => exact no_slash_quad h
  | cons h _ ih =>
    intro hm
    rcases List.mem_append.mp hm with hm | hm
    · have := h.1.digit _ hm; revert this; decide
    · rcases List.mem_cons.mp hm with hm | hm
      · revert hm; decide
      · exact ih hm

theorem no_slash_eight {s : Str} {ws : List Nat} (h : Eight s ws) : (0x2F : UInt8) ∉ s := by
  rcases h with ⟨_, h | ⟨l, r, lw, rw, n, rfl, hl, hr, _⟩⟩
  · exact no_slash_groups h
  · intro hm
    rcases List.mem_append.mp hm with hm | hm
    · rcases hl with ⟨rfl, _⟩ | hl
      · cases hm
      · exact no_slash_groups (groups4_of hl) hm
    · rcases List.mem_cons.mp hm with hm | hm
      · revert hm; decide
      · rcases List.mem_cons.mp hm with hm | hm
        · revert hm; decide
        · rcases hr with ⟨rfl, _⟩ | hr
          · cases hm
          · exact no_slash_groups hr hm

theorem eight_not_quad {s : Str} {ws : List Nat} (h : Eight s ws) : parseIPv4 s = none := by
  refine parseIPv4_colon ?_
  exact List.mem_of_find?_eq_some (eight_find h)

theorem dtoi_all (m : Str) (k c : Nat) (rest : Str) (h : dtoi m = some (k, c, rest)) (hr : rest = []) : Numeral 10 m k := by
  obtain ⟨t, h1, h2, _⟩ := (dtoi_iff _ _ _ _).mp h
  rw [h1, hr, List.append_nil]
  exact h2

theorem dtoi_numeral {m : Str} {k : Nat} (h : Numeral 10 m k) (hk : k < big) : dtoi m = some (k, m.length, []) :=
  (dtoi_iff _ _ _ _).mpr ⟨m, by simp, h, hk, rfl, fun c h => (nomatch h)⟩

theorem ipMask_mapped {p mask : Bytes} (hp : p.length = 4) (hm : mask.length = 4) :
    ipMask (v4InV6Prefix ++ p) mask = ipMask p mask := by
  unfold ipMask
  have e1 : ¬ (mask.length = 16 ∧ (v4InV6Prefix ++ p).length = 4 ∧ ((mask.take 12).all (· == 0xff)) = true) := by omega
  have e2 : ¬ (mask.length = 16 ∧ p.length = 4 ∧ ((mask.take 12).all (· == 0xff)) = true) := by omega
  have e3 : mask.length = 4 ∧ (v4InV6Prefix ++ p).length = 16 ∧ (v4InV6Prefix ++ p).take 12 = v4InV6Prefix :=
    ⟨hm, by simp [v4InV6Prefix, hp], rfl⟩
  have e4 : ¬ (mask.length = 4 ∧ p.length = 16 ∧ p.take 12 = v4InV6Prefix) := by omega
  simp only []
  rw [if_neg e1, if_neg e2, if_pos e3, if_neg e4]
  rfl

/-- **C111 (reading networks).** A text is taken as a network exactly if it is an address, a slash and a decimal prefix length that
fits the address; the network is the one of this length around the address, in 4-byte form for dotted quads. -/
theorem C111_cidr (s : Str) (n : IPNet) : ParseCIDR s = some n ↔
    ∃ a m k, s = a ++ 0x2F :: m ∧ Numeral 10 m k ∧ WFNet n ∧ pfx n = k ∧
      ((n.ip.length = 4 ∧ ∃ p, Quad a p ∧ Covers n (addrNum p)) ∨ (n.ip.length = 16 ∧ ∃ ws, Eight a ws ∧ Covers n (number ws))) := by
  constructor
  · intro h
    unfold ParseCIDR at h
    split at h
    · cases h
    rename_i i hi
    simp only [] at h
    have hs : s = s.take i ++ 0x2F :: s.drop (i + 1) := by
      rw [List.idxOf?_eq_some_iff] at hi
      obtain ⟨h1, h2, _⟩ := hi
      have h2 : s[i] = 0x2F := by simpa using h2
      conv => lhs; rw [← List.take_append_drop i s]
      rw [List.drop_eq_getElem_cons h1, h2]
    cases hq : parseIPv4 (s.take i) with
    | some p =>
      rw [hq] at h
      simp only [] at h
      split at h
      · rename_i ip' k c e1 hd
        cases e1
        have hn := dtoi_all _ _ _ _ hd rfl
        have hquad := (parseIPv4_iff _ _).mp hq
        have hp := hquad.1
        split at h
        · cases h
        rename_i hk
        have hk : k ≤ 32 := by omega
        rw [show 8 * 4 = 32 from rfl, CIDRMask_32 hk] at h
        simp only [] at h
        rw [ipMask_mapped hp (cidrMaskLoop_length 4 k)] at h
        obtain ⟨r, h1, h2⟩ := masked_net (a := p) (k := k) (.inl hp) (by omega)
        rw [hp] at h1 h2
        rw [h1] at h
        have h := Option.some.inj h
        obtain ⟨k1, k2, k3, k4⟩ := (h2 n).mp h.symm
        exact ⟨_, _, k, hs, hn, k1, k2, .inl ⟨k3, p, hquad, k4⟩⟩
      · cases h
    | none =>
      rw [hq] at h
      simp only [] at h
      split at h
      · rename_i ip' k c e1 hd
        have hn := dtoi_all _ _ _ _ hd rfl
        obtain ⟨h16, ws, he, hnum⟩ := (parseIPv6_iff _ _).mp e1
        split at h
        · cases h
        rename_i hk
        have hk : k ≤ 128 := by omega
        rw [show 8 * 16 = 128 from rfl, CIDRMask_128 hk] at h
        simp only [] at h
        obtain ⟨r, h1, h2⟩ := masked_net (a := ip') (k := k) (.inr h16) (by omega)
        rw [h16] at h1 h2
        rw [h1] at h
        have h := Option.some.inj h
        obtain ⟨k1, k2, k3, k4⟩ := (h2 n).mp h.symm
        exact ⟨_, _, k, hs, hn, k1, k2, .inr ⟨k3, ws, he, by rw [← hnum]; exact k4⟩⟩
      · cases h
  · rintro ⟨a, m, k, rfl, hm, hw, hp, h⟩
    have hns : (0x2F : UInt8) ∉ a := by
      rcases h with ⟨_, p, h, _⟩ | ⟨_, ws, h, _⟩
      · exact no_slash_quad h
      · exact no_slash_eight h
    have hb := hw.1.2.2.1
    rw [hp, hw.1.2.1] at hb
    unfold ParseCIDR
    rw [idxOf?_append_sep hns]
    simp only []
    have hs : (a ++ 0x2F :: m).take a.length = a := by
      rw [List.take_append_of_le_length (Nat.le_refl _), List.take_length]
    have hd : (a ++ 0x2F :: m).drop (a.length + 1) = m := by
      rw [show a ++ 0x2F :: m = (a ++ [0x2F]) ++ m by simp]
      rw [List.drop_append_of_le_length (by simp), List.drop_eq_nil_of_le (by simp)]; rfl
    rw [hs, hd]
    rcases h with ⟨h4, p, hq, hc⟩ | ⟨h16, ws, he, hc⟩
    · have hp4 := hq.1
      rw [(parseIPv4_iff _ _).mpr hq, dtoi_numeral hm (by unfold big; omega)]
      simp only []
      rw [if_neg (by omega), show 8 * 4 = 32 from rfl, CIDRMask_32 (by omega)]
      simp only []
      rw [ipMask_mapped hp4 (cidrMaskLoop_length 4 k)]
      obtain ⟨r, h1, h2⟩ := masked_net (a := p) (k := k) (.inl hp4) (by omega)
      rw [hp4] at h1 h2
      rw [h1, Option.map_some, ← (h2 n).mpr ⟨hw, hp, h4, hc⟩]
    · obtain ⟨ip, hip⟩ : ∃ ip, parseIPv6 a = some ip := ⟨_, (parseIPv6_words a _).mpr ⟨ws, he, rfl⟩⟩
      have hlen := ((parseIPv6_iff _ _).mp hip).1
      have hnum : addrNum ip = number ws := by
        obtain ⟨ws', e1, e2⟩ := (parseIPv6_words a ip).mp hip
        have := (parseIPv6_words a (wordsToBytes ws)).mpr ⟨ws, he, rfl⟩
        rw [hip] at this
        have := Option.some.inj this
        have hwn := words_number ws (Eight_lt he) []
        rw [addrNum_16 hlen, this, ← List.nil_append (wordsToBytes ws), hwn.2]
        rfl
      rw [eight_not_quad he, dtoi_numeral hm (by unfold big; omega)]
      simp only [hip]
      rw [if_neg (by omega), show 8 * 16 = 128 from rfl, CIDRMask_128 (by omega)]
      simp only []
      obtain ⟨r, h1, h2⟩ := masked_net (a := ip) (k := k) (.inr hlen) (by omega)
      rw [hlen] at h1 h2
      rw [h1, Option.map_some, ← (h2 n).mpr ⟨hw, hp, h16, by rw [hnum]; exact hc⟩]

/-- **C111 (writing networks).** A network is written as its address (an IPv4 network in either form as dotted quad), a slash and the
prefix length, counted in the form that is written. -/
theorem C111_cidr_print (n : IPNet) (h : WFNet n) :
    ∃ m, Short 10 m (if (To4 n.ip).isSome ∧ n.ip.length = 16 then pfx n - 96 else pfx n) ∧ IPNetString n = IPString n.ip ++ 0x2F :: m := by
  obtain ⟨⟨hv, hl, hm⟩, ha⟩ := id h
  have hms := (simpleMaskLength_iff _ _).mpr hm
  have hsd : ∀ k, Short 10 (decStr k) k := fun k => short_digits (by omega) (by omega) k
  cases e4 : To4 n.ip with
  | none =>
    have h16 : n.ip.length = 16 := by
      rcases hv with h | h
      · unfold To4 at e4; rw [if_pos h] at e4; cases e4
      · exact h
    refine ⟨decStr (pfx n), by simp only [Option.isSome_none, Bool.false_eq_true, false_and, if_false]; exact hsd _, ?_⟩
    unfold IPNetString networkNumberAndMask
    simp only [e4]
    rw [if_pos h16]
    simp only []
    rw [if_neg (by omega), if_pos (by omega), if_neg (by omega)]
    simp only []
    rw [hms]
  | some p =>
    obtain ⟨_, hp, hnum⟩ := To4_eq_some e4
    have hpp : To4 p = some p := by unfold To4; rw [if_pos hp]
    have hstr : IPString p = IPString n.ip := by
      have h0 : ¬ n.ip.length = 0 := by rcases hv with h | h <;> omega
      have h0' : ¬ p.length = 0 := by omega
      unfold IPString
      rw [hpp, e4]
      simp only [if_neg h0, if_neg h0']
    rcases hv with h4 | h16
    · refine ⟨decStr (pfx n), by rw [if_neg (by omega)]; exact hsd _, ?_⟩
      have : p = n.ip := by unfold To4 at e4; rw [if_pos h4] at e4; exact (Option.some.inj e4).symm
      unfold IPNetString networkNumberAndMask
      simp only [e4]
      rw [if_pos (by omega), if_pos hp]
      simp only []
      rw [hms, hstr]
    · refine ⟨decStr (pfx n - 96), by rw [if_pos ⟨rfl, h16⟩]; exact hsd _, ?_⟩
      have ht : n.ip.take 12 = v4InV6Prefix := by
        unfold To4 at e4
        rw [if_neg (by omega)] at e4
        split at e4
        · rename_i hh; exact hh.2
        · cases e4
      have hk : 96 ≤ pfx n := by
        by_cases hlt : 96 ≤ pfx n
        · exact hlt
        · exfalso
          unfold Aligned at ha
          have e : bits n.ip = bits v4InV6Prefix ++ bits (n.ip.drop 12) := by
            rw [← bits_append, ← ht, List.take_append_drop]
          have hg : (bits n.ip)[95]? = some true := by
            rw [e, List.getElem?_append_left (by decide)]; decide
          have h2 := congrArg (fun l => l[95 - pfx n]?) ha
          simp only [List.getElem?_drop] at h2
          rw [show pfx n + (95 - pfx n) = 95 by omega, hg, List.getElem?_replicate, if_pos (by omega)] at h2
          cases h2
      have hk2 : pfx n ≤ 128 := by have := hm.1; omega
      have hbm : bits (n.mask.drop 12) = (bits n.mask).drop 96 := by
        have e : (bits (n.mask.take 12)).length = 96 := by simp [bits_length]; omega
        conv => rhs; rw [← List.take_append_drop 12 n.mask, bits_append]
        rw [← e, List.drop_left]
      have hml : (n.mask.drop 12).length = 4 := by simp; omega
      have hm4 : IsMask (n.mask.drop 12) (pfx n - 96) := by
        refine ⟨by omega, ?_⟩
        rw [hbm, hm.2, List.drop_append_of_le_length (by simp; omega), List.drop_replicate, hml, hl, h16]
        congr 2
        omega
      unfold IPNetString networkNumberAndMask
      simp only [e4]
      rw [if_neg (by omega), if_pos (by omega), if_pos hp]
      simp only []
      rw [(simpleMaskLength_iff _ _).mpr hm4, hstr]

/-! ## Examples -/

/-- A text with an ellipsis, groups with superfluous zeros and capital letters, and a dotted quad. -/
example : Spells (gs "2001:0DB8::00a:1.2.3.4") [0x20, 0x01, 0x0d, 0xb8, 0, 0, 0, 0, 0, 0, 0, 0x0a, 1, 2, 3, 4] :=
  ((C111_parse _ _).mp (by decide +kernel)).2
example : Spells (gs "10.0.0.7") [10, 0, 0, 7] := .inl ⟨[10, 0, 0, 7], (quad_dotted 10 0 0 7 _).mpr (by decide +kernel), rfl⟩
/-- An octet with a superfluous zero, nine groups, and two ellipses are no addresses. -/
example : ¬ ∃ ip, ValidIP ip ∧ Spells (gs "10.0.0.07") ip := (C111_parse_none _).mp (by decide +kernel)
example : ¬ ∃ ip, ValidIP ip ∧ Spells (gs "1:2:3:4:5:6:7:8::") ip := (C111_parse_none _).mp (by decide +kernel)
example : ¬ ∃ ip, ValidIP ip ∧ Spells (gs "1::2::3") ip := (C111_parse_none _).mp (by decide +kernel)
/-- Of two runs of zeros of one length the first is replaced; a single group of zeros is not. -/
example : Rfc5952 (gs "2001:db8::1:0:0:1") [0x2001, 0xdb8, 0, 0, 1, 0, 0, 1] := by
  have := (rfc_iff (gs "2001:db8::1:0:0:1") [0x20, 0x01, 0x0d, 0xb8, 0, 0, 0, 0, 0, 1, 0, 0, 0, 0, 0, 1] rfl rfl).mp (by decide +kernel)
  exact this
example : ¬ ∃ p : IP, p.length = 4 ∧ addrNum [0x20, 0x01, 0x0d, 0xb8, 0, 0, 0, 0, 0, 1, 0, 0, 0, 0, 0, 1] = addrNum p := by
  rintro ⟨p, hp, e⟩
  rw [addrNum_4 hp] at e
  have h1 : addrNum [0x20, 0x01, 0x0d, 0xb8, 0, 0, 0, 0, 0, 1, 0, 0, 0, 0, 0, 1] = 0x20010db8000000000001000000000001 := by decide +kernel
  have h2 := val_lt p
  rw [hp] at h2
  omega
/-- A network with host bits in the text and a prefix length with a superfluous zero. -/
example : ParseCIDR (gs "10.1.2.3/012") = some ⟨[10, 0, 0, 0], [255, 240, 0, 0]⟩ := by decide +kernel

end Uip
