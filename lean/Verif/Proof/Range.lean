import Verif.Proof.Net
import Verif.Spec.Range
/-!
# Lemmas: ranges and the CIDR decomposition
-/
namespace Uip
open Spec

theorem pfx_of_IsMask {n : IPNet} {k : Nat} (h : IsMask n.mask k) : pfx n = k := by
  unfold pfx; rw [h.2]; simp [List.count_replicate]

theorem notTop_or_top (ip : IP) : NotTop ip ∨ val ip + 1 = 256 ^ ip.length := by
  have := val_lt ip
  unfold NotTop; omega

theorem NextIP_addrNum' {ip : IP} (h : NotTop ip) : addrNum (NextIP ip) = addrNum ip + 1 :=
  NextIP_addrNum h

theorem NextIP_top16 {ip : IP} (hl : ip.length = 16) (h : ¬ NotTop ip) : addrNum (NextIP ip) = 0 := by
  have := (notTop_or_top ip).resolve_left h
  rw [addrNum_16 (by rw [NextIP_length, hl]), NextIP_wrap this]

theorem NextIP_top4 {ip : IP} (hl : ip.length = 4) (h : ¬ NotTop ip) :
    addrNum (NextIP ip) = 0xffff * 2 ^ 32 := by
  have := (notTop_or_top ip).resolve_left h
  rw [addrNum_4 (by rw [NextIP_length, hl]), NextIP_wrap this]

theorem NextIP_wrapSucc {ip : IP} (h : ValidIP ip) : addrNum (NextIP ip) = wrapSucc ip := by
  unfold wrapSucc
  split
  · exact NextIP_addrNum (by assumption)
  · rename_i hn
    rcases h with h | h
    · rw [NextIP_top4 h hn, if_pos h]
    · rw [NextIP_top16 h hn, if_neg (by omega)]

theorem wrapSucc_notTop {ip : IP} (h : NotTop ip) : wrapSucc ip = addrNum ip + 1 := by
  unfold NotTop at h; unfold wrapSucc; rw [if_pos h]

theorem Contains_exact {start end_ ip : IP} (hs : ValidIP start) (he : ValidIP end_) (hi : ValidIP ip) :
    Contains start end_ ip = true ↔ addrNum start ≤ addrNum ip ∧ addrNum ip < wrapSucc end_ := by
  unfold Contains
  rw [Bool.and_eq_true, Bool.not_eq_true', IPLess_false_iff hi hs, IPLess_iff hi (NextIP_valid he),
    NextIP_wrapSucc he]

theorem Contains_iff {start end_ ip : IP} (hs : ValidIP start) (he : ValidIP end_) (hi : ValidIP ip)
    (ht : NotTop end_) : Contains start end_ ip = true ↔ Between start end_ (addrNum ip) := by
  unfold Contains Between
  rw [Bool.and_eq_true, Bool.not_eq_true', IPLess_false_iff hi hs, IPLess_iff hi (NextIP_valid he),
    NextIP_addrNum' ht]
  omega

/-! ## Leading and trailing bits -/

/-- Length of the common prefix of two bit lists. -/
def cpl : List Bool → List Bool → Nat
  | a :: as, b :: bs => if a = b then 1 + cpl as bs else 0
  | _, _ => 0

theorem cpl_le {a b : List Bool} : cpl a b ≤ a.length := by
  induction a generalizing b with
  | nil => simp [cpl]
  | cons x a ih =>
    cases b with
    | nil => simp [cpl]
    | cons y b => simp only [cpl]; split
                  · have := ih (b := b); simp; omega
                  · simp

theorem take_cpl (a b : List Bool) (h : a.length = b.length) : a.take (cpl a b) = b.take (cpl a b) := by
  induction a generalizing b with
  | nil => cases b <;> simp_all
  | cons x a ih =>
    cases b with
    | nil => simp at h
    | cons y b =>
      simp only [cpl]; split
      · rename_i he; subst he
        rw [Nat.add_comm]; simp [ih b (by simpa using h)]
      · simp

theorem take_cpl_succ (a b : List Bool) (h : a.length = b.length) (hl : cpl a b < a.length) :
    a.take (cpl a b + 1) ≠ b.take (cpl a b + 1) := by
  induction a generalizing b with
  | nil => simp at hl
  | cons x a ih =>
    cases b with
    | nil => simp at h
    | cons y b =>
      simp only [cpl] at *; split
      · rename_i he; subst he
        simp only [if_true] at hl
        rw [Nat.add_comm 1]
        simpa using ih b (by simpa using h) (by simp at hl; omega)
      · rename_i he; simp [he]

theorem cpl_append_eq (a c d : List Bool) : cpl (a ++ c) (a ++ d) = a.length + cpl c d := by
  induction a with
  | nil => simp
  | cons x a ih => simp only [List.cons_append, cpl, if_true, ih, List.length_cons]; omega

theorem cpl_append_lt (a b c d : List Bool) (h : a.length = b.length) (hl : cpl a b < a.length) :
    cpl (a ++ c) (b ++ d) = cpl a b := by
  induction a generalizing b with
  | nil => simp at hl
  | cons x a ih =>
    cases b with
    | nil => simp at h
    | cons y b =>
      simp only [List.cons_append, cpl] at *
      split
      · rename_i he; subst he
        simp only [if_true] at hl
        rw [ih b (by simpa using h) (by simp at hl; omega)]
      · rfl

/-- Number of leading `false`. -/
def lzb : List Bool → Nat
  | false :: l => 1 + lzb l
  | _ => 0

theorem cpl_eq_lzb (a b : List Bool) (h : a.length = b.length) :
    cpl a b = lzb (List.zipWith (fun x y => x ^^ y) b a) := by
  induction a generalizing b with
  | nil => cases b <;> simp_all [cpl, lzb]
  | cons x a ih =>
    cases b with
    | nil => simp at h
    | cons y b =>
      simp only [cpl, List.zipWith_cons_cons]
      cases x <;> cases y <;> simp [lzb, ih b (by simpa using h)]

theorem leadingZeros8_eq (x : UInt8) : leadingZeros8 x = lzb (byteBits x) :=
  byte_all (fun x => leadingZeros8 x = lzb (byteBits x)) (by decide +kernel) x

theorem cpl_byteBits (s e : UInt8) : cpl (byteBits s) (byteBits e) = leadingZeros8 (e ^^^ s) := by
  rw [leadingZeros8_eq, byteBits_xor, cpl_eq_lzb _ _ (by simp)]

theorem leadingZeros8_lt {x : UInt8} (h : x ≠ 0) : leadingZeros8 x < 8 := by
  unfold leadingZeros8; rw [if_neg h]; omega

theorem prefixSameLoop_eq (s e : IP) (h : s.length = e.length) :
    prefixSameLoop s e = cpl (bits s) (bits e) := by
  induction s generalizing e with
  | nil => cases e <;> simp_all [prefixSameLoop, cpl]
  | cons x s ih =>
    cases e with
    | nil => simp at h
    | cons y e =>
      simp only [prefixSameLoop, bits_cons]
      by_cases hx : y ^^^ x = 0
      · have : x = y := by
          have := congrArg (· ^^^ x) hx
          simp only [UInt8.xor_assoc, UInt8.xor_self] at this
          simpa using this.symm
        subst this
        rw [if_pos (by simp), cpl_append_eq, ih e (by simpa using h)]; simp
      · rw [if_neg hx, cpl_append_lt]
        · rw [cpl_byteBits]
        · simp
        · rw [cpl_byteBits]; simpa using leadingZeros8_lt hx

theorem PrefixSameLength_eq {s e : IP} (h : s.length = e.length) :
    PrefixSameLength s e = cpl (bits s) (bits e) := by
  unfold PrefixSameLength; rw [if_neg (by simp [h]), prefixSameLoop_eq s e h]

/-- Exact power of two dividing a byte. -/
theorem trailingZeros_spec {x : UInt8} (h : x ≠ 0) :
    trailingZeros x < 8 ∧ x.toNat % 2 ^ trailingZeros x = 0 ∧ x.toNat % 2 ^ (trailingZeros x + 1) ≠ 0 := by
  revert h
  exact byte_all (fun x => x ≠ 0 → trailingZeros x < 8 ∧ x.toNat % 2 ^ trailingZeros x = 0 ∧
    x.toNat % 2 ^ (trailingZeros x + 1) ≠ 0) (by decide +kernel) x

theorem suffixZeroLoop_spec (pre : IP) (n : Nat) :
    (suffixZeroLoop (pre ++ List.replicate n 0) pre.length) ≤ 8 * (pre.length + n) ∧
    2 ^ suffixZeroLoop (pre ++ List.replicate n 0) pre.length ∣ val (pre ++ List.replicate n 0) ∧
    (suffixZeroLoop (pre ++ List.replicate n 0) pre.length < 8 * (pre.length + n) →
      ¬ 2 ^ (suffixZeroLoop (pre ++ List.replicate n 0) pre.length + 1) ∣ val (pre ++ List.replicate n 0)) := by
  induction h : pre.length generalizing pre n with
  | zero =>
    have : pre = [] := List.length_eq_zero_iff.mp h
    subst this
    simp only [suffixZeroLoop, List.nil_append, val_replicate_zero, List.length_replicate]
    refine ⟨by omega, Nat.dvd_zero _, by omega⟩
  | succ m ih =>
    obtain ⟨p, x, rfl⟩ : ∃ p x, pre = p ++ [x] := by
      have hne : pre ≠ [] := by intro hc; simp [hc] at h
      exact ⟨pre.dropLast, pre.getLast hne, (List.dropLast_concat_getLast hne).symm⟩
    have hp : p.length = m := by simpa using h
    have hget : ((p ++ [x]) ++ List.replicate n 0).getD m 0 = x := by simp [hp]
    simp only [suffixZeroLoop, hget]
    by_cases hx : x = 0
    · subst hx
      have := ih p (n + 1) hp
      rw [show p ++ List.replicate (n + 1) (0 : UInt8) = p ++ [0] ++ List.replicate n 0 by
        simp [List.replicate_succ]] at this
      simp only [ne_eq, not_true, if_false]
      rw [show m + 1 + n = m + (n + 1) by omega]; exact this
    · simp only [ne_eq, hx, not_false_iff, if_true]
      obtain ⟨h8, h1, h2⟩ := trailingZeros_spec hx
      generalize ht : trailingZeros x = t at *
      have hlen : (p ++ [x] ++ List.replicate n (0 : UInt8)).length - 1 - m = n := by
        simp [hp]
      rw [hlen]
      have hval : val (p ++ [x] ++ List.replicate n 0) = 2 ^ (8 * n) * (val p * 256 + x.toNat) := by
        rw [val_append, val_replicate_zero, val_append, List.length_replicate, pow_256 n]
        simp only [val, List.length_singleton, List.length_nil]
        rw [Nat.mul_comm]; simp
      have h256 : (256 : Nat) = 2 ^ t * 2 ^ (8 - t) := by
        rw [← Nat.pow_add, show t + (8 - t) = 8 by omega]
      have h256' : (256 : Nat) = 2 ^ (t + 1) * 2 ^ (7 - t) := by
        rw [← Nat.pow_add, show t + 1 + (7 - t) = 8 by omega]
      refine ⟨by omega, ?_, fun _ => ?_⟩
      · rw [hval, show n * 8 + t = 8 * n + t by omega, Nat.pow_add]
        apply Nat.mul_dvd_mul_left
        apply (Nat.dvd_add_iff_right _).mp (Nat.dvd_of_mod_eq_zero h1)
        rw [h256]
        exact Nat.dvd_mul_left_of_dvd (Nat.dvd_mul_right _ _) _
      · rw [hval, show n * 8 + t + 1 = 8 * n + (t + 1) by omega, Nat.pow_add]
        intro hc
        have hc := Nat.dvd_of_mul_dvd_mul_left (Nat.two_pow_pos _) hc
        apply h2
        apply Nat.mod_eq_zero_of_dvd
        apply (Nat.dvd_add_iff_right _).mpr hc
        rw [h256']
        exact Nat.dvd_mul_left_of_dvd (Nat.dvd_mul_right _ _) _

theorem SuffixZeroLength_spec (ip : IP) :
    SuffixZeroLength ip ≤ 8 * ip.length ∧ 2 ^ SuffixZeroLength ip ∣ val ip ∧
    (SuffixZeroLength ip < 8 * ip.length → ¬ 2 ^ (SuffixZeroLength ip + 1) ∣ val ip) := by
  have := suffixZeroLoop_spec ip 0
  simpa [SuffixZeroLength] using this

/-! ## The greedy block, numerically -/

/-- `h` is the size exponent of the largest aligned block at `s` that stays below `e1`. -/
structure Greedy (s e1 h : Nat) : Prop where
  dvd : 2 ^ h ∣ s
  fits : s + 2 ^ h ≤ e1
  max : ∀ m, 2 ^ m ∣ s → s + 2 ^ m ≤ e1 → m ≤ h

theorem ipNetsBlock_spec {start end_ : IP} (hs : start.length = 16) (he : end_.length = 16)
    (hle : val start ≤ val end_) :
    ∃ k, k ≤ 128 ∧ ipNetsBlock start end_ = { ip := start, mask := cidrMaskLoop 16 k } ∧
      Greedy (val start) (val end_ + 1) (128 - k) := by
  have hE := NextIP_val end_
  rw [he] at hE
  have hEl : (NextIP end_).length = 16 := by rw [NextIP_length, he]
  have hp : PrefixSameLength start (NextIP end_) = cpl (bits start) (bits (NextIP end_)) :=
    PrefixSameLength_eq (by rw [hs, hEl])
  obtain ⟨hz1, hz2, hz3⟩ := SuffixZeroLength_spec start
  rw [hs] at hz1 hz3
  have hbl : (bits start).length = (bits (NextIP end_)).length := by simp [bits_length, hs, hEl]
  have hcl : cpl (bits start) (bits (NextIP end_)) ≤ 128 := by
    have := cpl_le (a := bits start) (b := bits (NextIP end_))
    rw [bits_length, hs] at this; exact this
  have ht := take_cpl (bits start) (bits (NextIP end_)) hbl
  have ht' := take_cpl_succ (bits start) (bits (NextIP end_)) hbl
  rw [take_eq_iff_div hbl, bitsNat_bits, bitsNat_bits, bits_length, hs] at ht
  rw [Ne, take_eq_iff_div hbl, bitsNat_bits, bitsNat_bits, bits_length, hs] at ht'
  have hslt := val_lt start
  have helt := val_lt end_
  rw [hs] at hslt; rw [he] at helt
  unfold ipNetsBlock
  simp only [hp, hs]
  generalize hc : cpl (bits start) (bits (NextIP end_)) = c at *
  generalize hzz : SuffixZeroLength start = z at *
  generalize val start = s at *
  generalize hEv : val (NextIP end_) = E at *
  generalize val end_ = e at *
  -- the chosen prefix length
  have pow_mono : ∀ {a b : Nat}, a ≤ b → 2 ^ a ≤ 2 ^ b := fun h => Nat.pow_le_pow_right (by decide) h
  have hz_max : ∀ m, 2 ^ m ∣ s → s ≠ 0 → m ≤ z := by
    intro m hm h0
    rcases Nat.lt_or_ge z m with h | h
    · exfalso
      have hm128 : z < 8 * 16 := by
        rcases Nat.lt_or_ge z 128 with h' | h'
        · exact h'
        · exfalso
          have := Nat.le_of_dvd (by omega) hm
          have := pow_mono (show 128 ≤ m by omega)
          omega
      exact hz3 hm128 (Nat.dvd_trans (Nat.pow_dvd_pow 2 (show z + 1 ≤ m by omega)) hm)
    · exact h
  have hfin : ∀ k, k ≤ 128 → Greedy s (e + 1) (128 - k) →
      ∀ k', k' = k → ∃ j, j ≤ 128 ∧ ({ ip := start, mask := (CIDRMask (k' : Nat) (16 * 8)).getD [] } : IPNet)
        = { ip := start, mask := cidrMaskLoop 16 j } ∧ Greedy s (e + 1) (128 - j) := by
    intro k hk hg k' hkk
    subst hkk
    refine ⟨k', hk, ?_, hg⟩
    rw [CIDRMask_valid (.inr rfl) (by omega)]; rfl
  by_cases hwrap : e + 1 = 256 ^ 16
  · have hE0 : E = 0 := by rw [hE, hwrap, Nat.mod_self]
    subst hE0
    by_cases hs0 : s = 0
    · -- the whole space
      subst hs0
      have hc128 : c = 128 := by
        rcases Nat.lt_or_ge c 128 with h | h
        · exact absurd rfl (ht' h)
        · omega
      have hz128 : z = 128 := by
        rcases Nat.lt_or_ge z 128 with h | h
        · exact absurd (Nat.dvd_zero _) (hz3 h)
        · omega
      subst hc128 hz128
      apply hfin 0 (by omega)
      · refine ⟨Nat.dvd_zero _, by omega, fun m _ hm => ?_⟩
        rcases Nat.lt_or_ge 128 m with h | h
        · exfalso
          have := pow_mono (show 129 ≤ m by omega)
          omega
        · omega
      · simp
    · have hc' : c < 128 := by
        rcases Nat.lt_or_ge c 128 with h | h
        · exact h
        · exfalso
          have : c = 128 := by omega
          subst this
          simp at ht; exact hs0 ht
      have hne := ht' (by omega)
      rw [Nat.zero_div] at ht hne
      -- s < 2^(128-c), s >= 2^(127-c)
      have hlt : s < 2 ^ (128 - c) := by
        rcases Nat.div_eq_zero_iff.mp ht with h | h
        · have := Nat.two_pow_pos (8 * 16 - c); omega
        · simpa using h
      have hz : z ≤ 127 - c := by
        rcases Nat.lt_or_ge (127 - c) z with h | h
        · have := Nat.le_of_dvd (by omega) hz2
          have := pow_mono (show 128 - c ≤ z by omega)
          omega
        · exact h
      have hzs : s + 2 ^ z ≤ 256 ^ 16 := by
        have h1 : 2 ^ z ∣ 256 ^ 16 := by
          rw [pow_256]; exact Nat.pow_dvd_pow 2 (by omega)
        obtain ⟨q1, h1⟩ := h1
        obtain ⟨q2, h2⟩ := hz2
        rw [h1] at hslt ⊢
        rw [h2] at hslt ⊢
        have : q2 < q1 := Nat.lt_of_mul_lt_mul_left hslt
        have := Nat.mul_le_mul_left (2 ^ z) (show q2 + 1 ≤ q1 by omega)
        rw [Nat.mul_add] at this; omega
      apply hfin (128 - z) (by omega)
      · rw [show 128 - (128 - z) = z by omega]
        exact ⟨hz2, by omega, fun m hm _ => hz_max m hm hs0⟩
      · rw [if_neg (by omega : ¬ c + 1 > 16 * 8)]
        split <;> omega
  · have hEe : E = e + 1 := by rw [hE, Nat.mod_eq_of_lt (by omega)]
    subst hEe
    have hc' : c < 128 := by
      rcases Nat.lt_or_ge c 128 with h | h
      · exact h
      · exfalso
        have : c = 128 := by omega
        subst this
        simp at ht; omega
    have hne := ht' (by omega)
    have hlt : s / 2 ^ (127 - c) < (e + 1) / 2 ^ (127 - c) := by
      rw [show 8 * 16 - (c + 1) = 127 - c by omega] at hne
      exact Nat.lt_of_le_of_ne (Nat.div_le_div_right (by omega)) hne
    -- fits
    have hfit : ∀ h, h ≤ 127 - c → 2 ^ h ∣ s → s + 2 ^ h ≤ e + 1 := by
      intro h hh hd
      have h1 : s / 2 ^ h < (e + 1) / 2 ^ h := by
        rcases Nat.lt_or_ge (s / 2 ^ h) ((e + 1) / 2 ^ h) with h' | h'
        · exact h'
        · exfalso
          have := Nat.div_le_div_right (c := 2 ^ (127 - c - h)) h'
          rw [Nat.div_div_eq_div_mul, Nat.div_div_eq_div_mul, ← Nat.pow_add,
            show h + (127 - c - h) = 127 - c by omega] at this
          omega
      obtain ⟨q, rfl⟩ := hd
      rw [Nat.mul_div_cancel_left _ (Nat.two_pow_pos h)] at h1
      have := Nat.mul_le_mul_left (2 ^ h) (show q + 1 ≤ (e + 1) / 2 ^ h by omega)
      have := Nat.mul_div_le (e + 1) (2 ^ h)
      rw [Nat.mul_add] at *; omega
    have hmax : ∀ m, 2 ^ m ∣ s → s + 2 ^ m ≤ e + 1 → m ≤ 127 - c := by
      intro m hm hf
      rcases Nat.lt_or_ge (127 - c) m with h | h
      · exfalso
        have h1 : s / 2 ^ m = (e + 1) / 2 ^ m := by
          have := congrArg (· / 2 ^ (m - (128 - c))) ht
          simp only [Nat.div_div_eq_div_mul, ← Nat.pow_add] at this
          rw [show 8 * 16 - c + (m - (128 - c)) = m by omega] at this
          exact this
        have h2 := Nat.div_le_div_right (c := 2 ^ m) hf
        rw [Nat.add_div_right _ (Nat.two_pow_pos m)] at h2
        omega
      · exact h
    rw [if_neg (by omega : ¬ c + 1 > 16 * 8)]
    by_cases hzc : z ≤ 127 - c
    · apply hfin (128 - z) (by omega)
      · rw [show 128 - (128 - z) = z by omega]
        refine ⟨hz2, hfit z hzc hz2, fun m hm hf => ?_⟩
        by_cases hs0 : s = 0
        · subst hs0
          exfalso
          rcases Nat.lt_or_ge z 128 with h' | h'
          · exact hz3 h' (Nat.dvd_zero _)
          · omega
        · exact hz_max m hm hs0
      · split <;> omega
    · apply hfin (c + 1) (by omega)
      · rw [show 128 - (c + 1) = 127 - c by omega]
        have hd : 2 ^ (127 - c) ∣ s := Nat.dvd_trans (Nat.pow_dvd_pow 2 (by omega)) hz2
        exact ⟨hd, hfit _ (Nat.le_refl _) hd, hmax⟩
      · split <;> omega

/-- The block has size `2^h` and its last address is `s + 2^h - 1`. -/
theorem ipNetsBlock_full {start end_ : IP} (hs : start.length = 16) (he : end_.length = 16)
    (hle : val start ≤ val end_) :
    ∃ h last, Greedy (val start) (val end_ + 1) h ∧
      (ipNetsBlock start end_).ip = start ∧ hostBits (ipNetsBlock start end_) = h ∧
      WFNet (ipNetsBlock start end_) ∧ LastIP (ipNetsBlock start end_) = .ok last ∧
      last.length = 16 ∧ val last = val start + 2 ^ h - 1 := by
  obtain ⟨k, hk, hb, hg⟩ := ipNetsBlock_spec hs he hle
  have hm : IsMask (cidrMaskLoop 16 k) k := IsMask_cidrMaskLoop 16 k (by omega)
  have hpfx : pfx (ipNetsBlock start end_) = k := pfx_of_IsMask (by rw [hb]; exact hm)
  have hc : IsCIDR (ipNetsBlock start end_) k := by
    rw [hb]; exact ⟨.inr hs, by simp [cidrMaskLoop_length, hs], hm⟩
  have hip : (ipNetsBlock start end_).ip = start := by rw [hb]
  obtain ⟨last, hl1, hl2, _, hl3⟩ := LastIP_spec hc
  rw [hip, hs] at hl3
  rw [hip, hs] at hl2
  refine ⟨128 - k, last, hg, hip, ?_, ⟨by rw [hpfx]; exact hc, ?_⟩, hl1, hl2, ?_⟩
  · unfold hostBits; rw [hpfx, hip, hs]
  · rw [Aligned_iff, hpfx, hip, hs]; exact Nat.mod_eq_zero_of_dvd hg.dvd
  · rw [hl3, show 8 * 16 - k = 128 - k by omega, Nat.div_mul_cancel hg.dvd]
    have := Nat.two_pow_pos (128 - k)
    omega

/-- The list of greedy blocks from `s` up to `e1` (exclusive). -/
inductive GreedyTiling : Nat → Nat → List IPNet → Prop
  | last {s e1 : Nat} {n : IPNet} : WFNet n → n.ip.length = 16 → netLo n = s → netEnd n = e1 →
      Greedy s e1 (hostBits n) → GreedyTiling s e1 [n]
  | cons {s e1 : Nat} {n : IPNet} {l : List IPNet} : WFNet n → n.ip.length = 16 → netLo n = s →
      netEnd n < e1 → Greedy s e1 (hostBits n) → GreedyTiling (netEnd n) e1 l → GreedyTiling s e1 (n :: l)

theorem ipNetsLoop_sound {fuel : Nat} {start end_ : IP} (hs : start.length = 16) (he : end_.length = 16)
    (hle : val start ≤ val end_) {r : Res (List IPNet)} (hr : ipNetsLoop fuel start end_ = some r) :
    ∃ l, r = .ok l ∧ GreedyTiling (val start) (val end_ + 1) l := by
  induction fuel generalizing start r with
  | zero => simp [ipNetsLoop] at hr
  | succ fuel ih =>
    obtain ⟨h, last, hg, hip, hh, hwf, hlast, hll, hlv⟩ := ipNetsBlock_full hs he hle
    have hlo : netLo (ipNetsBlock start end_) = val start := by
      unfold netLo; rw [hip, addrNum_16 hs]
    have hend : netEnd (ipNetsBlock start end_) = val start + 2 ^ h := by
      unfold netEnd; rw [hip, addrNum_16 hs, hh]
    have hpos := Nat.two_pow_pos h
    have hfit := hg.fits
    simp only [ipNetsLoop, hlast] at hr
    by_cases hc : IPLess last end_ = true
    · rw [hc] at hr
      rw [IPLess_iff (.inr hll) (.inr he), addrNum_16 hll, addrNum_16 he] at hc
      simp only [Bool.not_true, Bool.false_eq_true, if_false] at hr
      have hnl : (NextIP last).length = 16 := by rw [NextIP_length, hll]
      have hnv : val (NextIP last) = val start + 2 ^ h := by
        have helt := val_lt end_
        rw [NextIP_val, hll, Nat.mod_eq_of_lt (by rw [he] at helt; omega)]; omega
      cases hrec : ipNetsLoop fuel (NextIP last) end_ with
      | none => rw [hrec] at hr; simp at hr
      | some r' =>
        obtain ⟨l, rfl, hl⟩ := ih hnl (by omega) hrec
        rw [hrec] at hr
        simp only [Option.some.injEq] at hr
        refine ⟨_, hr.symm, ?_⟩
        refine .cons hwf (by rw [hip, hs]) hlo (by omega) (by rw [hh]; exact hg) ?_
        rw [hend, ← hnv]; exact hl
    · have hc' : IPLess last end_ = false := by simpa using hc
      rw [hc'] at hr
      simp only [Bool.not_false, if_true, Option.some.injEq] at hr
      rw [IPLess_false_iff (.inr hll) (.inr he), addrNum_16 hll, addrNum_16 he] at hc'
      exact ⟨_, hr.symm, .last hwf (by rw [hip, hs]) hlo (by omega) (by rw [hh]; exact hg)⟩

/-- One unfolding of the loop when it continues. -/
theorem ipNetsLoop_step {fuel : Nat} {start end_ : IP} (hs : start.length = 16) (he : end_.length = 16)
    (hle : val start ≤ val end_) :
    ∃ h nxt, Greedy (val start) (val end_ + 1) h ∧ nxt.length = 16 ∧
      (val start + 2 ^ h = val end_ + 1 → ∃ n, ipNetsLoop (fuel + 1) start end_ = some (.ok [n])) ∧
      (val start + 2 ^ h ≤ val end_ → val nxt = val start + 2 ^ h ∧
        ∀ l, ipNetsLoop fuel nxt end_ = some (.ok l) →
          ∃ n, ipNetsLoop (fuel + 1) start end_ = some (.ok (n :: l))) := by
  obtain ⟨h, last, hg, hip, hh, hwf, hlast, hll, hlv⟩ := ipNetsBlock_full hs he hle
  refine ⟨h, NextIP last, hg, by rw [NextIP_length, hll], fun heq => ?_, fun hlt => ⟨?_, fun l hl => ?_⟩⟩
  · have : IPLess last end_ = false := by
      rw [IPLess_false_iff (.inr hll) (.inr he), addrNum_16 hll, addrNum_16 he]; omega
    exact ⟨ipNetsBlock start end_, by simp [ipNetsLoop, hlast, this]⟩
  · have helt := val_lt end_
    have := Nat.two_pow_pos h
    rw [NextIP_val, hll, Nat.mod_eq_of_lt (by rw [he] at helt; omega)]; omega
  · have : IPLess last end_ = true := by
      have := Nat.two_pow_pos h
      rw [IPLess_iff (.inr hll) (.inr he), addrNum_16 hll, addrNum_16 he]; omega
    exact ⟨ipNetsBlock start end_, by simp [ipNetsLoop, hlast, this, hl]⟩

/-- Second phase: fewer than `2^k` addresses left at a multiple of `2^k` need at most `k` blocks. -/
theorem ipNetsLoop_phase2 (k : Nat) {fuel : Nat} {start end_ : IP} (hs : start.length = 16)
    (he : end_.length = 16) (hle : val start ≤ val end_) (hd : 2 ^ k ∣ val start)
    (hlt : val end_ + 1 < val start + 2 ^ k) (hf : k ≤ fuel) :
    ∃ l, ipNetsLoop fuel start end_ = some (.ok l) ∧ l.length ≤ k := by
  induction k using Nat.strongRecOn generalizing fuel start with
  | _ k ih =>
    have hk0 : 0 < k := by
      rcases Nat.eq_zero_or_pos k with h | h
      · subst h; omega
      · exact h
    obtain ⟨fuel, rfl⟩ : ∃ f, fuel = f + 1 := ⟨fuel - 1, by omega⟩
    obtain ⟨h, nxt, hg, hnl, hstop, hgo⟩ := ipNetsLoop_step (fuel := fuel) hs he hle
    have hhk : h < k := by
      rcases Nat.lt_or_ge h k with h' | h'
      · exact h'
      · have := Nat.pow_le_pow_right (n := 2) (by decide) h'
        have := hg.fits; omega
    rcases Nat.lt_or_ge (val end_) (val start + 2 ^ h) with hc | hc
    · have := hg.fits
      obtain ⟨n, hn⟩ := hstop (by omega)
      exact ⟨[n], hn, by simp; omega⟩
    · obtain ⟨hnv, hcont⟩ := hgo hc
      have hmax : val end_ + 1 < val start + 2 ^ (h + 1) := by
        rcases Nat.lt_or_ge (val end_ + 1) (val start + 2 ^ (h + 1)) with h' | h'
        · exact h'
        · have := hg.max (h + 1) (Nat.dvd_trans (Nat.pow_dvd_pow 2 (by omega)) hd) h'
          omega
      obtain ⟨l, hl, hlen⟩ := ih h hhk (fuel := fuel) (start := nxt) hnl (by omega)
        (by rw [hnv]; exact Nat.dvd_add hg.dvd (Nat.dvd_refl _))
        (by rw [hnv]; rw [Nat.pow_succ] at hmax; omega) (by omega)
      obtain ⟨n, hn⟩ := hcont l hl
      exact ⟨n :: l, hn, by simp; omega⟩

/-- First phase: a start that is a positive multiple of `2^j`. -/
theorem ipNetsLoop_phase1 (d : Nat) {j fuel : Nat} {start end_ : IP} (hs : start.length = 16)
    (he : end_.length = 16) (hle : val start ≤ val end_) (h0 : 0 < val start) (hd : 2 ^ j ∣ val start)
    (hj : j + d = 127) (hf : 127 + d ≤ fuel) :
    ∃ l, ipNetsLoop fuel start end_ = some (.ok l) ∧ l.length ≤ 127 + d := by
  induction d using Nat.strongRecOn generalizing j fuel start with
  | _ d ih =>
    obtain ⟨fuel, rfl⟩ : ∃ f, fuel = f + 1 := ⟨fuel - 1, by omega⟩
    obtain ⟨h, nxt, hg, hnl, hstop, hgo⟩ := ipNetsLoop_step (fuel := fuel) hs he hle
    have helt := val_lt end_
    rw [he] at helt
    have hh128 : h ≤ 127 := by
      rcases Nat.lt_or_ge 127 h with h' | h'
      · have := Nat.pow_le_pow_right (n := 2) (by decide) (show 128 ≤ h by omega)
        have := hg.fits; omega
      · exact h'
    rcases Nat.lt_or_ge (val end_) (val start + 2 ^ h) with hc | hc
    · have := hg.fits
      obtain ⟨n, hn⟩ := hstop (by omega)
      exact ⟨[n], hn, by simp; omega⟩
    · obtain ⟨hnv, hcont⟩ := hgo hc
      by_cases hdd : 2 ^ (h + 1) ∣ val start
      · -- limited by the end
        have hmax : val end_ + 1 < val start + 2 ^ (h + 1) := by
          rcases Nat.lt_or_ge (val end_ + 1) (val start + 2 ^ (h + 1)) with h' | h'
          · exact h'
          · have := hg.max (h + 1) hdd h'
            omega
        have hh127 : h < 127 := by
          rcases Nat.lt_or_ge h 127 with h' | h'
          · exact h'
          · have h127 : h = 127 := by omega
            subst h127
            have := Nat.le_of_dvd h0 hdd
            omega
        obtain ⟨l, hl, hlen⟩ := ipNetsLoop_phase2 h (fuel := fuel) (start := nxt) hnl he (by omega)
          (by rw [hnv]; exact Nat.dvd_add hg.dvd (Nat.dvd_refl _))
          (by rw [hnv]; rw [Nat.pow_succ] at hmax; omega) (by omega)
        obtain ⟨n, hn⟩ := hcont l hl
        refine ⟨n :: l, hn, ?_⟩
        simp; omega
      · -- limited by alignment: the next start is a multiple of 2^(h+1)
        have hjh : j ≤ h := by
          rcases Nat.lt_or_ge h j with h' | h'
          · exact absurd (Nat.dvd_trans (Nat.pow_dvd_pow 2 (by omega)) hd) hdd
          · exact h'
        have hnd : 2 ^ (h + 1) ∣ val nxt := by
          rw [hnv]
          obtain ⟨q, hq⟩ := hg.dvd
          rw [hq] at hdd ⊢
          have hodd : q % 2 = 1 := by
            rcases Nat.mod_two_eq_zero_or_one q with h' | h'
            · exfalso; apply hdd
              rw [Nat.pow_succ]
              exact Nat.mul_dvd_mul_left _ (Nat.dvd_of_mod_eq_zero h')
            · exact h'
          rw [Nat.pow_succ, ← Nat.mul_succ]
          exact Nat.mul_dvd_mul_left _ (Nat.dvd_of_mod_eq_zero (by omega))
        have hh127 : h < 127 := by
          rcases Nat.lt_or_ge h 127 with h' | h'
          · exact h'
          · have h127 : h = 127 := by omega
            subst h127
            have := Nat.le_of_dvd h0 hg.dvd
            omega
        obtain ⟨l, hl, hlen⟩ := ih (127 - (h + 1)) (by omega) (j := h + 1) (fuel := fuel) (start := nxt) hnl
          (by omega) (by omega) hnd (by omega) (by omega)
        obtain ⟨n, hn⟩ := hcont l hl
        exact ⟨n :: l, hn, by simp; omega⟩

theorem ipNetsLoop_total {fuel : Nat} {start end_ : IP} (hs : start.length = 16)
    (he : end_.length = 16) (hle : val start ≤ val end_) (hf : 254 ≤ fuel) :
    ∃ l, ipNetsLoop fuel start end_ = some (.ok l) ∧ l.length ≤ 254 := by
  rcases Nat.eq_zero_or_pos (val start) with h0 | h0
  · have helt := val_lt end_
    rw [he] at helt
    rcases Nat.lt_or_ge (val end_ + 1) (2 ^ 128) with h | h
    · obtain ⟨l, hl, hlen⟩ := ipNetsLoop_phase2 128 (fuel := fuel) hs he hle (by rw [h0]; exact Nat.dvd_zero _)
        (by omega) (by omega)
      exact ⟨l, hl, by omega⟩
    · obtain ⟨fuel, rfl⟩ : ∃ f, fuel = f + 1 := ⟨fuel - 1, by omega⟩
      obtain ⟨k, nxt, hg, hnl, hstop, hgo⟩ := ipNetsLoop_step (fuel := fuel) hs he hle
      have h1 : val start + 2 ^ k = val end_ + 1 := by
        have := hg.fits
        have := hg.max 128 (by rw [h0]; exact Nat.dvd_zero _) (by omega)
        have := Nat.pow_le_pow_right (n := 2) (by decide) this
        omega
      obtain ⟨n, hn⟩ := hstop h1
      exact ⟨[n], hn, by simp⟩
  · obtain ⟨l, hl, hlen⟩ := ipNetsLoop_phase1 127 (j := 0) (fuel := fuel) hs he hle h0 (by simp) (by omega)
      (by omega)
    exact ⟨l, hl, by omega⟩

/-! ## What a greedy tiling is -/

theorem GreedyTiling.tiles {s e1 : Nat} {l : List IPNet} (h : GreedyTiling s e1 l) : Tiles s l e1 := by
  induction h with
  | last _ _ h1 h2 _ => exact ⟨h1, h2⟩
  | cons _ _ h1 _ _ _ ih => exact ⟨h1, ih⟩

theorem GreedyTiling.wf {s e1 : Nat} {l : List IPNet} (h : GreedyTiling s e1 l) :
    ∀ n ∈ l, WFNet n ∧ n.ip.length = 16 := by
  induction h with
  | last h1 h2 => intro n hn; simp at hn; subst hn; exact ⟨h1, h2⟩
  | cons h1 h2 _ _ _ _ ih =>
    intro n hn
    rcases List.mem_cons.mp hn with h | h
    · subst h; exact ⟨h1, h2⟩
    · exact ih n h

/-- Aligned power-of-two blocks are nested or disjoint. -/
theorem laminar {a b i j : Nat} (ha : 2 ^ i ∣ a) (hb : 2 ^ j ∣ b) (hij : i ≤ j) :
    (b ≤ a ∧ a + 2 ^ i ≤ b + 2 ^ j) ∨ a + 2 ^ i ≤ b ∨ b + 2 ^ j ≤ a := by
  obtain ⟨q, rfl⟩ := ha
  obtain ⟨p, rfl⟩ := Nat.dvd_trans (Nat.pow_dvd_pow 2 hij) hb
  obtain ⟨d, rfl⟩ := Nat.exists_eq_add_of_le hij
  rw [Nat.pow_add]
  rcases Nat.lt_or_ge q p with h | h
  · right; left
    have := Nat.mul_le_mul_left (2 ^ i) (show q + 1 ≤ p by omega)
    rw [Nat.mul_add] at this; omega
  · rcases Nat.lt_or_ge q (p + 2 ^ d) with h' | h'
    · left
      refine ⟨Nat.mul_le_mul_left _ h, ?_⟩
      have := Nat.mul_le_mul_left (2 ^ i) (show q + 1 ≤ p + 2 ^ d by omega)
      rw [Nat.mul_add, Nat.mul_add] at this; omega
    · right; right
      have := Nat.mul_le_mul_left (2 ^ i) h'
      rw [Nat.mul_add] at this; omega

/-- Abstract minimality: a cover of `[s,e1)` by aligned blocks `(b, m)` inside it is not shorter. -/
theorem GreedyTiling.min {s e1 : Nat} {l : List IPNet} (h : GreedyTiling s e1 l) (c : List (Nat × Nat))
    (hal : ∀ p ∈ c, 2 ^ p.2 ∣ p.1) (hin : ∀ p ∈ c, s ≤ p.1 ∧ p.1 + 2 ^ p.2 ≤ e1)
    (hcov : ∀ x, s ≤ x → x < e1 → ∃ p ∈ c, p.1 ≤ x ∧ x < p.1 + 2 ^ p.2) : l.length ≤ c.length := by
  induction h generalizing c with
  | @last s e1 n hwf hlen hlo hend hg =>
    have := Nat.two_pow_pos (hostBits n)
    obtain ⟨p, hp, _⟩ := hcov s (Nat.le_refl _) (by have := hg.fits; omega)
    have := List.length_pos_of_mem hp
    simp; omega
  | @cons s e1 n l hwf hlen hlo hlt hg htl ih =>
    have hend : netEnd n = s + 2 ^ hostBits n := by unfold netEnd; unfold netLo at hlo; rw [hlo]
    have hpos := Nat.two_pow_pos (hostBits n)
    rw [hend] at hlt htl ih
    -- every block lies inside the greedy block or after it
    have hdich : ∀ p ∈ c, p.1 + 2 ^ p.2 ≤ s + 2 ^ hostBits n ∨ s + 2 ^ hostBits n ≤ p.1 := by
      intro p hp
      have h1 := hin p hp
      rcases Nat.le_total p.2 (hostBits n) with hle | hle
      · rcases laminar (hal p hp) hg.dvd hle with h | h | h
        · exact .inl h.2
        · omega
        · exact .inr h
      · rcases laminar hg.dvd (hal p hp) hle with h | h | h
        · have hs : p.1 = s := by omega
          have hm := hg.max p.2 (hs ▸ hal p hp) (by omega)
          have : p.2 = hostBits n := by omega
          rw [this] at h; rw [this]; omega
        · exact .inr h
        · have := Nat.two_pow_pos p.2; omega
    obtain ⟨p, hp, hp1, hp2⟩ := hcov s (Nat.le_refl _) (by omega)
    have hlt' : (c.filter (fun q => s + 2 ^ hostBits n ≤ q.1)).length < c.length := by
      apply List.length_filter_lt_length_iff_exists.mpr
      refine ⟨p, hp, ?_⟩
      have := hin p hp
      simp; omega
    have := ih (c.filter (fun q => s + 2 ^ hostBits n ≤ q.1))
      (fun q hq => hal q (List.mem_filter.mp hq).1)
      (fun q hq => by
        have h1 := hin q (List.mem_filter.mp hq).1
        have h2 := (List.mem_filter.mp hq).2
        simp at h2; omega)
      (fun x hx1 hx2 => by
        obtain ⟨q, hq, hq1, hq2⟩ := hcov x (by omega) hx2
        refine ⟨q, List.mem_filter.mpr ⟨hq, ?_⟩, hq1, hq2⟩
        have := hdich q hq
        simp; omega)
    simp; omega

/-- Every aligned block inside the interval lies inside one block of a greedy tiling. -/
theorem GreedyTiling.inside {s e1 : Nat} {l : List IPNet} (h : GreedyTiling s e1 l) {b m : Nat} (hal : 2 ^ m ∣ b) (h1 : s ≤ b)
    (h2 : b + 2 ^ m ≤ e1) : ∃ n ∈ l, netLo n ≤ b ∧ b + 2 ^ m ≤ netEnd n := by
  induction h with
  | @last s e1 n hwf hlen hlo hend hg => exact ⟨n, by simp, by omega, by omega⟩
  | @cons s e1 n l hwf hlen hlo hlt hg htl ih =>
    have hend : netEnd n = s + 2 ^ hostBits n := by unfold netEnd; unfold netLo at hlo; rw [hlo]
    have hpos := Nat.two_pow_pos (hostBits n)
    have hpos' := Nat.two_pow_pos m
    have hdich : b + 2 ^ m ≤ s + 2 ^ hostBits n ∨ s + 2 ^ hostBits n ≤ b := by
      rcases Nat.le_total m (hostBits n) with hle | hle
      · rcases laminar hal hg.dvd hle with h | h | h
        · exact .inl h.2
        · omega
        · exact .inr h
      · rcases laminar hg.dvd hal hle with h | h | h
        · have hs : b = s := by omega
          have hm := hg.max m (hs ▸ hal) (by omega)
          have : m = hostBits n := by omega
          rw [this] at h ⊢; omega
        · exact .inr h
        · omega
    rcases hdich with h | h
    · exact ⟨n, by simp, by omega, by omega⟩
    · obtain ⟨n', hn', k⟩ := ih (by omega) h2
      exact ⟨n', by simp [hn'], k⟩

/-! ## Well-formed networks as aligned intervals -/

theorem WFNet_bounds {n : IPNet} (h : WFNet n) :
    2 ^ hostBits n ∣ netLo n ∧ netEnd n ≤ 2 ^ 128 ∧ hostBits n ≤ 8 * n.ip.length := by
  obtain ⟨⟨hv, hl, hm⟩, hal⟩ := h
  rw [Aligned_iff] at hal
  have hlt := val_lt n.ip
  have hh : hostBits n ≤ 8 * n.ip.length := by unfold hostBits; omega
  have hdv : 2 ^ hostBits n ∣ val n.ip := Nat.dvd_of_mod_eq_zero hal
  have hlt' : val n.ip + 2 ^ hostBits n ≤ 2 ^ (8 * n.ip.length) := by
    rw [pow_256] at hlt
    obtain ⟨q, hq⟩ := hdv
    obtain ⟨p, hp⟩ := Nat.pow_dvd_pow 2 hh
    rw [hq, hp] at hlt
    rw [hq, hp]
    have : q < p := Nat.lt_of_mul_lt_mul_left hlt
    have := Nat.mul_le_mul_left (2 ^ hostBits n) (show q + 1 ≤ p by omega)
    rw [Nat.mul_add] at this; omega
  unfold netLo netEnd
  rcases hv with h4 | h16
  · rw [addrNum_4 h4]; rw [h4] at hlt' hh
    refine ⟨?_, by omega, by omega⟩
    apply Nat.dvd_add _ hdv
    exact Nat.dvd_trans (Nat.pow_dvd_pow 2 hh) (Nat.dvd_mul_left _ _)
  · rw [addrNum_16 h16]; rw [h16] at hlt'
    exact ⟨hdv, by omega, by omega⟩

theorem tiles_covers {lo hi : Nat} {l : List IPNet} (h : Tiles lo l hi) :
    lo ≤ hi ∧ ∀ x, (∃ n ∈ l, Covers n x) ↔ lo ≤ x ∧ x < hi := by
  induction l generalizing lo with
  | nil => simp only [Tiles] at h; subst h
           refine ⟨Nat.le_refl _, fun x => ⟨?_, fun h => by omega⟩⟩
           rintro ⟨n, hn, _⟩; simp at hn
  | cons n l ih =>
    obtain ⟨h1, h2⟩ := h
    obtain ⟨h3, h4⟩ := ih h2
    have : lo < netEnd n := by
      rw [← h1]; unfold netLo netEnd; have := Nat.two_pow_pos (hostBits n); omega
    refine ⟨by omega, fun x => ?_⟩
    constructor
    · rintro ⟨m, hm, hc⟩
      rcases List.mem_cons.mp hm with rfl | hm
      · unfold Covers at hc; omega
      · have := (h4 x).mp ⟨m, hm, hc⟩; omega
    · rintro ⟨ha, hb⟩
      rcases Nat.lt_or_ge x (netEnd n) with h | h
      · exact ⟨n, by simp, by unfold Covers; omega⟩
      · obtain ⟨m, hm, hc⟩ := (h4 x).mpr ⟨h, hb⟩
        exact ⟨m, by simp [hm], hc⟩

/-- In a tiling two different positions do not share a number. -/
theorem tiles_unique {lo hi : Nat} {l : List IPNet} (h : Tiles lo l hi) (x : Nat) {i j : Nat} {n m : IPNet}
    (hi' : l[i]? = some n) (hj : l[j]? = some m) (hn : Covers n x) (hm : Covers m x) : i = j := by
  induction l generalizing lo i j with
  | nil => simp at hi'
  | cons a l ih =>
    obtain ⟨h1, h2⟩ := h
    have hc := (tiles_covers h2).2 x
    cases i with
    | zero =>
      cases j with
      | zero => rfl
      | succ j =>
        simp at hi' hj; subst hi'
        have := hc.mp ⟨m, List.mem_of_getElem? hj, hm⟩
        unfold Covers at hn; omega
    | succ i =>
      cases j with
      | zero =>
        simp at hi' hj; subst hj
        have := hc.mp ⟨n, List.mem_of_getElem? hi', hn⟩
        unfold Covers at hm; omega
      | succ j => simp at hi' hj; rw [ih h2 hi' hj]

end Uip
