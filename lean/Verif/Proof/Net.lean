import Verif.Proof.Addr
/-!
# Lemmas: masks, networks, last addresses
-/
namespace Uip
open Spec

/-! ## Bitwise operations on byte lists -/

theorem byteBits_or_not (a m : UInt8) :
    byteBits (a ||| ~~~ m) = List.zipWith (fun x y => x || !y) (byteBits a) (byteBits m) := by
  have hm : ∀ i < 8, (~~~ m).toNat.testBit i = !(m.toNat.testBit i) := by
    apply byte_all (fun m => ∀ i < 8, (~~~ m).toNat.testBit i = !(m.toNat.testBit i))
    decide +kernel
  simp only [byteBits, UInt8.toNat_or, Nat.testBit_or, hm 7 (by decide), hm 6 (by decide),
    hm 5 (by decide), hm 4 (by decide), hm 3 (by decide), hm 2 (by decide), hm 1 (by decide),
    hm 0 (by decide), List.zipWith]

theorem byteBits_and (a m : UInt8) :
    byteBits (a &&& m) = List.zipWith (fun x y => x && y) (byteBits a) (byteBits m) := by
  simp only [byteBits, UInt8.toNat_and, Nat.testBit_and, List.zipWith]

theorem byteBits_xor (a m : UInt8) :
    byteBits (a ^^^ m) = List.zipWith (fun x y => x ^^ y) (byteBits a) (byteBits m) := by
  simp only [byteBits, UInt8.toNat_xor, Nat.testBit_xor, List.zipWith]

theorem zipWith_append_eq {α β γ : Type} (f : α → β → γ) (a c : List α) (b d : List β)
    (h : a.length = b.length) :
    List.zipWith f (a ++ c) (b ++ d) = List.zipWith f a b ++ List.zipWith f c d := by
  induction a generalizing b with
  | nil => cases b <;> simp_all
  | cons x a ih =>
    cases b with
    | nil => simp at h
    | cons y b => simp at h; simp [ih b h]

theorem bits_zipWith (f : UInt8 → UInt8 → UInt8) (g : Bool → Bool → Bool)
    (h : ∀ a b, byteBits (f a b) = List.zipWith g (byteBits a) (byteBits b)) (a b : Bytes) :
    bits (List.zipWith f a b) = List.zipWith g (bits a) (bits b) := by
  induction a generalizing b with
  | nil => simp
  | cons x a ih =>
    cases b with
    | nil => simp
    | cons y b =>
      rw [List.zipWith_cons_cons, bits_cons, bits_cons, bits_cons, ih, h,
        zipWith_append_eq _ _ _ _ _ (by simp)]

theorem zipWith_replicate {α β γ : Type} (f : α → β → γ) (l : List α) (b : β) (n : Nat)
    (h : l.length = n) : List.zipWith f l (List.replicate n b) = l.map (fun a => f a b) := by
  induction l generalizing n with
  | nil => subst h; simp
  | cons x l ih => subst h; simp [List.replicate_succ, ih]

/-! ## Masks -/

theorem bits_cidrMaskLoop (l n : Nat) (h : n ≤ 8 * l) :
    bits (cidrMaskLoop l n) = List.replicate n true ++ List.replicate (8 * l - n) false := by
  induction l generalizing n with
  | zero => have : n = 0 := by omega
            subst this; rfl
  | succ l ih =>
    unfold cidrMaskLoop
    by_cases hn : 8 ≤ n
    · rw [if_pos hn, bits_cons, ih (n - 8) (by omega)]
      have e : byteBits 255 = List.replicate 8 true := by decide
      rw [e, ← List.append_assoc, List.replicate_append_replicate]
      congr 2 <;> omega
    · rw [if_neg hn, bits_cons, ih 0 (by omega)]
      have e : byteBits (~~~ (255 >>> UInt8.ofNat n)) =
          List.replicate n true ++ List.replicate (8 - n) false := by
        have : ∀ i < 8, byteBits (~~~ (255 >>> UInt8.ofNat i)) =
          List.replicate i true ++ List.replicate (8 - i) false := by decide
        exact this n (by omega)
      rw [e, List.append_assoc]
      simp only [List.replicate_zero, List.nil_append, List.replicate_append_replicate]
      congr 2; omega

theorem cidrMaskLoop_length (l n : Nat) : (cidrMaskLoop l n).length = l := by
  induction l generalizing n with
  | zero => rfl
  | succ l ih => unfold cidrMaskLoop; split <;> simp [ih]

theorem IsMask_cidrMaskLoop (l n : Nat) (h : n ≤ 8 * l) : IsMask (cidrMaskLoop l n) n := by
  unfold IsMask; rw [cidrMaskLoop_length]; exact ⟨h, bits_cidrMaskLoop l n h⟩

theorem IsMask_unique {m : Bytes} {k k' : Nat} (h : IsMask m k) (h' : IsMask m k') : k = k' := by
  have e := h.2.symm.trans h'.2
  have c := congrArg (List.count true) e
  simp only [List.count_append, List.count_replicate] at c
  simpa using c

theorem IsMask_eq {m : Bytes} {k : Nat} (h : IsMask m k) : m = cidrMaskLoop m.length k := by
  apply bits_inj (by rw [cidrMaskLoop_length])
  rw [bits_cidrMaskLoop _ _ h.1, h.2]

theorem CIDRMask_32 {k : Nat} (h : k ≤ 32) : CIDRMask k 32 = some (cidrMaskLoop 4 k) := by
  unfold CIDRMask
  rw [if_neg (by omega), if_neg (by omega)]; simp

theorem CIDRMask_128 {k : Nat} (h : k ≤ 128) : CIDRMask k 128 = some (cidrMaskLoop 16 k) := by
  unfold CIDRMask
  rw [if_neg (by omega), if_neg (by omega)]; simp

theorem CIDRMask_valid {k len : Nat} (hl : len = 4 ∨ len = 16) (h : k ≤ 8 * len) :
    CIDRMask k (len * 8) = some (cidrMaskLoop len k) := by
  rcases hl with rfl | rfl
  · exact CIDRMask_32 (by omega)
  · exact CIDRMask_128 (by omega)

theorem all_zero_iff (l : Bytes) : l.all (· == 0) = true ↔ bits l = List.replicate (8 * l.length) false := by
  induction l with
  | nil => simp
  | cons x l ih =>
    rw [List.all_cons, Bool.and_eq_true, ih, bits_cons]
    have hx : (x == 0) = true ↔ byteBits x = List.replicate 8 false :=
      byte_all (fun x => (x == 0) = true ↔ byteBits x = List.replicate 8 false) (by decide +kernel) x
    rw [hx, show 8 * (x :: l).length = 8 + 8 * l.length by simp; omega,
      ← List.replicate_append_replicate]
    constructor
    · rintro ⟨h1, h2⟩; rw [h1, h2]
    · intro h
      exact List.append_inj h (by simp)

/-- `simpleMaskLength` recognises exactly the canonical masks. -/
theorem simpleMaskLength_iff (m : Bytes) (k : Nat) : simpleMaskLength m = some k ↔ IsMask m k := by
  induction m generalizing k with
  | nil => simp only [simpleMaskLength, IsMask, bits_nil]
           constructor
           · intro h; cases h; simp
           · rintro ⟨h, _⟩; simp at h; simp [h]
  | cons v rest ih =>
    unfold simpleMaskLength
    by_cases hv : v = 0xff
    · subst hv
      rw [if_pos rfl]
      have e : byteBits 255 = List.replicate 8 true := by decide
      constructor
      · intro h
        rw [Option.map_eq_some_iff] at h
        obtain ⟨k', hk', rfl⟩ := h
        have := (ih k').mp hk'
        refine ⟨by have := this.1; simp; omega, ?_⟩
        rw [bits_cons, e, this.2, ← List.append_assoc, List.replicate_append_replicate]
        congr 2
        · omega
        · simp; omega
      · rintro ⟨h1, h2⟩
        rw [bits_cons, e] at h2
        have hk : 8 ≤ k := by
          have hc := congrArg (List.take 8) h2
          rw [List.take_left' (by simp)] at hc
          have hcnt := congrArg (List.count true) hc
          rw [List.take_append, List.count_append] at hcnt
          simp [List.take_replicate, List.count_replicate] at hcnt
          omega
        rw [Option.map_eq_some_iff]
        refine ⟨k - 8, (ih _).mpr ⟨by simp at h1; omega, ?_⟩, by omega⟩
        have hc := congrArg (List.drop 8) h2
        rw [List.drop_left' (by simp), List.drop_append, List.drop_replicate, List.drop_replicate,
          List.length_replicate] at hc
        rw [hc]; congr 2; simp; omega
    · rw [if_neg hv]
      have hlead : ∀ k, leadOnes 8 v 0 = some k → k < 8 ∧
          byteBits v = List.replicate k true ++ List.replicate (8 - k) false := by
        have : ∀ v : UInt8, v ≠ 0xff → ∀ k, leadOnes 8 v 0 = some k → k < 8 ∧
          byteBits v = List.replicate k true ++ List.replicate (8 - k) false := by
          intro v
          apply byte_all (fun v => v ≠ 0xff → ∀ k, leadOnes 8 v 0 = some k → k < 8 ∧
            byteBits v = List.replicate k true ++ List.replicate (8 - k) false)
          intro n hn
          have : ∀ n : Fin 256, UInt8.ofNat n.val ≠ 0xff →
            (leadOnes 8 (UInt8.ofNat n.val) 0 = none ∨ ∃ k : Fin 8, leadOnes 8 (UInt8.ofNat n.val) 0 = some k.val ∧
              byteBits (UInt8.ofNat n.val) =
                List.replicate k.val true ++ List.replicate (8 - k.val) false) := by decide +kernel
          intro k hk
          rcases this n hn with h | ⟨j, h, hb⟩
          · rw [hk] at h; simp at h
          · rw [hk] at h
            cases h
            exact ⟨j.isLt, hb⟩
        exact this v hv
      have hlead' : ∀ k ≤ 8, byteBits v = List.replicate k true ++ List.replicate (8 - k) false →
          leadOnes 8 v 0 = some k := by
        apply byte_all (fun v => ∀ k ≤ 8, byteBits v = List.replicate k true ++ List.replicate (8 - k) false →
          leadOnes 8 v 0 = some k)
        intro n
        revert n
        decide +kernel
      constructor
      · intro h
        split at h
        · simp at h
        · rename_i n hn
          split at h
          · rename_i hall
            cases h
            have ⟨hk, hb⟩ := hlead _ hn
            refine ⟨by simp; omega, ?_⟩
            rw [bits_cons, hb, (all_zero_iff rest).mp hall, List.append_assoc,
              List.replicate_append_replicate]
            congr 2; simp; omega
          · simp at h
      · rintro ⟨h1, h2⟩
        rw [bits_cons] at h2
        have hk : k < 8 := by
          rcases Nat.lt_or_ge k 8 with h | h
          · exact h
          · exfalso
            apply hv
            have hc := congrArg (List.take 8) h2
            rw [List.take_left' (by simp), List.take_append_of_le_length (by simpa using h),
              List.take_replicate, Nat.min_eq_left h] at hc
            exact byteBits_inj (hc.trans (by decide))
        have e : List.replicate k true ++ List.replicate (8 * (v :: rest).length - k) false
            = (List.replicate k true ++ List.replicate (8 - k) false) ++
              List.replicate (8 * rest.length) false := by
          rw [List.append_assoc, List.replicate_append_replicate]
          congr 2; simp; omega
        rw [e] at h2
        have ⟨h3, h4⟩ := List.append_inj h2 (by simp; omega)
        rw [hlead' k (by omega) h3]
        simp only [(all_zero_iff rest).mpr h4, if_true]

theorem maskSize_of_IsMask {m : Bytes} {k : Nat} (h : IsMask m k) : maskSize m = (k, 8 * m.length) := by
  unfold maskSize; rw [(simpleMaskLength_iff m k).mpr h]

/-! ## LastIP and ipMask -/

theorem LastIP_ok {n : IPNet} (h : n.mask.length = n.ip.length) :
    LastIP n = .ok (List.zipWith (fun a m => a ||| ~~~ m) n.ip n.mask) := by
  unfold LastIP; rw [if_neg (by omega)]

theorem bits_last {ip mask : Bytes} {k : Nat} (hl : mask.length = ip.length) (hm : IsMask mask k) :
    bits (List.zipWith (fun a m => a ||| ~~~ m) ip mask)
      = (bits ip).take k ++ List.replicate (8 * ip.length - k) true := by
  rw [bits_zipWith _ _ byteBits_or_not, hm.2]
  have hk := hm.1
  conv => lhs; arg 2; rw [← List.take_append_drop k (bits ip)]
  rw [zipWith_append_eq _ _ _ _ _ (by simp [bits_length]; omega),
    zipWith_replicate _ _ _ _ (by simp [bits_length]; omega),
    zipWith_replicate _ _ _ _ (by simp [bits_length]; omega)]
  simp only [Bool.not_true, Bool.or_false, List.map_id', Bool.not_false, Bool.or_true, List.map_const',
    List.length_drop, bits_length]

theorem bits_masked {ip mask : Bytes} {k : Nat} (hl : mask.length = ip.length) (hm : IsMask mask k) :
    bits (List.zipWith (· &&& ·) ip mask)
      = (bits ip).take k ++ List.replicate (8 * ip.length - k) false := by
  rw [bits_zipWith _ _ byteBits_and, hm.2]
  have hk := hm.1
  conv => lhs; arg 2; rw [← List.take_append_drop k (bits ip)]
  rw [zipWith_append_eq _ _ _ _ _ (by simp [bits_length]; omega),
    zipWith_replicate _ _ _ _ (by simp [bits_length]; omega),
    zipWith_replicate _ _ _ _ (by simp [bits_length]; omega)]
  simp only [Bool.and_true, Bool.and_false, List.map_id', List.map_const', List.length_drop, bits_length]

/-- Value of an address from its first `k` bits and the rest. -/
theorem val_split (ip : Bytes) (k : Nat) :
    val ip = bitsNat ((bits ip).take k) * 2 ^ (8 * ip.length - k) + bitsNat ((bits ip).drop k) := by
  rw [← bitsNat_bits]
  conv => lhs; rw [← List.take_append_drop k (bits ip)]
  rw [bitsNat_append, List.length_drop, bits_length]

theorem LastIP_spec {n : IPNet} {k : Nat} (h : IsCIDR n k) :
    ∃ last, LastIP n = .ok last ∧ last.length = n.ip.length ∧
      bits last = (bits n.ip).take k ++ List.replicate (8 * n.ip.length - k) true ∧
      val last = val n.ip / 2 ^ (8 * n.ip.length - k) * 2 ^ (8 * n.ip.length - k)
        + (2 ^ (8 * n.ip.length - k) - 1) := by
  obtain ⟨hv, hl, hm⟩ := h
  refine ⟨_, LastIP_ok hl, by simp [hl], bits_last hl hm, ?_⟩
  rw [← bitsNat_bits, bits_last hl hm, bitsNat_append, List.length_replicate,
    bitsNat_replicate_true, ← bitsNat_bits n.ip, ← bits_length, bitsNat_div]

theorem ipMask_spec {ip mask : Bytes} {k : Nat} (hl : mask.length = ip.length) (hm : IsMask mask k) :
    ∃ r, ipMask ip mask = some r ∧ r.length = ip.length ∧
      bits r = (bits ip).take k ++ List.replicate (8 * ip.length - k) false := by
  refine ⟨_, ?_, ?_, bits_masked hl hm⟩
  · unfold ipMask
    have h1 : ¬ (mask.length = 16 ∧ ip.length = 4 ∧ (mask.take 12).all (· == 0xff) = true) := by
      rw [hl]; omega
    simp only [h1, if_false]
    have h2 : ¬ (mask.length = 4 ∧ ip.length = 16 ∧ ip.take 12 = v4InV6Prefix) := by
      rw [hl]; omega
    simp only [h2, if_false]; simp [hl]
  · simp [hl]

/-- Membership in a network as a numeric interval. -/
theorem InNet_iff_div {n : IPNet} {k : Nat} {a : IP} (hl : a.length = n.ip.length) :
    InNet n k a ↔ val a / 2 ^ (8 * n.ip.length - k) = val n.ip / 2 ^ (8 * n.ip.length - k) := by
  unfold InNet
  have := take_eq_iff_div (a := bits a) (b := bits n.ip) (by simp [bits_length, hl]) k
  rw [bitsNat_bits, bitsNat_bits, bits_length, hl] at this
  simp [hl, this]

theorem Aligned_iff {n : IPNet} {k : Nat} :
    Aligned n k ↔ val n.ip % 2 ^ (8 * n.ip.length - k) = 0 := by
  unfold Aligned
  have hm := bitsNat_mod (bits n.ip) k
  rw [bits_length, bitsNat_bits] at hm
  rw [hm]
  constructor
  · intro h; rw [h, bitsNat_replicate_false]
  · intro h0
    apply bitsNat_inj (by simp [bits_length])
    rw [h0, bitsNat_replicate_false]

end Uip
