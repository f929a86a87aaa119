import Verif.Props.IpNet
/-!
# Properties C05-C07, exactly and without exceptions

Ranges are compared through the address after their end, which wraps at the top: the address after the last IPv6 address
is `::`, the address after a four-byte 255.255.255.255 is 0.0.0.0 (`wrapSucc`).  These theorems say what `Contains`,
`Join`, `JoinIPNet` and `CommonRange` give for all ranges, also for those that end there.
-/
namespace Uip
open Uip.Spec

/-- After an address comes at most the next number. -/
theorem wrapSucc_le (ip : IP) : wrapSucc ip ≤ addrNum ip + 1 := by
  unfold wrapSucc
  split
  · exact Nat.le_refl _
  · split
    · rename_i h4; rw [addrNum_4 h4]; omega
    · omega

/-- **C05.** For every start, end and address: the function and the method agree, and the address is contained iff it is
not below the start and is below the address after the end. -/
theorem C05_exact (start end_ ip : IP) (hs : ValidIP start) (he : ValidIP end_) (hi : ValidIP ip) :
    (Contains start end_ ip = true ↔ addrNum start ≤ addrNum ip ∧ addrNum ip < wrapSucc end_) ∧
    Range.Contains ⟨start, end_⟩ ip = Contains start end_ ip ∧
    (NotTop end_ → (Contains start end_ ip = true ↔ Between start end_ (addrNum ip))) ∧
    (¬ NotTop end_ → end_.length = 16 ∨ start.length = 4 → Contains start end_ ip = false) ∧
    (¬ NotTop end_ → end_.length = 4 → start.length = 16 →
      (Contains start end_ ip = true ↔ addrNum start ≤ addrNum ip ∧ addrNum ip < 0xffff * 2 ^ 32)) := by
  refine ⟨Contains_exact hs he hi, rfl, Contains_iff hs he hi, C05_contains_top start end_ ip hs he hi, fun ht h4 _ => ?_⟩
  rw [Contains_exact hs he hi]
  unfold NotTop at ht
  unfold wrapSucc
  rw [if_neg ht, if_pos h4]

/-- **C06 (Join).** For all ranges: the result is true iff the added range starts not before the range and not after the
address that follows its end; then the range covers exactly the union afterwards, and otherwise it is unchanged. -/
theorem C06_join (r r2 : Range) (hs : ValidIP r.start) (he : ValidIP r.end_)
    (hs2 : ValidIP r2.start) (he2 : ValidIP r2.end_) :
    ((r.Join r2).2 = true ↔ addrNum r.start ≤ addrNum r2.start ∧ addrNum r2.start ≤ wrapSucc r.end_) ∧
    ((r.Join r2).2 = true → ∀ x, Between (r.Join r2).1.start (r.Join r2).1.end_ x ↔
      Between r.start r.end_ x ∨ Between r2.start r2.end_ x) ∧
    ((r.Join r2).2 = false → (r.Join r2).1 = r) := by
  obtain ⟨h1, h2, h3⟩ := C06_join_exact r r2 hs he hs2 he2
  refine ⟨h1, fun h x => ?_, h3⟩
  obtain ⟨h4, h5⟩ := h2 h
  have := h1.mp h
  have := wrapSucc_le r.end_
  unfold Between
  rw [h4, h5]; omega

/-- **C06 (JoinIPNet).** The same with a network. -/
theorem C06_joinIPNet (r : Range) (n : IPNet) (hs : ValidIP r.start) (he : ValidIP r.end_) (hn : WFNet n) :
    ∃ r' joined, r.JoinIPNet n = .ok (r', joined) ∧
      (joined = true ↔ addrNum r.start ≤ netLo n ∧ netLo n ≤ wrapSucc r.end_) ∧
      (joined = true → ∀ x, Between r'.start r'.end_ x ↔ Between r.start r.end_ x ∨ Covers n x) ∧
      (joined = false → r' = r) := by
  obtain ⟨r2, _, hl1, hl2, hn1, hn2, hj⟩ := C06_joinIPNet_is_join r n hn
  have hlo : netLo n < netEnd n := by
    unfold netLo netEnd; have := Nat.two_pow_pos (hostBits n); omega
  obtain ⟨h1, h2, h3⟩ := C06_join r r2 hs he (.inr hl1) (.inr hl2)
  refine ⟨(r.Join r2).1, (r.Join r2).2, hj, by rw [h1, hn1], fun h x => ?_, h3⟩
  rw [h2 h x]
  unfold Covers Between at *
  omega

/-- The smaller of the two ends, the range's own if they are the same address. -/
def lowerEnd (r r2 : Range) : IP := if addrNum r2.end_ < addrNum r.end_ then r2.end_ else r.end_

/-- **C07.** For all ranges and addresses: the result is true iff the address lies in both ranges, the second range
does not start after the address that follows the end of the first, and the address is below the one that follows the
lower end (the last two always hold unless an end is an all-ones address); then the range is exactly the intersection
afterwards, and otherwise it is unchanged. -/
theorem C07_exact (r r2 : Range) (ip : IP) (hs : ValidIP r.start) (he : ValidIP r.end_)
    (hs2 : ValidIP r2.start) (he2 : ValidIP r2.end_) (hi : ValidIP ip) :
    ((r.CommonRange ip r2).2 = true ↔
      Between r.start r.end_ (addrNum ip) ∧ Between r2.start r2.end_ (addrNum ip) ∧
      addrNum r2.start ≤ wrapSucc r.end_ ∧ addrNum ip < wrapSucc (lowerEnd r r2)) ∧
    ((r.CommonRange ip r2).2 = true → ∀ x,
      Between (r.CommonRange ip r2).1.start (r.CommonRange ip r2).1.end_ x ↔
        Between r.start r.end_ x ∧ Between r2.start r2.end_ x) ∧
    ((r.CommonRange ip r2).2 = false → (r.CommonRange ip r2).1 = r) := by
  unfold Range.CommonRange
  have h1 := IPLess_iff he2 hs
  have h2 := IPLess_iff (NextIP_valid he) hs2
  rw [NextIP_wrapSucc he] at h2
  by_cases hc : (IPLess r2.end_ r.start || IPLess (NextIP r.end_) r2.start) = true
  · rw [if_pos hc]
    rw [Bool.or_eq_true, h1, h2] at hc
    unfold Between
    simp; omega
  · rw [if_neg hc]
    rw [Bool.or_eq_true, h1, h2] at hc
    have h3 := IPLess_iff hs hs2
    have h4 := IPLess_iff he2 he
    obtain ⟨st, hst, hstv, hstn⟩ : ∃ st, (if IPLess r.start r2.start = true then r2.start else r.start) = st ∧
        ValidIP st ∧ addrNum st = max (addrNum r.start) (addrNum r2.start) := by
      refine ⟨_, rfl, ?_, ?_⟩
      · split <;> assumption
      · split <;> rename_i h <;> rw [h3] at h <;> omega
    obtain ⟨henv, henn, hen⟩ : ValidIP (lowerEnd r r2) ∧ addrNum (lowerEnd r r2) = min (addrNum r.end_) (addrNum r2.end_) ∧
        (if IPLess r2.end_ r.end_ = true then r2.end_ else r.end_) = lowerEnd r r2 := by
      unfold lowerEnd
      refine ⟨?_, ?_, ?_⟩
      · split <;> assumption
      · split <;> omega
      · by_cases h : addrNum r2.end_ < addrNum r.end_
        · rw [if_pos h, if_pos (h4.mpr h)]
        · rw [if_neg h, if_neg (fun hh => h (h4.mp hh))]
    simp only [hst, hen]
    have hcon := Contains_exact (start := st) (end_ := lowerEnd r r2) hstv henv hi
    have hle := wrapSucc_le (lowerEnd r r2)
    unfold Between at *
    rw [hstn] at hcon
    by_cases hk : Uip.Contains st (lowerEnd r r2) ip = true
    · simp only [hk, Bool.not_true, Bool.false_eq_true, if_false]
      have := hcon.mp hk
      refine ⟨⟨fun _ => by omega, fun _ => trivial⟩, fun _ x => ?_, fun h => by simp at h⟩
      rw [hstn, henn]; omega
    · simp only [Bool.not_eq_true] at hk
      simp only [hk, Bool.not_false, if_true]
      rw [hk] at hcon
      simp at hcon ⊢
      omega

/-- At the top: `ff00::/8` has itself in common with nothing, a range that ends there loses against `::/1`. -/
example : let top : Range := ⟨0xff :: List.replicate 15 0, List.replicate 16 0xff⟩
    (top.CommonRange (0xff :: List.replicate 15 1) top).2 = false ∧
    addrNum top.start ≤ addrNum top.end_ ∧ wrapSucc top.end_ = 0 ∧
    (Range.Join ⟨List.replicate 16 0, List.replicate 16 0xff⟩ ⟨List.replicate 16 0, [1, 2, 3, 4]⟩).2 = true := by decide

/-- For a start above the end the prefix in common with the address after the end does not shorten the block. -/
theorem ipNetsBlock_reversed {start end_ : IP} (hs : start.length = 16) (he : end_.length = 16) (hlt : val end_ < val start) :
    ipNetsBlock start end_ = { ip := start, mask := cidrMaskLoop 16 (128 - SuffixZeroLength start) } := by
  have hE := NextIP_val end_
  rw [he] at hE
  have hslt := val_lt start
  rw [hs] at hslt
  rw [Nat.mod_eq_of_lt (by omega)] at hE
  have hEl : (NextIP end_).length = 16 := by rw [NextIP_length, he]
  have hp : PrefixSameLength start (NextIP end_) = cpl (bits start) (bits (NextIP end_)) :=
    PrefixSameLength_eq (by rw [hs, hEl])
  obtain ⟨hz1, hz2, _⟩ := SuffixZeroLength_spec start
  rw [hs] at hz1
  have hbl : (bits start).length = (bits (NextIP end_)).length := by simp [bits_length, hs, hEl]
  have hcl : cpl (bits start) (bits (NextIP end_)) ≤ 128 := by
    have := cpl_le (a := bits start) (b := bits (NextIP end_))
    rw [bits_length, hs] at this; exact this
  have ht := take_cpl (bits start) (bits (NextIP end_)) hbl
  have ht' := take_cpl_succ (bits start) (bits (NextIP end_)) hbl
  rw [take_eq_iff_div hbl, bitsNat_bits, bitsNat_bits, bits_length, hs, hE] at ht
  rw [Ne, take_eq_iff_div hbl, bitsNat_bits, bitsNat_bits, bits_length, hs, hE] at ht'
  unfold ipNetsBlock
  simp only [hp, hs]
  generalize cpl (bits start) (bits (NextIP end_)) = c at *
  generalize SuffixZeroLength start = z at *
  generalize val start = s at *
  generalize val end_ = e at *
  have hz : c < 128 → z ≤ 127 - c := by
    intro hc
    rcases Nat.lt_or_ge (127 - c) z with h | h
    · exfalso
      have hd : 2 ^ (8 * 16 - c) ∣ s := Nat.dvd_trans (Nat.pow_dvd_pow 2 (by omega)) hz2
      have h1 := Nat.div_mul_cancel hd
      have h2 := Nat.div_mul_le_self (e + 1) (2 ^ (8 * 16 - c))
      rw [← ht, h1] at h2
      have hse : s = e + 1 := by omega
      exact ht' (by omega) (by rw [hse])
    · exact h
  have : (if 16 * 8 - z < (if c + 1 > 16 * 8 then 0 else c + 1) then (if c + 1 > 16 * 8 then 0 else c + 1) else 16 * 8 - z) =
      128 - z := by
    by_cases hc : c + 1 > 16 * 8
    · rw [if_pos hc, if_neg (by omega)]
    · have := hz (by omega)
      rw [if_neg hc]
      split <;> omega
  rw [this, CIDRMask_valid (.inr rfl) (by omega)]; rfl

/-- **C08.** A range whose end is below its start is not refused: the answer is one block, the largest one that can start at
the start. -/
theorem C08_reversed (r : Range) (hs : ValidIP r.start) (he : ValidIP r.end_) (hlt : addrNum r.end_ < addrNum r.start) :
    ∃ n, r.IPNets = some (.ok [n]) ∧ WFNet n ∧ n.ip.length = 16 ∧ netLo n = addrNum r.start ∧
      ∀ h, 2 ^ h ∣ addrNum r.start → h ≤ hostBits n := by
  obtain ⟨s, h1, hsl, hsv⟩ := To16_valid hs
  obtain ⟨e, h2, hel, hev⟩ := To16_valid he
  rw [← hsv, ← hev] at hlt
  have hb := ipNetsBlock_reversed hsl hel hlt
  obtain ⟨hz1, hz2, hz3⟩ := SuffixZeroLength_spec s
  rw [hsl] at hz1 hz3
  have hm : IsMask (cidrMaskLoop 16 (128 - SuffixZeroLength s)) (128 - SuffixZeroLength s) := IsMask_cidrMaskLoop 16 _ (by omega)
  have hpfx : pfx (ipNetsBlock s e) = 128 - SuffixZeroLength s := pfx_of_IsMask (by rw [hb]; exact hm)
  have hc : IsCIDR (ipNetsBlock s e) (128 - SuffixZeroLength s) := by
    rw [hb]; exact ⟨.inr hsl, by simp [cidrMaskLoop_length, hsl], hm⟩
  have hip : (ipNetsBlock s e).ip = s := by rw [hb]
  obtain ⟨last, hl1, hl2, _, hl3⟩ := LastIP_spec hc
  rw [hip, hsl] at hl3
  rw [hip, hsl] at hl2
  have hh : 8 * 16 - (128 - SuffixZeroLength s) = SuffixZeroLength s := by omega
  have hlv : val s ≤ val last := by
    rw [hl3, hh, Nat.div_mul_cancel hz2]
    have := Nat.two_pow_pos (SuffixZeroLength s)
    omega
  refine ⟨ipNetsBlock s e, ?_, ⟨by rw [hpfx]; exact hc, ?_⟩, by rw [hip, hsl], ?_, ?_⟩
  · unfold Range.IPNets ipNetsFuel
    rw [h1, h2]
    have : IPLess last e = false := by
      rw [IPLess_false_iff (.inr hl2) (.inr hel), addrNum_16 hl2, addrNum_16 hel]; omega
    show ipNetsLoop 256 s e = _
    rw [show (256 : Nat) = 255 + 1 from rfl]
    generalize 255 = f
    simp only [ipNetsLoop, hl1, this]
    rfl
  · rw [Aligned_iff, hpfx, hip, hsl, hh]; exact Nat.mod_eq_zero_of_dvd hz2
  · unfold netLo; rw [hip, addrNum_16 hsl, hsv]
  · intro h hd
    unfold hostBits
    rw [hpfx, hip, hsl, hh]
    rw [← hsv] at hd
    rcases Nat.lt_or_ge (SuffixZeroLength s) h with hlt' | hge
    · exfalso
      have hz : SuffixZeroLength s < 8 * 16 := by
        rcases Nat.lt_or_ge (SuffixZeroLength s) 128 with h' | h'
        · exact h'
        · exfalso
          have h5 := Nat.le_of_dvd (by omega) hd
          have h6 : 2 ^ 128 ≤ 2 ^ h := Nat.pow_le_pow_right (by decide) (by omega)
          have := val_lt s
          rw [hsl] at this
          have e : (256 : Nat) ^ 16 = 2 ^ 128 := by decide
          omega
      exact hz3 hz (Nat.dvd_trans (Nat.pow_dvd_pow 2 (by omega)) hd)
    · exact hge

/-- 2.0.0.0-0.0.0.1 gives 2.0.0.0/7. -/
example : Range.IPNets ⟨[2, 0, 0, 0], [0, 0, 0, 1]⟩ = some (.ok [⟨goIPv4 2 0 0 0, cidrMaskLoop 16 103⟩]) ∧
    addrNum [0, 0, 0, 1] < addrNum [2, 0, 0, 0] := by decide +kernel

end Uip
