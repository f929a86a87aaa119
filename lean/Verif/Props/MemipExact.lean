import Verif.Props.Memip
import Verif.Props.IpNet
import Verif.Props.AddrText
/-!
# Property C49, exactly: what dumping any `.memip` text gives

Every text, well formed or not: when the dump returns an error, when it crashes, and what it returns otherwise.
-/
namespace Uip.Spec
open Uip Uip.Spec.AddrText

/-- A line of a `.memip` text reads as the addresses `lo` to `hi` (both included) with the shown fields `vs`: three
parts separated by single spaces, the first two being addresses if the first has a colon and decimal numbers below `2 ^ 32`
otherwise, the third being the fields separated by dashes. -/
inductive LineReads (l : Str) : Nat → Nat → List Str → Prop
  | v6 {a b w : Str} {s e : IP} : splitByte 0x20 l = [a, b, w] → 0x3A ∈ a → s.length = 16 → e.length = 16 →
      Spells a s → Spells b e → LineReads l (addrNum s) (addrNum e) (splitByte 0x2D w)
  | v4 {a b w : Str} {m n : Nat} : splitByte 0x20 l = [a, b, w] → 0x3A ∉ a → m < 2 ^ 32 → n < 2 ^ 32 →
      Numeral 10 a m → Numeral 10 b n → LineReads l (v4Lo + m) (v4Lo + n) (splitByte 0x2D w)

/-- Lines that read, none of them reaching the last address of all. -/
def QuietLines (ls : List Str) : Prop := ∀ l ∈ ls, ∃ lo hi vs, LineReads l lo hi vs ∧ hi + 1 ≠ 2 ^ 128

/-- `body` are the lines of a text that count: all of them, if none reaches the last address, and otherwise those up to
the first that does.  All of them read. -/
def CountingLines (ls body : List Str) : Prop :=
  (body = ls ∧ QuietLines ls) ∨
  ∃ pre l post, ls = pre ++ l :: post ∧ body = pre ++ [l] ∧ QuietLines pre ∧ ∃ lo hi vs, LineReads l lo hi vs ∧ hi + 1 = 2 ^ 128

/-- The networks a line stands for: the blocks of a proper range side by side; for a range whose end is below its
start, the largest network that begins at the start. -/
def LineBlocks (lo hi : Nat) (bs : List IPNet) : Prop :=
  (∀ n ∈ bs, WFNet n ∧ n.ip.length = 16) ∧
  ((lo ≤ hi ∧ Tiles lo bs (hi + 1)) ∨
   (hi < lo ∧ ∃ n, bs = [n] ∧ netLo n = lo ∧ ∀ m, WFNet m → m.ip.length = 16 → netLo m = lo → netEnd m ≤ netEnd n))

/-- The rows the lines stand for, in order. -/
inductive RowsOfLines : List Str → List IpRaw → Prop
  | nil : RowsOfLines [] []
  | cons {l : Str} {ls : List Str} {rows : List IpRaw} {lo hi : Nat} {vs : List Str} {bs : List IPNet} :
      LineReads l lo hi vs → LineBlocks lo hi bs → RowsOfLines ls rows →
      RowsOfLines (l :: ls) (bs.map (fun n => ⟨n, vs⟩) ++ rows)

end Uip.Spec

namespace Uip.Memip
open Uip Uip.Spec Uip.Plain Uip.Operate

/-! ## Parsed addresses are 16 bytes long -/

theorem parseIPv4Loop_length : ∀ (k : Nat) (first : Bool) (s : Str) (ps : List UInt8) (t : Str),
    parseIPv4Loop k first s = some (ps, t) → ps.length = k := by
  intro k
  induction k with
  | zero => intro first s ps t h; simp only [parseIPv4Loop, Option.some.injEq, Prod.mk.injEq] at h; rw [← h.1]; rfl
  | succ k ih =>
    intro first s ps t h
    unfold parseIPv4Loop at h
    split at h
    · cases h
    · split at h
      · cases h
      · split at h
        · cases h
        · split at h
          · cases h
          · split at h
            · cases h
            · rename_i ps' t' h'
              simp only [Option.some.injEq, Prod.mk.injEq] at h
              rw [← h.1, List.length_cons, ih _ _ _ _ h']

theorem parseIPv4_length {s : Str} {p : List UInt8} (h : parseIPv4 s = some p) : p.length = 4 := by
  unfold parseIPv4 at h
  split at h
  · rename_i ps h'
    rw [← Option.some.inj h]
    exact parseIPv4Loop_length _ _ _ _ _ h'
  · cases h

theorem wordsToBytes_length (ws : List Nat) : (wordsToBytes ws).length = 2 * ws.length := by
  unfold wordsToBytes
  induction ws with
  | nil => rfl
  | cons w ws ih => simp [List.flatMap_cons, ih]; omega

theorem parseIPv6Loop_bound : ∀ (f : Nat) (acc : List Nat) (ell : Option Nat) (s : Str) (acc' : List Nat) (ell' : Option Nat)
    (t : Str), acc.length + f = 8 → (∀ e, ell = some e → e ≤ acc.length) →
    parseIPv6Loop f acc ell s = some (acc', ell', t) → acc'.length ≤ 8 ∧ ∀ e, ell' = some e → e ≤ acc'.length := by
  intro f
  induction f with
  | zero =>
    intro acc ell s acc' ell' t hf he h
    simp only [parseIPv6Loop, Option.some.injEq, Prod.mk.injEq] at h
    obtain ⟨rfl, rfl, _⟩ := h
    exact ⟨by omega, he⟩
  | succ f ih =>
    intro acc ell s acc' ell' t hf he h
    unfold parseIPv6Loop at h
    split at h
    · cases h
    · rename_i n c rest hx
      split at h
      · cases h
      · split at h
        · split at h
          · cases h
          · split at h
            · cases h
            · split at h
              · simp only [Option.some.injEq, Prod.mk.injEq] at h
                obtain ⟨rfl, rfl, _⟩ := h
                refine ⟨by simp; omega, fun e hh => ?_⟩
                have := he e hh
                simp; omega
              · cases h
        · simp only [] at h
          split at h
          · simp only [Option.some.injEq, Prod.mk.injEq] at h
            obtain ⟨rfl, rfl, _⟩ := h
            refine ⟨by simp; omega, fun e hh => ?_⟩
            have := he e hh
            simp; omega
          · split at h
            · cases h
            · split at h
              · cases h
              · split at h
                · simp only [Option.some.injEq, Prod.mk.injEq] at h
                  obtain ⟨rfl, rfl, _⟩ := h
                  refine ⟨by simp; omega, fun e hh => ?_⟩
                  simp only [Option.some.injEq] at hh
                  omega
                · exact ih _ _ _ _ _ _ (by simp; omega) (fun e hh => by simp only [Option.some.injEq] at hh; omega) h
            · exact ih _ _ _ _ _ _ (by simp; omega) (fun e hh => by have := he e hh; simp; omega) h
          · cases h

theorem parseIPv6_length {s : Str} {ip : IP} (h : parseIPv6 s = some ip) : ip.length = 16 := by
  unfold parseIPv6 at h
  split at h
  · rw [← Option.some.inj h]; rfl
  · split at h
    · rename_i acc ell h'
      have hl : ∀ e, (leadEllipsis s).1 = some e → e ≤ ([] : List Nat).length := by
        intro e he
        unfold leadEllipsis at he
        split at he
        · simp only [Option.some.injEq] at he; simp [← he]
        · cases he
      obtain ⟨h8, he⟩ := parseIPv6Loop_bound 8 [] _ _ _ _ _ rfl hl h'
      split at h
      · split at h
        · cases h
        · rename_i e
          rw [← Option.some.inj h, wordsToBytes_length]
          have := he e rfl
          simp only [List.length_append, List.length_take, List.length_replicate, List.length_drop]
          omega
      · split at h
        · cases h
        · rw [← Option.some.inj h, wordsToBytes_length]; omega
    · cases h

theorem ParseIP_length {s : Str} {ip : IP} (h : ParseIP s = some ip) : ip.length = 16 := by
  unfold ParseIP at h
  split at h
  · cases hp : parseIPv4 s with
    | none => rw [hp] at h; cases h
    | some p =>
      rw [hp] at h
      rw [← Option.some.inj h, List.length_append, parseIPv4_length hp]; rfl
  · exact parseIPv6_length h
  · cases h

/-! ## Ranges with the end below the start -/

/-- The largest aligned block at the start of a range whose end is below its start. -/
theorem ipNetsBlock_rev {start end_ : IP} (hs : start.length = 16) (he : end_.length = 16)
    (hlt : val end_ < val start) :
    ∃ k, k ≤ 128 ∧ ipNetsBlock start end_ = { ip := start, mask := cidrMaskLoop 16 k } ∧
      2 ^ (128 - k) ∣ val start ∧ ∀ m, 2 ^ m ∣ val start → m ≤ 128 - k := by
  have hE := NextIP_val end_
  rw [he] at hE
  have hEl : (NextIP end_).length = 16 := by rw [NextIP_length, he]
  have hp : PrefixSameLength start (NextIP end_) = cpl (bits start) (bits (NextIP end_)) :=
    PrefixSameLength_eq (by rw [hs, hEl])
  obtain ⟨hz1, hz2, hz3⟩ := SuffixZeroLength_spec start
  rw [hs] at hz1 hz3
  have hbl : (bits start).length = (bits (NextIP end_)).length := by simp [bits_length, hs, hEl]
  have hcl : cpl (bits start) (bits (NextIP end_)) ≤ 128 := by
    have := cpl_le (a := bits start) (b := bits (NextIP end_))
    rw [bits_length, hs] at this; exact this
  have ht := take_cpl (bits start) (bits (NextIP end_)) hbl
  rw [take_eq_iff_div hbl, bitsNat_bits, bitsNat_bits, bits_length, hs] at ht
  have ht' := take_cpl_succ (bits start) (bits (NextIP end_)) hbl
  rw [Ne, take_eq_iff_div hbl, bitsNat_bits, bitsNat_bits, bits_length, hs] at ht'
  have hslt := val_lt start
  rw [hs] at hslt
  unfold ipNetsBlock
  simp only [hp, hs]
  generalize hc : cpl (bits start) (bits (NextIP end_)) = c at *
  generalize hzz : SuffixZeroLength start = z at *
  generalize val start = s at *
  generalize hEv : val (NextIP end_) = E at *
  generalize val end_ = e at *
  rw [Nat.mod_eq_of_lt (by omega)] at hE
  have hz128 : z < 128 := by
    rcases Nat.lt_or_ge z 128 with h | h
    · exact h
    · have h1 := Nat.le_of_dvd (by omega) hz2
      have h2 : 2 ^ 128 ≤ 2 ^ z := Nat.pow_le_pow_right (by decide) h
      omega
  have hk : (if 16 * 8 - z < (if c + 1 > 16 * 8 then 0 else c + 1) then (if c + 1 > 16 * 8 then 0 else c + 1) else 16 * 8 - z)
      = 128 - z := by
    by_cases h128 : c + 1 > 16 * 8
    · rw [if_pos h128, if_neg (by omega)]
    · rw [if_neg h128, if_neg]
      intro hcz
      -- the start would be a multiple of `2 ^ (128 - c)` with `E` in the block below it
      have hd : 2 ^ (8 * 16 - c) ∣ s := Nat.dvd_trans (Nat.pow_dvd_pow 2 (by omega)) hz2
      obtain ⟨q, rfl⟩ := hd
      rw [Nat.mul_div_cancel_left _ (Nat.two_pow_pos _)] at ht
      have := Nat.mul_div_le E (2 ^ (8 * 16 - c))
      rw [← ht] at this
      have hEs : E = 2 ^ (8 * 16 - c) * q := by omega
      exact ht' (by omega) (by rw [hEs])
  rw [hk]
  refine ⟨128 - z, by omega, by rw [CIDRMask_valid (.inr rfl) (by omega)]; rfl, ?_, fun m hm => ?_⟩
  · rw [show 128 - (128 - z) = z by omega]; exact hz2
  · rcases Nat.lt_or_ge z m with h | h
    · exact absurd (Nat.dvd_trans (Nat.pow_dvd_pow 2 h) hm) (hz3 hz128)
    · omega

theorem netEnd_16 {n : IPNet} (h : WFNet n) (hl : n.ip.length = 16) : netLo n = val n.ip ∧
    netEnd n = val n.ip + 2 ^ hostBits n ∧ 2 ^ hostBits n ∣ val n.ip := by
  refine ⟨addrNum_16 hl, by unfold netEnd; rw [addrNum_16 hl], ?_⟩
  have := h.2
  rw [Aligned_iff] at this
  exact Nat.dvd_of_mod_eq_zero this

/-- Splitting a range whose end is below its start gives one network. -/
theorem ipNets_rev {r : Range} (hs : r.start.length = 16) (he : r.end_.length = 16) (hlt : val r.end_ < val r.start) :
    ∃ n, r.IPNets = some (.ok [n]) ∧ WFNet n ∧ n.ip.length = 16 ∧ netLo n = val r.start ∧
      ∀ m, WFNet m → m.ip.length = 16 → netLo m = val r.start → netEnd m ≤ netEnd n := by
  obtain ⟨k, hk, hb, hd, hmax⟩ := ipNetsBlock_rev hs he hlt
  have hm : IsMask (cidrMaskLoop 16 k) k := IsMask_cidrMaskLoop 16 k (by omega)
  have hpfx : pfx (ipNetsBlock r.start r.end_) = k := pfx_of_IsMask (by rw [hb]; exact hm)
  have hc : IsCIDR (ipNetsBlock r.start r.end_) k := by
    rw [hb]; exact ⟨.inr hs, by simp [cidrMaskLoop_length, hs], hm⟩
  have hip : (ipNetsBlock r.start r.end_).ip = r.start := by rw [hb]
  obtain ⟨last, hl1, hl2, _, hl3⟩ := LastIP_spec hc
  rw [hip, hs] at hl2 hl3
  have hwf : WFNet (ipNetsBlock r.start r.end_) :=
    ⟨by rw [hpfx]; exact hc, by rw [Aligned_iff, hpfx, hip, hs]; exact Nat.mod_eq_zero_of_dvd hd⟩
  have hh : hostBits (ipNetsBlock r.start r.end_) = 128 - k := by unfold hostBits; rw [hpfx, hip, hs]
  have hll : (ipNetsBlock r.start r.end_).ip.length = 16 := by rw [hip, hs]
  obtain ⟨e1, e2, _⟩ := netEnd_16 hwf hll
  rw [hip] at e1 e2
  have hnl : IPLess last r.end_ = false := by
    rw [Bool.eq_false_iff, Ne, IPLess_iff (.inr hl2) (.inr he), addrNum_16 hl2, addrNum_16 he]
    rw [hl3, show 8 * 16 - k = 128 - k by omega, Nat.div_mul_cancel hd]
    have := Nat.two_pow_pos (128 - k)
    omega
  refine ⟨ipNetsBlock r.start r.end_, ?_, hwf, hll, e1, fun m hm hml hmlo => ?_⟩
  · unfold Range.IPNets ipNetsFuel
    rw [To16_16 hs, To16_16 he]
    simp [ipNetsLoop, hl1, hnl]
  · obtain ⟨m1, m2, m3⟩ := netEnd_16 hm hml
    rw [e2, m2, ← m1, hmlo, hh]
    have := hmax (hostBits m) (by rw [← hmlo, m1]; exact m3)
    have : 2 ^ hostBits m ≤ 2 ^ (128 - k) := Nat.pow_le_pow_right (by decide) this
    omega

/-! ## Lines -/

/-- What the reader makes of a line that reads. -/
theorem parseLine_reads {l : Str} {lo hi : Nat} {vs : List Str} (h : LineReads l lo hi vs) :
    ∃ r, parseLine l = .ok (some r, vs) ∧ r.start.length = 16 ∧ r.end_.length = 16 ∧ val r.start = lo ∧ val r.end_ = hi := by
  cases h with
  | @v6 a b w s e h1 h2 hs he h3 h4 =>
    replace h3 := (C111_parse a s).mpr ⟨hs, h3⟩
    replace h4 := (C111_parse b e).mpr ⟨he, h4⟩
    refine ⟨⟨s, e⟩, ?_, hs, he, (addrNum_16 hs).symm, (addrNum_16 he).symm⟩
    unfold parseLine
    rw [h1]
    simp only [List.contains_iff_mem, h2, if_true, parseV6Range, h3, h4]
  | @v4 a b w m n h1 h2 hm hn h3 h4 =>
    replace h3 := (C111_number a m).mpr ⟨h3, hm⟩
    replace h4 := (C111_number b n).mpr ⟨h4, hn⟩
    have key : ∀ x, x < 2 ^ 32 → (Uint32ToIPv4 (UInt32.ofNat x)).length = 16 ∧ val (Uint32ToIPv4 (UInt32.ofNat x)) = v4Lo + x := by
      intro x hx
      obtain ⟨q, hq, e, hv⟩ := C01_uint32_value (UInt32.ofNat x)
      rw [e]
      refine ⟨by rw [List.length_append, hq]; rfl, ?_⟩
      rw [val_append, hv, hq, UInt32.toNat_ofNat', Nat.mod_eq_of_lt (by simpa using hx)]
      have : val v4InV6Prefix = 0xffff := by decide
      rw [this]; unfold v4Lo; omega
    obtain ⟨k1, k2⟩ := key m hm
    obtain ⟨k3, k4⟩ := key n hn
    refine ⟨⟨Uint32ToIPv4 (UInt32.ofNat m), Uint32ToIPv4 (UInt32.ofNat n)⟩, ?_, k1, k3, k2, k4⟩
    unfold parseLine
    rw [h1]
    simp only [List.contains_iff_mem, h2, if_false, parseV4Range, h3, h4]

/-- A line of three parts that does not read. -/
theorem parseLine_bad {l : Str} (h3 : (splitByte 0x20 l).length = 3) (h : ¬ ∃ lo hi vs, LineReads l lo hi vs) :
    ∃ vs, parseLine l = .ok (none, vs) := by
  obtain ⟨a, b, w, e⟩ : ∃ a b w, splitByte 0x20 l = [a, b, w] := by
    match splitByte 0x20 l, h3 with
    | [a, b, w], _ => exact ⟨a, b, w, rfl⟩
  refine ⟨splitByte 0x2D w, ?_⟩
  unfold parseLine
  rw [e]
  simp only [List.contains_iff_mem]
  congr 2
  by_cases hc : 0x3A ∈ a
  · rw [if_pos hc]
    unfold parseV6Range
    cases h1 : ParseIP a with
    | none => rfl
    | some s =>
      cases h2 : ParseIP b with
      | none => rfl
      | some t => exact absurd ⟨_, _, _, .v6 e hc ((C111_parse a s).mp h1).1 ((C111_parse b t).mp h2).1
        ((C111_parse a s).mp h1).2 ((C111_parse b t).mp h2).2⟩ h
  · rw [if_neg hc]
    unfold parseV4Range
    cases h1 : ParseUint32 a with
    | none => rfl
    | some s =>
      cases h2 : ParseUint32 b with
      | none => rfl
      | some t => exact absurd ⟨_, _, _, .v4 e hc ((C111_number a s).mp h1).2 ((C111_number b t).mp h2).2
        ((C111_number a s).mp h1).1 ((C111_number b t).mp h2).1⟩ h

theorem parseLine_parts {l : Str} (h : (splitByte 0x20 l).length ≠ 3) : parseLine l = .err (.other "bad format") := by
  unfold parseLine
  split
  · rename_i e; rw [e] at h; exact absurd rfl h
  · rfl

/-- The rows of a range and its shown fields. -/
theorem splitRows_lines : ∀ {body : List Str} {rows : List (Range × List Str)},
    (Rel2 (fun (l : Str) (g : Range × List Str) => ∃ lo hi, LineReads l lo hi g.2 ∧ g.1.start.length = 16 ∧
      g.1.end_.length = 16 ∧ val g.1.start = lo ∧ val g.1.end_ = hi) body rows) →
    ∃ ips, splitRows rows = .ok ips ∧ RowsOfLines body ips := by
  intro body rows h
  induction h with
  | nil => exact ⟨[], rfl, .nil⟩
  | @cons l g ls gs hg _ ih =>
    obtain ⟨lo, hi, hr, h1, h2, h3, h4⟩ := hg
    obtain ⟨ips, e, hips⟩ := ih
    have key : ∃ bs, g.1.IPNets = some (.ok bs) ∧ LineBlocks lo hi bs := by
      rcases Nat.lt_or_ge hi lo with hlt | hle
      · obtain ⟨n, k1, k2, k3, k4, k5⟩ := ipNets_rev h1 h2 (by omega)
        rw [h3] at k4 k5
        exact ⟨[n], k1, by simp [k2, k3], .inr ⟨hlt, n, rfl, k4, k5⟩⟩
      · obtain ⟨bs, k1, k2, k3⟩ := C08_ipNets_tiles g.1 (.inr h1) (.inr h2) (by rw [addrNum_16 h1, addrNum_16 h2]; omega)
        rw [addrNum_16 h1, addrNum_16 h2, h3, h4] at k3
        exact ⟨bs, k1, k2, .inl ⟨hle, k3⟩⟩
    obtain ⟨bs, k1, k2⟩ := key
    refine ⟨bs.map (fun n => ⟨n, g.2⟩) ++ ips, by simp [splitRows, k1, e], .cons hr k2 hips⟩

/-- A line that counts, as it is read. -/
def ReadAs (l : Str) (g : Range × List Str) : Prop :=
  ∃ lo hi, LineReads l lo hi g.2 ∧ g.1.start.length = 16 ∧ g.1.end_.length = 16 ∧ val g.1.start = lo ∧ val g.1.end_ = hi

/-- The three outcomes of reading lines. -/
theorem readRows_cases : ∀ (ls : List Str),
    (∃ pre l post, ls = pre ++ l :: post ∧ QuietLines pre ∧ (splitByte 0x20 l).length ≠ 3 ∧
      readRows ls = .err (.other "bad format")) ∨
    (∃ pre l post, ls = pre ++ l :: post ∧ QuietLines pre ∧ (splitByte 0x20 l).length = 3 ∧
      (¬ ∃ lo hi vs, LineReads l lo hi vs) ∧ readRows ls = .panic) ∨
    (∃ body rows, CountingLines ls body ∧ (ls ≠ [] → body ≠ []) ∧ readRows ls = .ok rows ∧ Rel2 ReadAs body rows) := by
  intro ls
  induction ls with
  | nil => exact .inr (.inr ⟨[], [], .inl ⟨rfl, by simp [QuietLines]⟩, by simp, rfl, .nil⟩)
  | cons l ls ih =>
    by_cases h3 : (splitByte 0x20 l).length = 3
    · by_cases hr : ∃ lo hi vs, LineReads l lo hi vs
      · obtain ⟨lo, hi, vs, hr⟩ := hr
        obtain ⟨r, hp, h1, h2, hlo, hhi⟩ := parseLine_reads hr
        have hm := IsAllMask_iff r.end_
        rw [h2, hhi] at hm
        have hra : ReadAs l (r, vs) := ⟨lo, hi, hr, h1, h2, hlo, hhi⟩
        by_cases hend : hi + 1 = 2 ^ 128
        · refine .inr (.inr ⟨[l], [(r, vs)], .inr ⟨[], l, ls, rfl, rfl, by simp [QuietLines], lo, hi, vs, hr, hend⟩,
            by simp, ?_, .cons hra .nil⟩)
          simp only [readRows, hp, Res.ok_bind]
          rw [if_pos (hm.mpr (by omega))]
        · have hm' : IsAllMask r.end_ = false := by
            rw [Bool.eq_false_iff, Ne, hm]; omega
          have hstep : readRows (l :: ls) = (do let rows ← readRows ls; return (r, vs) :: rows) := by
            simp only [readRows, hp, Res.ok_bind, hm', Bool.false_eq_true, if_false]
          have hq : ∀ {pre : List Str}, QuietLines pre → QuietLines (l :: pre) := by
            intro pre hpre x hx
            rcases List.mem_cons.mp hx with rfl | hx
            · exact ⟨lo, hi, vs, hr, hend⟩
            · exact hpre x hx
          rcases ih with ⟨pre, x, post, e, hpre, hx, hres⟩ | ⟨pre, x, post, e, hpre, hx, hnr, hres⟩ |
              ⟨body, rows, hb, _, hres, hrel⟩
          · exact .inl ⟨l :: pre, x, post, by rw [e]; rfl, hq hpre, hx, by rw [hstep, hres]; rfl⟩
          · exact .inr (.inl ⟨l :: pre, x, post, by rw [e]; rfl, hq hpre, hx, hnr, by rw [hstep, hres]; rfl⟩)
          · refine .inr (.inr ⟨l :: body, (r, vs) :: rows, ?_, by simp, by rw [hstep, hres]; rfl, .cons hra hrel⟩)
            rcases hb with ⟨rfl, hb⟩ | ⟨pre, x, post, e1, e2, hpre, hx⟩
            · exact .inl ⟨rfl, hq hb⟩
            · exact .inr ⟨l :: pre, x, post, by rw [e1]; rfl, by rw [e2]; rfl, hq hpre, hx⟩
      · obtain ⟨vs, hp⟩ := parseLine_bad h3 hr
        exact .inr (.inl ⟨[], l, ls, rfl, by simp [QuietLines], h3, hr, by simp only [readRows, hp, Res.ok_bind]⟩)
    · exact .inl ⟨[], l, ls, rfl, by simp [QuietLines], h3, by simp only [readRows, parseLine_parts h3, Res.err_bind]⟩

/-! ## C49 -/

section
variable (build : Int) (day text : Str)

/-- The four outcomes of a dump, with what the text looks like in each. -/
theorem dump_cases :
    (∃ pre l post, (scanLines text).1 = pre ++ l :: post ∧ QuietLines pre ∧ (splitByte 0x20 l).length ≠ 3 ∧
      ∃ e, dump build day text = .err e) ∨
    (((scanLines text).1 = [] ∨ ∃ pre l post, (scanLines text).1 = pre ++ l :: post ∧ QuietLines pre ∧
      (splitByte 0x20 l).length = 3 ∧ ¬ ∃ lo hi vs, LineReads l lo hi vs) ∧ dump build day text = .panic) ∨
    (∃ first body out, (scanLines text).1.head? = some first ∧ CountingLines (scanLines text).1 body ∧ body ≠ [] ∧
      dump build day text = .ok out ∧ RowsOfLines body out.ips ∧ out.fields = viewFields ∧
      out.version = ⟨if 0x3A ∈ first then IpV6 else IpV4, UInt32.ofNat out.ips.length, build, day, [], []⟩) := by
  unfold dump
  generalize (scanLines text).1 = ls
  rcases readRows_cases ls with ⟨pre, l, post, e, h1, h2, h⟩ | ⟨pre, l, post, e, h1, h2, h3, h⟩ | ⟨body, rows, hb, hne, h, hr⟩
  · exact .inl ⟨pre, l, post, e, h1, h2, .other "bad format", by simp only [h, Res.err_bind]⟩
  · exact .inr (.inl ⟨.inr ⟨pre, l, post, e, h1, h2, h3⟩, by simp only [h, Res.panic_bind]⟩)
  · obtain ⟨ips, e1, e2⟩ := splitRows_lines hr
    cases ls with
    | nil => exact .inr (.inl ⟨.inl rfl, by simp only [h, Res.ok_bind, e1, ipVer, Res.panic_bind]⟩)
    | cons first ls =>
      refine .inr (.inr ⟨first, body, _, rfl, hb, hne (by simp), by simp only [h, Res.ok_bind, e1, ipVer]; rfl, e2, rfl, ?_⟩)
      simp only [List.contains_iff_mem]

/-- **C49 (errors).** Dumping returns an error exactly when some line does not have three parts, all lines before it
read and none of them reaches the last address. -/
theorem C49_error_iff : (∃ e, dump build day text = .err e) ↔
    ∃ pre l post, (scanLines text).1 = pre ++ l :: post ∧ QuietLines pre ∧ (splitByte 0x20 l).length ≠ 3 := by
  constructor
  · rintro ⟨e, he⟩
    rcases dump_cases build day text with ⟨pre, l, post, h1, h2, h3, _⟩ | ⟨_, h⟩ | ⟨_, _, _, _, _, _, h, _⟩
    · exact ⟨pre, l, post, h1, h2, h3⟩
    · rw [h] at he; cases he
    · rw [h] at he; cases he
  · rintro ⟨pre, l, post, h1, h2, h3⟩
    exact C49_wrong_parts build day text pre post l h1
      (fun x hx => by
        obtain ⟨lo, hi, vs, hr, hend⟩ := h2 x hx
        obtain ⟨r, hp, _, k2, _, k4⟩ := parseLine_reads hr
        refine ⟨r, vs, hp, ?_⟩
        rw [Bool.eq_false_iff, Ne, IsAllMask_iff, k2, k4]; omega) h3

/-- **C49 (crashes).** Dumping crashes exactly when the text has no line, or when some line has three parts but does
not read, all lines before it read and none of them reaches the last address. -/
theorem C49_crash_iff : dump build day text = .panic ↔
    (scanLines text).1 = [] ∨ ∃ pre l post, (scanLines text).1 = pre ++ l :: post ∧ QuietLines pre ∧
      (splitByte 0x20 l).length = 3 ∧ ¬ ∃ lo hi vs, LineReads l lo hi vs := by
  constructor
  · intro he
    rcases dump_cases build day text with ⟨_, _, _, _, _, _, _, h⟩ | ⟨h, _⟩ | ⟨_, _, _, _, _, _, h, _⟩
    · rw [h] at he; cases he
    · exact h
    · rw [h] at he; cases he
  · rintro (h | ⟨pre, l, post, h1, h2, h3, h4⟩)
    · unfold dump; rw [h]; rfl
    · obtain ⟨vs, hp⟩ := parseLine_bad h3 h4
      obtain ⟨rows, e⟩ := readRows_until (ls := pre) (fun x hx => by
        obtain ⟨lo, hi, vs, hr, hend⟩ := h2 x hx
        obtain ⟨r, hp, _, k2, _, k4⟩ := parseLine_reads hr
        refine ⟨r, vs, hp, ?_⟩
        rw [Bool.eq_false_iff, Ne, IsAllMask_iff, k2, k4]; omega) (l :: post)
      unfold dump
      simp only [h1, e, readRows, hp, Res.ok_bind, Res.panic_bind]

/-- **C49 (results).** Otherwise the dump succeeds, and its rows are those of the lines up to the first that reaches
the last address, each split into networks. -/
theorem C49_rows (out : IpData) (h : dump build day text = .ok out) :
    ∃ first body, (scanLines text).1.head? = some first ∧ CountingLines (scanLines text).1 body ∧ body ≠ [] ∧
      RowsOfLines body out.ips ∧ out.fields = viewFields ∧
      out.version = ⟨if 0x3A ∈ first then IpV6 else IpV4, UInt32.ofNat out.ips.length, build, day, [], []⟩ := by
  rcases dump_cases build day text with ⟨_, _, _, _, _, _, _, he⟩ | ⟨_, he⟩ | ⟨first, body, out', k1, k2, k3, he, k4⟩
  · rw [h] at he; cases he
  · rw [h] at he; cases he
  · rw [h] at he
    cases Res.ok.inj he
    exact ⟨first, body, k1, k2, k3, k4⟩

end

/-- A text of three lines: a proper IPv4 range, one whose end is below its start, and one that reaches the last address;
what follows is not looked at. -/
def mixedText : Str := gs "16777217 16777219 a-b\n33554432 1 c\nff00:: ffff:ffff:ffff:ffff:ffff:ffff:ffff:ffff d\ngarbage\n"

/-- It has four rows; 2.0.0.0-0.0.0.1 is silently accepted as 2.0.0.0/7. -/
theorem C49_reversed_accepted : ∃ out, dump 0 [] mixedText = .ok out ∧
    out.ips.map (fun r => (IPNetString r.cidr, r.values)) =
      [(gs "1.0.0.1/32", [gs "a", gs "b"]), (gs "1.0.0.2/31", [gs "a", gs "b"]), (gs "2.0.0.0/7", [gs "c"]),
       (gs "ff00::/8", [gs "d"])] := by
  have : (match dump 0 [] mixedText with
    | .ok out => some (out.ips.map (fun r => (IPNetString r.cidr, r.values)))
    | _ => none) = some [(gs "1.0.0.1/32", [gs "a", gs "b"]), (gs "1.0.0.2/31", [gs "a", gs "b"]), (gs "2.0.0.0/7", [gs "c"]),
       (gs "ff00::/8", [gs "d"])] := by decide +kernel
  split at this
  · rename_i out h; exact ⟨out, h, Option.some.inj this⟩
  · cases this

/-- Errors and crashes: garbage before the last address is reached; a bad bound before it. -/
example : ∃ e, dump 0 [] (gs "1 2 a\ngarbage\n") = .err e :=
  (C49_error_iff 0 [] _).mpr ⟨[gs "1 2 a"], gs "garbage", [], by decide +kernel,
    fun l hl => by
      rw [List.mem_singleton.mp hl]
      exact ⟨v4Lo + 1, v4Lo + 2, _, .v4 (a := gs "1") (b := gs "2") (w := gs "a") (by decide +kernel) (by decide +kernel) (by decide) (by decide)
        ((C111_number _ _).mp (by decide +kernel)).1 ((C111_number _ _).mp (by decide +kernel)).1, by decide⟩, by decide +kernel⟩

end Uip.Memip
