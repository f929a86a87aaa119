import Verif.Props.Ipdb
import Verif.Spec.AnyRow
/-!
# C105: packing rows with any address and mask to `.ipdb`
-/
namespace Uip.Ipdb
open Uip Uip.Spec

theorem statedPrefix_eq (mask : Bytes) : (maskSize mask).1 = statedPrefix mask := by
  unfold maskSize statedPrefix
  cases h : simpleMaskLength mask with
  | none =>
    rw [if_neg]
    intro hc
    rw [(simpleMaskLength_iff _ _).mpr hc] at h
    cases h
  | some k =>
    have hm := (simpleMaskLength_iff _ _).mp h
    have : (bits mask).count true = k := pfx_of_IsMask (n := ⟨[], mask⟩) hm
    rw [this, if_pos hm]

theorem statedPrefix_le (mask : Bytes) : statedPrefix mask ≤ 8 * mask.length := by
  unfold statedPrefix
  split
  · rename_i h; exact h.1
  · omega

theorem widePrefix_le {n : IPNet} (h : AnyNet n) : widePrefix n ≤ 128 := by
  have := statedPrefix_le n.mask
  have := h.2
  unfold widePrefix
  split <;> omega

/-- What `Nodes` does with any row. -/
theorem Nodes_any {n : IPNet} (h : AnyNet n) (w : Writer) :
    w.Nodes n.ip (maskSize n.mask).1 = if widePrefix n = 0 then .panic else (do
      let (w, node, bit, ok) ← w.nodesLoop ((To16 n.ip).getD []) (widePrefix n - 1) 0 0 0
      if ok then
        let bit ← ipBit ((To16 n.ip).getD []) (widePrefix n - 1)
        return (w, node, bit, true)
      else return (w, node, bit, false)) := by
  obtain ⟨ip16, h16, hl16, _⟩ := To16_valid h.1
  unfold Writer.Nodes
  rw [statedPrefix_eq]
  have key : (if (To4 n.ip).isSome = true then
      ((if n.ip.length = 4 then (To16 n.ip).getD [] else n.ip),
        if (statedPrefix n.mask : Int) - 1 < 32 then (statedPrefix n.mask : Int) - 1 + 96 else (statedPrefix n.mask : Int) - 1)
      else (n.ip, (statedPrefix n.mask : Int) - 1)) = ((To16 n.ip).getD [], (widePrefix n : Int) - 1) := by
    have h4 := To4_isSome_iff h.1
    unfold widePrefix
    by_cases hc : (To4 n.ip).isSome = true
    · have hd := h4.mp hc
      rw [if_pos hc]
      have e : (if n.ip.length = 4 then (To16 n.ip).getD [] else n.ip) = (To16 n.ip).getD [] := by
        rcases h.1 with hl | hl
        · rw [if_pos hl]
        · rw [if_neg (by omega), To16_16 hl]; rfl
      rw [e]
      congr 1
      by_cases hs : statedPrefix n.mask ≤ 32
      · rw [if_pos (by omega), if_pos ⟨hd, hs⟩]; omega
      · rw [if_neg (by omega), if_neg (fun x => hs x.2)]
    · rw [if_neg hc, if_neg (fun x => hc (h4.mpr x.1))]
      have hl : n.ip.length = 16 := by
        rcases h.1 with hl | hl
        · exact absurd (by simp [To4, hl]) hc
        · exact hl
      rw [To16_16 hl]; rfl
  simp only [key]
  by_cases hz : widePrefix n = 0
  · rw [if_pos hz, if_pos (by omega)]
  · rw [if_neg hz, if_neg (by omega)]
    have ht : ((widePrefix n : Int) - 1).toNat = widePrefix n - 1 := by omega
    rw [ht]

theorem nodesLoop_congr {a b : Bytes} {m : Nat} (h : (bits a).take m = (bits b).take m) :
    ∀ (steps i node bit : Nat) (w : Writer), i + steps ≤ m →
      w.nodesLoop a steps i node bit = w.nodesLoop b steps i node bit
  | 0, _, _, _, _, _ => rfl
  | steps + 1, i, node, bit, w, hi => by
    simp only [Writer.nodesLoop]
    rw [ipBit_eq_of_bits h (show i < m by omega)]
    congr 1; funext x
    congr 1; funext e
    congr 1; funext w'
    congr 1; funext e'
    split
    · rfl
    · exact nodesLoop_congr h steps (i + 1) _ _ _ (by omega)

theorem means_prefix {n m : IPNet} (hn : AnyNet n) (h : Means n m) :
    prefix128 m = (path128 n.ip).take (widePrefix n) := by
  have h1 := prefix128_length h.1
  have h2 := (Covers_iff_path h.1 hn.1).mp h.2.2
  have h3 := h.2.1
  rw [List.prefix_iff_eq_take] at h2
  rw [h2]; congr 1; omega

/-- A row is inserted as the network it means. -/
theorem insert_means {n m : IPNet} (hn : AnyNet n) (h : Means n m) (hz : widePrefix n ≠ 0) (w : Writer) (values : List Str) :
    w.insert n values = w.insert m values := by
  have hp := means_prefix hn h
  have hle := widePrefix_le hn
  have hpl : (prefix128 m).length = widePrefix n := by
    rw [hp, List.length_take, path128_length hn.1]; omega
  have hv := h.1.1.1
  have hw : widePrefix m = widePrefix n := by
    have h1 := prefix128_length h.1
    have h2 : statedPrefix m.mask = pfx m := by rw [← statedPrefix_eq, maskSize_wf h.1]
    have h3 := pfx_le h.1
    have h4 := To4_isSome_iff hv
    unfold widePrefix
    rw [h2]
    unfold hostBits at h1
    rcases hv with hl | hl
    · rw [if_pos ⟨h4.mp (by simp [To4, hl]), by omega⟩]
      have := hpl; unfold widePrefix at this; omega
    · by_cases hc : (To4 m.ip).isSome = true
      · have := To4_none_of_v6 h.1 hl hc
        rw [if_neg (by omega)]
        have := hpl; unfold widePrefix at this; omega
      · rw [if_neg (fun x => hc (h4.mpr x.1))]
        have := hpl; unfold widePrefix at this; omega
  have hm : AnyNet m := ⟨hv, by have := h.1.1.2.1; rcases hv with hl | hl <;> omega⟩
  have hbits : (bits ((To16 n.ip).getD [])).take (widePrefix n) = (bits ((To16 m.ip).getD [])).take (widePrefix n) := by
    have := prefix128_take h.1
    rw [hpl] at this
    rw [hp] at this
    exact this
  unfold Writer.insert
  simp only []
  rw [Nodes_any hn, Nodes_any hm, hw, if_neg hz, if_neg hz, nodesLoop_congr hbits _ _ _ _ _ (by omega),
    ipBit_eq_of_bits hbits (show widePrefix n - 1 < widePrefix n by omega)]

theorem insert_whole {n : IPNet} (hn : AnyNet n) (hz : widePrefix n = 0) (w : Writer) (values : List Str) :
    w.insert n values = .panic := by
  unfold Writer.insert
  simp only []
  rw [Nodes_any hn, if_pos hz]
  rfl

theorem insertAll_append (l₁ l₂ : List IpRaw) (w : Writer) :
    w.insertAll (l₁ ++ l₂) = (w.insertAll l₁ >>= fun w => w.insertAll l₂) := by
  induction l₁ generalizing w with
  | nil => rfl
  | cons r l ih =>
    simp only [List.cons_append, Writer.insertAll]
    cases w.insert r.cidr r.values with
    | ok x => simp only [Res.ok_bind]; exact ih _
    | err e => rfl
    | panic => rfl

theorem insertAll_means {f : IPNet → IPNet} : ∀ (rows : List IpRaw) (w : Writer),
    (∀ r ∈ rows, AnyNet r.cidr ∧ widePrefix r.cidr ≠ 0 ∧ Means r.cidr (f r.cidr)) →
    w.insertAll rows = w.insertAll (rows.map fun r => ⟨f r.cidr, r.values⟩)
  | [], _, _ => rfl
  | r :: rs, w, h => by
    have h1 := h r (List.mem_cons_self ..)
    simp only [Writer.insertAll, List.map_cons]
    rw [insert_means h1.1 h1.2.2 h1.2.1]
    congr 1; funext x
    exact insertAll_means rs _ fun r hr => h r (List.mem_cons_of_mem _ hr)

/-- The rows a data set means. -/
def meant (f : IPNet → IPNet) (ipd : IpData) : IpData :=
  { ipd with ips := ipd.ips.map fun r => ⟨f r.cidr, r.values⟩ }

theorem meant_wf {f : IPNet → IPNet} {ipd : IpData} (hf : ipd.fields ≠ []) (hl : ∀ r ∈ ipd.ips, r.values.length = ipd.fields.length)
    (h : ∀ r ∈ ipd.ips, widePrefix r.cidr ≠ 0 ∧ Means r.cidr (f r.cidr)) : RowsWF (meant f ipd) := by
  refine ⟨hf, ?_, ?_, ?_⟩ <;> intro r hr <;> obtain ⟨r', hr', rfl⟩ := List.mem_map.mp hr
  · exact (h r' hr').2.1
  · have := (h r' hr').1
    have := (h r' hr').2.2.1
    show hostBits (f r'.cidr) < 128
    omega
  · exact hl r' hr'

/-- **C105.** Every row means exactly one network: that of its prefix length around its address. -/
theorem C105_means_one {n : IPNet} (h : AnyNet n) :
    (∃ m, Means n m) ∧ ∀ m m', Means n m → Means n m' → SameNet m m' := by
  constructor
  · obtain ⟨a, h16, hl16, hval⟩ := To16_valid h.1
    have hle := widePrefix_le h
    have hm := IsMask_cidrMaskLoop a.length (widePrefix n) (by omega)
    obtain ⟨r, hr, hrl, hrb⟩ := ipMask_spec (cidrMaskLoop_length a.length (widePrefix n)) hm
    have hpfx : pfx { ip := r, mask := cidrMaskLoop a.length (widePrefix n) } = widePrefix n := pfx_of_IsMask hm
    have hw : WFNet { ip := r, mask := cidrMaskLoop a.length (widePrefix n) } := by
      unfold WFNet
      rw [hpfx]
      refine ⟨⟨.inr (by simp only [hrl, hl16]), by simp [cidrMaskLoop_length, hrl], hm⟩, ?_⟩
      unfold Aligned
      simp only [hrb, hrl]
      rw [List.drop_left' (by simp [bits_length]; omega)]
    refine ⟨_, hw, ?_, ?_⟩
    · unfold hostBits; rw [hpfx]; simp only [hrl]; omega
    · rw [Covers_iff_path hw h.1]
      unfold prefix128
      rw [if_neg (by simp only [hrl]; omega), hpfx]
      simp only [hrb]
      unfold path128
      rw [h16, Option.getD_some, List.take_append_of_le_length (by simp [bits_length]; omega), List.take_take, Nat.min_self]
      exact List.take_prefix ..
  · intro m m' h1 h2
    rw [SameNet_iff h1.1 h2.1, means_prefix h h1, means_prefix h h2]

/-- **C105.** A network in canonical form means itself. -/
theorem C105_canonical {n : IPNet} (h : WFNet n) : Means n n := by
  have hv := h.1.1
  have h1 := prefix128_length h
  have h2 : statedPrefix n.mask = pfx n := by rw [← statedPrefix_eq, maskSize_wf h]
  have h3 := pfx_le h
  have h4 := To4_isSome_iff hv
  refine ⟨h, ?_, ?_⟩
  · unfold widePrefix hostBits
    rw [h2]
    rcases hv with hl | hl
    · rw [if_pos ⟨h4.mp (by simp [To4, hl]), by omega⟩]; omega
    · by_cases hc : (To4 n.ip).isSome = true
      · have := To4_none_of_v6 h hl hc
        rw [if_neg (by omega)]; omega
      · rw [if_neg (fun x => hc (h4.mpr x.1))]; omega
  · unfold Covers netLo netEnd
    have := Nat.two_pow_pos (hostBits n)
    omega

/-- **C105.** Packing crashes exactly when some row states prefix length 0 (or a mask whose ones do not come first) for an
address that is not IPv4. -/
theorem C105_crash_iff {enc : MetaData → Bytes} {now : Int} {ipd : IpData} (hf : ipd.fields ≠ [])
    (hr : ∀ r ∈ ipd.ips, AnyNet r.cidr) (hl : ∀ r ∈ ipd.ips, r.values.length = ipd.fields.length) :
    (pack enc now ipd = .panic ↔
      ∃ r ∈ ipd.ips, addrNum r.cidr.ip / 2 ^ 32 ≠ 0xffff ∧ statedPrefix r.cidr.mask = 0) ∧
    (∀ e, pack enc now ipd ≠ .err e) := by
  have hz : ∀ n, widePrefix n = 0 ↔ addrNum n.ip / 2 ^ 32 ≠ 0xffff ∧ statedPrefix n.mask = 0 := by
    intro n
    unfold widePrefix
    split
    · rename_i h; exact ⟨fun h' => by omega, fun h' => absurd h.1 h'.1⟩
    · rename_i h
      refine ⟨fun h' => ⟨fun hc => h ⟨hc, by omega⟩, h'⟩, fun h' => h'.2⟩
  have hex : ∀ n : IPNet, ∃ m, AnyNet n → Means n m := by
    intro n
    by_cases h : AnyNet n
    · obtain ⟨m, hm⟩ := (C105_means_one h).1; exact ⟨m, fun _ => hm⟩
    · exact ⟨n, fun h' => absurd h' h⟩
  obtain ⟨f, hfm⟩ := Classical.axiomOfChoice hex
  -- rows without a bad one are inserted
  have good : ∀ l : List IpRaw, (∀ r ∈ l, r ∈ ipd.ips ∧ widePrefix r.cidr ≠ 0) →
      ∃ w, (NewWriter (buildMeta now ipd.version ipd.fields)).insertAll l = .ok w := by
    intro l hlr
    have hwf := meant_wf (f := f) (ipd := { ipd with ips := l }) hf (fun r hr' => hl r (hlr r hr').1)
      (fun r hr' => ⟨(hlr r hr').2, hfm _ (hr r (hlr r hr').1)⟩)
    obtain ⟨w, hw, _⟩ := insertAll_pack hwf now
    refine ⟨w, ?_⟩
    rw [insertAll_means (f := f) l _ (fun r hr' => ⟨hr r (hlr r hr').1, (hlr r hr').2, hfm _ (hr r (hlr r hr').1)⟩)]
    exact hw
  by_cases hbad : ∃ r ∈ ipd.ips, widePrefix r.cidr = 0
  · have hp : pack enc now ipd = .panic := by
      obtain ⟨pre, r, post, hsplit, hr0, hpre⟩ : ∃ pre r post, ipd.ips = pre ++ r :: post ∧ widePrefix r.cidr = 0 ∧
          ∀ r ∈ pre, widePrefix r.cidr ≠ 0 := by
        have : ∀ l : List IpRaw, (∃ r ∈ l, widePrefix r.cidr = 0) → ∃ pre r post, l = pre ++ r :: post ∧ widePrefix r.cidr = 0 ∧
            ∀ r ∈ pre, widePrefix r.cidr ≠ 0 := by
          intro l
          induction l with
          | nil => rintro ⟨r, hr, _⟩; cases hr
          | cons x l ih =>
            rintro ⟨r, hr, h0⟩
            by_cases hx : widePrefix x.cidr = 0
            · exact ⟨[], x, l, rfl, hx, by simp⟩
            · rcases List.mem_cons.mp hr with rfl | hr
              · exact absurd h0 hx
              · obtain ⟨pre, r', post, e, h1, h2⟩ := ih ⟨r, hr, h0⟩
                refine ⟨x :: pre, r', post, by rw [e]; rfl, h1, ?_⟩
                intro y hy
                rcases List.mem_cons.mp hy with rfl | hy
                · exact hx
                · exact h2 y hy
        exact this _ hbad
      obtain ⟨w, hw⟩ := good pre (fun r hr' => ⟨by rw [hsplit]; exact List.mem_append_left _ hr', hpre r hr'⟩)
      unfold pack
      rw [hsplit, insertAll_append, hw, Res.ok_bind]
      have : w.insertAll (r :: post) = .panic := by
        simp only [Writer.insertAll]
        rw [insert_whole (hr r (by rw [hsplit]; exact List.mem_append_right _ (List.mem_cons_self ..))) hr0]
        rfl
      rw [this]; rfl
    obtain ⟨r, h1, h2⟩ := hbad
    refine ⟨⟨fun _ => ⟨r, h1, (hz _).mp h2⟩, fun _ => hp⟩, fun e h => ?_⟩
    rw [hp] at h; cases h
  · obtain ⟨w, hw⟩ := good ipd.ips (fun r hr' => ⟨hr', fun h => hbad ⟨r, hr', h⟩⟩)
    have hp : pack enc now ipd = .ok (w.Save enc) := by
      unfold pack; rw [hw]; rfl
    refine ⟨⟨fun h => ?_, fun ⟨r, h1, h2⟩ => absurd ⟨r, h1, (hz _).mpr h2⟩ hbad⟩, fun e h => ?_⟩ <;> rw [hp] at h <;> cases h

/-- **C105.** Otherwise the file is that of the networks the rows mean. -/
theorem C105_pack_meant {enc : MetaData → Bytes} {now : Int} {ipd : IpData} {f : IPNet → IPNet}
    (h : ∀ r ∈ ipd.ips, AnyNet r.cidr ∧ (addrNum r.cidr.ip / 2 ^ 32 = 0xffff ∨ statedPrefix r.cidr.mask ≠ 0) ∧
      Means r.cidr (f r.cidr)) :
    pack enc now ipd = pack enc now { ipd with ips := ipd.ips.map fun r => ⟨f r.cidr, r.values⟩ } := by
  unfold pack
  rw [insertAll_means (f := f) ipd.ips]
  intro r hr
  refine ⟨(h r hr).1, ?_, (h r hr).2.2⟩
  have := (h r hr).2.1
  unfold widePrefix
  split
  · omega
  · rename_i hc
    rcases this with h' | h'
    · intro h0; exact hc ⟨h', by omega⟩
    · exact h'

/-- **C105.** So a query answers from the networks the rows mean, the first of them that are not nested with an earlier one. -/
theorem C105_query {enc : MetaData → Bytes} {dec : Bytes → Option MetaData} {now : Int} {ipd : IpData} {f : IPNet → IPNet}
    (hf : ipd.fields ≠ []) (hl : ∀ r ∈ ipd.ips, r.values.length = ipd.fields.length)
    (hs : ∀ r ∈ ipd.ips, (joinByte 0x09 r.values).length < 65536) (hval : ValuesOK ipd)
    (h : ∀ r ∈ ipd.ips, AnyNet r.cidr ∧ (addrNum r.cidr.ip / 2 ^ 32 = 0xffff ∨ statedPrefix r.cidr.mask ≠ 0) ∧
      Means r.cidr (f r.cidr))
    (hj : MetaRoundTrip enc dec (buildMeta now ipd.version ipd.fields)) :
    ∃ bytes, pack enc now ipd = .ok bytes ∧ (bytes.length < 2 ^ 32 →
      ∃ q, newQuerier dec bytes = .ok q ∧
        ∀ a, ValidIP a → Supports ipd.version a →
          match rowOf (keptRows (ipd.ips.map fun r => (f r.cidr, r.values))) (addrNum a) with
          | some m => q.Query a = .ok (infoOf ipd.fields m.2, maskFor m.1 a)
          | none => q.r.find0 a = .err .dataNotExists) := by
  have hz : ∀ r ∈ ipd.ips, widePrefix r.cidr ≠ 0 := by
    intro r hr
    have := (h r hr).2.1
    unfold widePrefix
    split
    · omega
    · rename_i hc
      rcases this with h' | h'
      · intro h0; exact hc ⟨h', by omega⟩
      · exact h'
  have hwf := meant_wf (f := f) hf hl (fun r hr => ⟨hz r hr, (h r hr).2.2⟩)
  have hok : RowsOK (meant f ipd) := ⟨hwf.fields, hwf.wf, hwf.notAll, hwf.len, by
    intro r hr; obtain ⟨r', hr', rfl⟩ := List.mem_map.mp hr; exact hs r' hr'⟩
  have hv : ValuesOK (meant f ipd) := ⟨by
    intro r hr; obtain ⟨r', hr', rfl⟩ := List.mem_map.mp hr; exact hval.noTab r' hr', hval.continent⟩
  obtain ⟨bytes, h1, h2⟩ := C14_overlapping_rows hok hv hj
  refine ⟨bytes, ?_, fun hlen => ?_⟩
  · rw [C105_pack_meant h]; exact h1
  · obtain ⟨q, h3, h4⟩ := h2 hlen
    refine ⟨q, h3, fun a ha hs => ?_⟩
    have := h4 a ha hs
    have e : rowsOf (meant f ipd) = ipd.ips.map fun r => (f r.cidr, r.values) := by
      unfold rowsOf meant; rw [List.map_map]; rfl
    rw [e] at this
    exact this

/-! ## A concrete case -/

def looseValues : List Str := [gs "中国", gs "亚洲", gs "北京", gs "4134"]

/-- 1.2.3.4/24 with host bits, ::ffff:9.9.9.9 with a 16-byte mask of 112 ones, 2001:db8::1/33 with host bits, 7.7.7.7 with the
mask 255.0.255.0. -/
def looseRows : IpData :=
  { demo with ips := [⟨⟨[1, 2, 3, 4], [255, 255, 255, 0]⟩, looseValues⟩,
      ⟨⟨goIPv4 9 9 9 9, List.replicate 14 255 ++ [0, 0]⟩, looseValues⟩,
      ⟨⟨[0x20, 1, 0xd, 0xb8, 0, 0, 0, 0, 0, 0, 0, 0, 0, 0, 0, 1], [255, 255, 255, 255, 128] ++ List.replicate 11 0⟩, looseValues⟩,
      ⟨⟨[7, 7, 7, 7], [255, 0, 255, 0]⟩, looseValues⟩] }

/-- What they mean: 1.2.3.0/24, 9.9.0.0/16, 2001:db8::/33, and 0.0.0.0/0. -/
def looseMeant (n : IPNet) : IPNet :=
  if n.ip = [1, 2, 3, 4] then ⟨[1, 2, 3, 0], [255, 255, 255, 0]⟩
  else if n.ip = goIPv4 9 9 9 9 then ⟨[9, 9, 0, 0], [255, 255, 0, 0]⟩
  else if n.ip = [7, 7, 7, 7] then ⟨[0, 0, 0, 0], [0, 0, 0, 0]⟩
  else ⟨[0x20, 1, 0xd, 0xb8] ++ List.replicate 12 0, [255, 255, 255, 255, 128] ++ List.replicate 11 0⟩

example : looseRows.fields ≠ [] ∧ (∀ r ∈ looseRows.ips, r.values.length = looseRows.fields.length) ∧
    (∀ r ∈ looseRows.ips, (joinByte 0x09 r.values).length < 65536) ∧ ValuesOK looseRows ∧
    (∀ r ∈ looseRows.ips, AnyNet r.cidr ∧ (addrNum r.cidr.ip / 2 ^ 32 = 0xffff ∨ statedPrefix r.cidr.mask ≠ 0) ∧
      Means r.cidr (looseMeant r.cidr)) := by decide +kernel
/-- The row with the mask that is none meant all of IPv4 and is dropped, being around the first two. -/
example : (keptRows (looseRows.ips.map fun r => (looseMeant r.cidr, r.values))).map (·.1) =
    [⟨[1, 2, 3, 0], [255, 255, 255, 0]⟩, ⟨[9, 9, 0, 0], [255, 255, 0, 0]⟩,
     ⟨[0x20, 1, 0xd, 0xb8] ++ List.replicate 12 0, [255, 255, 255, 255, 128] ++ List.replicate 11 0⟩] := by decide +kernel
example : packedSize looseRows < 2 ^ 32 := by decide +kernel
/-- The whole of IPv6: 2001:db8::1 with prefix length 0. -/
example : pack encMeta 0 { demo with ips := demo.ips ++ [⟨⟨[0x20, 1, 0xd, 0xb8, 0, 0, 0, 0, 0, 0, 0, 0, 0, 0, 0, 1], List.replicate 16 0⟩, looseValues⟩] } =
    .panic :=
  ((C105_crash_iff (by decide) (by decide +kernel) (by decide +kernel)).1).mpr (by decide +kernel)
/-- The whole of IPv4 is packed. -/
example : pack encMeta 0 { demo1 with ips := [⟨⟨[1, 2, 3, 4], [0, 0, 0, 0]⟩, [gs "北京"]⟩] } ≠ .panic := fun h =>
  absurd (((C105_crash_iff (by decide) (by decide +kernel) (by decide +kernel)).1).mp h) (by decide +kernel)

end Uip.Ipdb
