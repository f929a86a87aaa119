import Verif.Proof.Ipdb.Trie
import Verif.Proof.Range
import Verif.Spec.Table
/-!
# What `insert` does to the trie and to the data area
-/
namespace Uip.Ipdb
open Uip Uip.Spec

/-! ## The walk -/

theorem take_succ_of_getElem? {α : Type} {l : List α} {i : Nat} {b : α} (h : l[i]? = some b) :
    l.take (i + 1) = l.take i ++ [b] := by
  rw [List.take_add_one, h]; rfl

theorem Writer.nodesLoop_blocked {ip : Bytes} {row : List Bool → Option Nat} {occ : List Bool → Prop}
    {lab : List (List Bool)} {w : Writer} (h : Trie w.node lab row occ) :
    ∀ (steps i node ib : Nat), i + steps ≤ (bits ip).length → lab[node]? = some ((bits ip).take i) →
    (∃ j v, i < j ∧ j ≤ i + steps ∧ row ((bits ip).take j) = some v) →
    ∃ n' b v, w.nodesLoop ip steps i node ib = .ok (w, n', Bool.toNat b, false) ∧
      cell w.node n' b = some (-((v : Nat) : Int)) ∧ 0 < v ∧ ∃ q, row q = some v := by
  intro steps
  induction steps with
  | zero => intro i node ib _ _ ⟨j, v, h1, h2, _⟩; omega
  | succ steps ih =>
    intro i node ib hlen hlab hex
    obtain ⟨b, hb⟩ : ∃ b, (bits ip)[i]? = some b := ⟨_, List.getElem?_eq_getElem (by omega)⟩
    have hbit := ipBit_lt hb
    have htake := take_succ_of_getElem? hb
    obtain ⟨e, he, hcase⟩ := h.cell_cases b hlab
    rw [← htake] at hcase
    simp only [Writer.nodesLoop, hbit, Res.ok_bind, Writer.get_eq, he, Res.ofOption_some]
    rcases hcase with ⟨v, rfl, hv, hrow⟩ | ⟨rfl, hrow⟩ | ⟨hpos, hl, hrow⟩
    · rw [if_neg (by omega)]
      simp only [Res.ok_bind, Writer.get_eq, he, Res.ofOption_some]
      rw [if_pos (by omega)]
      exact ⟨node, b, v, rfl, he, hv, _, hrow⟩
    · exfalso
      obtain ⟨j, v, h1, h2, h3⟩ := hex
      -- the row below would need the entry
      have hj : j ≠ i + 1 := by rintro rfl; rw [hrow] at h3; cases h3
      obtain ⟨_, n', q', b', h4, h5, _⟩ := h.rows _ _ h3
      have hq' : q' = (bits ip).take (j - 1) := by
        have hjj : j = (j - 1) + 1 := by omega
        obtain ⟨b'', hb''⟩ : ∃ b, (bits ip)[j - 1]? = some b := ⟨_, List.getElem?_eq_getElem (by omega)⟩
        rw [hjj, take_succ_of_getElem? hb''] at h4
        exact (List.append_inj' h4 rfl).1.symm
      have hsplit : (bits ip).take (j - 1) = (bits ip).take (i + 1) ++ ((bits ip).take (j - 1)).drop (i + 1) := by
        have := (List.take_append_drop (i + 1) ((bits ip).take (j - 1)))
        rw [List.take_take, Nat.min_eq_left (by omega)] at this
        exact this.symm
      rw [hq', hsplit] at h5
      obtain ⟨m, hm⟩ := h.label_prefix _ _ _ h5
      rw [htake] at hm
      have hm0 : 0 < m := by
        rcases Nat.eq_zero_or_pos m with h0 | h0
        · subst h0; rw [h.root] at hm; simp at hm
        · exact h0
      obtain ⟨n2, q2, b2, h6, h7, h8⟩ := h.parent _ _ hm0 hm
      obtain ⟨rfl, hb2⟩ := List.append_inj' h6 rfl
      cases hb2
      have := h.inj _ _ _ hlab h7
      subst this
      rw [he] at h8
      injection h8 with h8
      omega
    · rw [if_neg (by omega)]
      simp only [Res.ok_bind, Writer.get_eq, he, Res.ofOption_some]
      rw [if_neg (by omega)]
      apply ih (i + 1) e.toNat b.toNat (by omega) hl
      obtain ⟨j, v, h1, h2, h3⟩ := hex
      refine ⟨j, v, ?_, by omega, h3⟩
      rcases Nat.lt_or_ge (i + 1) j with hj | hj
      · exact hj
      · have : j = i + 1 := by omega
        subst this; rw [hrow] at h3; cases h3

theorem Writer.nodesLoop_free {ip : Bytes} {row : List Bool → Option Nat} {occ : List Bool → Prop} {K : Nat}
    (hK : K ≤ (bits ip).length) (hocc : occ ((bits ip).take K)) :
    ∀ (steps i node ib : Nat) (w : Writer) (lab : List (List Bool)), Trie w.node lab row occ →
    i + steps < K → lab[node]? = some ((bits ip).take i) →
    (∀ j, i < j → j ≤ i + steps → row ((bits ip).take j) = none) →
    ∃ w' lab' n' ib', w.nodesLoop ip steps i node ib = .ok (w', n', ib', true) ∧
      w' = { w with node := w'.node } ∧ Trie w'.node lab' row occ ∧
      lab'[n']? = some ((bits ip).take (i + steps)) ∧
      ((∀ b, cell w.node node b = some 0) → ∀ b, cell w'.node n' b = some 0) ∧
      ((w' = w ∧ lab' = lab) ∨ ∀ b, cell w'.node n' b = some 0) := by
  intro steps
  induction steps with
  | zero =>
    intro i node ib w lab h hlen hlab _
    exact ⟨w, lab, node, ib, rfl, rfl, h, hlab, fun x => x, .inl ⟨rfl, rfl⟩⟩
  | succ steps ih =>
    intro i node ib w lab h hlen hlab hnone
    obtain ⟨b, hb⟩ : ∃ b, (bits ip)[i]? = some b := ⟨_, List.getElem?_eq_getElem (by omega)⟩
    have hbit := ipBit_lt hb
    have htake := take_succ_of_getElem? hb
    obtain ⟨e, he, hcase⟩ := h.cell_cases b hlab
    rw [← htake] at hcase
    have hn1 := hnone (i + 1) (by omega) (by omega)
    simp only [Writer.nodesLoop, hbit, Res.ok_bind, Writer.get_eq, he, Res.ofOption_some]
    rcases hcase with ⟨v, rfl, hv, hrow⟩ | ⟨rfl, hrow⟩ | ⟨hpos, hl, hrow⟩
    · rw [hn1] at hrow; cases hrow
    · have hn := cell_lt he
      rw [if_pos rfl, Writer.put_eq _ (by simp; omega)]
      simp only [Res.ok_bind, Writer.get_eq, List.length_append, List.length_cons, List.length_nil]
      have hsub : ((w.node.length + (0 + 1) : Nat) : Int) - 1 = (w.node.length : Int) := by omega
      rw [hsub]
      have hcell : ∀ n' b', cell (setCell (w.node ++ [(0, 0)]) node b (w.node.length : Int)) n' b' =
          if n' = node ∧ b' = b then some (w.node.length : Int)
          else if n' = w.node.length then some 0 else cell w.node n' b' := by
        intro n' b'
        rw [cell_setCell (by simp; omega), cell_append]
      rw [hcell, if_pos ⟨rfl, rfl⟩]
      simp only [Res.ofOption_some, Res.ok_bind]
      rw [if_neg (by omega)]
      have hs : (bits ip).take K = (bits ip).take i ++ [b] ++ ((bits ip).take K).drop (i + 1) := by
        rw [← htake]
        have := (List.take_append_drop (i + 1) ((bits ip).take K))
        rw [List.take_take, Nat.min_eq_left (by omega)] at this
        exact this.symm
      have htrie := h.addNode hlab he (s := ((bits ip).take K).drop (i + 1))
        (by intro hc; have := congrArg List.length hc; simp at this; omega) (hs ▸ hocc)
      obtain ⟨w', lab', n', ib', h1, h2, h3, h4, h5, h6⟩ := ih (i + 1) (w.node.length) b.toNat
        { w with node := setCell (w.node ++ [(0, 0)]) node b (w.node.length : Int) }
        (lab ++ [(bits ip).take i ++ [b]]) htrie (by omega)
        (by rw [htake, List.getElem?_append_right (by rw [h.len]; omega), h.len]; simp)
        (fun j hj hj' => hnone j (by omega) (by omega))
      have hfresh := h5 (by
        intro b'
        show cell (setCell _ _ _ _) _ _ = _
        rw [hcell, if_neg (by omega), if_pos rfl])
      refine ⟨w', lab', n', ib', ?_, ?_, h3, by rw [h4]; congr 2; omega, fun _ => hfresh, .inr hfresh⟩
      · simpa using h1
      · rw [h2]
    · rw [if_neg (by omega)]
      simp only [Res.ok_bind, Writer.get_eq, he, Res.ofOption_some]
      rw [if_neg (by omega)]
      obtain ⟨w', lab', n', ib', h1, h2, h3, h4, h5, h6⟩ := ih (i + 1) e.toNat b.toNat w lab h (by omega)
        hl (fun j hj hj' => hnone j (by omega) (by omega))
      refine ⟨w', lab', n', ib', h1, h2, h3, by rw [h4]; congr 2; omega, ?_, h6⟩
      intro hz
      have := hz b
      rw [he] at this
      injection this with this
      omega

/-! ## The data area -/

/-- One record as stored: length, then bytes. -/
def recBytes (k : Str) : Bytes := intToBE16 k.length ++ k

structure DataInv (w : Writer) : Prop where
  chunk : w.dataChunk = w.dataHash.reverse.flatMap (fun e => recBytes e.1)
  nodup : (w.dataHash.map (·.1)).Nodup
  offs : ∀ a b k off, w.dataHash = a ++ (k, off) :: b →
    off = 8 + (b.reverse.flatMap (fun e => recBytes e.1)).length

theorem mapGet_split {α : Type} {m : GoMap α} {k : Str} {v : α} (h : mapGet m k = some v) :
    ∃ a b, m = a ++ (k, v) :: b := by
  induction m with
  | nil => simp [mapGet] at h
  | cons e m ih =>
    obtain ⟨k', v'⟩ := e
    simp only [mapGet] at h
    split at h
    · rename_i hk; subst hk; cases h; exact ⟨[], m, rfl⟩
    · obtain ⟨a, b, rfl⟩ := ih h
      exact ⟨(k', v') :: a, b, rfl⟩

theorem mapGet_none {α : Type} {m : GoMap α} {k : Str} (h : mapGet m k = none) : k ∉ m.map (·.1) := by
  induction m with
  | nil => simp
  | cons e m ih =>
    obtain ⟨k', v'⟩ := e
    simp only [mapGet] at h
    split at h
    · cases h
    · rename_i hk
      simp only [List.map_cons, List.mem_cons, not_or]
      exact ⟨fun hc => hk hc.symm, ih h⟩

/-- A stored offset points to its record. -/
theorem DataInv.at {w : Writer} (h : DataInv w) {k : Str} {off : Nat} (hg : mapGet w.dataHash k = some off) :
    ∃ pre post, w.dataChunk = pre ++ recBytes k ++ post ∧ off = 8 + pre.length := by
  obtain ⟨a, b, hab⟩ := mapGet_split hg
  refine ⟨b.reverse.flatMap (fun e => recBytes e.1), a.reverse.flatMap (fun e => recBytes e.1), ?_, h.offs _ _ _ _ hab⟩
  rw [h.chunk, hab]
  simp

theorem Writer.Fields_hit {w : Writer} {values : List Str} {off : Nat}
    (h : mapGet w.dataHash (joinByte 0x09 values) = some off) : w.Fields values = (w, off) := by
  simp only [Writer.Fields, h]

theorem Writer.Fields_miss {w : Writer} {values : List Str}
    (h : mapGet w.dataHash (joinByte 0x09 values) = none) : w.Fields values =
    ({ w with dataHash := mapSet w.dataHash (joinByte 0x09 values) (w.dataChunk.length + 8),
              dataChunk := w.dataChunk ++ intToBE16 (joinByte 0x09 values).length ++ joinByte 0x09 values },
      w.dataChunk.length + 8) := by
  simp only [Writer.Fields, h]

theorem DataInv.fields {w : Writer} (h : DataInv w) (values : List Str) :
    ∃ w' off, w.Fields values = (w', off) ∧ DataInv w' ∧
    mapGet w'.dataHash (joinByte 0x09 values) = some off ∧
    w'.node = w.node ∧ w'.md = w.md ∧ w'.continentOffset = w.continentOffset ∧
    (∀ k off, mapGet w.dataHash k = some off → mapGet w'.dataHash k = some off) ∧
    w'.dataHash.map (·.1) = (if joinByte 0x09 values ∈ w.dataHash.map (·.1) then w.dataHash.map (·.1)
      else joinByte 0x09 values :: w.dataHash.map (·.1)) ∧
    0 < off := by
  cases hg : mapGet w.dataHash (joinByte 0x09 values) with
  | some off =>
    refine ⟨w, off, Writer.Fields_hit hg, h, hg, rfl, rfl, rfl, fun _ _ x => x, ?_, ?_⟩
    · rw [if_pos]
      obtain ⟨a, b, hab⟩ := mapGet_split hg
      rw [hab]; simp
    · obtain ⟨pre, post, _, h2⟩ := h.at hg
      omega
  | none =>
    refine ⟨_, _, Writer.Fields_miss hg, ⟨?_, ?_, ?_⟩, ?_, rfl, rfl, rfl, ?_, ?_, ?_⟩
    · simp [mapSet, h.chunk, recBytes]
    · simp only [mapSet, List.map_cons, List.nodup_cons]
      exact ⟨mapGet_none hg, h.nodup⟩
    · intro a b k off hab
      simp only [mapSet] at hab
      cases a with
      | nil =>
        simp only [List.nil_append, List.cons.injEq, Prod.mk.injEq] at hab
        obtain ⟨⟨rfl, rfl⟩, rfl⟩ := hab
        rw [h.chunk]; omega
      | cons x a =>
        simp only [List.cons_append, List.cons.injEq] at hab
        exact h.offs a b k off hab.2
    · simp [mapSet, mapGet]
    · intro k off hk
      simp only [mapSet, mapGet]
      rw [if_neg]
      · exact hk
      · rintro rfl; rw [hg] at hk; cases hk
    · rw [if_neg (mapGet_none hg)]
      simp only [mapSet, List.map_cons]
    · omega

theorem Writer.resolve_ok {w : Writer} (h : DataInv w) {k : Str} {off : Nat}
    (hg : mapGet w.dataHash k = some off) : ∃ s, w.resolve (off : Int) = .ok s := by
  obtain ⟨pre, post, h1, h2⟩ := h.at hg
  have hl : w.dataChunk.length = pre.length + (2 + k.length) + post.length := by
    rw [h1]; simp [recBytes, intToBE16]; omega
  simp only [Writer.resolve]
  rw [if_neg (by omega)]
  split
  · exact ⟨_, rfl⟩
  · exact ⟨_, rfl⟩

/-! ## Prefixes of networks -/

/-- The bits of the 128-bit space that a network fixes. -/
def prefix128 (n : IPNet) : List Bool :=
  if n.ip.length = 4 then bits v4InV6Prefix ++ (bits n.ip).take (pfx n) else (bits n.ip).take (pfx n)

/-- The 128 bits of an address. -/
def path128 (a : IP) : List Bool := bits ((To16 a).getD [])

theorem path128_length {a : IP} (h : ValidIP a) : (path128 a).length = 128 := by
  obtain ⟨b, hb, hl, _⟩ := To16_valid h
  unfold path128
  rw [hb, Option.getD_some, bits_length, hl]

theorem bitsNat_path128 {a : IP} (h : ValidIP a) : bitsNat (path128 a) = addrNum a := by
  obtain ⟨b, hb, hl, hv⟩ := To16_valid h
  unfold path128
  rw [hb, Option.getD_some, bitsNat_bits, hv]

theorem pfx_le {n : IPNet} (h : WFNet n) : pfx n ≤ 8 * n.ip.length := by
  have := h.1.2.2.1
  rw [h.1.2.1] at this
  exact this

theorem prefix128_length {n : IPNet} (h : WFNet n) : (prefix128 n).length + hostBits n = 128 := by
  have hk := pfx_le h
  unfold prefix128 hostBits
  rcases h.1.1 with hl | hl
  · rw [if_pos hl, List.length_append, List.length_take, bits_length, bits_length, hl]
    rw [hl] at hk
    simp [v4InV6Prefix]; omega
  · rw [if_neg (by omega), List.length_take, bits_length, hl]
    rw [hl] at hk
    omega

theorem path128_eq {n : IPNet} (h : WFNet n) :
    path128 n.ip = prefix128 n ++ List.replicate (hostBits n) false := by
  have hk := pfx_le h
  have ha := h.2
  unfold Aligned at ha
  unfold prefix128 path128 hostBits
  rcases h.1.1 with hl | hl
  · rw [if_pos hl, To16_4 hl, Option.getD_some, bits_append, List.append_assoc, ← ha, List.take_append_drop]
  · rw [if_neg (by omega), To16_16 hl, Option.getD_some, ← ha, List.take_append_drop]

/-- The prefix of a network is the beginning of the path of its first address. -/
theorem prefix128_take {n : IPNet} (h : WFNet n) :
    prefix128 n = (path128 n.ip).take (prefix128 n).length := by
  rw [path128_eq h, List.take_left]

theorem netLo_eq {n : IPNet} (h : WFNet n) : netLo n = bitsNat (prefix128 n) * 2 ^ hostBits n := by
  unfold netLo
  rw [← bitsNat_path128 h.1.1, path128_eq h, bitsNat_append, bitsNat_replicate_false, List.length_replicate]; rfl

theorem netEnd_eq {n : IPNet} (h : WFNet n) : netEnd n = (bitsNat (prefix128 n) + 1) * 2 ^ hostBits n := by
  have := netLo_eq h
  unfold netEnd
  unfold netLo at this
  rw [this, Nat.add_mul]; omega

/-- A number belongs to a network iff its path starts with the network's prefix. -/
theorem Covers_iff_prefix {n : IPNet} (h : WFNet n) {p : List Bool} (hp : p.length = 128) :
    Covers n (bitsNat p) ↔ prefix128 n <+: p := by
  have hlen := prefix128_length h
  unfold Covers
  rw [netLo_eq h, netEnd_eq h, List.prefix_iff_eq_take]
  have hd := bitsNat_div p (prefix128 n).length
  rw [hp, show 128 - (prefix128 n).length = hostBits n by omega] at hd
  constructor
  · rintro ⟨h1, h2⟩
    apply bitsNat_inj
    · rw [List.length_take, hp]; omega
    · rw [← hd]
      symm
      apply Nat.div_eq_of_lt_le
      · exact h1
      · exact h2
  · intro he
    have : bitsNat (prefix128 n) = bitsNat p / 2 ^ hostBits n := by rw [hd, ← he]
    rw [this]
    have hpos := Nat.two_pow_pos (hostBits n)
    constructor
    · exact Nat.div_mul_le_self _ _
    · have := Nat.lt_div_mul_add hpos (a := bitsNat p)
      rw [Nat.add_mul]; omega

theorem Covers_iff_path {n : IPNet} (h : WFNet n) {a : IP} (ha : ValidIP a) :
    Covers n (addrNum a) ↔ prefix128 n <+: path128 a := by
  rw [← bitsNat_path128 ha]
  exact Covers_iff_prefix h (path128_length ha)

theorem SameNet_iff {a b : IPNet} (ha : WFNet a) (hb : WFNet b) : SameNet a b ↔ prefix128 a = prefix128 b := by
  have h1 := prefix128_length ha
  have h2 := prefix128_length hb
  constructor
  · rintro ⟨hl, he⟩
    have hh : hostBits a = hostBits b := by
      unfold netEnd at he
      unfold netLo at hl
      rw [hl] at he
      exact Nat.pow_right_inj (by decide) |>.mp (Nat.add_left_cancel he)
    rw [netLo_eq ha, netLo_eq hb, hh] at hl
    exact bitsNat_inj (by omega) (Nat.eq_of_mul_eq_mul_right (Nat.two_pow_pos _) hl)
  · intro he
    have hh : hostBits a = hostBits b := by rw [he] at h1; omega
    unfold SameNet
    rw [netLo_eq ha, netLo_eq hb, netEnd_eq ha, netEnd_eq hb, he, hh]
    exact ⟨rfl, rfl⟩

theorem Overlap_iff {a b : IPNet} (ha : WFNet a) (hb : WFNet b) :
    Overlap a b ↔ prefix128 a <+: prefix128 b ∨ prefix128 b <+: prefix128 a := by
  have key : Overlap a b ↔ ∃ p : List Bool, p.length = 128 ∧ Covers a (bitsNat p) ∧ Covers b (bitsNat p) := by
    constructor
    · rintro ⟨h1, h2⟩
      have va := bitsNat_path128 ha.1.1
      have vb := bitsNat_path128 hb.1.1
      have pa : netLo a < netEnd a := by unfold netLo netEnd; have := Nat.two_pow_pos (hostBits a); omega
      have pb : netLo b < netEnd b := by unfold netLo netEnd; have := Nat.two_pow_pos (hostBits b); omega
      rcases Nat.le_total (netLo a) (netLo b) with h | h
      · refine ⟨path128 b.ip, path128_length hb.1.1, ?_⟩
        rw [vb]
        exact ⟨⟨h, h2⟩, ⟨Nat.le_refl _, pb⟩⟩
      · refine ⟨path128 a.ip, path128_length ha.1.1, ?_⟩
        rw [va]
        exact ⟨⟨Nat.le_refl _, pa⟩, ⟨h, h1⟩⟩
    · rintro ⟨p, _, ⟨h1, h2⟩, ⟨h3, h4⟩⟩
      exact ⟨by omega, by omega⟩
  rw [key]
  constructor
  · rintro ⟨p, hp, h1, h2⟩
    rw [Covers_iff_prefix ha hp] at h1
    rw [Covers_iff_prefix hb hp] at h2
    exact List.prefix_or_prefix_of_prefix h1 h2
  · have l1 := prefix128_length ha
    have l2 := prefix128_length hb
    rintro (h | h)
    · refine ⟨path128 b.ip, path128_length hb.1.1, ?_⟩
      rw [Covers_iff_prefix ha (path128_length hb.1.1), Covers_iff_prefix hb (path128_length hb.1.1), path128_eq hb]
      exact ⟨h.trans (List.prefix_append _ _), List.prefix_append _ _⟩
    · refine ⟨path128 a.ip, path128_length ha.1.1, ?_⟩
      rw [Covers_iff_prefix ha (path128_length ha.1.1), Covers_iff_prefix hb (path128_length ha.1.1), path128_eq ha]
      exact ⟨List.prefix_append _ _, h.trans (List.prefix_append _ _)⟩

end Uip.Ipdb
