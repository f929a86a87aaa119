import Verif.Props.Ipdb
/-!
# Property C85 (and C19, C20): number of nodes and size of a packed file
-/
namespace Uip.Ipdb
open Uip Uip.Spec

/-- The bits that fix a network in the 128-bit space: for an IPv4 network, those of its IPv4-mapped form. -/
def netPath (n : IPNet) : List Bool :=
  if n.ip.length = 4 then bits [0, 0, 0, 0, 0, 0, 0, 0, 0, 0, 0xFF, 0xFF] ++ (bits n.ip).take (pfx n) else (bits n.ip).take (pfx n)

theorem netPath_eq : netPath = prefix128 := by
  funext n; unfold netPath prefix128; rfl

/-- `P` lists, once each, the branching points a binary tree needs for the given networks: the root and every proper prefix
of a network. -/
def Branches (nets : List IPNet) (P : List (List Bool)) : Prop :=
  P.Nodup ∧ ∀ q, q ∈ P ↔ q = [] ∨ ∃ n ∈ nets, q <+: netPath n ∧ q ≠ netPath n

theorem trie_branches {w : Writer} {α : Type} {f : α → Str} {T : List (IPNet × α)} (h : WInv w (tableOf f T)) (hT : ∀ m ∈ T, prefix128 m.1 ≠ []) :
    ∃ P, Branches (T.map (·.1)) P ∧ P.length = w.node.length := by
  obtain ⟨lab, row, htr, _, hR, hRn, _⟩ := h
  have hrow : ∀ q, row q ≠ none ↔ ∃ m ∈ T, prefix128 m.1 = q := by
    intro q
    rw [← tableOf_ne_none (f := f)]
    constructor
    · intro hq
      obtain ⟨v, hv⟩ := Option.ne_none_iff_exists'.mp hq
      obtain ⟨d, hd, _⟩ := hR q v hv
      rw [hd]; simp
    · intro hq hn
      exact hq (hRn q hn)
  refine ⟨lab, ⟨?_, fun q => ?_⟩, htr.len⟩
  · refine List.pairwise_iff_getElem.mpr fun i j hi hj hij he => ?_
    have := htr.inj i j lab[j] (by rw [List.getElem?_eq_getElem hi, he]) (List.getElem?_eq_getElem hj)
    omega
  · rw [netPath_eq]
    constructor
    · intro hq
      obtain ⟨m, hm⟩ := List.getElem?_of_mem hq
      by_cases h0 : m = 0
      · subst h0
        rw [htr.root] at hm
        exact .inl (Option.some.inj hm).symm
      · obtain ⟨s, hs, ho⟩ := htr.nonempty m q (by omega) hm
        obtain ⟨x, hx, hp⟩ := (hrow _).mp ho
        refine .inr ⟨x.1, List.mem_map.mpr ⟨x, hx, rfl⟩, by rw [hp]; exact List.prefix_append .., fun he => ?_⟩
        rw [hp] at he
        have := congrArg List.length he
        rw [List.length_append] at this
        exact hs (List.length_eq_zero_iff.mp (by omega))
    · rintro (rfl | ⟨n, hn, ⟨s, hs⟩, hne⟩)
      · exact List.mem_of_getElem? htr.root
      · obtain ⟨x, hx, rfl⟩ := List.mem_map.mp hn
        have h1 := (hrow (prefix128 x.1)).mpr ⟨x, hx, rfl⟩
        obtain ⟨v, hv⟩ := Option.ne_none_iff_exists'.mp h1
        obtain ⟨_, k, q', b, he, hk, _⟩ := htr.rows _ v hv
        rw [he] at hs hne
        have hpre : q <+: q' := by
          have h2 : q <+: q' ++ [b] := ⟨s, hs⟩
          rcases List.prefix_concat_iff.mp h2 with h | h
          · exact absurd h hne
          · exact h
        obtain ⟨s', hs'⟩ := hpre
        subst hs'
        obtain ⟨m, hm⟩ := htr.label_prefix _ _ _ hk
        exact List.mem_of_getElem? hm

/-- What an opened file has as its metadata. -/
theorem open_md {dec : Bytes → Option MetaData} {bytes : Bytes} {r : Reader} (h : newReaderFromBytes dec bytes = .ok r) :
    dec ((bytes.drop 4).take (val (bytes.take 4))) = some r.md := by
  unfold newReaderFromBytes at h
  split at h
  · cases h
  simp only [] at h
  split at h
  · cases h
  split at h
  · cases h
  rename_i m hm
  rw [hm]
  split at h
  · cases h
  split at h
  · cases h
  split at h
  · obtain ⟨v, _, h⟩ := Res.bind_eq_ok.mp h
    obtain ⟨c, _, h⟩ := Res.bind_eq_ok.mp h
    rw [← Res.ok.inj h]
  · rw [← Res.ok.inj h]

/-- **C85.** The size of a packed file: it has one node for every branching point of the rows that are kept and one more, of
8 bytes each; every distinct record stands in it once, with two bytes for its length; 4 bytes and the metadata precede.  The
version of the opened file reports the number of branching points. -/
theorem C85_size {enc : MetaData → Bytes} {dec : Bytes → Option MetaData} {now : Int} {ipd : IpData} {bytes : Bytes}
    (fmtDate : Int → Str) (h : RowsWF ipd) (hj : MetaRoundTrip enc dec (buildMeta now ipd.version ipd.fields))
    (hc : ∀ f ∈ ipd.fields, f ≠ gs "continent" → asciiLower f ≠ gs "continent") (hp : pack enc now ipd = .ok bytes) :
    ∃ (P : List (List Bool)) (recs : List Str) (body : Nat), Branches ((keptRows (rowsOf ipd)).map (·.1)) P ∧
      recs = ((acceptedRows [] (rowsOf ipd)).map (fun m => joinByte 0x09 m.2)).foldl addNew [] ∧
      body = 8 * (P.length + 1) + (recs.map (fun d => 2 + d.length)).sum ∧
      bytes.length = 4 + (enc { buildMeta now ipd.version ipd.fields with nodeCount := P.length, totalSize := body }).length + body ∧
      (bytes.length < 2 ^ 32 → ∃ r, newReaderFromBytes dec bytes = .ok r ∧ (r.version fmtDate).count.toNat = P.length) := by
  obtain ⟨w, hw1, hw2, hw3, hw4⟩ := insertAll_pack h now
  have hb : bytes = w.Save enc := by
    unfold pack at hp; rw [hw1] at hp; cases hp; rfl
  have hkept := keptRows_spec (rows := rowsOf ipd) (by
    intro m hm
    obtain ⟨x, hx, rfl⟩ := List.mem_map.mp hm
    exact h.wf x hx)
  obtain ⟨P, hP, hPl⟩ := trie_branches hw2 (by
    intro m hm he
    obtain ⟨hwf, hmem⟩ := hkept.2 m hm
    obtain ⟨x, hx, rfl⟩ := List.mem_map.mp hmem
    have h1 := prefix128_length hwf
    have h2 := h.notAll x hx
    rw [he] at h1
    simp only [List.length_nil] at h1
    omega)
  have hd : DataInv w := by obtain ⟨_, _, _, hd, _⟩ := hw2; exact hd
  have hplain : (fun m : IPNet × List Str => storedRec ipd.fields m.2) = fun m => joinByte 0x09 m.2 := by
    funext m; exact storedRec_plain hc _
  rw [hplain] at hw4
  have hlen : w.dataChunk.length = (((w.dataHash.map (·.1)).reverse).map (fun d => 2 + d.length)).sum := by
    have hchunk : w.dataChunk = ((w.dataHash.map (·.1)).reverse).flatMap (fun d => intToBE16 d.length ++ d) := by
      rw [hd.chunk, ← List.map_reverse, List.flatMap_map]; rfl
    rw [hchunk]
    generalize (w.dataHash.map (·.1)).reverse = l
    induction l with
    | nil => rfl
    | cons x l ih => simp only [List.flatMap_cons, List.length_append, ih, List.map_cons, List.sum_cons]; simp [intToBE16]
  have hsm : w.savedMeta = { buildMeta now ipd.version ipd.fields with
      nodeCount := P.length, totalSize := (8 * (P.length + 1) + w.dataChunk.length : Nat) } := by
    unfold Writer.savedMeta
    rw [hw3, nodeChunk_length, hPl, Nat.mul_add]
  have hL := Writer.Save_length enc w
  rw [hsm, ← hPl] at hL
  refine ⟨P, (w.dataHash.map (·.1)).reverse, _, hP, hw4, rfl, by rw [hb, hL, hlen]; omega, fun hlt => ?_⟩
  obtain ⟨b', hb', hr⟩ := pack_written_long h hj
  rw [hp] at hb'
  rw [← Res.ok.inj hb'] at hr
  obtain ⟨r, hr, _⟩ := hr hlt
  refine ⟨r, hr, ?_⟩
  have hmd := open_md hr
  rw [hb, hL] at hlt
  have hbe : (intToBE32 (enc w.savedMeta).length).length = 4 := rfl
  have htake : (w.Save enc).take 4 = intToBE32 (enc w.savedMeta).length := by
    unfold Writer.Save
    rw [List.append_assoc, List.append_assoc, List.take_left' hbe]
  have hmeta : ((w.Save enc).drop 4).take (enc w.savedMeta).length = enc w.savedMeta := by
    unfold Writer.Save
    rw [List.append_assoc, List.append_assoc, List.drop_left' hbe, List.take_left]
  rw [hb, htake, val_intToBE32 (by rw [hsm]; omega), hmeta, hsm, hj _ _ (by omega) (by omega)] at hmd
  have hm := Option.some.inj hmd
  unfold Reader.version
  rw [← hm]
  simp only []
  unfold UInt32.ofInt
  rw [UInt32.toNat_ofNat']
  omega

/-- The branching points of a list of networks are at most one and, for every network, one for each bit it fixes after the
first. -/
theorem branches_le {nets : List IPNet} {P : List (List Bool)} (h : Branches nets P) :
    P.length ≤ 1 + (nets.map (fun n => (netPath n).length - 1)).sum := by
  have hle : ∀ (P L : List (List Bool)), P.Nodup → (∀ q ∈ P, q ∈ L) → P.length ≤ L.length := by
    intro P
    induction P with
    | nil => intro L _ _; simp
    | cons q P ih =>
      intro L hn hs
      obtain ⟨h1, h2⟩ := List.nodup_cons.mp hn
      have hq := hs q (List.mem_cons_self ..)
      have := ih (L.erase q) h2 (fun x hx => (List.mem_erase_of_ne (by rintro rfl; exact h1 hx)).mpr (hs x (List.mem_cons_of_mem _ hx)))
      rw [List.length_erase_of_mem hq] at this
      have : 0 < L.length := List.length_pos_iff.mpr (List.ne_nil_of_mem hq)
      simp only [List.length_cons]
      omega
  have := hle P ([] :: nets.flatMap (fun n => (List.range ((netPath n).length - 1)).map fun i => (netPath n).take (i + 1))) h.1 (by
    intro q hq
    rcases (h.2 q).mp hq with rfl | ⟨n, hn, hp, hne⟩
    · simp
    · by_cases h0 : q = []
      · simp [h0]
      · refine List.mem_cons_of_mem _ (List.mem_flatMap.mpr ⟨n, hn, List.mem_map.mpr ⟨q.length - 1, ?_, ?_⟩⟩)
        · have h1 := hp.length_le
          have h2 : q.length ≠ (netPath n).length := fun e => hne (hp.eq_of_length e)
          have h3 := List.length_pos_iff.mpr h0
          rw [List.mem_range]; omega
        · have h3 := List.length_pos_iff.mpr h0
          rw [Nat.sub_add_cancel h3]
          exact (List.prefix_iff_eq_take.mp hp).symm)
  refine Nat.le_trans this ?_
  rw [List.length_cons, List.length_flatMap]
  simp only [List.length_map, List.length_range]
  omega

theorem foldl_addNew_le (l acc : List Str) :
    ((l.foldl addNew acc).map (fun d => 2 + d.length)).sum ≤ (acc.map (fun d => 2 + d.length)).sum + (l.map (fun d => 2 + d.length)).sum := by
  induction l generalizing acc with
  | nil => simp
  | cons k l ih =>
    rw [List.foldl_cons]
    refine Nat.le_trans (ih _) ?_
    unfold addNew
    split
    · simp only [List.map_cons, List.sum_cons]; omega
    · simp only [List.map_cons, List.sum_cons, List.map_append, List.sum_append, List.map_nil, List.sum_nil]; omega

theorem sum_sublist {l l' : List Nat} (h : l.Sublist l') : l.sum ≤ l'.sum := by
  induction h with
  | slnil => simp
  | cons a _ ih => simp only [List.sum_cons]; omega
  | cons_cons a _ ih => simp only [List.sum_cons]; omega

theorem acceptedRows_sublist {α : Type} (T : List (IPNet × α)) (rows : List (IPNet × α)) : (acceptedRows T rows).Sublist rows := by
  induction rows generalizing T with
  | nil => exact List.Sublist.refl _
  | cons r rs ih =>
    unfold acceptedRows
    split
    · exact (ih _).cons _
    · exact (ih _).cons_cons _

theorem keepRow_length {α : Type} (T : List (IPNet × α)) (r : IPNet × α) : (keepRow T r).length ≤ T.length + 1 := by
  unfold keepRow
  split
  · omega
  · rw [List.length_append, List.length_singleton]
    exact Nat.add_le_add_right (List.length_filter_le _ _) 1

theorem keptRows_length {α : Type} (rows : List (IPNet × α)) : (keptRows rows).length ≤ rows.length := by
  have : ∀ (rows T : List (IPNet × α)), (rows.foldl keepRow T).length ≤ T.length + rows.length := by
    intro rows
    induction rows with
    | nil => intro T; simp
    | cons r rs ih =>
      intro T
      have h1 := ih (keepRow T r)
      have h2 := keepRow_length T r
      rw [List.foldl_cons, List.length_cons]; omega
  have := this rows []
  simpa [keptRows] using this

/-- **C85 (bound).** Each row adds at most 127 nodes: a table of `n` rows gives a file of at most `4 + metadata + 8 (127 n + 2)`
bytes and its records. -/
theorem C85_bound {enc : MetaData → Bytes} {dec : Bytes → Option MetaData} {now : Int} {ipd : IpData} {bytes : Bytes}
    (h : RowsWF ipd) (hj : MetaRoundTrip enc dec (buildMeta now ipd.version ipd.fields))
    (hc : ∀ f ∈ ipd.fields, f ≠ gs "continent" → asciiLower f ≠ gs "continent") (hp : pack enc now ipd = .ok bytes) :
    ∃ N body : Nat, bytes.length = 4 + (enc { buildMeta now ipd.version ipd.fields with nodeCount := N, totalSize := body }).length + body ∧
      N ≤ 1 + 127 * ipd.ips.length ∧
      body ≤ 8 * (2 + 127 * ipd.ips.length) + (ipd.ips.map (fun r => 2 + (joinByte 0x09 r.values).length)).sum := by
  obtain ⟨P, recs, body, hP, hr, hb, hl, _⟩ := C85_size (fun _ => []) h hj hc hp
  have hkept := keptRows_spec (rows := rowsOf ipd) (by
    intro m hm
    obtain ⟨x, hx, rfl⟩ := List.mem_map.mp hm
    exact h.wf x hx)
  have h1 := branches_le hP
  have h2 : ∀ l : List IPNet, (∀ n ∈ l, WFNet n) → (l.map (fun n => (netPath n).length - 1)).sum ≤ 127 * l.length := by
    intro l
    induction l with
    | nil => intro _; simp
    | cons n l ih =>
      intro hw
      have h3 := prefix128_length (hw n (List.mem_cons_self ..))
      have := ih (fun x hx => hw x (List.mem_cons_of_mem _ hx))
      simp only [List.map_cons, List.sum_cons, List.length_cons, netPath_eq] at *
      omega
  have h3 := h2 ((keptRows (rowsOf ipd)).map (·.1)) (by
    intro n hn
    obtain ⟨x, hx, rfl⟩ := List.mem_map.mp hn
    exact (hkept.2 x hx).1)
  have h4 := keptRows_length (rowsOf ipd)
  rw [List.length_map] at h3
  have h5 : (rowsOf ipd).length = ipd.ips.length := List.length_map ..
  have h6 : (recs.map (fun d => 2 + d.length)).sum ≤ (ipd.ips.map (fun r => 2 + (joinByte 0x09 r.values).length)).sum := by
    rw [hr]
    refine Nat.le_trans (foldl_addNew_le _ _) ?_
    simp only [List.map_nil, List.sum_nil, Nat.zero_add, List.map_map]
    have hs := (acceptedRows_sublist [] (rowsOf ipd)).map (fun m => 2 + (joinByte 0x09 m.2).length)
    have : (ipd.ips.map (fun r => 2 + (joinByte 0x09 r.values).length)) = (rowsOf ipd).map (fun m => 2 + (joinByte 0x09 m.2).length) := by
      unfold rowsOf; rw [List.map_map]; rfl
    rw [this]
    exact sum_sublist hs
  exact ⟨P.length, body, hl, by omega, by omega⟩

/-- C19: a packed file with anything after its end is not accepted either. -/
theorem C19_extended {enc : MetaData → Bytes} {dec : Bytes → Option MetaData} {now : Int} {ipd : IpData} {bytes : Bytes}
    (h : RowsOK ipd) (hj : MetaRoundTrip enc dec (buildMeta now ipd.version ipd.fields))
    (hp : pack enc now ipd = .ok bytes) (hlen : bytes.length < 2 ^ 32) (junk : Bytes) (hne : junk ≠ []) :
    newQuerier dec (bytes ++ junk) = .err .fileSize := by
  obtain ⟨w, hb, hsm, _⟩ := pack_bytes h hp
  have hL := Writer.Save_length enc w
  rw [← hb] at hL
  have hdec : dec (enc w.savedMeta) = some w.savedMeta := by
    rw [hsm]; exact hj _ _ (by omega) (by rw [nodeChunk_length]; omega)
  have hjl : 0 < junk.length := List.length_pos_iff.mpr hne
  have hbe : (intToBE32 (enc w.savedMeta).length).length = 4 := rfl
  have htake : (bytes ++ junk).take 4 = intToBE32 (enc w.savedMeta).length := by
    rw [List.take_append_of_le_length (by omega), hb]
    unfold Writer.Save
    rw [List.append_assoc, List.append_assoc, List.take_left' hbe]
  have hmeta : ((bytes ++ junk).drop 4).take (enc w.savedMeta).length = enc w.savedMeta := by
    rw [List.drop_append_of_le_length (by omega), List.take_append_of_le_length (by rw [List.length_drop]; omega), hb]
    unfold Writer.Save
    rw [List.append_assoc, List.append_assoc, List.drop_left' hbe, List.take_left]
  have hfl : (covertFields ipd.fields).length ≠ 0 := by
    rw [covertFields_length]; intro hc; exact h.fields (List.length_eq_zero_iff.mp hc)
  have hmdl : w.savedMeta.languages = [(gs "CN", 0)] := by rw [hsm]; rfl
  have hmdf : w.savedMeta.fields = covertFields ipd.fields := by rw [hsm]; rfl
  have hts : w.savedMeta.totalSize = ((8 * w.node.length + 8 + w.dataChunk.length : Nat) : Int) := by
    rw [hsm, nodeChunk_length]
  unfold newQuerier newReaderFromBytes
  simp only []
  rw [if_neg (by rw [List.length_append]; omega), htake, val_intToBE32 (by omega), if_neg (by rw [List.length_append]; omega), hmeta, hdec]
  simp only []
  rw [if_neg (by rw [hmdl, hmdf]; simp; exact fun hc => hfl (by rw [hc]; rfl)), if_pos (by rw [hts, List.length_append]; omega)]
  rfl

/-- The table of the other examples. -/
example : RowsWF demo ∧ (∀ f ∈ demo.fields, f ≠ gs "continent" → asciiLower f ≠ gs "continent") ∧
    (∃ bytes, pack encMeta 0 demo = .ok bytes) := by
  refine ⟨RowsOK.toWF (by decide +kernel), by decide +kernel, ?_⟩
  obtain ⟨b, hb, _⟩ := opens (enc := encMeta) (dec := decMeta) (now := 0) (ipd := demo) (by decide +kernel) (fun _ _ _ _ => dec_encMeta _)
  exact ⟨b, hb⟩

/-- The branching points of two sibling networks `8000::/2` and `c000::/2`. -/
example : Branches [⟨0x80 :: List.replicate 15 0, 0xC0 :: List.replicate 15 0⟩, ⟨0xC0 :: List.replicate 15 0, 0xC0 :: List.replicate 15 0⟩]
    [[], [true]] := by
  refine ⟨by decide, fun q => ?_⟩
  have e1 : netPath ⟨0x80 :: List.replicate 15 0, 0xC0 :: List.replicate 15 0⟩ = [true, false] := by decide +kernel
  have e2 : netPath ⟨0xC0 :: List.replicate 15 0, 0xC0 :: List.replicate 15 0⟩ = [true, true] := by decide +kernel
  simp only [List.mem_cons, List.not_mem_nil, or_false, exists_eq_or_imp, exists_eq_left, e1, e2]
  match q with
  | [] => simp
  | [b] => cases b <;> simp
  | [b, c] => cases b <;> cases c <;> simp
  | b :: c :: d :: q => simp

end Uip.Ipdb
