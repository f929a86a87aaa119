import Verif.Proof.Ipdb.Saved
import Verif.Spec.Info
/-!
# `pack` followed by `newReaderFromBytes`
-/
namespace Uip.Ipdb
open Uip Uip.Spec

theorem mapM_ok {α β : Type} {f : α → Res β} {xs : List α} (h : ∀ x ∈ xs, ∃ y, f x = .ok y) :
    ∃ ys, Res.mapM f xs = .ok ys := by
  induction xs with
  | nil => exact ⟨[], rfl⟩
  | cons x xs ih =>
    obtain ⟨y, hy⟩ := h x (by simp)
    obtain ⟨ys, hys⟩ := ih (fun z hz => h z (by simp [hz]))
    exact ⟨y :: ys, by simp only [Res.mapM, hy, hys, Res.ok_bind]⟩

/-! ## Sizes -/

theorem joinByte_length (c : UInt8) (l : List Str) :
    (joinByte c l).length = (l.map List.length).sum + (l.length - 1) := by
  induction l with
  | nil => rfl
  | cons x l ih =>
    cases l with
    | nil => simp [joinByte]
    | cons y r => simp only [joinByte, List.length_append, List.length_cons, ih, List.map_cons, List.sum_cons]; omega

theorem continentCode_length (s : Str) : (continentCode s).length ≤ s.length := by
  unfold continentCode
  repeat' split
  all_goals first | (rename_i h; rw [h]; decide) | exact Nat.le_refl _

theorem modify_sum_le (l : List Str) (i : Nat) (g : Str → Str) (hg : ∀ s, (g s).length ≤ s.length) :
    ((l.modify i g).map List.length).sum ≤ (l.map List.length).sum := by
  induction l generalizing i with
  | nil => cases i <;> simp
  | cons x l ih =>
    cases i with
    | zero => simp only [List.modify_zero_cons, List.map_cons, List.sum_cons]; have := hg x; omega
    | succ i => simp only [List.modify_succ_cons, List.map_cons, List.sum_cons]; have := ih i; omega

theorem convD_length (co : Option Nat) (values : List Str) : (convD co values).length = values.length := by
  unfold convD; split <;> simp

theorem join_convD_length (co : Option Nat) (values : List Str) :
    (joinByte 0x09 (convD co values)).length ≤ (joinByte 0x09 values).length := by
  rw [joinByte_length, joinByte_length, convD_length]
  unfold convD
  split
  · exact Nat.le_refl _
  · have := modify_sum_le values (by assumption) continentCode continentCode_length
    omega

/-! ## Continent index -/

theorem continentIdx_lt {fields : List Str} {i : Nat} {acc : Option Nat} {j : Nat}
    (h : continentIdx fields i acc = some j) :
    (i ≤ j ∧ j < i + fields.length ∧ ∃ f, fields[j - i]? = some f ∧ asciiLower f = fContinent) ∨ acc = some j := by
  induction fields generalizing i acc with
  | nil => exact .inr h
  | cons f fields ih =>
    simp only [continentIdx] at h
    rcases ih h with ⟨h1, h2, f', h3, h4⟩ | h1
    · left
      refine ⟨by omega, by simp; omega, f', ?_, h4⟩
      rw [show j - i = (j - (i + 1)) + 1 by omega, List.getElem?_cons_succ]; exact h3
    · split at h1
      · rename_i hf
        cases h1
        left
        exact ⟨by omega, by simp, f, by simp, hf⟩
      · exact .inr h1

theorem covertFields_length (fields : List Str) : (covertFields fields).length = fields.length := by
  simp [covertFields]

/-- The record stored for a row's values under a field list. -/
def storedRec (fields values : List Str) : Str :=
  joinByte 0x09 (convD (continentIdx (covertFields fields) 0 none) values)

/-- The reader's view of a well-formed written database. -/
structure Written (now : Int) (ipd : IpData) (r : Reader) : Prop where
  md : ∃ N S, r.md = { buildMeta now ipd.version ipd.fields with nodeCount := N, totalSize := S }
  continent : r.continentOffset = Offset FieldContinentCode (covertFields ipd.fields)
  nc : 0 < r.nodeCount
  find : ∃ nodeOf : Str → Nat, (∀ d, 0 < nodeOf d) ∧
    ∀ a, ValidIP a →
    (((To4 a).isSome → r.md.HasIPv4 = true) → ((To4 a).isSome = false → r.md.HasIPv6 = true) →
      (∀ m, rowOf (keptRows (ipd.ips.map fun x => (x.cidr, x.values))) (addrNum a) = some m →
        r.find0 a = .ok (nodeOf (storedRec ipd.fields m.2), storedRec ipd.fields m.2,
          (prefix128 m.1).length - if (To4 a).isSome then 96 else 0)) ∧
      (rowOf (keptRows (ipd.ips.map fun x => (x.cidr, x.values))) (addrNum a) = none →
        r.find0 a = .err .dataNotExists))

theorem path128_v4 {a b : IP} (h : To4 a = some b) : path128 a = bits v4InV6Prefix ++ bits b ∧ b.length = 4 := by
  unfold path128
  unfold To4 at h
  split at h
  · rename_i hl; cases h
    rw [To16_4 hl, Option.getD_some, bits_append]; exact ⟨rfl, hl⟩
  · split at h
    · rename_i hl; cases h
      rw [To16_16 hl.1, Option.getD_some]
      constructor
      · rw [← hl.2, ← bits_append, List.take_append_drop]
      · rw [List.length_drop, hl.1]
    · cases h

theorem To4_none_length {a : IP} (hv : ValidIP a) (h : To4 a = none) : a.length = 16 := by
  rcases hv with h4 | h16
  · simp [To4, h4] at h
  · exact h16

theorem insertAll_pack {ipd : IpData} (h : RowsWF ipd) (now : Int) :
    ∃ w, (NewWriter (buildMeta now ipd.version ipd.fields)).insertAll ipd.ips = .ok w ∧
      WInv w (tableOf (storedRec ipd.fields) (keptRows (ipd.ips.map fun x => (x.cidr, x.values)))) ∧
      w.md = buildMeta now ipd.version ipd.fields ∧
      (w.dataHash.map (·.1)).reverse =
        ((acceptedRows [] (ipd.ips.map (fun r => (r.cidr, r.values)))).map (fun m => storedRec ipd.fields m.2)).foldl
          addNew [] := by
  have hco : (NewWriter (buildMeta now ipd.version ipd.fields)).continentOffset =
      continentIdx (covertFields ipd.fields) 0 none := rfl
  obtain ⟨w, h1, h2, h3, h4, h5⟩ := Writer.insertAll_spec (storedRec ipd.fields) ipd.ips
    (NewWriter (buildMeta now ipd.version ipd.fields)) [] (by intro v; rw [hco]; rfl)
    ((WInv.init _).congr (by intro q; rfl)) (by simp) (by
      intro r hr
      have hw := h.wf r hr
      refine ⟨hw, ?_, ?_⟩
      · have h1 := prefix128_length hw
        have h2 := h.notAll r hr
        intro hc; rw [hc] at h1; simp at h1; omega
      · intro i hi
        rw [hco] at hi
        rcases continentIdx_lt hi with ⟨_, h2, _⟩ | h2
        · rw [h.len r hr, ← covertFields_length]; omega
        · cases h2)
  refine ⟨w, h1, h2, h3, ?_⟩
  rw [h5]; rfl

theorem Writer.Save_length (enc : MetaData → Bytes) (w : Writer) :
    (w.Save enc).length = 4 + (enc w.savedMeta).length + (8 * w.node.length + 8) + w.dataChunk.length := by
  unfold Writer.Save
  simp only [List.length_append, nodeChunk_length]
  simp [intToBE32]

theorem DataInv.off_le {w : Writer} (h : DataInv w) {k : Str} {off : Nat} (hg : mapGet w.dataHash k = some off) :
    off + 2 + k.length ≤ 8 + w.dataChunk.length ∧ 8 ≤ off := by
  obtain ⟨pre, post, h1, h2⟩ := h.at hg
  rw [h1]
  simp [recBytes, intToBE16]; omega

theorem reads_saved {w : Writer} {R} (h : WInv w R) (hsize : w.node.length + 8 + w.dataChunk.length < 2 ^ 32) :
    Reads (w.nodeChunk ++ w.dataChunk) w.node := by
  obtain ⟨lab, row, htr, hdata, hR, _, _⟩ := h
  intro n b e hc
  apply readNode_nodeChunk w _ hc
  have hn := cell_lt hc
  obtain ⟨q, hq⟩ : ∃ q, lab[n]? = some q := ⟨_, List.getElem?_eq_getElem (by rw [htr.len]; exact hn)⟩
  obtain ⟨e', he', hcase⟩ := htr.cell_cases b hq
  rw [hc] at he'
  cases he'
  unfold wordOf
  rcases hcase with ⟨v, rfl, hv, hrow⟩ | ⟨rfl, _⟩ | ⟨hpos, hl, _⟩
  · obtain ⟨d, _, hd⟩ := hR _ _ hrow
    have := hdata.off_le hd
    rw [if_pos (by omega)]; omega
  · rw [if_pos (by omega)]; omega
  · have := htr.lab_lt hl
    rw [if_neg (by omega)]; omega

/-- The record behind an offset is found in the saved bytes. -/
theorem resolve_saved {w : Writer} (hdata : DataInv w) {r : Reader} (hrd : r.data = w.nodeChunk ++ w.dataChunk)
    (hnc : r.nodeCount = w.node.length) (hfs : r.data.length < r.fileSize) {d : Str} {v : Nat}
    (hd : mapGet w.dataHash d = some v) : r.resolve (w.node.length + v) = .ok (d.take (d.length % 65536)) := by
  obtain ⟨pre, post, h1, h2⟩ := hdata.at hd
  have hlen : r.data.length = 8 * w.node.length + 8 + (pre.length + (2 + d.length) + post.length) := by
    rw [hrd, List.length_append, nodeChunk_length, h1]
    simp [recBytes, intToBE16]; omega
  unfold Reader.resolve
  dsimp only
  rw [hnc]
  have hres : ((w.node.length + v : Nat) : Int) - (w.node.length : Int) + (w.node.length : Int) * 8 =
      ((8 * w.node.length + 8 + pre.length : Nat) : Int) := by omega
  rw [hres]
  rw [if_neg (by omega), if_neg (by omega)]
  have hdrop : r.data.drop (8 * w.node.length + 8 + pre.length) = recBytes d ++ post := by
    rw [hrd, h1, ← nodeChunk_length w, ← List.drop_drop, List.drop_left, List.append_assoc, List.drop_left]
  rw [Int.toNat_natCast, hdrop]
  have hb2 : (intToBE16 d.length).length = 2 := rfl
  have hval : val ((recBytes d ++ post).take 2) = d.length % 65536 := by
    unfold recBytes
    rw [List.append_assoc, List.take_left' hb2]
    simp only [intToBE16, val, List.length_cons, List.length_nil, UInt8.toNat_ofNat']
    omega
  have hmod : d.length % 65536 ≤ d.length := Nat.mod_le _ _
  rw [hval, if_neg (by omega)]
  congr 1
  rw [← List.drop_drop, hdrop]
  unfold recBytes
  rw [List.append_assoc, List.drop_left' hb2, List.take_append_of_le_length hmod]

theorem find0_saved {w : Writer} {R : List Bool → Option Str} (h : WInv w R) {r : Reader}
    (hreads : Reads r.data w.node) (hcache : CacheOK r)
    (hnc : r.nodeCount = w.node.length) (hv4 : r.md.HasIPv4 = true → v4offsetLoop r.data r.nodeCount 96 0 0 = .ok r.v4offset)
    (hres : ∀ d v, mapGet w.dataHash d = some v → r.resolve (w.node.length + v) = .ok (d.take (d.length % 65536)))
    {a : IP} (ha : ValidIP a)
    (h4 : (To4 a).isSome → r.md.HasIPv4 = true) (h6 : (To4 a).isSome = false → r.md.HasIPv6 = true) :
    (∀ q d, q <+: path128 a → R q = some d →
      r.find0 a = .ok (w.node.length + (mapGet w.dataHash d).getD 0, d.take (d.length % 65536), q.length - if (To4 a).isSome then 96 else 0)) ∧
    ((∀ q, q <+: path128 a → R q = none) → r.find0 a = .err .dataNotExists) := by
  obtain ⟨lab, row, htr, hdata, hR, hRn, hlen⟩ := h
  have hrow : ∀ q d, R q = some d → ∃ v, row q = some v ∧ mapGet w.dataHash d = some v := by
    intro q d hq
    cases hr : row q with
    | none => rw [hRn q hr] at hq; cases hq
    | some v =>
      obtain ⟨d', h1, h2⟩ := hR q v hr
      rw [hq] at h1; cases h1
      exact ⟨v, rfl, h2⟩
  have hrown : ∀ q, R q = none → row q = none := by
    intro q hq
    cases hr : row q with
    | none => rfl
    | some v => obtain ⟨d, h1, _⟩ := hR q v hr; rw [hq] at h1; cases h1
  cases hto : To4 a with
  | some b =>
    obtain ⟨hp, hbl⟩ := path128_v4 hto
    have hs4 := h4 (by rw [hto]; rfl)
    obtain ⟨v4, hv4', _, hsearch⟩ := plainSearch_v4 htr hlen hreads
    have hv4e := hv4 hs4
    rw [hnc, hv4'] at hv4e
    cases hv4e
    obtain ⟨hs1, hs2⟩ := hsearch b hbl
    have hsr := search_v4 hcache hbl
    rw [hnc] at hsr
    rw [hp]
    constructor
    · intro q d hq hRq
      obtain ⟨v, hv1, hv2⟩ := hrow q d hRq
      unfold Reader.find0
      rw [hto]
      simp only [hs4, Bool.not_true, Bool.false_eq_true, if_false]
      rw [hsr, hs1 q v hq hv1, Res.ok_bind]
      simp only [hres d v hv2, Res.ok_bind, hv2, Option.getD_some, Option.isSome_some, if_true, Res.pure_eq]
    · intro hn
      unfold Reader.find0
      rw [hto]
      simp only [hs4, Bool.not_true, Bool.false_eq_true, if_false]
      rw [hsr, hs2 (fun q hq => hrown q (hn q hq)), Res.err_bind]
  | none =>
    have hl := To4_none_length ha hto
    have hp : path128 a = bits a := by unfold path128; rw [To16_16 hl]; rfl
    have hs6 := h6 (by rw [hto]; rfl)
    obtain ⟨hs1, hs2⟩ := plainSearch_v6 htr hlen hreads hl
    have hsr := search_v6 r a
    rw [hnc] at hsr
    rw [hp]
    constructor
    · intro q d hq hRq
      obtain ⟨v, hv1, hv2⟩ := hrow q d hRq
      unfold Reader.find0
      rw [hto]
      simp only [To16_16 hl, hs6, Bool.not_true, Bool.false_eq_true, if_false]
      rw [hsr, hs1 q v hq hv1, Res.ok_bind]
      simp only [hres d v hv2, Res.ok_bind, hv2, Option.getD_some, Option.isSome_none,
        Bool.false_eq_true, if_false, Res.pure_eq, Nat.sub_zero]
    · intro hn
      unfold Reader.find0
      rw [hto]
      simp only [To16_16 hl, hs6, Bool.not_true, Bool.false_eq_true, if_false]
      rw [hsr, hs2 (fun q hq => hrown q (hn q hq)), Res.err_bind]

theorem Res.bind_ok_intro {α β : Type} {x : Res α} {f : α → Res β} {a : α} {b : β} (h1 : x = .ok a) (h2 : f a = .ok b) :
    (x >>= f) = .ok b := by rw [h1]; exact h2

/-- What a reader of a packed file finds, whatever the size of the records: the stored record, as much of it as its two
length bytes say. -/
structure WrittenLong (now : Int) (ipd : IpData) (r : Reader) : Prop where
  md : ∃ N S, r.md = { buildMeta now ipd.version ipd.fields with nodeCount := N, totalSize := S }
  continent : r.continentOffset = Offset FieldContinentCode (covertFields ipd.fields)
  nc : 0 < r.nodeCount
  find : ∃ nodeOf : Str → Nat, (∀ d, 0 < nodeOf d) ∧
    ∀ a, ValidIP a →
    (((To4 a).isSome → r.md.HasIPv4 = true) → ((To4 a).isSome = false → r.md.HasIPv6 = true) →
      (∀ m, rowOf (keptRows (ipd.ips.map fun x => (x.cidr, x.values))) (addrNum a) = some m →
        r.find0 a = .ok (nodeOf (storedRec ipd.fields m.2),
          (storedRec ipd.fields m.2).take ((storedRec ipd.fields m.2).length % 65536),
          (prefix128 m.1).length - if (To4 a).isSome then 96 else 0)) ∧
      (rowOf (keptRows (ipd.ips.map fun x => (x.cidr, x.values))) (addrNum a) = none →
        r.find0 a = .err .dataNotExists))

theorem pack_written_long {enc : MetaData → Bytes} {dec : Bytes → Option MetaData} {now : Int} {ipd : IpData}
    (h : RowsWF ipd)
    (hjson : ∀ N S : Nat, N < 2 ^ 32 → S < 2 ^ 32 → dec (enc { buildMeta now ipd.version ipd.fields with nodeCount := N, totalSize := S }) =
      some { buildMeta now ipd.version ipd.fields with nodeCount := N, totalSize := S }) :
    ∃ bytes, pack enc now ipd = .ok bytes ∧
      (bytes.length < 2 ^ 32 → ∃ r, newReaderFromBytes dec bytes = .ok r ∧ WrittenLong now ipd r) := by
  obtain ⟨w, hw1, hw2, hw3, _⟩ := insertAll_pack h now
  refine ⟨w.Save enc, ?_, ?_⟩
  · unfold pack; rw [hw1]; rfl
  intro hlen
  have hL := Writer.Save_length enc w
  rw [hL] at hlen
  have hsm : w.savedMeta = { buildMeta now ipd.version ipd.fields with
      nodeCount := w.node.length, totalSize := (w.nodeChunk.length + w.dataChunk.length : Nat) } := by
    unfold Writer.savedMeta; rw [hw3]
  have hdec : dec (enc w.savedMeta) = some w.savedMeta := by
    rw [hsm]; exact hjson _ _ (by omega) (by rw [nodeChunk_length]; omega)
  have hreads := reads_saved hw2 (by omega)
  have hbe : (intToBE32 (enc w.savedMeta).length).length = 4 := rfl
  have htake : (w.Save enc).take 4 = intToBE32 (enc w.savedMeta).length := by
    unfold Writer.Save
    rw [List.append_assoc, List.append_assoc, List.take_left' hbe]
  have hval : val ((w.Save enc).take 4) = (enc w.savedMeta).length := by
    rw [htake, val_intToBE32 (by omega)]
  have hmeta : ((w.Save enc).drop 4).take (enc w.savedMeta).length = enc w.savedMeta := by
    unfold Writer.Save
    rw [List.append_assoc, List.append_assoc, List.drop_left' hbe, List.take_left]
  have hbody : (w.Save enc).drop (4 + (enc w.savedMeta).length) = w.nodeChunk ++ w.dataChunk := by
    unfold Writer.Save
    rw [← List.drop_drop, List.append_assoc, List.append_assoc, List.drop_left' hbe, List.drop_left]
  have hmdl : w.savedMeta.languages = [(gs "CN", 0)] := by rw [hsm]; rfl
  have hmdf : w.savedMeta.fields = covertFields ipd.fields := by rw [hsm]; rfl
  have hmdn : w.savedMeta.nodeCount = w.node.length := by rw [hsm]
  have hts : w.savedMeta.totalSize = ((8 * w.node.length + 8 + w.dataChunk.length : Nat) : Int) := by
    rw [hsm, nodeChunk_length]
  have hfl : (covertFields ipd.fields).length ≠ 0 := by
    rw [covertFields_length]; intro hc; exact h.fields (List.length_eq_zero_iff.mp hc)
  have hNpos : 0 < w.node.length := by
    obtain ⟨lab, row, htr, _⟩ := hw2
    exact htr.lab_lt htr.root
  -- the reader
  have hnr : ∃ r, newReaderFromBytes dec (w.Save enc) = .ok r ∧ r.md = w.savedMeta ∧
      r.data = w.nodeChunk ++ w.dataChunk ∧ r.nodeCount = w.node.length ∧ r.fileSize = (w.Save enc).length ∧
      r.continentOffset = Offset FieldContinentCode (covertFields ipd.fields) ∧
      (r.md.HasIPv4 = true → v4offsetLoop r.data r.nodeCount 96 0 0 = .ok r.v4offset) := by
    unfold newReaderFromBytes
    dsimp only
    rw [if_neg (by rw [hL]; omega), hval, if_neg (by rw [hL]; omega), hmeta, hdec]
    dsimp only
    rw [if_neg (by rw [hmdl, hmdf]; simp; exact fun hc => hfl (by rw [hc]; rfl)), if_neg (by rw [hL, hts]; omega), hbody, hmdn, hmdf]
    by_cases hh : w.savedMeta.HasIPv4 = true
    · rw [if_pos hh]
      obtain ⟨lab, row, htr, hdata, hR, hRn, hlen'⟩ := hw2
      obtain ⟨v4, hv4, hwalk, _⟩ := plainSearch_v4 htr hlen' hreads
      have hcache : ∃ c, initBitsCache (w.nodeChunk ++ w.dataChunk) w.node.length v4 = .ok c := by
        apply mapM_ok
        intro i _
        obtain ⟨x, hx⟩ := hwalk (indexToBytes i) 14 (by rw [bits_length]; simp [indexToBytes]) (by omega)
        exact ⟨_, by unfold cacheEntry; rw [hx]; rfl⟩
      obtain ⟨c, hc⟩ := hcache
      rw [hv4]
      simp only [Res.ok_bind, hc]
      exact ⟨_, rfl, rfl, rfl, rfl, rfl, rfl, fun _ => hv4⟩
    · rw [if_neg hh]
      exact ⟨_, rfl, rfl, rfl, rfl, rfl, rfl, fun hc => absurd hc hh⟩
  obtain ⟨r, hr, hrmd, hrdata, hrnc, hrfs, hrco, hrv4⟩ := hnr
  refine ⟨r, hr, ⟨⟨_, _, by rw [hrmd, hsm]⟩, hrco, by rw [hrnc]; omega, ?_⟩⟩
  have hdata : DataInv w := by obtain ⟨_, _, _, hd, _⟩ := hw2; exact hd
  refine ⟨fun d => w.node.length + (mapGet w.dataHash d).getD 0, fun d => Nat.lt_of_lt_of_le hNpos (Nat.le_add_right _ _), ?_⟩
  intro a ha h4 h6
  obtain ⟨hd, hwf⟩ := keptRows_spec (rows := ipd.ips.map fun x => (x.cidr, x.values)) (by
    intro m hm
    rw [List.mem_map] at hm
    obtain ⟨x, hx, rfl⟩ := hm
    exact h.wf x hx)
  have hf := find0_saved hw2 (r := r) (by rw [hrdata]; exact hreads) (newReader_cacheOK hr) hrnc hrv4 (by
    intro d v hdv
    exact resolve_saved hdata hrdata hrnc (by rw [hrdata, hrfs, hL, List.length_append, nodeChunk_length]; omega) hdv) ha h4 h6
  constructor
  · intro m hm
    obtain ⟨h1, h2, h3, h5⟩ := rowOf_some (f := storedRec ipd.fields) (fun m hm => (hwf m hm).1) hd ha hm
    exact hf.1 _ _ h3 h5
  · intro hn
    exact hf.2 (fun q hq => rowOf_none (fun m hm => (hwf m hm).1) ha hn q hq)

theorem pack_written {enc : MetaData → Bytes} {dec : Bytes → Option MetaData} {now : Int} {ipd : IpData}
    (h : RowsOK ipd)
    (hjson : ∀ N S : Nat, N < 2 ^ 32 → S < 2 ^ 32 → dec (enc { buildMeta now ipd.version ipd.fields with nodeCount := N, totalSize := S }) =
      some { buildMeta now ipd.version ipd.fields with nodeCount := N, totalSize := S }) :
    ∃ bytes, pack enc now ipd = .ok bytes ∧
      (bytes.length < 2 ^ 32 → ∃ r, newReaderFromBytes dec bytes = .ok r ∧ Written now ipd r) := by
  obtain ⟨bytes, h1, h2⟩ := pack_written_long h.toWF hjson
  refine ⟨bytes, h1, fun hl => ?_⟩
  obtain ⟨r, h3, h4⟩ := h2 hl
  obtain ⟨nodeOf, hpos, hf⟩ := h4.find
  refine ⟨r, h3, ⟨h4.md, h4.continent, h4.nc, nodeOf, hpos, fun a ha h5 h6 => ⟨fun m hm => ?_, (hf a ha h5 h6).2⟩⟩⟩
  have hk := (keptRows_spec (rows := ipd.ips.map fun x => (x.cidr, x.values)) (by
    intro m hm
    rw [List.mem_map] at hm
    obtain ⟨x, hx, rfl⟩ := hm
    exact h.wf x hx)).2 m (by unfold rowOf at hm; exact List.mem_of_find?_eq_some hm)
  obtain ⟨x, hx, he⟩ := List.mem_map.mp hk.2
  have hsmall : (storedRec ipd.fields m.2).length < 65536 := by
    rw [← he]
    exact Nat.lt_of_le_of_lt (join_convD_length _ _) (h.small x hx)
  have := (hf a ha h5 h6).1 m hm
  rw [Nat.mod_eq_of_lt hsmall, List.take_length] at this
  exact this

end Uip.Ipdb
