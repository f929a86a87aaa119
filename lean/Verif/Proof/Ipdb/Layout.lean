import Verif.Proof.Ipdb.Query
import Verif.Proof.Ipdb.Readers
/-!
# The layout of a packed file, as any reader sees it
-/
namespace Uip.Ipdb
open Uip Uip.Spec

/-- The bytes of a packed file: metadata, `N` nodes, the loop-back node, the records; where the walk of
every address ends. -/
structure Layout (enc : MetaData → Bytes) (now : Int) (ipd : IpData) (bytes : Bytes) (md : MetaData)
    (data : Bytes) (N : Nat) : Prop where
  file : bytes = intToBE32 (enc md).length ++ (enc md ++ data)
  metaLen : (enc md).length < 2 ^ 32
  meta' : md = { buildMeta now ipd.version ipd.fields with nodeCount := N, totalSize := (data.length : Nat) }
  pos : 0 < N
  nodes : 8 * N + 8 ≤ data.length
  loop : ∃ rest, data.drop (8 * N) = intToBE32 N ++ rest
  small : data.length < 2 ^ 31 → Java.Small data N
  v4 : ∃ v4, v4offsetLoop data N 96 0 0 = .ok v4
  covered : ∀ a a16, To16 a = some a16 → ∀ m, rowOf (keptRows (rowsOf ipd)) (addrNum a) = some m →
    ∃ o d rest, readDepth data N a16 128 0 0 = .ok (N + o, d) ∧ 0 < o ∧
      data.drop (8 * N + o) = intToBE16 (storedRec ipd.fields m.2).length ++ (storedRec ipd.fields m.2 ++ rest)
  uncovered : ∀ a a16, To16 a = some a16 → rowOf (keptRows (rowsOf ipd)) (addrNum a) = none →
    ∃ d, readDepth data N a16 128 0 0 = .ok (N, d)

theorem To16_some_valid {a a16 : IP} (h : To16 a = some a16) : ValidIP a ∧ a16.length = 16 ∧ path128 a = bits a16 := by
  have hv : ValidIP a := by
    unfold To16 at h
    unfold ValidIP
    split at h
    · exact .inl ‹_›
    · split at h
      · exact .inr ‹_›
      · cases h
  refine ⟨hv, ?_, by unfold path128; rw [h]; rfl⟩
  obtain ⟨b, hb, hl, _⟩ := To16_valid hv
  rw [h] at hb; cases hb; exact hl

theorem pack_layout {enc : MetaData → Bytes} {now : Int} {ipd : IpData} (h : RowsOK ipd) {bytes : Bytes}
    (hp : pack enc now ipd = .ok bytes) (hlen : bytes.length < 2 ^ 32) :
    ∃ md data N, Layout enc now ipd bytes md data N := by
  obtain ⟨w, hw1, hw2, hw3, _⟩ := insertAll_pack h.toWF now
  have hs : bytes = w.Save enc := by
    unfold pack at hp; rw [hw1] at hp; cases hp; rfl
  subst hs
  have hL := Writer.Save_length enc w
  rw [hL] at hlen
  have hreads := reads_saved hw2 (by omega)
  have hw2' := hw2
  obtain ⟨lab, row, htr, hdata, hR, hRn, hlen'⟩ := hw2
  have hrow : ∀ q d, tableOf (storedRec ipd.fields) (keptRows (rowsOf ipd)) q = some d →
      ∃ v, row q = some v ∧ mapGet w.dataHash d = some v := by
    intro q d hq
    cases hr : row q with
    | none => rw [show tableOf (storedRec ipd.fields) (keptRows (rowsOf ipd)) q = none from hRn q hr] at hq; cases hq
    | some v =>
      obtain ⟨d', h1, h2⟩ := hR q v hr
      rw [show tableOf (storedRec ipd.fields) (keptRows (rowsOf ipd)) q = some d' from h1] at hq; cases hq
      exact ⟨v, rfl, h2⟩
  have hrown : ∀ q, tableOf (storedRec ipd.fields) (keptRows (rowsOf ipd)) q = none → row q = none := by
    intro q hq
    cases hr : row q with
    | none => rfl
    | some v =>
      obtain ⟨d, h1, _⟩ := hR q v hr
      rw [show tableOf (storedRec ipd.fields) (keptRows (rowsOf ipd)) q = some d from h1] at hq; cases hq
  obtain ⟨hd, hwf⟩ := keptRows_spec (rows := rowsOf ipd) (by
    intro m hm
    unfold rowsOf at hm
    rw [List.mem_map] at hm
    obtain ⟨x, hx, rfl⟩ := hm
    exact h.wf x hx)
  have hdl : (w.nodeChunk ++ w.dataChunk).length = 8 * w.node.length + 8 + w.dataChunk.length := by
    rw [List.length_append, nodeChunk_length]
  refine ⟨w.savedMeta, w.nodeChunk ++ w.dataChunk, w.node.length, ?_, by omega, ?_, htr.lab_lt htr.root, by omega, ?_, ?_, ?_, ?_, ?_⟩
  · unfold Writer.Save; simp only [List.append_assoc]
  · unfold Writer.savedMeta; rw [hw3, List.length_append]
  · refine ⟨intToBE32 w.node.length ++ w.dataChunk, ?_⟩
    have hl := nodeChunk_length w
    unfold Writer.nodeChunk at hl ⊢
    rw [List.append_assoc, List.append_assoc, List.drop_left']
    have e4 : (intToBE32 w.node.length).length = 4 := rfl
    rw [List.length_append, List.length_append, e4] at hl
    omega
  · intro hsm
    refine ⟨hsm, by omega, ?_⟩
    intro n hn b hb
    obtain ⟨bb, rfl⟩ : ∃ bb : Bool, bb.toNat = b := by
      rcases (by omega : b = 0 ∨ b = 1) with rfl | rfl
      · exact ⟨false, rfl⟩
      · exact ⟨true, rfl⟩
    obtain ⟨q, hq⟩ : ∃ q, lab[n]? = some q := ⟨_, List.getElem?_eq_getElem (by rw [htr.len]; exact hn)⟩
    obtain ⟨e, he, hcase⟩ := htr.cell_cases bb hq
    refine ⟨_, hreads n bb e he, ?_⟩
    unfold wordOf
    rcases hcase with ⟨v, rfl, hv, hrow⟩ | ⟨rfl, _⟩ | ⟨hpos, hl, _⟩
    · obtain ⟨d, _, hd⟩ := hR _ _ hrow
      have := hdata.off_le hd
      rw [if_pos (by omega)]; omega
    · rw [if_pos (by omega)]; omega
    · have := htr.lab_lt hl
      rw [if_neg (by omega)]; omega
  · obtain ⟨v4, hv4, _⟩ := plainSearch_v4 htr hlen' hreads
    exact ⟨v4, hv4⟩
  · intro a a16 ha m hm
    obtain ⟨hv, hl, hpath⟩ := To16_some_valid ha
    obtain ⟨h1, h2, h3, h5⟩ := rowOf_some (f := storedRec ipd.fields) (fun m hm => (hwf m hm).1) hd hv hm
    obtain ⟨v, hv1, hv2⟩ := hrow _ _ h5
    rw [hpath] at h3
    have hbl : (bits a16).length = 128 := by rw [bits_length, hl]
    have hq : prefix128 m.1 = (bits a16).take (prefix128 m.1).length := (List.prefix_iff_eq_take.mp h3)
    obtain ⟨hvpos, n0, q0, b0, hq0, _, _⟩ := htr.rows _ _ hv1
    have hql : 0 < (prefix128 m.1).length := by rw [hq0]; simp
    have hql2 := h3.length_le
    obtain ⟨pre, post, hc1, hc2⟩ := hdata.at hv2
    refine ⟨v, (prefix128 m.1).length, post, ?_, hvpos, ?_⟩
    · apply walk_hit htr hreads (pre := []) 128 0 0 _ v (by omega) (by simpa using htr.root) hql (by omega)
      rw [List.nil_append, ← hq]; exact hv1
    · rw [hc2, ← Nat.add_assoc, hc1, ← nodeChunk_length w, ← List.drop_drop, List.drop_left, List.append_assoc, List.drop_left]
      unfold recBytes
      rw [List.append_assoc]
  · intro a a16 ha hn
    obtain ⟨hv, hl, hpath⟩ := To16_some_valid ha
    have hbl : (bits a16).length = 128 := by rw [bits_length, hl]
    have hnone := fun q hq => hrown q (rowOf_none (f := storedRec ipd.fields) (fun m hm => (hwf m hm).1) hv hn q hq)
    obtain ⟨n', i', hr, hc⟩ := walk_miss htr hreads (ip := a16) (pre := []) 128 0 0 (by omega) (by simpa using htr.root) (by
      intro j _ _
      rw [List.nil_append]
      apply hnone
      rw [hpath]
      exact List.take_prefix _ _)
    rcases hc with rfl | ⟨_, hlab⟩
    · exact ⟨_, hr⟩
    · exfalso
      exact no_full_label htr hlen' (by simp [hbl]) hlab

end Uip.Ipdb
