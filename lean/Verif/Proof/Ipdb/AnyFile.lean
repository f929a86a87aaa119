import Verif.Spec.AnyFile
import Verif.Proof.Ipdb.ReaderEnd
import Verif.Proof.Ipdb.Exact
/-!
# The three readers on well-formed files of any origin
-/
namespace Uip.Ipdb
open Uip Uip.Spec
open Uip.Java (i32_id)

/-- The parts of a well-formed file, with the node count as a natural number. -/
structure Parts (m : MetaData) (file : Bytes) (N : Nat) : Prop where
  count : m.nodeCount = N
  pos : 0 < N
  length : file.length = 4 + jsonLength file + (fileBody file).length
  total : m.totalSize = (fileBody file).length
  table : 8 * N ≤ (fileBody file).length
  sm : file.length < 2 ^ 31
  small : Java.Small (fileBody file) N

theorem parts {m : MetaData} {file : Bytes} (h : WellFormed m file) : ∃ N, Parts m file N := by
  obtain ⟨N, hN⟩ := Int.eq_ofNat_of_zero_le (Int.le_of_lt h.count)
  have h1 := h.size
  have h2 := h.table
  have h3 := h.count
  have h4 := h.small
  have hb : (fileBody file).length = file.length - (4 + jsonLength file) := List.length_drop ..
  have ht : m.totalSize = (fileBody file).length := by omega
  refine ⟨N, ⟨hN, by omega, by omega, ht, by omega, h.small, by omega, by omega, ?_⟩⟩
  intro n hn b hb2
  have hlt : 8 * n + 4 * b + 4 ≤ (fileBody file).length := by omega
  refine ⟨val (((fileBody file).drop (n * 8 + b * 4)).take 4), ?_, ?_⟩
  · unfold readNode
    simp only []
    rw [if_neg (by omega)]
  · have hc : child (fileBody file) n (b == 1) = some (val (((fileBody file).drop (n * 8 + b * 4)).take 4)) := by
      have : (b == 1).toNat = b := by
        have : b = 0 ∨ b = 1 := by omega
        rcases this with rfl | rfl <;> rfl
      unfold child
      simp only [this]
      rw [if_pos (by omega), Nat.mul_comm 8, Nat.mul_comm 4]
    exact h.numbers n (b == 1) _ (by omega) hc

section
variable {m : MetaData} {file : Bytes} {N : Nat} {dec : Bytes → Option MetaData}

theorem Parts.v4 (h : Parts m file N) : ∃ v4, v4offsetLoop (fileBody file) N 96 0 0 = .ok v4 := by
  rw [v4offsetLoop_eq _ _ _ _ _ rfl]
  obtain ⟨x, hx⟩ := Java.readDepth_total h.small (ip := v4InV6Prefix) 96 0 0 (by decide)
  exact ⟨x.1, by rw [hx]; rfl⟩

theorem Parts.meta4 (h : Parts m file N) : (file.drop 4).take (jsonLength file) = jsonBlock file := rfl

theorem Parts.body (h : Parts m file N) : file.drop (jsonLength file + 4) = fileBody file := by
  unfold fileBody; rw [Nat.add_comm]

theorem java_open_any (h : Parts m file N) (hdec : dec (jsonBlock file) = some m) :
    ∃ r, Java.Reader dec file = .ok r ∧ r.md = m ∧ r.data = fileBody file ∧ r.fileSize = file.length ∧ r.resultCache = none ∧
      Java.Ready r N := by
  have hlen := h.length
  have hpos := h.pos
  have hnd := h.table
  have hS := h.small
  have hsm := h.sm
  obtain ⟨v4, hv4⟩ := h.v4
  have e1 : Java.i32 (val (file.take 4)) = jsonLength file := by
    show Java.i32 (jsonLength file : Nat) = _
    rw [i32_id (by omega) (by omega)]
  have e2 : Java.i32 ((jsonLength file : Int) + 4) = jsonLength file + 4 := i32_id (by omega) (by omega)
  have e3 : Java.copyOfRange file 4 ((jsonLength file : Int) + 4) = .ok (jsonBlock file) := by
    unfold Java.copyOfRange
    rw [if_neg (by omega)]
    have : ((jsonLength file : Int) + 4 - 4).toNat = jsonLength file := by omega
    rw [this, show (4 : Int).toNat = 4 from rfl]
    have hl : (jsonBlock file).length = jsonLength file := by
      unfold jsonBlock; rw [List.length_take, List.length_drop]; omega
    show Res.ok (jsonBlock file ++ List.replicate (jsonLength file - (jsonBlock file).length) 0) = _
    rw [hl, Nat.sub_self]; simp
  have e4 : Java.i32 (Java.i32 (m.totalSize + jsonLength file) + 4) = file.length := by
    rw [h.total, i32_id (x := ((fileBody file).length : Int) + jsonLength file) (by omega) (by omega), i32_id (by omega) (by omega)]
    omega
  have e5 : Java.copyOfRange file ((jsonLength file : Int) + 4) file.length = .ok (fileBody file) := by
    unfold Java.copyOfRange
    rw [if_neg (by omega)]
    have : ((file.length : Int) - ((jsonLength file : Int) + 4)).toNat = (fileBody file).length := by omega
    rw [this, show ((jsonLength file : Int) + 4).toNat = jsonLength file + 4 by omega, h.body, List.take_length]
    simp
  unfold Java.Reader
  simp only []
  rw [if_neg (by omega), e1, e2, e3]
  simp only [hdec]
  rw [if_neg (by rw [e4]; simp), e5, Res.ok_bind]
  by_cases h4 : m.ipVersion &&& 1 = 1
  · rw [if_pos h4, h.count]
    have hj := Java.v4Loop_go hS 96 0 0 v4 hv4
    obtain ⟨c, hc, _⟩ := Java.initCache_go hS v4
    rw [show ((0 : Nat) : Int) = 0 from rfl] at hj
    rw [hj, Res.ok_bind, hc, Res.ok_bind]
    refine ⟨_, rfl, rfl, rfl, rfl, rfl, ?_⟩
    exact ⟨rfl, hS, fun _ => ⟨v4, hv4, rfl, c, rfl, hc⟩⟩
  · rw [if_neg h4]
    refine ⟨_, rfl, rfl, rfl, rfl, rfl, ?_⟩
    refine ⟨h.count, hS, fun hc => ?_⟩
    simp only [Java.JReader.isIPv4, beq_iff_eq] at hc
    exact absurd hc h4

theorem rust_open_any (h : Parts m file N) (hdec : dec (jsonBlock file) = some m) :
    ∃ r, Rust.Reader dec file = .ok r ∧ r.md = m ∧ r.data = fileBody file ∧ r.fileSize = file.length ∧ r.nodeCount = N ∧
      (r.isIPv4 = true → ∃ v4 : Nat, v4offsetLoop (fileBody file) N 96 0 0 = .ok v4 ∧ r.v4offset = v4 ∧
        r.ipv4BitsCache ≠ [] ∧ Java.initCache (fileBody file) N v4 = .ok r.ipv4BitsCache) ∧
      (r.isIPv4 = false → r.ipv4BitsCache = []) := by
  have hlen := h.length
  have hpos := h.pos
  have hnd := h.table
  have hS := h.small
  have hsm := h.sm
  obtain ⟨v4, hv4⟩ := h.v4
  have e1 : Rust.i32 (val (file.take 4)) = jsonLength file := by
    show Rust.i32 (jsonLength file : Nat) = _
    rw [show @Rust.i32 = @Java.i32 from rfl, i32_id (by omega) (by omega)]
  have hnew : Rust.MetaDataNew dec file = .ok (m, jsonLength file) := by
    unfold Rust.MetaDataNew
    simp only []
    rw [if_neg (by omega), e1, if_neg (by omega), if_neg (by omega), Int.toNat_natCast, h.meta4, hdec]
  have e4 : Rust.i32 (Rust.i32 (m.totalSize + Rust.i32 (jsonLength file : Nat)) + 4) = file.length := by
    rw [show @Rust.i32 = @Java.i32 from rfl, i32_id (x := (jsonLength file : Int)) (by omega) (by omega), h.total,
      i32_id (x := ((fileBody file).length : Int) + jsonLength file) (by omega) (by omega), i32_id (by omega) (by omega)]
    omega
  have e6 : Rust.i32 (file.length : Nat) = file.length := i32_id (by omega) (by omega)
  unfold Rust.Reader
  rw [hnew, Res.ok_bind]
  simp only []
  rw [if_neg (by rw [e4, e6]; simp), e6, h.body, h.count]
  by_cases h4 : m.ipVersion &&& 1 = 1
  · have hi : Rust.RReader.isIPv4 { md := m, fileSize := (file.length : Int), nodeCount := (N : Int), data := fileBody file, v4offset := 0, ipv4BitsCache := [] } = true := by
      simp [Rust.RReader.isIPv4, h4]
    rw [if_pos hi]
    have hj := Java.v4Loop_rust hS 96 0 0 v4 (.inl hpos) hv4
    obtain ⟨c, hc, hcn, _⟩ := Java.initCache_go hS v4
    rw [show ((0 : Nat) : Int) = 0 from rfl] at hj
    have hc' : Rust.initCache (fileBody file) N v4 = .ok c := by
      rw [← hc]
      unfold Rust.initCache Java.initCache
      simp only [Java.rust_readDepth]
      rfl
    rw [hj, Res.ok_bind, hc', Res.ok_bind]
    refine ⟨_, rfl, rfl, rfl, rfl, rfl, fun _ => ⟨v4, hv4, rfl, hcn, hc⟩, fun hc => ?_⟩
    exact absurd (hi.symm.trans hc) (by decide)
  · have hi : Rust.RReader.isIPv4 { md := m, fileSize := (file.length : Int), nodeCount := (N : Int), data := fileBody file, v4offset := 0, ipv4BitsCache := [] } = false := by
      unfold Rust.RReader.isIPv4; exact beq_false_of_ne h4
    rw [if_neg (by rw [hi]; decide)]
    refine ⟨_, rfl, rfl, rfl, rfl, rfl, fun hc => ?_, fun _ => rfl⟩
    exact absurd (hi.symm.trans hc) (by decide)

theorem go_open_any (h : Parts m file N) (hf : m.fields ≠ []) {lang : Str} {off : Int} (hl : mapGet m.languages lang = some off)
    (hdec : dec (jsonBlock file) = some m) :
    ∃ r, newReaderFromBytes dec file = .ok r ∧ r.md = m ∧ r.data = fileBody file ∧ r.fileSize = file.length ∧
      r.nodeCount = N ∧ r.continentOffset = Offset FieldContinentCode m.fields := by
  have hlen := h.length
  obtain ⟨v4, hv4⟩ := h.v4
  have hlang : m.languages.length ≠ 0 := by
    intro hc
    rw [List.length_eq_zero_iff.mp hc] at hl
    cases hl
  have hfl : m.fields.length ≠ 0 := fun hc => hf (List.length_eq_zero_iff.mp hc)
  unfold newReaderFromBytes
  simp only []
  rw [if_neg (by omega)]
  have e0 : val (file.take 4) = jsonLength file := rfl
  rw [e0, if_neg (by omega), h.meta4, hdec]
  simp only []
  rw [if_neg (by omega), if_neg (by rw [h.total]; omega)]
  have e1 : file.drop (4 + jsonLength file) = fileBody file := rfl
  rw [e1, h.count]
  split
  · rw [hv4, Res.ok_bind]
    obtain ⟨c, hc⟩ := mapM_ok (f := cacheEntry (fileBody file) N v4) (xs := List.range (2 ^ 14)) (by
      intro i _
      obtain ⟨x, hx⟩ := Java.readDepth_total h.small (ip := indexToBytes i) 14 v4 0 (by simp [indexToBytes])
      exact ⟨_, by unfold cacheEntry; rw [hx]; rfl⟩)
    have hc' : initBitsCache (fileBody file) N v4 = .ok c := hc
    rw [hc', Res.ok_bind]
    exact ⟨_, rfl, rfl, rfl, rfl, rfl, rfl⟩
  · exact ⟨_, rfl, rfl, rfl, rfl, rfl, rfl⟩

end

end Uip.Ipdb
