import Verif.Proof.Ipdb.ReaderInfo
/-!
# The Java and Rust readers open packed files and answer with their records
-/
namespace Uip.Ipdb
open Uip Uip.Spec
open Uip.Java (i32_id)

/-! ## Texts -/

def IsText (b : Str) : Prop := ∃ cs : List Char, b = cs.flatMap String.utf8EncodeChar

theorem IsText.gs (s : String) : IsText (gs s) := ⟨_, rfl⟩

theorem IsText.append {a b : Str} (ha : IsText a) (hb : IsText b) : IsText (a ++ b) := by
  obtain ⟨x, rfl⟩ := ha; obtain ⟨y, rfl⟩ := hb
  exact ⟨x ++ y, by rw [List.flatMap_append]⟩

theorem IsText.tab : IsText [0x09] := ⟨['\t'], by decide⟩

theorem IsText.join : ∀ l : List Str, (∀ s ∈ l, IsText s) → IsText (joinByte 0x09 l) := by
  intro l
  induction l with
  | nil => intro _; exact ⟨[], rfl⟩
  | cons x l ih =>
    intro h
    cases l with
    | nil => exact h x (by simp)
    | cons y r =>
      rw [joinByte, List.append_cons]
      exact ((h x (by simp)).append .tab).append (ih (fun s hs => h s (by simp [List.mem_cons] at hs ⊢; exact .inr hs)))

theorem IsText.continentCode {s : Str} (h : IsText s) : IsText (continentCode s) := by
  unfold Ipdb.continentCode
  repeat' split
  all_goals first | exact h | exact .gs _

theorem IsText.storedRec {fields values : List Str} (h : ∀ v ∈ values, IsText v) : IsText (storedRec fields values) := by
  unfold Ipdb.storedRec
  apply IsText.join
  intro s hs
  unfold convD at hs
  split at hs
  · exact h s hs
  · rcases mem_modify hs with h1 | ⟨t, ht, rfl⟩
    · exact h s h1
    · exact (h t ht).continentCode

theorem IsText.utf8 {utf8 : Bytes → Str} (hu : ∀ s : String, utf8 (Uip.gs s) = Uip.gs s) {b : Str} (h : IsText b) : utf8 b = b := by
  obtain ⟨cs, rfl⟩ := h
  have := hu (String.ofList cs)
  unfold Uip.gs at this
  rwa [String.toList_ofList] at this

/-! ## Splitting -/

theorem splitByte_ne_nil (s : Str) : splitByte 0x09 s ≠ [] := by
  cases s with
  | nil => simp [splitByte]
  | cons b s => simp only [splitByte]; split <;> (try split) <;> simp

theorem splitPos_eq : ∀ (n : Nat) (s : Str), (splitByte 0x09 s).length ≤ n → Java.splitPos n s = splitByte 0x09 s := by
  have one : ∀ s : Str, (0x09 : UInt8) ∉ s → splitByte 0x09 s = [s] := by
    intro s
    induction s with
    | nil => intro _; rfl
    | cons b s ih =>
      intro h
      simp only [List.mem_cons, not_or] at h
      rw [splitByte, if_neg (Ne.symm h.1), ih h.2]
  have cut : ∀ s : Str, (0x09 : UInt8) ∈ s → ∃ r, s.dropWhile (· != 0x09) = 0x09 :: r ∧
      splitByte 0x09 s = s.takeWhile (· != 0x09) :: splitByte 0x09 r := by
    intro s
    induction s with
    | nil => intro h; cases h
    | cons b s ih =>
      intro h
      by_cases hb : b = 0x09
      · subst hb
        refine ⟨s, by simp, ?_⟩
        rw [splitByte, if_pos rfl]; simp
      · obtain ⟨r, h1, h2⟩ := ih (by simpa [Ne.symm hb] using h)
        refine ⟨r, by simp [hb, h1], ?_⟩
        rw [splitByte, if_neg hb, h2]
        simp [hb]
  intro n
  induction n with
  | zero =>
    intro s h
    exact absurd (List.length_eq_zero_iff.mp (Nat.le_zero.mp h)) (splitByte_ne_nil s)
  | succ n ih =>
    intro s h
    by_cases ht : (0x09 : UInt8) ∈ s
    · obtain ⟨r, h1, h2⟩ := cut s ht
      rw [h2] at h ⊢
      cases n with
      | zero =>
        simp only [List.length_cons] at h
        exact absurd (List.length_eq_zero_iff.mp (by omega)) (splitByte_ne_nil r)
      | succ n =>
        simp only [Java.splitPos, h1]
        rw [ih r (by simpa using h)]
    · rw [one s ht]
      cases n with
      | zero => rfl
      | succ n =>
        have : s.dropWhile (· != 0x09) = [] := by
          clear h ih
          induction s with
          | nil => rfl
          | cons b s ih2 =>
            simp only [List.mem_cons, not_or] at ht
            rw [List.dropWhile_cons_of_pos (by simp [Ne.symm ht.1]), ih2 ht.2]
        simp only [Java.splitPos, this]

/-! ## Opening -/

section layout
variable {enc : MetaData → Bytes} {now : Int} {ipd : IpData} {bytes : Bytes} {md : MetaData} {data : Bytes} {N : Nat}

theorem Layout.length (h : Layout enc now ipd bytes md data N) : bytes.length = 4 + (enc md).length + data.length := by
  rw [h.file]; simp [intToBE32]; omega

theorem Layout.takeLen (h : Layout enc now ipd bytes md data N) : val (bytes.take 4) = (enc md).length := by
  have hbe : (intToBE32 (enc md).length).length = 4 := rfl
  rw [h.file, List.take_left' hbe, val_intToBE32 h.metaLen]

theorem Layout.takeMeta (h : Layout enc now ipd bytes md data N) : (bytes.drop 4).take (enc md).length = enc md := by
  have hbe : (intToBE32 (enc md).length).length = 4 := rfl
  rw [h.file, List.drop_left' hbe, List.take_left]

theorem Layout.body (h : Layout enc now ipd bytes md data N) : bytes.drop ((enc md).length + 4) = data := by
  have hbe : (intToBE32 (enc md).length).length = 4 := rfl
  rw [h.file, Nat.add_comm, ← List.drop_drop, List.drop_left' hbe, List.drop_left]

theorem java_open (h : Layout enc now ipd bytes md data N) {dec : Bytes → Option MetaData} (hdec : dec (enc md) = some md)
    (hsm : bytes.length < 2 ^ 31) :
    ∃ r, Java.Reader dec bytes = .ok r ∧ r.md = md ∧ r.data = data ∧ r.fileSize = bytes.length ∧ r.resultCache = none ∧
      Java.Ready r N := by
  have hlen := h.length
  have hpos := h.pos
  have hnd := h.nodes
  have hS := h.small (by omega)
  obtain ⟨v4, hv4⟩ := h.v4
  have hmn : md.nodeCount = N := by rw [h.meta']
  have hmt : md.totalSize = data.length := by rw [h.meta']
  have e1 : Java.i32 (val (bytes.take 4)) = (enc md).length := by
    rw [h.takeLen, i32_id (by omega) (by omega)]
  have e2 : Java.i32 (((enc md).length : Int) + 4) = (enc md).length + 4 := i32_id (by omega) (by omega)
  have e3 : Java.copyOfRange bytes 4 (((enc md).length : Int) + 4) = .ok (enc md) := by
    unfold Java.copyOfRange
    rw [if_neg (by omega)]
    have : (((enc md).length : Int) + 4 - 4).toNat = (enc md).length := by omega
    rw [this, show (4 : Int).toNat = 4 from rfl, h.takeMeta]
    simp
  have e4 : Java.i32 (Java.i32 (md.totalSize + (enc md).length) + 4) = bytes.length := by
    rw [hmt, i32_id (x := (data.length : Int) + (enc md).length) (by omega) (by omega), i32_id (by omega) (by omega)]
    omega
  have e5 : Java.copyOfRange bytes (((enc md).length : Int) + 4) bytes.length = .ok data := by
    unfold Java.copyOfRange
    rw [if_neg (by omega)]
    have : ((bytes.length : Int) - (((enc md).length : Int) + 4)).toNat = data.length := by omega
    rw [this, show (((enc md).length : Int) + 4).toNat = (enc md).length + 4 by omega, h.body, List.take_length]
    simp
  unfold Java.Reader
  simp only []
  rw [if_neg (by omega), e1, e2, e3]
  simp only [hdec]
  rw [if_neg (by rw [e4]; simp), e5, Res.ok_bind]
  by_cases h4 : md.ipVersion &&& 1 = 1
  · rw [if_pos h4, hmn]
    have hj := Java.v4Loop_go hS 96 0 0 v4 hv4
    obtain ⟨c, hc, _⟩ := Java.initCache_go hS v4
    rw [show ((0 : Nat) : Int) = 0 from rfl] at hj
    rw [hj, Res.ok_bind, hc, Res.ok_bind]
    refine ⟨_, rfl, rfl, rfl, rfl, rfl, ?_⟩
    exact ⟨rfl, hS, fun _ => ⟨v4, hv4, rfl, c, rfl, hc⟩⟩
  · rw [if_neg h4]
    refine ⟨_, rfl, rfl, rfl, rfl, rfl, ?_⟩
    refine ⟨hmn, hS, fun hc => ?_⟩
    simp only [Java.JReader.isIPv4, beq_iff_eq] at hc
    exact absurd hc h4

/-- The Rust reader holds what the Java reader holds. -/
theorem rust_open (h : Layout enc now ipd bytes md data N) {dec : Bytes → Option MetaData} (hdec : dec (enc md) = some md)
    (hsm : bytes.length < 2 ^ 31) :
    ∃ r, Rust.Reader dec bytes = .ok r ∧ r.md = md ∧ r.data = data ∧ r.fileSize = bytes.length ∧ r.nodeCount = N ∧
      (r.isIPv4 = true → ∃ v4 : Nat, v4offsetLoop data N 96 0 0 = .ok v4 ∧ r.v4offset = v4 ∧
        r.ipv4BitsCache ≠ [] ∧ Java.initCache data N v4 = .ok r.ipv4BitsCache) ∧
      (r.isIPv4 = false → r.ipv4BitsCache = []) := by
  have hlen := h.length
  have hpos := h.pos
  have hnd := h.nodes
  have hS := h.small (by omega)
  obtain ⟨v4, hv4⟩ := h.v4
  have hmn : md.nodeCount = N := by rw [h.meta']
  have hmt : md.totalSize = data.length := by rw [h.meta']
  have e1 : Rust.i32 (val (bytes.take 4)) = (enc md).length := by
    rw [show @Rust.i32 = @Java.i32 from rfl, h.takeLen, i32_id (by omega) (by omega)]
  have hnew : Rust.MetaDataNew dec bytes = .ok (md, (enc md).length) := by
    unfold Rust.MetaDataNew
    simp only []
    rw [if_neg (by omega), e1, if_neg (by omega), if_neg (by omega), Int.toNat_natCast, h.takeMeta, hdec]
  have e4 : Rust.i32 (Rust.i32 (md.totalSize + Rust.i32 ((enc md).length : Nat)) + 4) = bytes.length := by
    rw [show @Rust.i32 = @Java.i32 from rfl, i32_id (x := ((enc md).length : Int)) (by omega) (by omega), hmt,
      i32_id (x := (data.length : Int) + (enc md).length) (by omega) (by omega), i32_id (by omega) (by omega)]
    omega
  have e6 : Rust.i32 (bytes.length : Nat) = bytes.length := i32_id (by omega) (by omega)
  unfold Rust.Reader
  rw [hnew, Res.ok_bind]
  simp only []
  rw [if_neg (by rw [e4, e6]; simp), e6, h.body, hmn]
  by_cases h4 : md.ipVersion &&& 1 = 1
  · have hi : Rust.RReader.isIPv4 { md := md, fileSize := (bytes.length : Int), nodeCount := (N : Int), data := data, v4offset := 0, ipv4BitsCache := [] } = true := by
      simp [Rust.RReader.isIPv4, h4]
    rw [if_pos hi]
    have hj := Java.v4Loop_rust hS 96 0 0 v4 (.inl hpos) hv4
    obtain ⟨c, hc, hcn, _⟩ := Java.initCache_go hS v4
    rw [show ((0 : Nat) : Int) = 0 from rfl] at hj
    have hc' : Rust.initCache data N v4 = .ok c := by
      rw [← hc]
      unfold Rust.initCache Java.initCache
      simp only [Java.rust_readDepth]
      rfl
    rw [hj, Res.ok_bind, hc', Res.ok_bind]
    refine ⟨_, rfl, rfl, rfl, rfl, rfl, fun _ => ⟨v4, hv4, rfl, hcn, hc⟩, fun hc => ?_⟩
    exact absurd (hi.symm.trans hc) (by decide)
  · have hi : Rust.RReader.isIPv4 { md := md, fileSize := (bytes.length : Int), nodeCount := (N : Int), data := data, v4offset := 0, ipv4BitsCache := [] } = false := by
      unfold Rust.RReader.isIPv4; exact beq_false_of_ne h4
    rw [if_neg (by rw [hi]; decide)]
    refine ⟨_, rfl, rfl, rfl, rfl, rfl, fun hc => ?_, fun _ => rfl⟩
    exact absurd (hi.symm.trans hc) (by decide)

end layout

end Uip.Ipdb
