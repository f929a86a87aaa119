import Verif.Props.Readers
/-!
# C98: cut and extended ipdb files in the three readers

`C19` is the truncation property of the Go reader.  Here: bytes added to a packed file (all three readers), and cuts in
the Java and Rust readers.
-/
namespace Uip.Ipdb
open Uip Uip.Spec

/-- The bytes before the data: four bytes of length and the metadata. -/
def headLength (bytes : Bytes) : Nat := 4 + val (bytes.take 4)

/-- `Arrays.copyOfRange` fills the metadata of a file cut after `k` bytes with zeros: the library gets this text. -/
def filledUp (bytes : Bytes) (k : Nat) : Bytes :=
  (bytes.take k).drop 4 ++ List.replicate (headLength bytes - k) 0

/-- The metadata library does not make a negative size out of a metadata text whose end is replaced by zero bytes
(a refusal is fine, and so is any size of 0 or more; sizes are Java `int`s). -/
def NoNegativeSize (dec : Bytes → Option MetaData) (bytes : Bytes) : Prop :=
  ∀ k, 5 ≤ k → k < headLength bytes → ∀ m, dec (filledUp bytes k) = some m → 0 ≤ m.totalSize ∧ m.totalSize < 2 ^ 31

section
variable {enc : MetaData → Bytes} {dec decJ : Bytes → Option MetaData} {utf8 : Bytes → Str} {now : Int} {ipd : IpData}
  {bytes : Bytes}

/-- C98: bytes added to the end of a packed file are noticed by the three readers. -/
theorem C98_extended (h : RowsOK ipd) (hj : MetaRoundTrip enc dec (buildMeta now ipd.version ipd.fields))
    (hjJ : MetaRoundTripInt enc decJ (buildMeta now ipd.version ipd.fields))
    (hp : pack enc now ipd = .ok bytes) (extra : Bytes) (hx : extra ≠ []) :
    (bytes.length < 2 ^ 32 → newQuerier dec (bytes ++ extra) = .err .fileSize) ∧
    ((bytes ++ extra).length < 2 ^ 31 → (∀ ips, Java.create decJ utf8 ips (bytes ++ extra) = .err .fileSize) ∧
      Rust.Reader decJ (bytes ++ extra) = .err .fileSize) := by
  have hxl : 0 < extra.length := List.length_pos_iff.mpr hx
  refine ⟨fun hl => ?_, fun hl => ?_⟩
  · obtain ⟨md, data, N, hlay⟩ := pack_layout h hp hl
    have hlen := hlay.length
    have hnd := hlay.nodes
    have hdec : dec (enc md) = some md := by rw [hlay.meta']; exact hj N data.length (by omega) (by omega)
    have hlen' : (bytes ++ extra).length = bytes.length + extra.length := List.length_append
    have ht : val ((bytes ++ extra).take 4) = (enc md).length := by
      rw [List.take_append_of_le_length (by omega)]; exact hlay.takeLen
    have hm : ((bytes ++ extra).drop 4).take (enc md).length = enc md := by
      rw [List.drop_append_of_le_length (by omega), List.take_append_of_le_length (by rw [List.length_drop]; omega)]
      exact hlay.takeMeta
    have hfl : (covertFields ipd.fields).length ≠ 0 := by
      rw [covertFields_length]; intro hc; exact h.fields (List.length_eq_zero_iff.mp hc)
    have hml : md.languages = [(gs "CN", 0)] := by rw [hlay.meta']; rfl
    have hmf : md.fields = covertFields ipd.fields := by rw [hlay.meta']; rfl
    have hmt : md.totalSize = data.length := by rw [hlay.meta']
    unfold newQuerier newReaderFromBytes
    simp only []
    rw [if_neg (by omega), ht, if_neg (by omega), hm, hdec]
    simp only []
    rw [if_neg (by rw [hml, hmf]; simp; exact fun hc => hfl (by rw [hc]; rfl)), if_pos (by rw [hmt]; omega)]
    rfl
  · have hlen' : (bytes ++ extra).length = bytes.length + extra.length := List.length_append
    obtain ⟨md, data, N, hlay⟩ := pack_layout h hp (by omega)
    have hlen := hlay.length
    have hdec := layout_dec hjJ hlay (by omega)
    have hmt : md.totalSize = data.length := by rw [hlay.meta']
    have ht : val ((bytes ++ extra).take 4) = (enc md).length := by
      rw [List.take_append_of_le_length (by omega)]; exact hlay.takeLen
    have hm : ((bytes ++ extra).drop 4).take (enc md).length = enc md := by
      rw [List.drop_append_of_le_length (by omega), List.take_append_of_le_length (by rw [List.length_drop]; omega)]
      exact hlay.takeMeta
    have hpos := hlay.pos
    have hnd := hlay.nodes
    have e1 : Java.i32 (val ((bytes ++ extra).take 4)) = (enc md).length := by
      rw [ht, Java.i32_id (by omega) (by omega)]
    have e2 : Java.i32 (((enc md).length : Int) + 4) = (enc md).length + 4 := Java.i32_id (by omega) (by omega)
    have e3 : Java.copyOfRange (bytes ++ extra) 4 (((enc md).length : Int) + 4) = .ok (enc md) := by
      unfold Java.copyOfRange
      rw [if_neg (by omega)]
      have : (((enc md).length : Int) + 4 - 4).toNat = (enc md).length := by omega
      rw [this, show (4 : Int).toNat = 4 from rfl, hm]
      simp
    have e4 : Java.i32 (Java.i32 (md.totalSize + (enc md).length) + 4) = bytes.length := by
      rw [hmt, Java.i32_id (x := (data.length : Int) + (enc md).length) (by omega) (by omega), Java.i32_id (by omega) (by omega)]
      omega
    refine ⟨fun ips => ?_, ?_⟩
    · have hr : Java.Reader decJ (bytes ++ extra) = .err .fileSize := by
        unfold Java.Reader
        simp only []
        rw [if_neg (by omega), e1, e2, e3]
        simp only [hdec]
        rw [if_pos (by rw [e4]; omega)]
      unfold Java.create
      rw [hr]; rfl
    · have hnew : Rust.MetaDataNew decJ (bytes ++ extra) = .ok (md, (enc md).length) := by
        unfold Rust.MetaDataNew
        simp only []
        rw [if_neg (by omega), show @Rust.i32 = @Java.i32 from rfl, e1, if_neg (by omega), if_neg (by omega),
          Int.toNat_natCast, hm, hdec]
      unfold Rust.Reader
      rw [hnew, Res.ok_bind]
      simp only []
      rw [show @Rust.i32 = @Java.i32 from rfl, Java.i32_id (x := ((enc md).length : Int)) (by omega) (by omega), e4,
        Java.i32_id (by omega) (by omega), if_pos (by omega)]

/-- C98: a packed file cut anywhere is refused by the Rust reader. -/
theorem C98_rust_cut (h : RowsOK ipd) (hjJ : MetaRoundTripInt enc decJ (buildMeta now ipd.version ipd.fields))
    (hp : pack enc now ipd = .ok bytes) (hl : bytes.length < 2 ^ 31) (k : Nat) (hk : k < bytes.length) :
    Rust.Reader decJ (bytes.take k) = .err .fileSize := by
  obtain ⟨md, data, N, hlay⟩ := pack_layout h hp (by omega)
  have hlen := hlay.length
  have hdec := layout_dec hjJ hlay hl
  have hmt : md.totalSize = data.length := by rw [hlay.meta']
  have htl : (bytes.take k).length = k := by rw [List.length_take]; omega
  unfold Rust.Reader
  by_cases hk4 : k < 4
  · unfold Rust.MetaDataNew
    rw [if_pos (by omega)]; rfl
  · have ht : val ((bytes.take k).take 4) = (enc md).length := by
      rw [List.take_take, Nat.min_eq_left (by omega)]; exact hlay.takeLen
    have e1 : Rust.i32 (val ((bytes.take k).take 4)) = (enc md).length := by
      rw [show @Rust.i32 = @Java.i32 from rfl, ht, Java.i32_id (by omega) (by omega)]
    unfold Rust.MetaDataNew
    simp only []
    rw [if_neg (by omega), e1, if_neg (by omega)]
    by_cases hkm : k < (enc md).length + 4
    · rw [if_pos (by omega)]; rfl
    · rw [if_neg (by omega), Int.toNat_natCast]
      have hm : ((bytes.take k).drop 4).take (enc md).length = enc md := by
        rw [List.drop_take, List.take_take, Nat.min_eq_left (by omega)]; exact hlay.takeMeta
      rw [hm, hdec, Res.ok_bind]
      simp only []
      rw [show @Rust.i32 = @Java.i32 from rfl, Java.i32_id (x := ((enc md).length : Int)) (by omega) (by omega), hmt, htl,
        Java.i32_id (x := (data.length : Int) + (enc md).length) (by omega) (by omega), Java.i32_id (by omega) (by omega),
        Java.i32_id (by omega) (by omega), if_pos (by omega)]

/-- C98: a packed file cut anywhere is refused by the Java reader, as an invalid database and not by a crash, provided
the JSON library behaves on the texts it gets when the cut is inside the metadata. -/
theorem C98_java_cut (h : RowsOK ipd) (hjJ : MetaRoundTripInt enc decJ (buildMeta now ipd.version ipd.fields))
    (hp : pack enc now ipd = .ok bytes) (hl : bytes.length < 2 ^ 31) (ips : List Bytes) (k : Nat) (hk : k < bytes.length)
    (hneg : NoNegativeSize decJ bytes) :
    (Java.create decJ utf8 ips (bytes.take k) = .err .fileSize ∨ Java.create decJ utf8 ips (bytes.take k) = .err .metaData) ∧
    (headLength bytes ≤ k → Java.create decJ utf8 ips (bytes.take k) = .err .fileSize) := by
  obtain ⟨md, data, N, hlay⟩ := pack_layout h hp (by omega)
  have hlen := hlay.length
  have hdec := layout_dec hjJ hlay hl
  have hmt : md.totalSize = data.length := by rw [hlay.meta']
  have htl : (bytes.take k).length = k := by rw [List.length_take]; omega
  have hhl : headLength bytes = 4 + (enc md).length := by unfold headLength; rw [hlay.takeLen]
  have hr : (Java.Reader decJ (bytes.take k) = .err .fileSize ∨ Java.Reader decJ (bytes.take k) = .err .metaData) ∧
      (headLength bytes ≤ k → Java.Reader decJ (bytes.take k) = .err .fileSize) := by
    unfold Java.Reader
    simp only []
    by_cases hk5 : k < 5
    · rw [if_pos (by omega)]; exact ⟨.inl rfl, fun _ => rfl⟩
    · have ht : val ((bytes.take k).take 4) = (enc md).length := by
        rw [List.take_take, Nat.min_eq_left (by omega)]; exact hlay.takeLen
      have e1 : Java.i32 (val ((bytes.take k).take 4)) = (enc md).length := by
        rw [ht, Java.i32_id (by omega) (by omega)]
      have e2 : Java.i32 (((enc md).length : Int) + 4) = (enc md).length + 4 := Java.i32_id (by omega) (by omega)
      have e3 : Java.copyOfRange (bytes.take k) 4 (((enc md).length : Int) + 4) =
          .ok (((bytes.take k).drop 4).take (enc md).length ++
            List.replicate ((enc md).length - (((bytes.take k).drop 4).take (enc md).length).length) 0) := by
        unfold Java.copyOfRange
        rw [if_neg (by omega)]
        have : (((enc md).length : Int) + 4 - 4).toNat = (enc md).length := by omega
        rw [this, show (4 : Int).toNat = 4 from rfl]
      rw [if_neg (by omega), e1, e2, e3]
      by_cases hkm : k < (enc md).length + 4
      · have e5 : ((bytes.take k).drop 4).take (enc md).length = (bytes.take k).drop 4 :=
          List.take_of_length_le (by rw [List.length_drop]; omega)
        have e6 : ((bytes.take k).drop 4).take (enc md).length ++
            List.replicate ((enc md).length - (((bytes.take k).drop 4).take (enc md).length).length) 0 = filledUp bytes k := by
          unfold filledUp
          rw [e5, List.length_drop, htl, hhl, show (enc md).length - (k - 4) = 4 + (enc md).length - k by omega]
        rw [e6]
        simp only []
        refine ⟨?_, fun hh => by omega⟩
        cases hd : decJ (filledUp bytes k) with
        | none => exact .inr rfl
        | some m =>
          simp only []
          obtain ⟨h0, h1⟩ := hneg k (by omega) (by omega) m hd
          left
          rw [if_pos]
          unfold Java.i32
          omega
      · have hm : ((bytes.take k).drop 4).take (enc md).length = enc md := by
          rw [List.drop_take, List.take_take, Nat.min_eq_left (by omega)]; exact hlay.takeMeta
        rw [hm]
        simp only [Nat.sub_self, List.replicate_zero, List.append_nil, hdec]
        rw [hmt, Java.i32_id (x := (data.length : Int) + (enc md).length) (by omega) (by omega), Java.i32_id (by omega) (by omega),
          if_pos (by omega)]
        exact ⟨.inl rfl, fun _ => rfl⟩
  have hc : ∀ e, Java.Reader decJ (bytes.take k) = .err e → Java.create decJ utf8 ips (bytes.take k) = .err e := by
    intro e he
    unfold Java.create
    rw [he]; rfl
  exact ⟨hr.1.imp (hc _) (hc _), fun hh => hc _ (hr.2 hh)⟩

end

/-! A concrete file: the packed demonstration table, with every cut and one added byte.  The metadata library of the
example refuses sizes that are no Java sizes. -/

def decSized (b : Bytes) : Option MetaData :=
  match decMeta b with
  | none => none
  | some m => if 0 ≤ m.totalSize ∧ m.totalSize < 2 ^ 31 then some m else none

theorem decSized_fine (bytes : Bytes) : NoNegativeSize decSized bytes := by
  intro k _ _ m hm
  unfold decSized at hm
  split at hm
  · cases hm
  · split at hm
    · rename_i h; injection hm with hm; rw [← hm]; exact h
    · cases hm

theorem decSized_round (md : MetaData) : MetaRoundTripInt encMeta decSized md := by
  intro N S _ hS
  unfold decSized
  rw [dec_encMeta]
  simp only []
  rw [if_pos ⟨by omega, by omega⟩]

example (utf8 : Bytes → Str) (ips : List Bytes) (k : Nat) : ∃ bytes, pack encMeta 0 demo = .ok bytes ∧
    newQuerier decMeta (bytes ++ [0]) = .err .fileSize ∧
    Java.create decSized utf8 ips (bytes ++ [0]) = .err .fileSize ∧ Rust.Reader decSized (bytes ++ [0]) = .err .fileSize ∧
    (k < bytes.length → Rust.Reader decSized (bytes.take k) = .err .fileSize ∧
      (Java.create decSized utf8 ips (bytes.take k) = .err .fileSize ∨ Java.create decSized utf8 ips (bytes.take k) = .err .metaData)) := by
  obtain ⟨b, hp, hl⟩ := demo_packed
  have hrows : RowsOK demo := by decide +kernel
  obtain ⟨h1, h2⟩ := C98_extended (utf8 := utf8) (dec := decMeta) hrows (fun N S _ _ => dec_encMeta _) (decSized_round _) hp [0] (by simp)
  obtain ⟨h3, h4⟩ := h2 (by rw [List.length_append, List.length_singleton]; omega)
  exact ⟨b, hp, h1 (by omega), h3 ips, h4, fun hk => ⟨C98_rust_cut hrows (decSized_round _) hp (by omega) k hk,
    (C98_java_cut hrows (decSized_round _) hp (by omega) ips k hk (decSized_fine _)).1⟩⟩

end Uip.Ipdb
