import Verif.Props.ThroughText
/-!
# C120 with Go's JSON: the version line of the text carries the release

What a reader has read as version information is written to the line of a `.scan` text and read from it unchanged, except for the
number of records; so `CarriesVersion` holds of every database file that fits a line.
-/
namespace Uip.Json
open Uip Uip.Spec

/-- The numbers of metadata that was read fit their type. -/
theorem unmarshalMeta_build {s : Bytes} {m : Ipdb.MetaData} (h : unmarshalMeta s = some m) : IsInt64 m.build := by
  have key : ∀ (l : List (Bytes × JVal)) (d d' : MetaDest), IsInt64 d.build → putMeta d l = some d' → IsInt64 d'.build := by
    intro l
    induction l with
    | nil => intro d d' hd h; cases h; exact hd
    | cons p l ih =>
      intro d d' hd h
      obtain ⟨k, v⟩ := p
      unfold putMeta at h
      cases hm : putMetaField d (unquote k) v with
      | none => rw [hm] at h; cases h
      | some x =>
        rw [hm] at h
        refine ih x d' ?_ h
        refine meta_cases (P := fun z => IsInt64 z.build) hm (fun _ => hd) ?_ (fun _ _ _ => hd) (fun _ _ _ => hd) (fun _ _ _ => hd)
          (fun _ _ _ => hd) (fun _ _ _ => hd) (fun _ _ _ => hd) (fun _ _ _ => hd)
        intro _ x hx
        show IsInt64 x
        unfold putInt at hx
        split at hx
        · cases hx; exact hd
        · split at hx
          · split at hx
            · rename_i hb
              cases hx
              unfold minInt64 maxInt64 at hb
              unfold IsInt64; omega
            · cases hx
          · cases hx
        · cases hx
  unfold unmarshalMeta at h
  split at h
  · cases hm : putMeta {} (by assumption) with
    | none => rw [hm] at h; cases h
    | some x =>
      rw [hm] at h
      cases h
      exact key _ _ _ (by decide) hm
  · cases h; decide
  · cases h

theorem arr_length (b : Bool) (l : List Str) : (JVal.ofStrings b l).text.length ≤ (JVal.ofStrings false l).text.length + 2 := by
  unfold JVal.ofStrings
  simp only [Bool.false_eq_true, and_false, if_false]
  split
  · rename_i h
    rw [h.1]
    decide +kernel
  · omega

/-- The length of a version line hardly depends on the number of records and on which empty lists are nil. -/
theorem version_length (nl ne : Bool) (v : VersionInfo) (c : UInt32) :
    (marshalVersion nl ne { v with count := c }).length ≤ (marshalVersion false false v).length + 14 := by
  have h1 := arr_length nl v.languages
  have h2 := arr_length ne v.extraInfo
  have h3 : (intText (c.toNat : Int)).length ≤ 10 := by
    unfold intText
    rw [if_neg (by omega), Int.natAbs_natCast]
    exact Memip.decStr_short c.toNat_lt
  unfold marshalVersion versionVal JVal.ofFields
  simp only [List.map_cons, List.map_nil, JVal.text, membersText, JVal.ofInt, List.length_append, List.length_cons, List.length_nil]
  omega

end Uip.Json

namespace Uip.Program
open Uip Uip.Spec Uip.Operate Uip.Json

theorem reader_build {w : World} (hw : GoWorld w) {b : Bytes} {r : Ipdb.Reader} (h : Ipdb.newReaderFromBytes w.decMeta b = .ok r) :
    IsInt64 r.md.build := by
  obtain ⟨x, hx⟩ : ∃ x, w.decMeta x = some r.md := by
    unfold Ipdb.newReaderFromBytes at h
    simp only [] at h
    split at h
    · cases h
    split at h
    · cases h
    split at h
    · cases h
    rename_i m hm
    split at h
    · cases h
    split at h
    · cases h
    split at h
    · simp only [Res.bind_eq_ok] at h
      obtain ⟨node, _, c, _, h⟩ := h
      cases h
      exact ⟨_, hm⟩
    · cases h
      exact ⟨_, hm⟩
  rw [hw.decMeta] at hx
  exact unmarshalMeta_build hx

/-- With Go's JSON the version line carries every release of texts it is not too long for. -/
theorem carries_texts {w : World} (hw : GoWorld w) (hev : ∀ v, ∃ nl ne, w.encVersion v = marshalVersion nl ne v) (v : VersionInfo)
    (h1 : IsInt64 v.ipType) (h2 : IsInt64 v.build) (h3 : IsText v.version) (h4 : ∀ s ∈ v.extraInfo, IsText s)
    (hsize : (marshalVersion false false v).length + 44 < 65536) : CarriesVersion w v := by
  intro c
  obtain ⟨nl, ne, e⟩ := hev { v with count := c }
  have hl := version_length nl ne v c
  have hd := C102_decoded nl ne { v with count := c } h1 h2
  rw [← hw.decVersion] at hd
  rw [e]
  refine ⟨C102_line_ok (by omega), _, hd, rfl, ?_, ?_⟩
  · exact (repair_eq_iff _).mpr h3
  · exact map_repair.mpr h4

/-- With Go's JSON the version line carries the release of every ipdb file it is not too long for. -/
theorem carries_version {w : World} (hw : GoWorld w) (hev : ∀ v, ∃ nl ne, w.encVersion v = marshalVersion nl ne v)
    {b : Bytes} {r : Ipdb.Reader} (h : Ipdb.newReaderFromBytes w.decMeta b = .ok r)
    (hsize : (marshalVersion false false (r.version w.fmtDate)).length + 44 < 65536) : CarriesVersion w (r.version w.fmtDate) := by
  obtain ⟨t1, t2⟩ := reader_texts hw h
  refine carries_texts hw hev _ ?_ (reader_build hw h) t1 t2 hsize
  show IsInt64 r.md.IpType
  unfold Ipdb.MetaData.IpType
  split
  · decide
  · split <;> decide

section
variable {w : World} {fuel : Nat} {orders : Nat → List Str} {canCreate : Str → Bool} {fs : Fs} {a : Args} {Q : Ipdb.Querier}

/-- **C120 (JSON).** The same in a program with Go's JSON: nothing is assumed of the version, except that it fits a line. -/
theorem C120_json (hfuel : fuel ≥ 2 ^ 128) (hw : GoWorld w) (hev : ∀ v, ∃ nl ne, w.encVersion v = marshalVersion nl ne v)
    (h : Convertible w fuel orders canCreate fs a Q) (hone : OneCarrier (AnswersOf w Q))
    (hcode : (Q.r.md.fields.filter fun f => decide (f = gs "continent_code")).length ≤ 1)
    (hlined : ∀ ip i, Family w (.ipdb Q) ip → Says (.ipdb Q) ip i → Lined i)
    (hsize : (marshalVersion false false (OpenDb.versionInfo w (.ipdb Q))).length + 44 < 65536) (hnow : LineOK w.nowText)
    (ordersT : Nat → List Str) (hT : AnswerOrders (AnswersOf w Q) ordersT) :
    ∃ b1 text, converter w fuel orders canCreate fs a = some (fs.set a.output b1, .ok ()) ∧
      (∀ t, pathExt t = gs ".scan" → (0x2C : UInt8) ∉ t → canCreate t = true →
        converter w fuel ordersT canCreate fs { a with output := t } = some (fs.set t text, .ok ())) ∧
      (b1.length < 2 ^ 32 → ∃ b2 Q1, Opens w fuel b1 Q1 ∧
        (∀ ip i, Family w (.ipdb Q) ip → Says (.ipdb Q) ip i → ∃ o, Says (.ipdb Q1) ip o ∧ Finished (AnswersOf w Q) i o) ∧
        (∀ (orders2 : Nat → List Str) (can2 : Str → Bool) (fs2 : Fs) (a2 : Args), PlainRun a2 can2 → fs2 a2.input = some b1 →
          AnswerOrders (AnswersOf w Q) orders2 → converter w fuel orders2 can2 fs2 a2 = some (fs2.set a2.output b2, .ok ())) ∧
        (∀ (fuel2 : Nat) (orders2 : Nat → List Str) (can2 : Str → Bool) (fs2 : Fs) (a2 : Args), TextRun a2 can2 → fs2 a2.input = some text →
          AnswerOrders (AnswersOf w Q) orders2 → converter w fuel2 orders2 can2 fs2 a2 = some (fs2.set a2.output b2, .ok ())) ∧
        (b2.length < 2 ^ 32 → ∃ Q2, Opens w fuel b2 Q2 ∧
          ∀ ip o, Family w (.ipdb Q) ip → (Says (.ipdb Q2) ip o ↔ Says (.ipdb Q1) ip o))) := by
  obtain ⟨b, r, Q0, _, hr, hq, hQ, _⟩ := open_ipdb h.kind h.opened
  obtain rfl : Q = Q0 := by injection hq
  subst hQ
  exact C120_through_text hfuel h hone hcode hlined (carries_version hw hev hr hsize) hnow ordersT hT

end

end Uip.Program
