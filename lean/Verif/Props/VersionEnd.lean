import Verif.Props.OutputsAlone
import Verif.Props.EndToEnd
import Verif.Props.Json
/-!
# C104: the version information a converted database reports
-/
namespace Uip.Program
open Uip Uip.Spec Uip.Operate
open Uip.Json (repair IsInt64 marshalMeta unmarshalMeta)

/-- The version information apart from the number of networks. -/
def SameButCount (v v' : VersionInfo) : Prop :=
  v'.ipType = v.ipType ∧ v'.build = v.build ∧ v'.version = v.version ∧ v'.languages = v.languages ∧ v'.extraInfo = v.extraInfo

/-- `v` with these texts added to the extra information. -/
def withExtra (v : VersionInfo) (l : List Str) : VersionInfo := { v with extraInfo := v.extraInfo ++ l }

/-- The entry a line file adds: its version, a dash, its build time. -/
def lineEntry (w : World) (lq : Option OpenDb) : List Str :=
  match lq with
  | none => []
  | some q => [(q.versionInfo w).version ++ 0x2D :: w.dec (q.versionInfo w).build]

/-! ## The operations -/

theorem shortage_version {d d' : HData} (e : ReplaceShortage NormalizedMap d = .ok d') : d'.version = d.version := by
  unfold ReplaceShortage at e
  obtain ⟨⟨h, r⟩, _, e⟩ := Res.bind_eq_ok.mp e
  cases e; rfl

theorem trim_version {orders : Nat → List Str} {d d' : HData} (e : TrimAsnIspDup orders d = .ok d') : d'.version = d.version := by
  unfold TrimAsnIspDup at e
  simp only [] at e
  split at e
  · cases e; rfl
  · obtain ⟨set, _, e⟩ := Res.bind_eq_ok.mp e
    split at e
    · cases e; rfl
    · obtain ⟨h, _, e⟩ := Res.bind_eq_ok.mp e
      cases e; rfl

theorem merge_version {d d' : HData} (e : MergeNearNetwork d = .ok d') : SameButCount d.version d'.version := by
  unfold MergeNearNetwork at e
  split at e
  · cases e
  · obtain ⟨_, _, e⟩ := Res.bind_eq_ok.mp e
    obtain ⟨_, _, e⟩ := Res.bind_eq_ok.mp e
    obtain ⟨_, _, e⟩ := Res.bind_eq_ok.mp e
    cases e
    exact ⟨rfl, rfl, rfl, rfl, rfl⟩

theorem district_version {grow : Nat → Nat} {d d' : HData} (e : AttachDistrict grow d = .ok d') : d'.version = d.version := by
  unfold AttachDistrict at e
  simp only [] at e
  split at e
  · cases e; rfl
  · obtain ⟨_, _, e⟩ := Res.bind_eq_ok.mp e
    cases e; rfl

theorem attach_version {grow : Nat → Nat} {dec : Int → Str} {l : LineDb} {d d' : HData}
    (e : AttachLineByCidr grow dec l d = .ok d') : d'.version = withExtra d.version [lineVer dec l] := by
  unfold AttachLineByCidr at e
  simp only [] at e
  split at e
  · cases e; rfl
  · obtain ⟨_, _, e⟩ := Res.bind_eq_ok.mp e
    cases e; rfl

theorem replace_version {dec : Int → Str} {l : LineDb} {d d' : HData}
    (e : ReplaceLineByCidr dec l d = .ok d') : d'.version = withExtra d.version [lineVer dec l] := by
  unfold ReplaceLineByCidr at e
  simp only [] at e
  split at e
  · cases e; rfl
  · split at e
    · cases e; rfl
    · obtain ⟨_, _, e⟩ := Res.bind_eq_ok.mp e
      cases e; rfl

theorem ops_version {w : World} {orders : Nat → List Str} {lq : Option OpenDb} {rep : Bool} {d d' : HData}
    (e : runOps (operations w orders lq rep) d = .ok d') : SameButCount (withExtra d.version (lineEntry w lq)) d'.version := by
  unfold operations at e
  cases lq with
  | none =>
    simp only [List.append_nil, List.cons_append, List.nil_append, runOps] at e
    obtain ⟨d1, e1, e⟩ := Res.bind_eq_ok.mp e
    obtain ⟨d2, e2, e⟩ := Res.bind_eq_ok.mp e
    obtain ⟨d3, e3, e⟩ := Res.bind_eq_ok.mp e
    obtain ⟨d4, e4, e⟩ := Res.bind_eq_ok.mp e
    cases e
    obtain ⟨a1, a2, a3, a4, a5⟩ := merge_version e3
    rw [trim_version e2, shortage_version e1] at a1 a2 a3 a4 a5
    unfold SameButCount withExtra lineEntry
    rw [district_version e4, List.append_nil]
    exact ⟨a1, a2, a3, a4, a5⟩
  | some q =>
    simp only [List.cons_append, List.nil_append, runOps] at e
    obtain ⟨d1, e1, e⟩ := Res.bind_eq_ok.mp e
    obtain ⟨d2, e2, e⟩ := Res.bind_eq_ok.mp e
    obtain ⟨d3, e3, e⟩ := Res.bind_eq_ok.mp e
    obtain ⟨d4, e4, e⟩ := Res.bind_eq_ok.mp e
    obtain ⟨d5, e5, e⟩ := Res.bind_eq_ok.mp e
    cases e
    obtain ⟨a1, a2, a3, a4, a5⟩ := merge_version e3
    rw [trim_version e2, shortage_version e1] at a1 a2 a3 a4 a5
    have h4 : d4.version = withExtra d3.version
        [(q.versionInfo w).version ++ 0x2D :: w.dec (q.versionInfo w).build] := by
      cases rep
      · exact attach_version e4
      · exact replace_version e4
    unfold SameButCount lineEntry
    rw [district_version e5, h4]
    exact ⟨a1, a2, a3, a4, by unfold withExtra; simp only [a5]⟩

/-! ## The packers -/

theorem put_md {x y : Ipdb.Writer} {n b : Nat} {v : Int} (e : x.put n b v = .ok y) : y.md = x.md := by
  unfold Ipdb.Writer.put at e
  split at e
  · cases e; rfl
  · cases e

theorem nodesLoop_md {ip : Bytes} : ∀ (steps i node bit : Nat) (x y : Ipdb.Writer) (n b : Nat) (ok : Bool),
    Ipdb.Writer.nodesLoop ip steps i node bit x = .ok (y, n, b, ok) → y.md = x.md
  | 0, _, _, _, x, y, n, b, ok, e => by cases e; rfl
  | steps + 1, i, node, bit, x, y, n, b, ok, e => by
    unfold Ipdb.Writer.nodesLoop at e
    obtain ⟨ib, _, e⟩ := Res.bind_eq_ok.mp e
    obtain ⟨v, _, e⟩ := Res.bind_eq_ok.mp e
    obtain ⟨x1, e1, e⟩ := Res.bind_eq_ok.mp e
    have h1 : x1.md = x.md := by
      split at e1
      · simp only [] at e1
        rw [put_md e1]
      · cases e1; rfl
    obtain ⟨v', _, e⟩ := Res.bind_eq_ok.mp e
    split at e
    · cases e; exact h1
    · exact (nodesLoop_md steps _ _ _ x1 y n b ok e).trans h1

theorem insertH_md {x y : Ipdb.Writer} {h h' : Heap} {net : IPNet} {s : Slice} {r : Option Err}
    (e : x.insertH h net s = .ok (y, h', r)) : y.md = x.md := by
  unfold Ipdb.Writer.insertH at e
  obtain ⟨⟨x1, node, index, ok⟩, e1, e⟩ := Res.bind_eq_ok.mp e
  have h1 : x1.md = x.md := by
    unfold Ipdb.Writer.Nodes at e1
    simp only [] at e1
    generalize (if (To4 net.ip).isSome = true then ((if net.ip.length = 4 then (To16 net.ip).getD [] else net.ip),
      if (((maskSize net.mask).1 : Int) - 1) < 32 then (((maskSize net.mask).1 : Int) - 1) + 96 else ((maskSize net.mask).1 : Int) - 1)
      else (net.ip, ((maskSize net.mask).1 : Int) - 1)) = P at e1
    split at e1
    · cases e1
    · obtain ⟨⟨x2, n2, b2, ok2⟩, e2, e1⟩ := Res.bind_eq_ok.mp e1
      have h2 := nodesLoop_md _ _ _ _ _ _ _ _ _ e2
      simp only [] at e1
      split at e1
      · obtain ⟨b3, _, e1⟩ := Res.bind_eq_ok.mp e1
        cases e1; exact h2
      · cases e1; exact h2
  simp only [] at e
  obtain ⟨v, _, e⟩ := Res.bind_eq_ok.mp e
  split at e
  · obtain ⟨_, _, e⟩ := Res.bind_eq_ok.mp e
    cases e; exact h1
  · split at e
    · cases e; exact h1
    · obtain ⟨h2, _, e⟩ := Res.bind_eq_ok.mp e
      obtain ⟨x3, e3, e⟩ := Res.bind_eq_ok.mp e
      cases e
      rw [put_md e3]
      unfold Ipdb.Writer.Fields
      simp only []
      split <;> exact h1

theorem insertAllH_md : ∀ (rs : List HRow) (x y : Ipdb.Writer) (h h' : Heap), x.insertAllH h rs = .ok (y, h') → y.md = x.md
  | [], x, y, h, h', e => by cases e; rfl
  | r :: rs, x, y, h, h', e => by
    unfold Ipdb.Writer.insertAllH at e
    obtain ⟨⟨x1, h1, r1⟩, e1, e⟩ := Res.bind_eq_ok.mp e
    exact (insertAllH_md rs x1 y h1 h' e).trans (insertH_md e1)

/-- Every packer leaves the version information of the data set as it is. -/
theorem packWriter_version {w : World} {fuel : Nat} {kind : Str} {d d' : HData} {b : Bytes}
    (e : PackWriter (converterFormats w fuel) kind d = .ok (b, d')) : d'.version = d.version := by
  rw [C59_packWriter] at e
  unfold Convert.PackWriter at e
  split at e
  · unfold Ipdb.packH at e
    obtain ⟨⟨x, h⟩, _, e⟩ := Res.bind_eq_ok.mp e
    cases e; rfl
  · split at e
    · unfold Plain.pack at e
      obtain ⟨⟨x, h⟩, _, e⟩ := Res.bind_eq_ok.mp e
      cases e; rfl
    · split at e
      · obtain ⟨x, _, e⟩ := Res.bind_eq_ok.mp e
        cases e; rfl
      · cases e

/-- Every output of a run that ends well was written from a data set with the version information of the first. -/
theorem written_from {w : World} {fuel : Nat} {canCreate : Str → Bool} : ∀ (os : List Str) (fs fs' : Fs) (d : HData),
    writeAll (converterFormats w fuel) canCreate os fs d = (fs', .ok ()) → ∀ o ∈ os, ∃ d1 d2 b, d1.version = d.version ∧
      PackWriter (converterFormats w fuel) (pathExt o) d1 = .ok (b, d2) ∧ fs' o = some b
  | [], _, _, _, _, o, ho => by cases ho
  | p :: os, fs, fs', d, e, o, ho => by
    unfold writeAll at e
    cases hp : PackFile (converterFormats w fuel) canCreate fs p d with
    | mk fs1 r =>
      rw [hp] at e
      cases r with
      | err e' => cases e
      | panic => cases e
      | ok d1 =>
        simp only [] at e
        unfold PackFile at hp
        split at hp
        · cases hp
        · split at hp
          · rename_i b d1' hpw
            cases hp
            by_cases hin : o ∈ os
            · obtain ⟨x1, x2, b', g1, g2, g3⟩ := written_from os _ fs' _ e o hin
              exact ⟨x1, x2, b', g1.trans (packWriter_version hpw), g2, g3⟩
            · obtain rfl : o = p := by
                rcases List.mem_cons.mp ho with h | h
                · exact h
                · exact absurd h hin
              refine ⟨d, _, b, rfl, hpw, ?_⟩
              rw [untouched os _ fs' _ e o hin]
              unfold Fs.set; rw [if_pos rfl]
          · cases hp
          · cases hp
where
  untouched : ∀ (os : List Str) (fs fs' : Fs) (d : HData),
      writeAll (converterFormats w fuel) canCreate os fs d = (fs', .ok ()) → ∀ o, o ∉ os → fs' o = fs o
    | [], _, _, _, e, _, _ => by cases e; rfl
    | p :: os, fs, fs', d, e, o, ho => by
      unfold writeAll at e
      cases hp : PackFile (converterFormats w fuel) canCreate fs p d with
      | mk fs1 r =>
        rw [hp] at e
        cases r with
        | err e' => cases e
        | panic => cases e
        | ok d1 =>
          simp only [] at e
          rw [untouched os _ fs' _ e o (fun h => ho (by simp [h]))]
          unfold PackFile at hp
          split at hp
          · cases hp
          · split at hp
            · cases hp
              unfold Fs.set; rw [if_neg (fun h => ho (by simp [h]))]
            · cases hp
            · cases hp

/-! ## Opening the output -/

/-- The metadata of an opened file is what was saved, decoded. -/
theorem saved_md {enc : Ipdb.MetaData → Bytes} {dec : Bytes → Option Ipdb.MetaData} {x : Ipdb.Writer} {r : Ipdb.Reader}
    (hl : (x.Save enc).length < 2 ^ 32) (h : Ipdb.newReaderFromBytes dec (x.Save enc) = .ok r) :
    dec (enc x.savedMeta) = some r.md ∧ x.node.length < 2 ^ 32 ∧ x.nodeChunk.length + x.dataChunk.length < 2 ^ 32 := by
  have hL := Ipdb.Writer.Save_length enc x
  have hN : x.nodeChunk.length = 8 * x.node.length + 8 := Ipdb.nodeChunk_length x
  have hbe : (Ipdb.intToBE32 (enc x.savedMeta).length).length = 4 := rfl
  have hval : val ((x.Save enc).take 4) = (enc x.savedMeta).length := by
    have htake : (x.Save enc).take 4 = Ipdb.intToBE32 (enc x.savedMeta).length := by
      unfold Ipdb.Writer.Save
      rw [List.append_assoc, List.append_assoc, List.take_left' hbe]
    rw [htake, Ipdb.val_intToBE32 (by omega)]
  have hmeta : ((x.Save enc).drop 4).take (enc x.savedMeta).length = enc x.savedMeta := by
    unfold Ipdb.Writer.Save
    rw [List.append_assoc, List.append_assoc, List.drop_left' hbe, List.take_left]
  refine ⟨?_, by omega, by omega⟩
  unfold Ipdb.newReaderFromBytes at h
  dsimp only at h
  rw [hval, hmeta] at h
  split at h
  · cases h
  · split at h
    · cases h
    · split at h
      · cases h
      · rename_i m hm
        rw [hm]
        split at h
        · cases h
        · split at h
          · cases h
          · split at h
            · obtain ⟨_, _, h⟩ := Res.bind_eq_ok.mp h
              obtain ⟨_, _, h⟩ := Res.bind_eq_ok.mp h
              cases h; rfl
            · cases h; rfl

theorem open_known {w : World} {reg : Formats} (hk : KnowsIpdb w reg) {fs : Fs} {f : Str} {q : OpenDb} (he : pathExt f = gs ".ipdb")
    (h : NewDb w reg fs f = .ok q) : ∃ b r Q, fs f = some b ∧ Ipdb.newReaderFromBytes w.decMeta b = .ok r ∧ q = .ipdb Q ∧ Q.r = r := by
  unfold NewDb at h
  cases hb : fs f with
  | none => rw [hb] at h; cases h
  | some b =>
    rw [hb] at h
    simp only [he] at h
    unfold NewDbFromBytes at h
    rw [hk] at h
    obtain ⟨o, h1, h2⟩ := Res.bind_eq_ok.mp h
    obtain ⟨Q, h3, h4⟩ := Res.bind_eq_ok.mp h1
    obtain rfl := Res.ok.inj h4
    obtain ⟨Q', h5, h6⟩ := Res.bind_eq_ok.mp h2
    obtain rfl := Res.ok.inj h6
    unfold Ipdb.newQuerier at h3
    obtain ⟨r, h7, h8⟩ := Res.bind_eq_ok.mp h3
    obtain rfl := Res.ok.inj h8
    obtain ⟨hr, _⟩ := (Ipdb.BuildCache_spec _ _ (Ipdb.CacheSound_nil r)).1 _ h5
    exact ⟨b, r, Q', rfl, h7, rfl, hr⟩

/-! ## The dump -/

/-- A dump of a file that opens has the version information of the opened file. -/
theorem dump_version {w : World} {fuel : Nat} {fs : Fs} {f rule : Str} {q : OpenDb} {d : HData}
    (hin : NewDb w (converterFormats w fuel) fs f = .ok q) (h : DumpFile (converterFormats w fuel) fs f rule [] = some (.ok d)) :
    d.version = q.versionInfo w := by
  unfold DumpFile at h
  cases hb : fs f with
  | none => rw [hb] at h; cases h
  | some b =>
    rw [hb] at h
    simp only [] at h
    by_cases h1 : pathExt f = gs ".ipdb"
    · obtain ⟨b', r, Q, g1, g2, rfl, g3⟩ := open_known (knows_converter w fuel) h1 hin
      rw [hb] at g1
      cases g1
      rw [h1, dumper_ipdb] at h
      simp only [] at h
      obtain ⟨x, h2, h3⟩ := Option.map_eq_some_iff.mp h
      obtain ⟨d1, h4, h5⟩ := Res.bind_eq_ok.mp h3
      cases h5
      subst h4
      unfold withSlices at h2
      obtain ⟨y, h6, h7⟩ := Option.map_eq_some_iff.mp h2
      obtain ⟨D, rfl, h8⟩ := Res.bind_eq_ok.mp h7
      cases h8
      unfold Ipdb.dump at h6
      rw [g2] at h6
      simp only [] at h6
      obtain ⟨_, hv, _⟩ := Dump.build_ok h6
      show D.version = Q.r.version w.fmtDate
      rw [g3]
      exact hv
    · by_cases h1' : pathExt f = gs ".awdb"
      · obtain ⟨R, rfl⟩ : ∃ R, q = .awdb R := by
          unfold NewDb at hin
          rw [hb] at hin
          simp only [h1'] at hin
          unfold NewDbFromBytes at hin
          rw [opener_awdb] at hin
          obtain ⟨o, k1, k2⟩ := Res.bind_eq_ok.mp hin
          obtain ⟨R', k3, k4⟩ := Res.bind_eq_ok.mp k1
          obtain rfl := Res.ok.inj k4
          exact ⟨R', (Res.ok.inj k2).symm⟩
        obtain ⟨b', g1, g2, _⟩ := open_awdb h1' hin
        rw [hb] at g1
        cases g1
        rw [h1', dumper_awdb] at h
        simp only [] at h
        obtain ⟨x, h2, h3⟩ := Option.map_eq_some_iff.mp h
        obtain ⟨d1, h4, h5⟩ := Res.bind_eq_ok.mp h3
        cases h5
        subst h4
        unfold withSlices at h2
        obtain ⟨y, h6, h7⟩ := Option.map_eq_some_iff.mp h2
        obtain ⟨D, rfl, h8⟩ := Res.bind_eq_ok.mp h7
        cases h8
        unfold Awdb.dump at h6
        rw [g2] at h6
        simp only [] at h6
        obtain ⟨_, hv, _⟩ := Dump.build_ok h6
        exact hv
      · exfalso
        unfold NewDb at hin
        rw [hb] at hin
        simp only [] at hin
        unfold NewDbFromBytes at hin
        have : (converterFormats w fuel).GetQueryFormat (pathExt f) = none := by
          unfold converterFormats plainInit memipInit ipdbInit awdbInit
          simp only [Registry.RegisterDumpFormat, Registry.RegisterQueryFormat, Registry.RegisterPackFormat,
            Registry.GetQueryFormat, mapGet_mapSet]
          rw [if_neg (fun h => h1 h.symm), if_neg (fun h => h1' h.symm)]
          rfl
        rw [this] at hin
        cases hin

/-! ## The property -/

/-- A data set with version information `v`, written at time `now` and opened again, reports `v'`: its own type of addresses, the
time, the version text (a made up one, if it has none), the one language and the extra information; of texts that are
not UTF-8 the repaired form. -/
def Reports (fmtDate : Int → Str) (now : Int) (v v' : VersionInfo) : Prop :=
  v'.ipType = (if v.ipType = 1 then 1 else if v.ipType = 2 then 2 else 3) ∧ v'.build = now ∧
  v'.version = (if repair v.version = [] then gs "ipip.net-" ++ fmtDate now else repair v.version) ∧
  v'.languages = [gs "CN"] ∧ v'.extraInfo = v.extraInfo.map repair

theorem packed_reports {w : World} (hje : ∀ m, ∃ nf ne, w.encMeta m = marshalMeta nf ne m) (hjd : w.decMeta = unmarshalMeta)
    (hnow : IsInt64 w.now) {d d' : HData} {b : Bytes} (hp : Ipdb.packH w.encMeta w.now d = .ok (b, d')) (hl : b.length < 2 ^ 32)
    {r : Ipdb.Reader} (hr : Ipdb.newReaderFromBytes w.decMeta b = .ok r) : Reports w.fmtDate w.now d.version (r.version w.fmtDate) := by
  unfold Ipdb.packH at hp
  obtain ⟨⟨x, h⟩, hx, hp⟩ := Res.bind_eq_ok.mp hp
  cases hp
  obtain ⟨hd, hn, hs⟩ := saved_md hl hr
  have hmd : x.md = Ipdb.buildMeta w.now d.version d.fields := insertAllH_md _ _ _ _ _ hx
  have hsm : x.savedMeta = { Ipdb.buildMeta w.now d.version d.fields with
      nodeCount := x.node.length, totalSize := (x.nodeChunk.length + x.dataChunk.length : Nat) } := by
    unfold Ipdb.Writer.savedMeta; rw [hmd]
  obtain ⟨nf, ne, he⟩ := hje x.savedMeta
  rw [he, hjd] at hd
  rw [Json.C101_decoded nf ne x.savedMeta (lang := gs "CN") (n := 0) (by rw [hsm]; exact hnow)
    (by rw [hsm]; show Ipdb.ipVersion _ < _; unfold Ipdb.ipVersion; split; omega; split <;> omega)
    (by rw [hsm]; unfold IsInt64; simp only []; omega) (by rw [hsm]; unfold IsInt64; simp only []; omega)
    (by rw [hsm]; rfl) (by decide)] at hd
  have hm := (Option.some.inj hd).symm
  unfold Ipdb.Reader.version
  rw [hm, hsm]
  refine ⟨?_, rfl, rfl, ?_, rfl⟩
  · unfold Ipdb.MetaData.IpType Ipdb.buildMeta Ipdb.ipVersion
    simp only []
    rw [show IpV4 = 1 from rfl, show IpV6 = 2 from rfl, show IpAll = 3 from rfl]
    by_cases h1 : d.version.ipType = 1
    · rw [if_pos h1, if_pos h1, if_pos rfl]
    · rw [if_neg h1, if_neg h1]
      by_cases h2 : d.version.ipType = 2
      · rw [if_pos h2, if_pos h2, if_neg (by omega), if_pos rfl]
      · rw [if_neg h2, if_neg h2, if_neg (by omega), if_neg (by omega)]
  · show [repair (gs "CN")] = _
    decide +kernel

/-- What a run that ended well did: it opened the line file, dumped the input, ran the operations and wrote the outputs. -/
theorem run_steps {w : World} {fuel : Nat} {orders : Nat → List Str} {canCreate : Str → Bool} {fs fs' : Fs} {a : Args}
    (hrun : converter w fuel orders canCreate fs a = some (fs', .ok ())) :
    ∃ lq d0 d, (a.line = [] ∧ lq = none ∨ a.line ≠ [] ∧ ∃ q, NewDb w (converterFormats w fuel) fs a.line = .ok q ∧ lq = some q) ∧
      DumpFile (converterFormats w fuel) fs a.input (ruleText a.rule) [] = some (.ok d0) ∧
      runOps (operations w orders lq a.lineReplace) d0 = .ok d ∧
      writeAll (converterFormats w fuel) canCreate (splitByte 0x2C a.output) fs d = (fs', .ok ()) := by
  have go : ∀ lq : Option OpenDb,
      ((DumpFile (converterFormats w fuel) fs a.input (ruleText a.rule) (operations w orders lq a.lineReplace)).map fun r => match r with
        | .ok d => writeAll (converterFormats w fuel) canCreate (splitByte 0x2C a.output) fs d
        | .err e => (fs, .err e)
        | .panic => (fs, .panic)) = some (fs', .ok ()) →
      ∃ d0 d, DumpFile (converterFormats w fuel) fs a.input (ruleText a.rule) [] = some (.ok d0) ∧
        runOps (operations w orders lq a.lineReplace) d0 = .ok d ∧
        writeAll (converterFormats w fuel) canCreate (splitByte 0x2C a.output) fs d = (fs', .ok ()) := by
    intro lq h
    obtain ⟨r, h1, h2⟩ := Option.map_eq_some_iff.mp h
    cases r with
    | err e => cases h2
    | panic => cases h2
    | ok d =>
      unfold DumpFile at h1 ⊢
      split at h1
      · cases h1
      · split at h1
        · cases h1
        · obtain ⟨x, h3, h4⟩ := Option.map_eq_some_iff.mp h1
          obtain ⟨d0, rfl, h5⟩ := Res.bind_eq_ok.mp h4
          exact ⟨d0, d, by simp only [h3, Option.map_some]; rfl, h5, h2⟩
  unfold converter at hrun
  simp only [] at hrun
  by_cases hl : a.line = []
  · rw [if_neg (by rw [hl]; simp)] at hrun
    obtain ⟨d0, d, h1, h2, h3⟩ := go none hrun
    exact ⟨none, d0, d, .inl ⟨hl, rfl⟩, h1, h2, h3⟩
  · rw [if_pos hl] at hrun
    cases hq : NewDb w (converterFormats w fuel) fs a.line with
    | ok q =>
      rw [hq] at hrun
      obtain ⟨d0, d, h1, h2, h3⟩ := go (some q) hrun
      exact ⟨some q, d0, d, .inr ⟨hl, q, rfl, rfl⟩, h1, h2, h3⟩
    | err e => rw [hq] at hrun; cases hrun
    | panic => rw [hq] at hrun; cases hrun

/-- **C104.** Any conversion of an `.ipdb` or `.awdb` file that ends well, with any rule, line file and outputs: each `.ipdb` output
(below 4 GiB) that opens reports the version text, the type of addresses and the extra information of the input, as the input
reports them, and the time of the conversion; with a line file the extra information has one entry more, the version of the
line file, a dash and its build time. -/
theorem C104_converted (w : World) (fuel : Nat) (orders : Nat → List Str) (canCreate : Str → Bool) (fs fs' : Fs) (a : Args)
    (hje : ∀ m, ∃ nf ne, w.encMeta m = marshalMeta nf ne m) (hjd : w.decMeta = unmarshalMeta) (hnow : IsInt64 w.now)
    (qi : OpenDb) (hin : NewDb w (converterFormats w fuel) fs a.input = .ok qi)
    (hrun : converter w fuel orders canCreate fs a = some (fs', .ok ()))
    (o : Str) (ho : o ∈ splitByte 0x2C a.output) (he : pathExt o = gs ".ipdb")
    (reg : Formats) (hreg : KnowsIpdb w reg) (qo : OpenDb) (hopen : NewDb w reg fs' o = .ok qo)
    (hsmall : ∀ b, fs' o = some b → b.length < 2 ^ 32) :
    (a.line = [] → Reports w.fmtDate w.now (qi.versionInfo w) (qo.versionInfo w)) ∧
    (a.line ≠ [] → ∃ lq, NewDb w (converterFormats w fuel) fs a.line = .ok lq ∧
      Reports w.fmtDate w.now { qi.versionInfo w with extraInfo := (qi.versionInfo w).extraInfo ++
        [(lq.versionInfo w).version ++ 0x2D :: w.dec (lq.versionInfo w).build] } (qo.versionInfo w)) := by
  obtain ⟨lq, d0, d, hlq, h1, h2, h3⟩ := run_steps hrun
  obtain ⟨v1, _, v3, _, v5⟩ := ops_version h2
  rw [dump_version hin h1] at v1 v3 v5
  obtain ⟨d1, d2, b, g1, g2, g3⟩ := written_from _ _ _ _ h3 o ho
  obtain ⟨b', r, Q, k1, k2, rfl, k3⟩ := open_known hreg he hopen
  rw [g3] at k1
  cases k1
  rw [C59_packWriter] at g2
  unfold Convert.PackWriter at g2
  rw [if_pos he] at g2
  have hrep := packed_reports hje hjd hnow g2 (hsmall _ g3) k2
  rw [g1] at hrep
  have main : Reports w.fmtDate w.now (withExtra (qi.versionInfo w) (lineEntry w lq)) (OpenDb.versionInfo w (.ipdb Q)) := by
    show Reports _ _ _ (Q.r.version w.fmtDate)
    rw [k3]
    unfold Reports at hrep ⊢
    rw [v1, v3, v5] at hrep
    exact hrep
  rcases hlq with ⟨e1, rfl⟩ | ⟨e1, lq', e2, rfl⟩
  · refine ⟨fun _ => ?_, fun h => absurd e1 h⟩
    have : withExtra (qi.versionInfo w) (lineEntry w none) = qi.versionInfo w := by
      unfold withExtra lineEntry; rw [List.append_nil]
    rw [this] at main
    exact main
  · exact ⟨fun h => absurd h e1, fun _ => ⟨lq', e2, main⟩⟩

/-- **C104 (`.scan` outputs).** Each `.scan` output begins with a line with the time, then one with the JSON of that version
information, with the build time of the input. -/
theorem C104_scan (w : World) (fuel : Nat) (orders : Nat → List Str) (canCreate : Str → Bool) (fs fs' : Fs) (a : Args)
    (qi : OpenDb) (hin : NewDb w (converterFormats w fuel) fs a.input = .ok qi)
    (hrun : converter w fuel orders canCreate fs a = some (fs', .ok ()))
    (o : Str) (ho : o ∈ splitByte 0x2C a.output) (he : pathExt o = gs ".scan") :
    ∃ extra count rest,
      (a.line = [] ∧ extra = [] ∨ a.line ≠ [] ∧ ∃ lq, NewDb w (converterFormats w fuel) fs a.line = .ok lq ∧
        extra = [(lq.versionInfo w).version ++ 0x2D :: w.dec (lq.versionInfo w).build]) ∧
      fs' o = some (gs "#### scan dump " ++ w.nowText ++ gs " ####\n#### " ++
        w.encVersion { qi.versionInfo w with extraInfo := (qi.versionInfo w).extraInfo ++ extra, count := count } ++ rest) := by
  obtain ⟨lq, d0, d, hlq, h1, h2, h3⟩ := run_steps hrun
  obtain ⟨v1, v2, v3, v4, v5⟩ := ops_version h2
  rw [dump_version hin h1] at v1 v2 v3 v4 v5
  obtain ⟨d1, d2, b, g1, g2, g3⟩ := written_from _ _ _ _ h3 o ho
  rw [C59_packWriter] at g2
  unfold Convert.PackWriter at g2
  rw [if_neg (by rw [he]; decide +kernel), if_pos he] at g2
  unfold Plain.pack at g2
  obtain ⟨⟨t, h⟩, _, g2⟩ := Res.bind_eq_ok.mp g2
  cases g2
  have hv : d1.version = { qi.versionInfo w with extraInfo := (qi.versionInfo w).extraInfo ++ lineEntry w lq, count := d.version.count } := by
    rw [g1]
    generalize d.version = dv at *
    obtain ⟨a1, a2, a3, a4, a5, a6⟩ := dv
    simp only [withExtra] at v1 v2 v3 v4 v5
    subst v1 v2 v3 v4 v5
    rfl
  refine ⟨lineEntry w lq, d.version.count, 0x0A :: (gs "#### " ++ joinByte 0x2C d1.fields ++ [0x0A]) ++ t, ?_, ?_⟩
  · rcases hlq with ⟨e1, rfl⟩ | ⟨e1, lq', e2, rfl⟩
    · exact .inl ⟨e1, rfl⟩
    · exact .inr ⟨e1, lq', e2, rfl⟩
  · rw [g3, ← hv]
    unfold Plain.header
    rw [show gs " ####\n#### " = gs " ####" ++ 0x0A :: gs "#### " by decide +kernel]
    simp only [List.append_assoc, List.cons_append]

end Uip.Program
