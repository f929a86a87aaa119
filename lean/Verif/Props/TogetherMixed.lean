import Verif.Props.TogetherRefused
/-!
# C123, the limit of it: a database that is opened while the next release is written over it
-/
namespace Uip.Program
open Uip Uip.Spec Uip.Operate

/-- The input of a release. -/
def lastText : Str := gs "#### scan dump now ####\n#### {v}\n#### country,province,city,isp,asn,continent,district\n10.0.0.0/9\t中国,浙江,杭州,电信,4134,AS,\n10.128.0.0/9\t中国,江苏,南京,电信,4134,AS,\n"

/-- The input of the next one: the cities have changed. -/
def nextText : Str := gs "#### scan dump now ####\n#### {v}\n#### country,province,city,isp,asn,continent,district\n10.0.0.0/9\t中国,浙江,宁波,电信,4134,AS,\n10.128.0.0/9\t中国,江苏,苏州,电信,4134,AS,\n"

/-- One city of the one and one of the other. -/
def mixedText : Str := gs "#### scan dump now ####\n#### {v}\n#### country,province,city,isp,asn,continent,district\n10.0.0.0/9\t中国,浙江,杭州,电信,4134,AS,\n10.128.0.0/9\t中国,江苏,苏州,电信,4134,AS,\n"

def inputFs (text : Str) : Fs := fun n => if n = gs "a.scan" then some text else none

/-- The database of an input. -/
def packedOf (text : Str) : Bytes :=
  ((converter exWorld 0 (fun _ => exKeys) (fun _ => true) (inputFs text) exArgs).bind fun r => r.1 (gs "b.ipdb")).getD []

/-- The input of the next release is there, and the database of the last one. -/
def releaseFs : Fs := fun n => if n = gs "a.scan" then some nextText else if n = gs "b.ipdb" then some (packedOf lastText) else none

/-- The beginning of all these databases. -/
def sameHead : Bytes :=
  [0, 0, 4, 189, 0, 0, 1, 1, 1, 0, 1, 1, 1, 0, 67, 78, 0, 0, 0, 0] ++ List.replicate 105 1 ++ [0, 0] ++ List.replicate 936 1 ++
  [0] ++ List.replicate 13 1 ++ [0, 99, 111, 117, 110, 116, 114, 121, 95, 110, 97, 109, 101] ++ List.replicate 12 1 ++ [0, 114,
  101, 103, 105, 111, 110, 95, 110, 97, 109, 101, 1, 1, 1, 1, 1, 1, 1, 1, 1, 1, 0, 99, 105, 116, 121, 95, 110, 97, 109, 101, 1,
  1, 1, 1, 1, 1, 1, 1, 1, 1, 1, 0, 105, 115, 112, 95, 100, 111, 109, 97, 105, 110, 1, 1, 1, 1, 0, 97, 115, 110] ++
  List.replicate 15 1 ++ [0, 99, 111, 110, 116, 105, 110, 101, 110, 116, 95, 99, 111, 100, 101, 1, 1, 1, 1, 1, 1, 1, 1, 1, 0,
  100, 105, 115, 116, 114, 105, 99, 116, 0, 1, 0, 118, 0, 0, 0, 0, 1, 0, 0, 0, 105, 0, 0, 0, 2, 0, 0, 0, 105, 0, 0, 0, 3, 0, 0,
  0, 105, 0, 0, 0, 4, 0, 0, 0, 105, 0, 0, 0, 5, 0, 0, 0, 105, 0, 0, 0, 6, 0, 0, 0, 105, 0, 0, 0, 7, 0, 0, 0, 105, 0, 0, 0, 8, 0,
  0, 0, 105, 0, 0, 0, 9, 0, 0, 0, 105, 0, 0, 0, 10, 0, 0, 0, 105, 0, 0, 0, 11, 0, 0, 0, 105, 0, 0, 0, 12, 0, 0, 0, 105, 0, 0, 0,
  13, 0, 0, 0, 105, 0, 0, 0, 14, 0, 0, 0, 105, 0, 0, 0, 15, 0, 0, 0, 105, 0, 0, 0, 16, 0, 0, 0, 105, 0, 0, 0, 17, 0, 0, 0, 105,
  0, 0, 0, 18, 0, 0, 0, 105, 0, 0, 0, 19, 0, 0, 0, 105, 0, 0, 0, 20, 0, 0, 0, 105, 0, 0, 0, 21, 0, 0, 0, 105, 0, 0, 0, 22, 0, 0,
  0, 105, 0, 0, 0, 23, 0, 0, 0, 105, 0, 0, 0, 24, 0, 0, 0, 105, 0, 0, 0, 25, 0, 0, 0, 105, 0, 0, 0, 26, 0, 0, 0, 105, 0, 0, 0,
  27, 0, 0, 0, 105, 0, 0, 0, 28, 0, 0, 0, 105, 0, 0, 0, 29, 0, 0, 0, 105, 0, 0, 0, 30, 0, 0, 0, 105, 0, 0, 0, 31, 0, 0, 0, 105,
  0, 0, 0, 32, 0, 0, 0, 105, 0, 0, 0, 33, 0, 0, 0, 105, 0, 0, 0, 34, 0, 0, 0, 105, 0, 0, 0, 35, 0, 0, 0, 105, 0, 0, 0, 36, 0, 0,
  0, 105, 0, 0, 0, 37, 0, 0, 0, 105, 0, 0, 0, 38, 0, 0, 0, 105, 0, 0, 0, 39, 0, 0, 0, 105, 0, 0, 0, 40, 0, 0, 0, 105, 0, 0, 0,
  41, 0, 0, 0, 105, 0, 0, 0, 42, 0, 0, 0, 105, 0, 0, 0, 43, 0, 0, 0, 105, 0, 0, 0, 44, 0, 0, 0, 105, 0, 0, 0, 45, 0, 0, 0, 105,
  0, 0, 0, 46, 0, 0, 0, 105, 0, 0, 0, 47, 0, 0, 0, 105, 0, 0, 0, 48, 0, 0, 0, 105, 0, 0, 0, 49, 0, 0, 0, 105, 0, 0, 0, 50, 0, 0,
  0, 105, 0, 0, 0, 51, 0, 0, 0, 105, 0, 0, 0, 52, 0, 0, 0, 105, 0, 0, 0, 53, 0, 0, 0, 105, 0, 0, 0, 54, 0, 0, 0, 105, 0, 0, 0,
  55, 0, 0, 0, 105, 0, 0, 0, 56, 0, 0, 0, 105, 0, 0, 0, 57, 0, 0, 0, 105, 0, 0, 0, 58, 0, 0, 0, 105, 0, 0, 0, 59, 0, 0, 0, 105,
  0, 0, 0, 60, 0, 0, 0, 105, 0, 0, 0, 61, 0, 0, 0, 105, 0, 0, 0, 62, 0, 0, 0, 105, 0, 0, 0, 63, 0, 0, 0, 105, 0, 0, 0, 64, 0, 0,
  0, 105, 0, 0, 0, 65, 0, 0, 0, 105, 0, 0, 0, 66, 0, 0, 0, 105, 0, 0, 0, 67, 0, 0, 0, 105, 0, 0, 0, 68, 0, 0, 0, 105, 0, 0, 0,
  69, 0, 0, 0, 105, 0, 0, 0, 70, 0, 0, 0, 105, 0, 0, 0, 71, 0, 0, 0, 105, 0, 0, 0, 72, 0, 0, 0, 105, 0, 0, 0, 73, 0, 0, 0, 105,
  0, 0, 0, 74, 0, 0, 0, 105, 0, 0, 0, 75, 0, 0, 0, 105, 0, 0, 0, 76, 0, 0, 0, 105, 0, 0, 0, 77, 0, 0, 0, 105, 0, 0, 0, 78, 0, 0,
  0, 105, 0, 0, 0, 79, 0, 0, 0, 105, 0, 0, 0, 80, 0, 0, 0, 105, 0, 0, 0, 105, 0, 0, 0, 81, 0, 0, 0, 105, 0, 0, 0, 82, 0, 0, 0,
  105, 0, 0, 0, 83, 0, 0, 0, 105, 0, 0, 0, 84, 0, 0, 0, 105, 0, 0, 0, 85, 0, 0, 0, 105, 0, 0, 0, 86, 0, 0, 0, 105, 0, 0, 0, 87,
  0, 0, 0, 105, 0, 0, 0, 88, 0, 0, 0, 105, 0, 0, 0, 89, 0, 0, 0, 105, 0, 0, 0, 90, 0, 0, 0, 105, 0, 0, 0, 91, 0, 0, 0, 105, 0,
  0, 0, 92, 0, 0, 0, 105, 0, 0, 0, 93, 0, 0, 0, 105, 0, 0, 0, 94, 0, 0, 0, 105, 0, 0, 0, 95, 0, 0, 0, 105, 0, 0, 0, 96, 0, 0, 0,
  97, 0, 0, 0, 105, 0, 0, 0, 98, 0, 0, 0, 105, 0, 0, 0, 99, 0, 0, 0, 105, 0, 0, 0, 100, 0, 0, 0, 105, 0, 0, 0, 105, 0, 0, 0,
  101, 0, 0, 0, 102, 0, 0, 0, 105, 0, 0, 0, 105, 0, 0, 0, 103, 0, 0, 0, 104, 0, 0, 0, 105, 0, 0, 0, 113, 0, 0, 0, 157, 0, 0, 0,
  105, 0, 0, 0, 105, 0, 42, 228, 184, 173, 229, 155, 189, 9, 230, 181, 153, 230, 177, 159, 9]

/-- What follows it. -/
def cities2 (a b : Str) : Bytes := a ++ [9, 231, 148, 181, 228, 191, 161, 9, 52, 49, 51, 52, 9, 65, 83, 9, 229, 141, 142, 228, 184, 156, 0, 42, 228, 184, 173, 229, 155, 189, 9, 230, 177, 159, 232, 139, 143, 9] ++ b ++ [9, 231, 148, 181, 228, 191, 161, 9, 52, 49, 51, 52, 9, 65, 83, 9, 229, 141, 142, 228, 184, 156]

theorem last_packed : packedOf lastText = sameHead ++ cities2 (gs "杭州") (gs "南京") := by decide +kernel

theorem mixed_packed : packedOf mixedText = sameHead ++ cities2 (gs "杭州") (gs "苏州") := by decide +kernel

theorem release_converts : ((converter exWorld 0 (fun _ => exKeys) (fun _ => true) releaseFs exArgs).bind fun r => r.1 (gs "b.ipdb")) =
    some (sameHead ++ cities2 (gs "宁波") (gs "苏州")) := by decide +kernel

/-- The database of the next release: what the converter leaves if it runs alone. -/
def nextPacked : Bytes :=
  ((converter exWorld 0 (fun _ => exKeys) (fun _ => true) releaseFs exArgs).bind fun r => r.1 (gs "b.ipdb")).getD []

theorem next_packed : nextPacked = sameHead ++ cities2 (gs "宁波") (gs "苏州") := by
  unfold nextPacked
  rw [release_converts]; rfl

theorem mixed_bytes : (packedOf lastText).take 2100 ++ (nextPacked).drop 2100 = packedOf mixedText ∧
    2100 ≤ (packedOf lastText).length ∧ (packedOf mixedText).length < 2 ^ 32 ∧
    packedOf mixedText ≠ packedOf lastText ∧ packedOf mixedText ≠ nextPacked := by
  rw [last_packed, mixed_packed, next_packed]
  refine ⟨?_, ?_, ?_, ?_, ?_⟩ <;> decide +kernel

def mixedTable : IpData :=
  ⟨[fCountry, fProvince, fCity, fISP, fAsn, fContinent, fDistrict], exVersion,
   [⟨⟨[10, 0, 0, 0], [255, 128, 0, 0]⟩, [gs "中国", gs "浙江", gs "杭州", gs "电信", gs "4134", gs "AS", []]⟩,
    ⟨⟨[10, 128, 0, 0], [255, 128, 0, 0]⟩, [gs "中国", gs "江苏", gs "苏州", gs "电信", gs "4134", gs "AS", []]⟩]⟩

theorem mixed_dump : Plain.dump exWorld.decVersion mixedText (Export.ParseRule (ruleText exArgs.rule)) = .ok mixedTable := by
  decide +kernel

theorem mixed_dumps (fuel : Nat) : Dumps exWorld fuel (inputFs mixedText) exArgs id mixedTable := by
  refine ⟨mixedText, fun b e => withSlices id (some (Plain.dump exWorld.decVersion b e)), if_pos rfl, ?_, ?_⟩
  · have he : pathExt exArgs.input = gs ".scan" := by decide +kernel
    rw [he]; rfl
  · simp only []
    rw [mixed_dump]; rfl

theorem mixed_table : Table mixedTable where
  nodup := by decide +kernel
  province := by decide +kernel
  usable := ⟨3, 4, by decide +kernel, by decide +kernel, by decide, by decide⟩
  continent := by decide +kernel
  rows := by decide +kernel
  wf := by decide +kernel
  disjoint := by decide +kernel
  len := by decide +kernel
  modest := by decide +kernel
  notUniform := .inl ⟨0, by decide, by decide +kernel⟩

theorem mixed_orders : CarrierOrders NormalizedMap mixedTable (fun _ => exKeys) := by
  intro k
  refine ⟨by simp [exKeys], fun m => ⟨fun h => ?_, fun ⟨hm, y, hy, h⟩ => ?_⟩⟩
  · rw [List.mem_singleton.mp h]
    decide +kernel
  · have hall : ∀ y ∈ mixedTable.ips.map (normRow NormalizedMap mixedTable.fields),
        fieldVal mixedTable.fields fISP y ∈ mainCarriers.map some → fieldVal mixedTable.fields fISP y = some (gs "电信") := by decide +kernel
    have := hall y hy (by rw [h]; exact List.mem_map.mpr ⟨m, hm, rfl⟩)
    rw [h] at this; injection this with this
    rw [this]; exact List.mem_singleton.mpr rfl

/-- **C123 (the limit of it).** A server that is starting while a converter writes a new release over the database can open a
database that is neither the old nor the new one, and answer from it: here from a table with the old city of one range and
the new city of the other. -/
theorem C123_negation : (∃ xs, (schedule exProcs (.start releaseFs) xs).at_ 2 =
      .finished (.opened (NewDb exWorld (serverFormats exWorld 0) (fun _ => some (packedOf mixedText)) (gs "b.ipdb")))) ∧
    AnswersTable exWorld 0 mixedTable (fun _ => some (packedOf mixedText)) (gs "b.ipdb") ∧
    packedOf mixedText ≠ packedOf lastText ∧ packedOf mixedText ≠ nextPacked := by
  obtain ⟨b1, b2, b3, b4, b5⟩ := mixed_bytes
  have hsp : splitByte 0x2C (gs "b.ipdb") = [gs "b.ipdb"] := by decide +kernel
  refine ⟨?_, ?_, b4, b5⟩
  · have hconv := release_converts
    cases hc : converter exWorld 0 (fun _ => exKeys) (fun _ => true) releaseFs exArgs with
    | none => rw [hc] at hconv; cases hconv
    | some x =>
      rw [hc] at hconv
      obtain ⟨fend, r⟩ := x
      have hno : gs "b.ipdb" ≠ gs "a.scan" := by decide +kernel
      obtain ⟨xs, h⟩ := C123_mixed exProcs releaseFs fend 0 2 (exJob (gs "b.ipdb")) exWorld 0 (gs "b.ipdb") rfl rfl ex_undisturbed.1
        (by show _ ∈ splitByte 0x2C (gs "b.ipdb"); rw [hsp]; exact List.mem_singleton.mpr rfl) r hc (packedOf lastText)
        _ ((if_neg hno).trans (if_pos rfl)) hconv 2100 b2
      rw [← next_packed] at h
      exact ⟨xs, by rw [b1] at h; exact h⟩
  · obtain ⟨fend, h1, h2⟩ := sound_run exWorld 0 (fun _ => exKeys) (fun _ => true) (inputFs mixedText) exArgs id mixedTable (mixed_dumps 0)
      mixed_table rfl mixed_orders (by decide +kernel) (ex_meta _ _) (gs "b.ipdb")
      (by rw [hsp]; intro o ho; rw [List.mem_singleton.mp ho]; exact ⟨rfl, by decide +kernel⟩)
    obtain ⟨f0, b0, _, _, h3, h4⟩ := h2 (gs "b.ipdb") (by rw [hsp]; exact List.mem_singleton.mpr rfl)
    have e : packedOf mixedText = b0 := by
      unfold packedOf
      have h1 : converter exWorld 0 (fun _ => exKeys) (fun _ => true) (inputFs mixedText) exArgs = some (fend, .ok ()) := h1
      rw [h1]
      show (fend (gs "b.ipdb")).getD [] = b0
      rw [h3]; rfl
    rw [e] at b3 ⊢
    exact (h4 b3 (fun _ => some b0)).1 rfl

end Uip.Program
