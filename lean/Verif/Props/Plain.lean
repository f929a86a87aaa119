import Verif.Proof.Plain
import Verif.Props.Export
/-!
# Properties C44-C46: the `.scan` text

`enc`/`dec` stand for `json.Marshal`/`json.Unmarshal` of the version, `now` for the printed time.
Vocabulary: `Verif/Spec/Scan.lean`.
-/
namespace Uip.Plain
open Uip Uip.Spec Uip.Export

/-! ## Examples -/

/-- A version and a toy JSON codec. -/
def demoV : VersionInfo := ⟨1, 2, 0, gs "v", [], []⟩
def demoEnc : VersionInfo → Str := fun _ => gs "{v}"
def demoDec : Str → Option (Option VersionInfo) := fun s => if s = gs "{v}" then some (some demoV) else none

/-- Three rows, two of them sharing one value slice; one value has a comma. -/
def demoH : HData :=
  ⟨[gs "country", gs "city"], demoV,
   [⟨⟨[10, 0, 0, 0], [255, 0, 0, 0]⟩, ⟨0, 2⟩⟩, ⟨⟨[11, 0, 0, 0], [255, 0, 0, 0]⟩, ⟨0, 2⟩⟩, ⟨⟨[255, 255, 0, 0], [255, 255, 0, 0]⟩, ⟨1, 2⟩⟩],
   [[gs "CN", gs "a,b"], [gs "US", []]]⟩

def demoNow : Str := gs "2024-01-01"

/-! ## C44 -/

/-- What must hold between a row written and the row read back. -/
def RowBack (r o : IpRaw) : Prop :=
  WFNet o.cidr ∧ SameNet r.cidr o.cidr ∧ o.values = r.values.map noCommas ∧
    (r.cidr.ip.length = 4 ∨ To4 r.cidr.ip = none → o.cidr = r.cidr)

section
variable {enc : VersionInfo → Str} {dec : Str → Option (Option VersionInfo)} {now : Str} {v : VersionInfo} {d : HData}

/-- **C44.** Packing rows to `.scan` and dumping the text under the rule listing the same fields gives back, row
by row, the same networks and the values with commas replaced, up to and including the first row that reaches
the last address of its family. -/
theorem C44_scan_roundtrip (hw : d.WF) (hd : ScanOK d.view) (hr : DefaultsOK d.fields) (hver : LineOK (enc d.version))
    (hnow : LineOK now) (hdec : dec (enc d.version) = some (some v)) :
    ∃ text d' out, pack enc now d = .ok (text, d') ∧
      dump dec text (ParseRule (ruleText d.fields [])) = .ok ⟨d.fields, v, out⟩ ∧
      Rel2 RowBack (untilEnd d.view.ips) out := by
  obtain ⟨d', hp, _⟩ := pack_text (enc := enc) (now := now) hw
  have hparse : ParseRule (ruleText d.fields []) = some ⟨d.fields, []⟩ := parse_ruleText hr (by intro g hg; cases hg)
  obtain ⟨out, h1, h2⟩ := dump_packed hd hver hnow hdec (rs := d.view.ips) (fun r h => h) (some ⟨d.fields, []⟩)
  refine ⟨_, d', out, hp, ?_, ?_⟩
  · rw [hparse]; exact h1
  · refine h2.imp_mem fun r hr o ho h => ?_
    have hrm : r ∈ d.view.ips := by
      have : ∀ l : List IpRaw, r ∈ untilEnd l → r ∈ l := by
        intro l
        induction l with
        | nil => intro h; cases h
        | cons a l ih =>
          intro h
          simp only [untilEnd] at h
          split at h
          · simp at h; simp [h]
          · rcases List.mem_cons.mp h with h | h
            · simp [h]
            · exact List.mem_cons_of_mem _ (ih h)
      exact this _ hr
    refine ⟨h.1.wf, h.1.same, ?_, h.1.eq⟩
    have := h.2
    simp only [rowValues, Option.map_some, Option.getD_some] at this
    have he : (⟨d.fields, []⟩ : Exporter).Export (Select (fieldToMap d.fields) d.fields) (record d.fields (r.values.map noCommas)) =
        .ok (r.values.map noCommas) := export_all hd.nodup (by rw [List.length_map, hd.len r hrm]; rfl)
    rw [show d.view.fields = d.fields from rfl] at this
    rw [he] at this
    injection this with this
    exact this.symm

/-- No row but the last reaches the last address of its family. -/
def OnlyLastEnds (rs : List IpRaw) : Prop := ∀ i r, rs[i]? = some r → i + 1 < rs.length → ¬ EndsFamily r.cidr

theorem untilEnd_eq : ∀ {rs : List IpRaw}, OnlyLastEnds rs → untilEnd rs = rs
  | [], _ => rfl
  | [r], _ => by simp only [untilEnd]; split <;> rfl
  | r :: s :: rs, h => by
    rw [untilEnd, if_neg (h 0 r rfl (by simp)), untilEnd_eq (fun i x hx hl => h (i + 1) x (by simpa using hx) (by simpa using hl))]

/-- **C44 (whole table).** When only the last row may reach the end of its family and the networks are in the form
`ParseCIDR` produces, the rows come back exactly, with commas replaced. -/
theorem C44_scan_roundtrip_all (hw : d.WF) (hd : ScanOK d.view) (hr : DefaultsOK d.fields) (hver : LineOK (enc d.version))
    (hnow : LineOK now) (hdec : dec (enc d.version) = some (some v)) (hlast : OnlyLastEnds d.view.ips)
    (hform : ∀ r ∈ d.view.ips, r.cidr.ip.length = 4 ∨ To4 r.cidr.ip = none) :
    ∃ text d', pack enc now d = .ok (text, d') ∧
      dump dec text (ParseRule (ruleText d.fields [])) =
        .ok ⟨d.fields, v, d.view.ips.map fun r => ⟨r.cidr, r.values.map noCommas⟩⟩ := by
  obtain ⟨text, d', out, h1, h2, h3⟩ := C44_scan_roundtrip hw hd hr hver hnow hdec
  refine ⟨text, d', h1, ?_⟩
  rw [h2]
  rw [untilEnd_eq hlast] at h3
  have h4 : Rel2 (fun r o => id o = (fun r : IpRaw => (⟨r.cidr, r.values.map noCommas⟩ : IpRaw)) r) d.view.ips out :=
    h3.imp_mem fun r hr o _ h => by
      rcases o with ⟨c, vs⟩
      have e1 := h.2.2.2 (hform r hr)
      have e2 := h.2.2.1
      simp only [] at e1 e2
      simp [e1, e2]
  have := h4.map_eq
  rw [List.map_id] at this
  rw [this]

/-- **C44 (any rule).** Dumping under any well-formed rule exports the packed record under that rule. -/
theorem C44_scan_rule (hw : d.WF) (hd : ScanOK d.view) (hempty : [] ∉ d.fields) {defs : List Str} {groups : List Group}
    (hr : DefaultsOK defs) (hg : ∀ g ∈ groups, g.WF) (hver : LineOK (enc d.version))
    (hnow : LineOK now) (hdec : dec (enc d.version) = some (some v)) :
    ∃ text d' out, pack enc now d = .ok (text, d') ∧
      dump dec text (ParseRule (ruleText defs groups)) = .ok ⟨defs, v, out⟩ ∧
      Rel2 (fun r o => SameNet r.cidr o.cidr ∧
        o.values = groups.foldl (Group.apply defs)
          (defs.map fun f => (valueOf d.fields (r.values.map noCommas) f).getD [])) (untilEnd d.view.ips) out := by
  obtain ⟨d', hp, _⟩ := pack_text (enc := enc) (now := now) hw
  obtain ⟨out, h1, h2⟩ := dump_packed hd hver hnow hdec (rs := d.view.ips) (fun r h => h)
    (some ⟨defs, groups.filterMap (fun g => parseGroup defs g.text)⟩)
  refine ⟨_, d', out, hp, ?_, ?_⟩
  · rw [parse_ruleText hr hg]; exact h1
  · refine h2.imp_mem fun r hrm o ho h => ⟨h.1.same, ?_⟩
    have hrm : r ∈ d.view.ips := by
      have : ∀ l : List IpRaw, r ∈ untilEnd l → r ∈ l := by
        intro l
        induction l with
        | nil => intro h; cases h
        | cons a l ih =>
          intro h
          simp only [untilEnd] at h
          split at h
          · simp at h; simp [h]
          · rcases List.mem_cons.mp h with h | h
            · simp [h]
            · exact List.mem_cons_of_mem _ (ih h)
      exact this _ hrm
    have hl : (r.values.map noCommas).length = d.view.fields.length := by rw [List.length_map, hd.len r hrm]
    have hn : mapGet (record d.view.fields (r.values.map noCommas)) [] = none := record_none hl hempty
    obtain ⟨e, he, hef, hx⟩ := C29_export_rule defs groups hr hg (fieldToMap d.view.fields) _ hn
    rw [parse_ruleText hr hg] at he
    injection he with he
    subst he
    have h3 := h.2
    simp only [rowValues, Option.map_some, Option.getD_some] at h3
    rw [hx] at h3
    injection h3 with h3
    rw [← h3]
    unfold exportSpec
    congr 1
    apply List.map_congr_left
    intro f _
    unfold fieldValue
    rw [fieldToMap_get]
    have key : mapGet (record d.view.fields (r.values.map noCommas)) f = valueOf d.fields (r.values.map noCommas) f := by
      by_cases hf : f ∈ d.fields
      · obtain ⟨i, hi⟩ := List.getElem?_of_mem hf
        obtain ⟨w, hwv⟩ : ∃ w, (r.values.map noCommas)[i]? = some w := by
          have := (List.getElem?_eq_some_iff.mp hi).1
          exact ⟨_, List.getElem?_eq_getElem (by rw [hl]; exact this)⟩
        rw [record_get hd.nodup hl hi hwv]
        unfold valueOf
        have hz : (d.fields.zip (r.values.map noCommas))[i]? = some (f, w) := by rw [List.getElem?_zip_eq_some]; exact ⟨hi, hwv⟩
        cases hfind : (d.fields.zip (r.values.map noCommas)).find? (fun p => decide (p.1 = f)) with
        | none =>
          have := List.find?_eq_none.mp hfind (f, w) (List.mem_of_getElem? hz)
          simp at this
        | some p =>
          have hp1 : p.1 = f := by
            have := List.find?_some (p := fun p : Str × Str => decide (p.1 = f)) hfind
            simpa using this
          obtain ⟨j, hj⟩ := List.getElem?_of_mem (List.mem_of_find?_eq_some hfind)
          obtain ⟨hj1, hj2⟩ := List.getElem?_zip_eq_some.mp hj
          have hij : i = j := by
            obtain ⟨hi1, hi2⟩ := List.getElem?_eq_some_iff.mp hi
            obtain ⟨hj1', hj2'⟩ := List.getElem?_eq_some_iff.mp hj1
            have hnd := List.pairwise_iff_getElem.mp (show d.fields.Pairwise (· ≠ ·) from hd.nodup)
            rcases Nat.lt_trichotomy i j with h | h | h
            · exact absurd (by rw [hi2, hj2', hp1]) (hnd i j hi1 hj1' h)
            · exact h
            · exact absurd (by rw [hi2, hj2', hp1]) (hnd j i hj1' hi1 h)
          subst hij
          rw [hwv] at hj2
          simp at hj2
          simp [hj2]
      · rw [record_none hl hf]
        unfold valueOf
        have : (d.fields.zip (r.values.map noCommas)).find? (fun p => decide (p.1 = f)) = none := by
          rw [List.find?_eq_none]
          intro p hp
          have := (List.of_mem_zip hp).1
          simp only [decide_eq_true_eq]
          rintro rfl
          exact hf this
        rw [this]; rfl
    by_cases hf : f ∈ d.fields
    · rw [show d.view.fields = d.fields from rfl, if_pos hf]
      simp only [Option.bind_some]
      rw [← key]
      rfl
    · rw [show d.view.fields = d.fields from rfl, if_neg hf]
      rw [← key, record_none hl hf]
      rfl

end

/-- Non-trivial case for the hypotheses. -/
example : demoH.WF ∧ ScanOK demoH.view ∧ DefaultsOK demoH.fields ∧ LineOK (demoEnc demoH.version) ∧ LineOK demoNow ∧
    demoDec (demoEnc demoH.version) = some (some demoV) := by decide +kernel
example : OnlyLastEnds demoH.view.ips := by
  intro i r h hl
  have : i = 0 ∨ i = 1 := by
    have : demoH.view.ips.length = 3 := rfl
    omega
  rcases this with rfl | rfl <;> (cases h; decide +kernel)
example : [] ∉ demoH.fields := by decide +kernel

/-- Both families in one table: rows after `255.255.0.0/16`. -/
def demoDual : HData := { demoH with rows := demoH.rows ++ [⟨⟨[0x20] ++ List.replicate 15 0, [255] ++ List.replicate 15 0⟩, ⟨0, 2⟩⟩] }

/-- **C44 (loss).** In a table with both families, the rows after the one ending at `255.255.255.255` are lost,
without an error. -/
theorem C44_rows_after_family_end_lost : demoDual.WF ∧ ScanOK demoDual.view ∧
    ∃ text d' out, pack demoEnc demoNow demoDual = .ok (text, d') ∧
      dump demoDec text (ParseRule (ruleText demoDual.fields [])) = .ok ⟨demoDual.fields, demoV, out⟩ ∧
      out.length < demoDual.rows.length := by
  refine ⟨by decide +kernel, by decide +kernel, ?_⟩
  obtain ⟨text, d', out, h1, h2, h3⟩ := C44_scan_roundtrip (enc := demoEnc) (dec := demoDec) (now := demoNow) (v := demoV) (d := demoDual)
    (by decide +kernel) (by decide +kernel) (by decide +kernel) (by decide +kernel) (by decide +kernel) (by decide +kernel)
  refine ⟨text, d', out, h1, h2, ?_⟩
  rw [h3.length]
  decide +kernel

/-! ## C45 -/

/-- **C45 (fails).** Dumped without a rule, no row of any `.scan` text has a value. -/
theorem C45_no_rule_no_values (dec : Str → Option (Option VersionInfo)) (text : Str) (d : IpData)
    (h : dump dec text none = .ok d) : ∀ r ∈ d.ips, r.values = [] := by
  unfold dump at h
  obtain ⟨t, _, h⟩ := Res.bind_eq_ok.mp h
  unfold Traversal.Dump at h
  simp only [] at h
  cases hv : t.version with
  | none => rw [hv] at h; cases h
  | some v =>
    rw [hv] at h
    simp only [] at h
    obtain ⟨ips, hi, h⟩ := Res.bind_eq_ok.mp h
    injection h with h
    subst h
    simp only
    have key : ∀ (ls : List Str) fm out, dumpLoop t none fm ls = .ok out → ∀ r ∈ out, r.values = [] := by
      intro ls fm
      induction ls with
      | nil => intro out h r hr; injection h with h; subst h; cases hr
      | cons l ls ih =>
        intro out h r hr
        simp only [dumpLoop] at h
        obtain ⟨⟨c, info⟩, _, h⟩ := Res.bind_eq_ok.mp h
        simp only [rowValues, Res.ok_bind] at h
        obtain ⟨last, _, h⟩ := Res.bind_eq_ok.mp h
        split at h
        · injection h with h; subst h; simp at hr; rw [hr]
        · obtain ⟨rs, hrs, h⟩ := Res.bind_eq_ok.mp h
          injection h with h; subst h
          rcases List.mem_cons.mp hr with rfl | hr
          · rfl
          · exact ih rs hrs r hr
    exact key _ _ _ hi

/-- **C45 (negation).** A table with values whose text, dumped without a rule, keeps the field names but no value. -/
theorem C45_negation : ∃ text d' out, pack demoEnc demoNow demoH = .ok (text, d') ∧
    dump demoDec text none = .ok ⟨demoH.fields, demoV, out⟩ ∧ out.length = 3 ∧ ∀ r ∈ out, r.values = [] := by
  obtain ⟨d', hp, _⟩ := pack_text (enc := demoEnc) (now := demoNow) (d := demoH) (by decide +kernel)
  obtain ⟨out, h1, h2⟩ := dump_packed (dec := demoDec) (ver := demoEnc demoV) (now := demoNow) (v := demoV) (d := demoH.view)
    (by decide +kernel) (by decide +kernel) (by decide +kernel) (by decide +kernel) (rs := demoH.view.ips) (fun r h => h) none
  refine ⟨_, d', out, hp, h1, ?_, C45_no_rule_no_values _ _ _ h1⟩
  rw [h2.length]
  decide +kernel

/-! ## C46 -/

section
variable {enc : VersionInfo → Str} {dec : Str → Option (Option VersionInfo)} {now : Str} {v : VersionInfo} {d : HData}

/-- **C46 (fails).** Cutting a packed text after the line of any of its rows is never detected: the dump succeeds
with the rows before the cut. -/
theorem C46_cut_at_line_undetected (hw : d.WF) (hd : ScanOK d.view) (hver : LineOK (enc d.version)) (hnow : LineOK now)
    (hdec : dec (enc d.version) = some (some v)) (k : Nat) (e : Option Exporter) :
    ∃ text d' cut fields out, pack enc now d = .ok (text, d') ∧ cut <+: text ∧
      (k < d.rows.length → cut ≠ text) ∧ dump dec cut e = .ok ⟨fields, v, out⟩ ∧
      Rel2 (fun r o => SameNet r.cidr o.cidr) (untilEnd (d.view.ips.take k)) out := by
  obtain ⟨d', hp, _⟩ := pack_text (enc := enc) (now := now) hw
  obtain ⟨out, h1, h2⟩ := dump_packed hd hver hnow hdec (rs := d.view.ips.take k) (fun r h => List.mem_of_mem_take h) e
  have hsplit : unlines (d.view.ips.map rowLine) = unlines ((d.view.ips.take k).map rowLine) ++ unlines ((d.view.ips.drop k).map rowLine) := by
    conv => lhs; rw [← List.take_append_drop k d.view.ips]
    simp only [unlines, List.map_append, List.flatMap_append]
  refine ⟨_, d', _, _, out, hp, ?_, ?_, h1, h2.imp_mem fun r _ o _ h => h.1.same⟩
  · refine ⟨unlines ((d.view.ips.drop k).map rowLine), ?_⟩
    rw [hsplit, List.append_assoc]; rfl
  · intro hk he
    have hl := congrArg List.length he
    rw [hsplit] at hl
    simp only [List.length_append] at hl
    have : 0 < (unlines ((d.view.ips.drop k).map rowLine)).length := by
      have hlen : d.view.ips.length = d.rows.length := by simp [HData.view]
      cases hdr : d.view.ips.drop k with
      | nil => rw [List.drop_eq_nil_iff] at hdr; omega
      | cons r rs => simp only [unlines, List.map_cons, List.flatMap_cons, List.length_append, List.length_cons]; omega
    have e3 : (header (enc d.version) now d.view.fields).length = (header (enc d.version) now d.fields).length := rfl
    omega

theorem splitByte_length (c : UInt8) (s : Str) : (splitByte c s).length = s.count c + 1 := by
  induction s with
  | nil => rfl
  | cons b s ih =>
    simp only [splitByte]
    by_cases hb : b = c
    · subst hb; simp [ih]
    · rw [if_neg hb, List.count_cons_of_ne hb]
      cases e : splitByte c s with
      | nil => exact absurd e (splitByte_ne_nil _ _)
      | cons f fs => rw [e] at ih; simpa using ih

theorem splitByte_mem {c : UInt8} {s p : Str} (h : p ∈ splitByte c s) : p.Sublist s := by
  induction s generalizing p with
  | nil => simp [splitByte] at h; rw [h]; exact List.Sublist.refl _
  | cons b s ih =>
    simp only [splitByte] at h
    split at h
    · rcases List.mem_cons.mp h with rfl | h
      · exact List.nil_sublist _
      · exact (ih h).trans (List.sublist_cons_self _ _)
    · split at h
      · rename_i e; exact absurd e (splitByte_ne_nil _ _)
      · rename_i f fs e
        rcases List.mem_cons.mp h with rfl | h
        · exact (ih (by rw [e]; simp)).cons_cons _
        · exact (ih (by rw [e]; simp [h])).trans (List.sublist_cons_self _ _)

/-- **C46 (what is detected).** Cutting inside a row before its last comma is detected, if no earlier row reaches the
end of its family.  Missing: cuts at line ends, cuts inside the last value, cuts in the header. -/
theorem C46_cut_inside_row (hw : d.WF) (hd : ScanOK d.view) (hver : LineOK (enc d.version)) (hnow : LineOK now)
    (hdec : dec (enc d.version) = some (some v)) (k : Nat) (r : IpRaw) (hk : d.view.ips[k]? = some r)
    (hend : ∀ x ∈ d.view.ips.take k, ¬ EndsFamily x.cidr) (p : Str) (hp : p <+: rowLine r) (hp0 : p ≠ [])
    (hc : p.count 0x2C + 1 < d.fields.length) (e : Option Exporter) :
    ∃ text d', pack enc now d = .ok (text, d') ∧
      (header (enc d.version) now d.fields ++ unlines ((d.view.ips.take k).map rowLine) ++ p) <+: text ∧
      ∃ er, dump dec (header (enc d.version) now d.fields ++ unlines ((d.view.ips.take k).map rowLine) ++ p) e = .err er := by
  obtain ⟨d', hpk, _⟩ := pack_text (enc := enc) (now := now) hw
  have hrm : r ∈ d.view.ips := List.mem_of_getElem? hk
  have hlt : k < d.view.ips.length := (List.getElem?_eq_some_iff.mp hk).1
  obtain ⟨q, hq⟩ := hp
  refine ⟨_, d', hpk, ?_, ?_⟩
  · have hdrop : d.view.ips.drop k = r :: d.view.ips.drop (k + 1) := by
      rw [List.drop_eq_getElem_cons hlt]
      congr 1
      exact (List.getElem?_eq_some_iff.mp hk).2
    refine ⟨q ++ [0x0A] ++ unlines ((d.view.ips.drop (k + 1)).map rowLine), ?_⟩
    conv => rhs; rw [← List.take_append_drop k d.view.ips, hdrop]
    simp only [unlines, List.map_append, List.flatMap_append, List.map_cons, List.flatMap_cons, ← hq, List.append_assoc]
  · -- reading
    have hline := rowLine_ok hd hrm
    have hpc : ∀ b ∈ p, b ∈ rowLine r := fun b hb => by rw [← hq]; exact List.mem_append_left _ hb
    have hnl : (0x0A : UInt8) ∉ p := fun h => hline.1 (hpc _ h)
    have hcr : (0x0D : UInt8) ∉ rowLine r := by
      intro h
      unfold rowLine at h
      rcases List.mem_append.mp h with h | h
      · exact netString_plain (hd.wf r hrm) (by simp) h
      · rcases List.mem_cons.mp h with h | h
        · exact absurd h (by decide)
        · rcases mem_joinByte h with h | ⟨s, hs, h⟩
          · exact absurd h (by decide)
          · obtain ⟨w, hw, rfl⟩ := List.mem_map.mp hs
            rcases mem_noCommas h with h | h
            · exact absurd h (by decide)
            · exact hd.values r hrm w hw _ h.2 (by decide)
    have hlen : p.length < 65536 := by
      have := congrArg List.length hq
      rw [List.length_append] at this
      have := hline.2.2
      omega
    have hscan : ∀ ls : List Str, (∀ l ∈ ls, (0x0A : UInt8) ∉ l ∧ l.getLast? ≠ some 0x0D ∧ l.length < 65536) →
        scanLines (unlines ls ++ p) = (ls ++ [p], false) := by
      intro ls
      induction ls with
      | nil =>
        intro _
        show scanPieces (splitByte 0x0A p) = _
        rw [splitByte_noSep hnl]
        simp only [scanPieces]
        rw [if_neg (by unfold maxToken; omega), if_neg hp0, dropCR_of (fun h => hcr (hpc _ (List.mem_of_getLast? h)))]
        rfl
      | cons l ls ih =>
        intro h
        obtain ⟨h1, h2, h3⟩ := h l (by simp)
        have ih := ih (fun x hx => h x (by simp [hx]))
        unfold scanLines at ih ⊢
        have e : unlines (l :: ls) ++ p = l ++ 0x0A :: (unlines ls ++ p) := by simp [unlines]
        rw [e, splitByte_append h1]
        obtain ⟨q', ps, hq'⟩ : ∃ q ps, splitByte 0x0A (unlines ls ++ p) = q :: ps := by
          cases e : splitByte 0x0A (unlines ls ++ p) with
          | nil => exact absurd e (splitByte_ne_nil _ _)
          | cons q ps => exact ⟨q, ps, rfl⟩
        rw [hq'] at ih ⊢
        rw [scanPieces, if_neg (by unfold maxToken; omega), ih, dropCR_of h2]
        rfl
    have hread := newDumper_packed hd hver hnow hdec (rs := d.view.ips.take k) (fun r h => List.mem_of_mem_take h)
    -- the same header lines, with one more line at the end
    have hread2 : newDumper dec (header (enc d.version) now d.fields ++ unlines ((d.view.ips.take k).map rowLine) ++ p) =
        .ok ⟨(d.view.ips.take k).map rowLine ++ [p], d.fields, some v⟩ := by
      have e1 : header (enc d.version) now d.view.fields ++ unlines ((d.view.ips.take k).map rowLine) =
          unlines ((gs "#### scan dump " ++ now ++ gs " ####") :: (gs "#### " ++ enc d.version) :: (gs "#### " ++ joinByte 0x2C d.fields) ::
            (d.view.ips.take k).map rowLine) := by
        rw [header_lines]; simp [unlines, HData.view]
      have hall : ∀ l ∈ (gs "#### scan dump " ++ now ++ gs " ####") :: (gs "#### " ++ enc d.version) :: (gs "#### " ++ joinByte 0x2C d.fields) ::
          (d.view.ips.take k).map rowLine, (0x0A : UInt8) ∉ l ∧ l.getLast? ≠ some 0x0D ∧ l.length < 65536 := header_ok hd hver hnow (rs := d.view.ips.take k) (fun r h => List.mem_of_mem_take h)
      have hs5 : ∀ s : Str, skip5 (gs "#### " ++ s) = .ok s := by
        intro s
        rw [gs_mark]; unfold skip5; rw [if_neg (by simp)]; rfl
      have e1' : header (enc d.version) now d.fields ++ unlines ((d.view.ips.take k).map rowLine) =
          unlines ((gs "#### scan dump " ++ now ++ gs " ####") :: (gs "#### " ++ enc d.version) :: (gs "#### " ++ joinByte 0x2C d.fields) ::
            (d.view.ips.take k).map rowLine) := e1
      unfold newDumper
      rw [e1', hscan _ hall]
      simp only [List.cons_append, readHeader, hs5, Res.ok_bind, hdec]
      have := splitByte_joinByte (c := 0x2C) hd.fields_ne (fun s hs h => hd.fields s hs _ h (by decide))
      rw [show d.view.fields = d.fields from rfl] at this
      rw [this]
    have hbad : ∃ er, parseLine ⟨(d.view.ips.take k).map rowLine ++ [p], d.fields, some v⟩ p = .err er := by
      unfold parseLine
      split
      · rename_i a b hab
        split
        · exact ⟨_, rfl⟩
        · rw [if_pos]
          · exact ⟨_, rfl⟩
          · rw [splitByte_length]
            have hsub : b.Sublist p := splitByte_mem (c := 0x09) (by rw [hab]; simp)
            have := hsub.count_le 0x2C
            simp only
            omega
      · exact ⟨_, rfl⟩
    unfold dump
    rw [hread2]
    simp only [Res.ok_bind, Traversal.Dump]
    have hval : ∀ fm : List (Str × Str), (∀ x ∈ d.view.ips, ∃ vs, rowValues e fm (record d.view.fields (x.values.map noCommas)) = .ok vs) →
        ∀ xs : List IpRaw, (∀ x ∈ xs, x ∈ d.view.ips) → (∀ x ∈ xs, ¬ EndsFamily x.cidr) →
          ∃ er, dumpLoop ⟨(d.view.ips.take k).map rowLine ++ [p], d.fields, some v⟩ e fm (xs.map rowLine ++ [p]) = .err er := by
      intro fm hvs xs
      induction xs with
      | nil =>
        intro _ _
        obtain ⟨er, her⟩ := hbad
        exact ⟨er, by simp only [List.map_nil, List.nil_append, dumpLoop, her, Res.err_bind]⟩
      | cons x xs ih =>
        intro hx hne
        have hxm := hx x (by simp)
        obtain ⟨n', hpar, he⟩ := parseLine_rowLine hd hxm (t := ⟨(d.view.ips.take k).map rowLine ++ [p], d.fields, some v⟩) rfl
        have hrb := readBack (hd.wf x hxm) hpar
        obtain ⟨vs, hv⟩ := hvs x hxm
        obtain ⟨last, hlast, _⟩ := LastIP_spec hrb.wf.1
        have hiff := endsFamily_iff hrb.wf hrb.same hrb.v4.mpr hrb.v4.mp (hd.wf x hxm).1.1 hlast
        obtain ⟨er, her⟩ := ih (fun y hy => hx y (by simp [hy])) (fun y hy => hne y (by simp [hy]))
        refine ⟨er, ?_⟩
        simp only [List.map_cons, List.cons_append, dumpLoop, he, Res.ok_bind, hv, hlast]
        rw [if_neg (fun h => hne x (by simp) (hiff.mp h)), her]; rfl
    have hvv : ∀ ef : List Str, (∀ e', e = some e' → ef = e'.fields) → ∀ x ∈ d.view.ips, ∃ vs, rowValues e (Select (fieldToMap d.fields) ef)
        (record d.view.fields (x.values.map noCommas)) = .ok vs := by
      intro ef hef x _
      cases e with
      | none => exact ⟨[], rfl⟩
      | some e =>
        rw [hef e rfl]
        simp only [rowValues, Exporter.Export, remapKey_spec, Res.ok_bind, Res.pure_eq]
        exact ⟨_, rfl⟩
    cases e with
    | none =>
      obtain ⟨er, her⟩ := hval _ (hvv d.fields (fun e' h => by cases h)) _ (fun x hx => List.mem_of_mem_take hx) hend
      exact ⟨er, by simp only []; rw [her]; rfl⟩
    | some e =>
      obtain ⟨er, her⟩ := hval _ (hvv e.fields (fun e' h => by injection h with h; rw [h])) _ (fun x hx => List.mem_of_mem_take hx) hend
      exact ⟨er, by simp only []; rw [her]; rfl⟩

end

/-- Non-trivial case: the second row of `demoH`, cut after four characters. -/
example : demoH.view.ips[1]? = some ⟨⟨[11, 0, 0, 0], [255, 0, 0, 0]⟩, [gs "CN", gs "a,b"]⟩ ∧
    (∀ x ∈ demoH.view.ips.take 1, ¬ EndsFamily x.cidr) ∧
    gs "11.0" <+: rowLine ⟨⟨[11, 0, 0, 0], [255, 0, 0, 0]⟩, [gs "CN", gs "a,b"]⟩ ∧
    (gs "11.0").count 0x2C + 1 < demoH.fields.length := by decide +kernel

end Uip.Plain
