import Verif.Props.Converter
import Verif.Props.Convert
import Verif.Props.MergeMin
/-!
# C89: a conversion to several outputs

`converter -i input -o a.ipdb,b.scan,…`: the outputs are written one after the other from one data set, which the packers
change in place (`C43`).
-/
namespace Uip.Program
open Uip Uip.Spec Uip.Operate

/-- The content a data set has when written on its own to a file of this name. -/
def content (w : World) (d : HData) (name : Str) : Res Bytes :=
  Convert.alone d (⟨w.encMeta, w.encVersion, w.now, w.nowText⟩, pathExt name)

/-- The same as bytes of a file, when it can be made. -/
def written (w : World) (d : HData) (name : Str) : Option Bytes :=
  match content w d name with
  | .ok b => some b
  | _ => none

/-- Writing to the first file first does not harm the second. -/
def HarmlessFiles (d : HData) (a b : Str) : Prop := Convert.Harmless d (pathExt a) (pathExt b)

instance (d a b) : Decidable (HarmlessFiles d a b) := by unfold HarmlessFiles; infer_instance

/-- One more output on a data set that earlier outputs have gone through. -/
theorem packFile_step {w : World} {fuel : Nat} {canCreate : Str → Bool} {fs : Fs} {d0 d : HData} {S P : Prop} (hw : d0.WF)
    (hi : Convert.Inv d0 d S P) (o : Str)
    (hS : S → pathExt o = gs ".scan" ∨ Convert.NoCommas d0) (hP : P → pathExt o ≠ gs ".scan" ∨ Convert.OneContinent d0)
    (hcc : canCreate o = true) :
    ∃ d', Convert.Inv d0 d' (S ∨ pathExt o = gs ".scan") (P ∨ pathExt o = gs ".ipdb") ∧
      PackFile (converterFormats w fuel) canCreate fs o d = match content w d0 o with
        | .ok b => (fs.set o b, .ok d')
        | .err e => (fs.set o [], .err e)
        | .panic => (fs.set o (leftBy (pathExt o) d0), .panic) := by
  have hl : leftBy (pathExt o) d = leftBy (pathExt o) d0 := by
    unfold leftBy
    by_cases hm : pathExt o = gs ".memip"
    · rw [if_pos hm, if_pos hm, Convert.calls_step hi fun h => (hS h).resolve_left (by rw [hm]; decide)]
    · rw [if_neg hm, if_neg hm]
  obtain ⟨d', e, hi'⟩ := Convert.step hw hi ⟨w.encMeta, w.encVersion, w.now, w.nowText⟩ (pathExt o) hS hP
  refine ⟨d', hi', ?_⟩
  unfold PackFile content
  rw [if_neg (by rw [hcc]; simp), C59_packWriter, e, hl]
  cases Convert.alone d0 (⟨w.encMeta, w.encVersion, w.now, w.nowText⟩, pathExt o) <;> rfl

/-- The loop over the outputs, from a data set that earlier outputs have gone through. -/
theorem writeAll_from {w : World} {fuel : Nat} {canCreate : Str → Bool} {d0 : HData} (hw : d0.WF) :
    ∀ (os rest : List Str) (fs : Fs) (d : HData) (S P : Prop), Convert.Inv d0 d S P →
      (S → ∀ o ∈ os, pathExt o = gs ".scan" ∨ Convert.NoCommas d0) → (P → ∀ o ∈ os, pathExt o ≠ gs ".scan" ∨ Convert.OneContinent d0) →
      (S → ∀ o ∈ rest, pathExt o = gs ".scan" ∨ Convert.NoCommas d0) → (P → ∀ o ∈ rest, pathExt o ≠ gs ".scan" ∨ Convert.OneContinent d0) →
      (os ++ rest).Pairwise (HarmlessFiles d0) → (∀ o ∈ os, canCreate o = true ∧ ∃ b, content w d0 o = .ok b) →
      ∃ (fs' : Fs) (d' : HData) (S' P' : Prop), Convert.Inv d0 d' S' P' ∧
        (S' → ∀ o ∈ rest, pathExt o = gs ".scan" ∨ Convert.NoCommas d0) ∧ (P' → ∀ o ∈ rest, pathExt o ≠ gs ".scan" ∨ Convert.OneContinent d0) ∧
        writeAll (converterFormats w fuel) canCreate (os ++ rest) fs d = writeAll (converterFormats w fuel) canCreate rest fs' d' ∧
        (∀ o ∈ os, ∀ b, content w d0 o = .ok b → fs' o = some b) ∧ (∀ n, n ∉ os → fs' n = fs n)
  | [], rest, fs, d, S, P, hi, _, _, hS, hP, _, _ => ⟨fs, d, S, P, hi, hS, hP, rfl, by simp, fun _ _ => rfl⟩
  | o :: os, rest, fs, d, S, P, hi, hSo, hPo, hS, hP, hpw, hok => by
    obtain ⟨hcc, b, hb⟩ := hok o (by simp)
    obtain ⟨d1, hi1, e1⟩ := packFile_step (w := w) (fuel := fuel) (canCreate := canCreate) (fs := fs) hw hi o
      (fun h => hSo h o (by simp)) (fun h => hPo h o (by simp)) hcc
    rw [hb] at e1
    rw [List.cons_append, List.pairwise_cons] at hpw
    have hh : ∀ x ∈ os ++ rest, HarmlessFiles d0 o x := hpw.1
    obtain ⟨fs', d', S', P', k1, k2, k3, k4, k5, k6⟩ := writeAll_from hw os rest (fs.set o b) d1 _ _ hi1
      (by
        rintro (h | h) x hx
        · exact hSo h x (by simp [hx])
        · exact (hh x (by simp [hx])).1 h)
      (by
        rintro (h | h) x hx
        · exact hPo h x (by simp [hx])
        · exact (hh x (by simp [hx])).2 h)
      (by
        rintro (h | h) x hx
        · exact hS h x hx
        · exact (hh x (by simp [hx])).1 h)
      (by
        rintro (h | h) x hx
        · exact hP h x hx
        · exact (hh x (by simp [hx])).2 h)
      hpw.2 (fun x hx => hok x (by simp [hx]))
    refine ⟨fs', d', S', P', k1, k2, k3, ?_, fun x hx bx hbx => ?_, fun n hn => ?_⟩
    · rw [List.cons_append]
      conv => lhs; unfold writeAll
      rw [e1]
      exact k4
    · by_cases hxo : x ∈ os
      · exact k5 x hxo bx hbx
      · rcases List.mem_cons.mp hx with rfl | h
        · rw [k6 x hxo]
          rw [hb] at hbx
          injection hbx with hbx
          unfold Fs.set
          rw [if_pos rfl, hbx]
        · exact absurd h hxo
    · simp only [List.mem_cons, not_or] at hn
      rw [k6 n hn.2]
      unfold Fs.set
      rw [if_neg hn.1]

theorem inv_start (d : HData) : Convert.Inv d d False False :=
  ⟨rfl, rfl, rfl, d.heap, .refl _, .refl _ _, fun _ => rfl, fun _ => rfl⟩

/-- **C89 (writing).** Outputs that do not harm one another and can be written are all written, each with the content
it has on its own; no other file changes. -/
theorem C89_written (w : World) (fuel : Nat) (canCreate : Str → Bool) (fs : Fs) (d : HData) (hw : d.WF) (os : List Str)
    (hpw : os.Pairwise (HarmlessFiles d)) (hok : ∀ o ∈ os, canCreate o = true ∧ ∃ b, content w d o = .ok b) :
    ∃ fs', writeAll (converterFormats w fuel) canCreate os fs d = (fs', .ok ()) ∧
      (∀ o ∈ os, fs' o = written w d o) ∧ (∀ n, n ∉ os → fs' n = fs n) := by
  obtain ⟨fs', d', _, _, _, _, _, k4, k5, k6⟩ := writeAll_from (w := w) (fuel := fuel) (canCreate := canCreate) hw os [] fs d False False
    (inv_start d) (fun h => h.elim) (fun h => h.elim) (fun h => h.elim) (fun h => h.elim) (by simpa using hpw) hok
  rw [List.append_nil] at k4
  refine ⟨fs', k4, fun o ho => ?_, k6⟩
  obtain ⟨_, b, hb⟩ := hok o ho
  rw [k5 o ho b hb]; unfold written; rw [hb]

/-- **C89 (after a `.scan` output).** The outputs up to and including the first `.scan` output are written with the
content they have on their own; the later ones with the content they have on their own for the data set with underscores
for the commas in its values; no other file changes. -/
theorem C89_after_scan (w : World) (fuel : Nat) (canCreate : Str → Bool) (fs : Fs) (d : HData) (hw : d.WF)
    (hone : Convert.OneContinent d) (pre post : List Str) (o : Str) (hpre : ∀ p ∈ pre, pathExt p ≠ gs ".scan")
    (ho : pathExt o = gs ".scan") (hcc : canCreate o = true)
    (hok : ∀ p ∈ pre, canCreate p = true ∧ ∃ b, content w d p = .ok b)
    (hpost : ∀ p ∈ post, canCreate p = true ∧ ∃ b, content w (Convert.commaless d) p = .ok b) :
    ∃ fs', writeAll (converterFormats w fuel) canCreate (pre ++ o :: post) fs d = (fs', .ok ()) ∧
      (∀ p ∈ pre ++ [o], p ∉ post → fs' p = written w d p) ∧
      (∀ p ∈ post, fs' p = written w (Convert.commaless d) p) ∧
      (∀ n, n ∉ pre ++ o :: post → fs' n = fs n) := by
  have hgo : ∀ (pre : List Str) (fs : Fs) (d1 : HData) (P : Prop), Convert.Inv d d1 False P → (∀ p ∈ pre, pathExt p ≠ gs ".scan") →
      (∀ p ∈ pre, canCreate p = true ∧ ∃ b, content w d p = .ok b) →
      ∃ (fs' : Fs) (d' : HData) (P' : Prop), Convert.Inv d d' False P' ∧
        writeAll (converterFormats w fuel) canCreate (pre ++ o :: post) fs d1 =
          writeAll (converterFormats w fuel) canCreate (o :: post) fs' d' ∧
        (∀ p ∈ pre, fs' p = written w d p) ∧ (∀ n, n ∉ pre → fs' n = fs n) := by
    intro pre
    induction pre with
    | nil => intro fs d1 P hi _ _; exact ⟨fs, d1, P, hi, rfl, by simp, fun _ _ => rfl⟩
    | cons p pre ih =>
      intro fs d1 P hi hp hk
      obtain ⟨hc, b, hb⟩ := hk p (by simp)
      obtain ⟨d2, hi2, e2⟩ := packFile_step (w := w) (fuel := fuel) (canCreate := canCreate) (fs := fs) hw hi p
        (fun h => h.elim) (fun _ => .inr hone) hc
      rw [hb] at e2
      have hi3 : Convert.Inv d d2 False (P ∨ pathExt p = gs ".ipdb") :=
        ⟨hi2.fields, hi2.version, hi2.rows, by
          obtain ⟨h1, a, b, c, e⟩ := hi2.heap
          exact ⟨h1, a, b, fun _ => c (fun x => x.elim id (hp p (by simp))), e⟩⟩
      obtain ⟨fs', d', P', k1, k2, k3, k4⟩ := ih (fs.set p b) d2 _ hi3 (fun x hx => hp x (by simp [hx])) (fun x hx => hk x (by simp [hx]))
      refine ⟨fs', d', P', k1, ?_, fun x hx => ?_, fun n hn => ?_⟩
      · rw [List.cons_append]
        conv => lhs; unfold writeAll
        rw [e2]
        exact k2
      · by_cases hxo : x ∈ pre
        · exact k3 x hxo
        · rcases List.mem_cons.mp hx with rfl | h
          · rw [k4 x hxo]
            unfold Fs.set written
            rw [if_pos rfl, hb]
          · exact absurd h hxo
      · simp only [List.mem_cons, not_or] at hn
        rw [k4 n hn.2]
        unfold Fs.set
        rw [if_neg hn.1]
  obtain ⟨fs1, d1, P, hi, e1, w1, u1⟩ := hgo pre fs d False (inv_start d) hpre hok
  obtain ⟨t, d2, e2, ha, hw2, hview, hno, hone2⟩ := Convert.scan_step hw hone hi ⟨w.encMeta, w.encVersion, w.now, w.nowText⟩
  have hpf : PackFile (converterFormats w fuel) canCreate fs1 o d1 = (fs1.set o t, .ok d2) := by
    unfold PackFile
    rw [if_neg (by rw [hcc]; simp), C59_packWriter, ho, e2]
  have hcont : ∀ p, content w d2 p = content w (Convert.commaless d) p := fun p =>
    Convert.alone_view (Convert.commaless_wf hw) hw2 hview _
  obtain ⟨fs', k1, k2, k3⟩ := C89_written w fuel canCreate (fs1.set o t) d2 hw2 post
    (List.pairwise_iff_forall_sublist.mpr fun _ => ⟨fun _ => .inr hno, fun _ => .inr hone2⟩)
    (fun p hp => by rw [hcont]; exact hpost p hp)
  refine ⟨fs', ?_, fun p hp hn => ?_, fun p hp => ?_, fun n hn => ?_⟩
  · rw [e1]
    conv => lhs; unfold writeAll
    rw [hpf]
    exact k1
  · rw [k3 p hn]
    unfold Fs.set
    split
    · rename_i h
      subst h
      unfold written content
      rw [ho, ha]
    · rename_i h
      rcases List.mem_append.mp hp with h' | h'
      · exact w1 p h'
      · exact absurd (List.mem_singleton.mp h') h
  · rw [k2 p hp]
    unfold written
    rw [hcont]
  · simp only [List.mem_append, List.mem_cons, not_or] at hn
    rw [k3 n hn.2.2]
    unfold Fs.set
    rw [if_neg hn.2.1, u1 n hn.1]

/-- **C89 (failing).** When an output fails (here: its kind cannot be written, or its content cannot be made), the ones
before it are written, it is left empty (if it can be created), and the ones after it are not touched. -/
theorem C89_stops (w : World) (fuel : Nat) (canCreate : Str → Bool) (fs : Fs) (d : HData) (hw : d.WF) (pre post : List Str)
    (o : Str) (hpw : (pre ++ [o]).Pairwise (HarmlessFiles d)) (hok : ∀ p ∈ pre, canCreate p = true ∧ ∃ b, content w d p = .ok b)
    (hbad : canCreate o = false ∨ ∃ e, content w d o = .err e) :
    ∃ fs' e, writeAll (converterFormats w fuel) canCreate (pre ++ o :: post) fs d = (fs', .err e) ∧
      (∀ p ∈ pre, fs' p = written w d p) ∧ (canCreate o = true → fs' o = some []) ∧
      (∀ n, n ∉ pre → (n = o → canCreate o = false) → fs' n = fs n) := by
  have hopre : o ∉ pre := by
    intro h
    obtain ⟨h1, b, h2⟩ := hok o h
    rcases hbad with hb | ⟨e, hb⟩
    · rw [h1] at hb; cases hb
    · rw [h2] at hb; cases hb
  -- the rest of the list beyond the failing output plays no part
  have hgo : ∃ fs' d' S' P', Convert.Inv d d' S' P' ∧
      (S' → ∀ x ∈ [o], pathExt x = gs ".scan" ∨ Convert.NoCommas d) ∧ (P' → ∀ x ∈ [o], pathExt x ≠ gs ".scan" ∨ Convert.OneContinent d) ∧
      writeAll (converterFormats w fuel) canCreate (pre ++ [o]) fs d = writeAll (converterFormats w fuel) canCreate [o] fs' d' ∧
      (∀ p ∈ pre, ∀ b, content w d p = .ok b → fs' p = some b) ∧ (∀ n, n ∉ pre → fs' n = fs n) :=
    writeAll_from (w := w) (fuel := fuel) (canCreate := canCreate) hw pre [o] fs d False False (inv_start d)
      (fun h => h.elim) (fun h => h.elim) (fun h => h.elim) (fun h => h.elim) hpw hok
  have hsame : ∀ (pre : List Str) (fs : Fs) (d : HData) (fs' : Fs) (e : Err),
      writeAll (converterFormats w fuel) canCreate (pre ++ [o]) fs d = (fs', .err e) →
      writeAll (converterFormats w fuel) canCreate (pre ++ o :: post) fs d = (fs', .err e) := by
    intro pre
    induction pre with
    | nil =>
      intro fs d fs' e h
      simp only [List.nil_append] at h ⊢
      unfold writeAll at h ⊢
      cases hp : PackFile (converterFormats w fuel) canCreate fs o d with
      | mk f r =>
        rw [hp] at h
        cases r with
        | ok d' => simp only [writeAll] at h; injection h with _ h; cases h
        | err e' => exact h
        | panic => exact h
    | cons p pre ih =>
      intro fs d fs' e h
      simp only [List.cons_append] at h ⊢
      unfold writeAll at h ⊢
      cases hp : PackFile (converterFormats w fuel) canCreate fs p d with
      | mk f r =>
        rw [hp] at h
        cases r with
        | ok d' => exact ih f d' fs' e h
        | err e' => exact h
        | panic => exact h
  obtain ⟨fs1, d1, S, P, hi, hS, hP, k4, k5, k6⟩ := hgo
  by_cases hcc : canCreate o = true
  · obtain ⟨e, hb⟩ : ∃ e, content w d o = .err e := by
      rcases hbad with hb | hb
      · rw [hcc] at hb; cases hb
      · exact hb
    obtain ⟨d2, _, e2⟩ := packFile_step (w := w) (fuel := fuel) (canCreate := canCreate) (fs := fs1) hw hi o
      (fun h => hS h o (by simp)) (fun h => hP h o (by simp)) hcc
    rw [hb] at e2
    refine ⟨fs1.set o [], e, hsame pre fs d _ _ (k4.trans ?_), fun p hp => ?_, fun _ => ?_, fun n hn hno => ?_⟩
    · unfold writeAll; rw [e2]
    · obtain ⟨_, b, hpb⟩ := hok p hp
      have hpo : p ≠ o := fun h => hopre (h ▸ hp)
      unfold Fs.set
      rw [if_neg hpo, k5 p hp b hpb]; unfold written; rw [hpb]
    · unfold Fs.set; rw [if_pos rfl]
    · unfold Fs.set
      rw [if_neg (fun h => by have := hno h; rw [hcc] at this; cases this), k6 n hn]
  · have hcf : canCreate o = false := by cases h : canCreate o <;> simp_all
    refine ⟨fs1, .other "create", hsame pre fs d _ _ (k4.trans ?_), fun p hp => ?_, fun h => absurd h hcc, fun n hn _ => k6 n hn⟩
    · unfold writeAll PackFile; rw [if_pos hcf]
    · obtain ⟨_, b, hpb⟩ := hok p hp
      rw [k5 p hp b hpb]; unfold written; rw [hpb]

/-! ## The whole conversion -/

/-- The data set `d` that is written when the table `D` is converted without a line file. -/
structure EndTable (D : IpData) (d : HData) : Prop where
  wf : d.WF
  rowsOK : RowsOK d.view
  valuesOK : ValuesOK d.view
  disjoint : DisjointRows (rowsOf d.view)
  fields : d.fields = addField D.fields fDistrict
  version : ∃ count, d.version = { D.version with count := count }
  covered : ∀ x ∈ D.ips, ∀ y, Covers x.cidr y → ∃ x' r, Settled D x x' ∧ r ∈ d.view.ips ∧ Covers r.cidr y ∧
    OneRecord D r.cidr x'.values ∧
    r.values = (setOrAdd D.fields fDistrict (districtOf ((fieldVal D.fields fProvince ⟨⟨[], []⟩, x'.values⟩).getD [])) ⟨⟨[], []⟩, x'.values⟩).values
  only : ∀ r ∈ d.view.ips, ∀ y, Covers r.cidr y → ∃ x ∈ D.ips, Covers x.cidr y
  ascending : Ascending D.ips → Ascending d.view.ips
  inside : Ascending D.ips → ∀ x ∈ D.ips, ∃ r ∈ d.view.ips, netLo r.cidr ≤ netLo x.cidr ∧ netEnd x.cidr ≤ netEnd r.cidr

/-- A conversion makes one data set, whatever the outputs are. -/
theorem end_data_any (w : World) (fuel : Nat) (orders : Nat → List Str) (canCreate : Str → Bool) (fs : Fs) (a : Args)
    (cap : Nat → Nat) (D : IpData) (hin : Dumps w fuel fs a cap D) (ht : Table D) (hline : a.line = [])
    (hord : CarrierOrders NormalizedMap D orders) :
    ∃ d, EndTable D d ∧ ∀ out, converter w fuel orders canCreate fs { a with output := out } =
      some (writeAll (converterFormats w fuel) canCreate (splitByte 0x2C out) fs d) := by
  obtain ⟨data, create, g1, g2, g3⟩ := hin
  obtain ⟨d1, d2, d3, e1, e2, e3, hset, hw3, ha3, hf3, hne3, hver3, hwf3, hdis3, hvals3, hfm, _, _⟩ := default_ops ht cap orders (legal_orders ht hord)
  have hfine2 := fine_table ht hset
  have hfine3 : ∀ r ∈ d3.view.ips, FineRow r := by
    intro r hr
    obtain ⟨r2, hr2, hv⟩ := hvals3 r hr
    intro v hv'; rw [hv] at hv'; exact hfine2 r2 hr2 v hv'
  have hall3 := not_all ht hset hwf3 (disjoint_iff.mp hdis3) hfm
  obtain ⟨d4, e4, hw4, hf4, hver4, hrows4, hval4, hdis4, hi4⟩ := district_end (grow := w.grow) hw3 ha3
    (by rw [hf3]; exact ht.province) (by rw [hf3]; exact ht.continent)
    (by rw [hf3]; have := ht.modest.fields; omega) hwf3 hall3 hdis3 hfine3
  obtain ⟨hcov, hone⟩ := merged_covers ht hset (disjoint_iff.mp hdis3) hfm
  have hc2 : ∀ d2 : HData, Rel2 (Settled D) D.ips d2.view.ips → d2.view.ips.map (·.cidr) = D.ips.map (·.cidr) := fun d2 hset =>
    Rel2.map_eq (f := fun (x : IpRaw) => x.cidr) (g := fun (x : IpRaw) => x.cidr)
      (hset.imp_mem fun a _ b _ h => Settled.cidr h)
  have hwf2 : ∀ d2 : HData, Rel2 (Settled D) D.ips d2.view.ips → ∀ r ∈ d2.rows, WFNet r.cidr := by
    intro d2 hset r hr
    have : (d2.rowView r).cidr ∈ D.ips.map (·.cidr) := by
      rw [← hc2 d2 hset]; exact List.mem_map.mpr ⟨_, List.mem_map.mpr ⟨r, hr, rfl⟩, rfl⟩
    obtain ⟨x, hx, e⟩ := List.mem_map.mp this
    rw [show r.cidr = (d2.rowView r).cidr from rfl, ← e]; exact ht.wf x hx
  have hasc2 : ∀ d2 : HData, Rel2 (Settled D) D.ips d2.view.ips → Ascending D.ips → Ascending d2.view.ips := by
    intro d2 hset hasc
    unfold Ascending at hasc ⊢
    have h1 : (D.ips.map (·.cidr)).Pairwise fun a b => netEnd a ≤ netLo b := List.pairwise_map.mpr hasc
    rw [← hc2 d2 hset] at h1
    exact List.pairwise_map.mp h1
  refine ⟨d4, ⟨hw4, hrows4, hval4, hdis4, by rw [hf4, hf3], ⟨_, by rw [hver4, hver3]⟩, fun x hx y hy => ?_, fun row hrow y hc => ?_, fun hasc => ?_, fun hasc x hx => ?_⟩, ?_⟩
  · obtain ⟨x', r, hs, hr, hc, hv⟩ := hcov x hx y hy
    refine ⟨x', setOrAdd d3.fields fDistrict (districtOf ((fieldVal d3.fields fProvince r).getD [])) r, hs, ?_, ?_, ?_, ?_⟩
    · rw [hi4]; exact List.mem_map.mpr ⟨r, hr, rfl⟩
    · rw [setOrAdd_cidr]; exact hc
    · rw [setOrAdd_cidr, ← hv]; exact hone r hr
    · rw [hf3, fieldVal_values (x := r) (y := ⟨⟨[], []⟩, x'.values⟩) hv,
        setOrAdd_values _ _ _ (x := r) (y := ⟨⟨[], []⟩, x'.values⟩) hv]
  · rw [hi4] at hrow
    obtain ⟨r, hr, rfl⟩ := List.mem_map.mp hrow
    rw [setOrAdd_cidr] at hc
    obtain ⟨z, hz, hcz, _⟩ := hone r hr _ hc
    exact ⟨z, hz, hcz⟩
  · have h3 := C91_ascending d2 d3 (hwf2 d2 hset) (hasc2 d2 hset hasc) e3
    rw [hi4]
    refine List.pairwise_map.mpr (List.Pairwise.imp (fun {p q} h => ?_) h3)
    rw [setOrAdd_cidr, setOrAdd_cidr]; exact h
  · obtain ⟨x', hx', hs⟩ := rel2_mem_left hset hx
    obtain ⟨r, hr, m1, m2, _⟩ := C91_inside d2 d3 (hwf2 d2 hset) (hasc2 d2 hset hasc) e3 x' hx'
    rw [hs.cidr] at m1 m2
    refine ⟨_, by rw [hi4]; exact List.mem_map.mpr ⟨r, hr, rfl⟩, ?_, ?_⟩ <;> rw [setOrAdd_cidr] <;> assumption
  · intro out
    unfold converter
    simp only []
    rw [if_neg (by rw [hline]; simp)]
    unfold DumpFile
    rw [g1]; simp only []
    rw [g2]; simp only []
    rw [g3]
    simp only [Option.map_some, Res.ok_bind, operations, List.append_nil, List.cons_append, List.nil_append, runOps, e1, e2, e3, e4]

theorem end_data (w : World) (fuel : Nat) (orders : Nat → List Str) (canCreate : Str → Bool) (fs : Fs) (a : Args)
    (cap : Nat → Nat) (D : IpData) (hin : Dumps w fuel fs a cap D) (ht : Table D) (hline : a.line = [])
    (hord : CarrierOrders NormalizedMap D orders) :
    ∃ d, EndTable D d ∧ converter w fuel orders canCreate fs a =
      some (writeAll (converterFormats w fuel) canCreate (splitByte 0x2C a.output) fs d) := by
  obtain ⟨d, h1, h2⟩ := end_data_any w fuel orders canCreate fs a cap D hin ht hline hord
  exact ⟨d, h1, h2 a.output⟩

/-- The `.ipdb` content of the written data set: it can be made, and a program opening it answers as the table says. -/
theorem end_ipdb {w : World} {fuel : Nat} {D : IpData} (ht : Table D) {d : HData} (hd : EndTable D d)
    (hmeta : Ipdb.MetaRoundTrip w.encMeta w.decMeta (Ipdb.buildMeta w.now D.version (addField D.fields fDistrict)))
    {o : Str} (he : pathExt o = gs ".ipdb") :
    ∃ b, content w d o = .ok b ∧ (b.length < 2 ^ 32 → ∀ fs' : Fs, fs' o = some b →
      ∃ q, NewDb w (serverFormats w fuel) fs' o = .ok q ∧
        (∀ ip x, ValidIP ip → Supports D.version ip → x ∈ D.ips → Covers x.cidr (addrNum ip) →
          ∃ x' n, Settled D x x' ∧ Covers n (addrNum ip) ∧ OneRecord D n x'.values ∧
            q.query ip = .ok (converted D x'.values, maskFor n ip)) ∧
        (∀ ip, (¬ ValidIP ip ∨ ¬ Supports D.version ip ∨ ∀ x ∈ D.ips, ¬ Covers x.cidr (addrNum ip)) →
          q.query ip = .err .databaseError)) := by
  obtain ⟨c, hver⟩ := hd.version
  have hsup : ∀ ip, Supports d.version ip ↔ Supports D.version ip := by
    intro ip; unfold Supports; rw [hver]
  obtain ⟨b, e1, k⟩ := opened_packed (knows_server w fuel) hd.rowsOK hd.valuesOK hd.disjoint
    (by show 2 ≤ d.fields.length; rw [hd.fields]; exact Nat.le_trans (two_fields ht) addField_le)
    (by show Ipdb.MetaRoundTrip w.encMeta w.decMeta (Ipdb.buildMeta w.now d.version d.fields); rw [hd.fields, hver]; exact hmeta)
  obtain ⟨h', _, e⟩ := Ipdb.packH_spec (enc := w.encMeta) (now := w.now) (d0 := d) (d := d) rfl rfl rfl (Ipdb.Conv.refl _ _) hd.wf
  rw [e1] at e
  refine ⟨b, ?_, fun hl fs' hf => ?_⟩
  · unfold content Convert.alone Convert.PackWriter
    rw [if_pos he]
    simp only [e, Res.ok_bind, Res.pure_eq]
  · obtain ⟨q, o', _, a1, a2⟩ := k hl
    refine ⟨q, ?_, fun ip x h1 h2 h3 h4 => ?_, fun ip hn => a2 ip ?_⟩
    · unfold NewDb; rw [hf]; simp only []; rw [he]; exact o'
    · obtain ⟨x', r, hs, hr, hc, hone, hv⟩ := hd.covered x h3 _ h4
      refine ⟨x', r.cidr, hs, hc, hone, ?_⟩
      rw [a1 ip r h1 ((hsup ip).mpr h2) hr hc]
      show Res.ok (infoOf d.fields r.values, _) = _
      rw [hd.fields, hv]; rfl
    · rcases hn with h | h | h
      · exact .inl h
      · exact .inr (.inl (fun h' => h ((hsup ip).mp h')))
      · right; right
        intro r hr hc
        obtain ⟨z, hz, hcz⟩ := hd.only r hr _ hc
        exact h z hz hcz

/-- Text outputs come last. -/
def TextLast (os : List Str) : Prop := os.Pairwise fun a b => pathExt a = gs ".scan" → pathExt b = gs ".scan"

instance (os) : Decidable (TextLast os) := by unfold TextLast; infer_instance

/-- **C89.** A conversion to several `.ipdb` and `.scan` outputs, the texts last, of a table whose continent field (if any)
is spelled `continent`: all are written from one data set `d`, each with the content it has on its own, nothing else
changes, and every `.ipdb` output answers as in `C64`. -/
theorem C89_convert (w : World) (fuel : Nat) (orders : Nat → List Str) (canCreate : Str → Bool) (fs : Fs) (a : Args)
    (cap : Nat → Nat) (D : IpData) (hin : Dumps w fuel fs a cap D) (ht : Table D) (hline : a.line = [])
    (hord : CarrierOrders NormalizedMap D orders)
    (hcont : ∀ f ∈ D.fields, f ≠ gs "continent" → Ipdb.asciiLower f ≠ gs "continent")
    (hos : ∀ o ∈ splitByte 0x2C a.output, canCreate o = true ∧ (pathExt o = gs ".ipdb" ∨ pathExt o = gs ".scan"))
    (hlast : TextLast (splitByte 0x2C a.output))
    (hmeta : Ipdb.MetaRoundTrip w.encMeta w.decMeta (Ipdb.buildMeta w.now D.version (addField D.fields fDistrict))) :
    ∃ fs' d, EndTable D d ∧ converter w fuel orders canCreate fs a = some (fs', .ok ()) ∧
      (∀ n, n ∉ splitByte 0x2C a.output → fs' n = fs n) ∧
      (∀ o ∈ splitByte 0x2C a.output, ∃ b, fs' o = some b ∧ content w d o = .ok b ∧
        (pathExt o = gs ".ipdb" → b.length < 2 ^ 32 → ∃ q, NewDb w (serverFormats w fuel) fs' o = .ok q ∧
          (∀ ip x, ValidIP ip → Supports D.version ip → x ∈ D.ips → Covers x.cidr (addrNum ip) →
            ∃ x' n, Settled D x x' ∧ Covers n (addrNum ip) ∧ OneRecord D n x'.values ∧
              q.query ip = .ok (converted D x'.values, maskFor n ip)) ∧
          (∀ ip, (¬ ValidIP ip ∨ ¬ Supports D.version ip ∨ ∀ x ∈ D.ips, ¬ Covers x.cidr (addrNum ip)) →
            q.query ip = .err .databaseError))) := by
  obtain ⟨d, hd, e⟩ := end_data w fuel orders canCreate fs a cap D hin ht hline hord
  have hone : Convert.OneContinent d := by
    intro f hf hne
    rw [hd.fields] at hf
    unfold addField at hf
    split at hf
    · exact hcont f hf hne
    · rcases List.mem_append.mp hf with hf | hf
      · exact hcont f hf hne
      · rw [List.mem_singleton.mp hf]; decide +kernel
  have hcan : ∀ o ∈ splitByte 0x2C a.output, ∃ b, content w d o = .ok b := by
    intro o ho
    rcases (hos o ho).2 with h | h
    · obtain ⟨b, hb, _⟩ := end_ipdb (fuel := fuel) ht hd hmeta h
      exact ⟨b, hb⟩
    · obtain ⟨d', hp, _⟩ := Plain.pack_text (enc := w.encVersion) (now := w.nowText) hd.wf
      unfold content Convert.alone Convert.PackWriter
      rw [if_neg (by show ¬ pathExt o = gs ".ipdb"; rw [h]; decide +kernel), if_pos (by exact h)]
      simp only [hp, Res.ok_bind, Res.pure_eq]
      exact ⟨_, rfl⟩
  obtain ⟨fs', k1, k2, k3⟩ := C89_written w fuel canCreate fs d hd.wf (splitByte 0x2C a.output)
    (hlast.imp fun {x y} h => ⟨fun hx => .inl (h hx), fun _ => .inr hone⟩)
    (fun o ho => ⟨(hos o ho).1, hcan o ho⟩)
  refine ⟨fs', d, hd, by rw [e, k1], k3, fun o ho => ?_⟩
  obtain ⟨b, hb⟩ := hcan o ho
  have hfo : fs' o = some b := by rw [k2 o ho]; unfold written; rw [hb]
  refine ⟨b, hfo, hb, fun he hl => ?_⟩
  obtain ⟨b', hb', k⟩ := end_ipdb (fuel := fuel) ht hd hmeta he
  rw [hb] at hb'
  injection hb' with hb'; subst hb'
  exact k hl fs' hfo

end Uip.Program
