import Verif.Proof.Pipeline
/-!
# From the operations to the written file and back
-/
namespace Uip.Program
open Uip Uip.Spec Uip.Operate

/-! ## Exact capacities -/

theorem alloc_exact (rs : List IpRaw) : ∀ (prev : Option Slice) (h : Heap),
    (∀ s, prev = some s → s.In h ∧ s.arr < h.length ∧ ¬ (h.cell s.arr s.len).isSome) →
    ∀ r ∈ (allocRows id prev rs h).1, ¬ ((allocRows id prev rs h).2.cell r.vals.arr r.vals.len).isSome := by
  induction rs with
  | nil => intro prev h _ r hr; simp [allocRows] at hr
  | cons x rs ih =>
    intro prev h hp
    have keep : ∀ (h0 : Heap) (s : Slice), s.In h0 → s.arr < h0.length → ¬ (h0.cell s.arr s.len).isSome →
        ¬ ((allocRows id (some s) rs h0).2.cell s.arr s.len).isSome := by
      intro h0 s hs ha hn
      have := (allocRows_spec id rs (some s) h0 (fun t e => by cases e; exact hs)).2.1 s.arr ha
      unfold Heap.cell at hn ⊢
      rw [this]; exact hn
    have fresh : ∀ h : Heap, let s' : Slice := ⟨h.length, x.values.length⟩
        let h1 : Heap := h ++ [x.values ++ List.replicate (id x.values.length - x.values.length) []]
        s'.In h1 ∧ s'.arr < h1.length ∧ ¬ (h1.cell s'.arr s'.len).isSome := by
      intro h
      simp only [id_eq, Nat.sub_self, List.replicate_zero, List.append_nil]
      refine ⟨?_, by simp, ?_⟩
      · show x.values.length ≤ _
        simp
      · rw [Heap.cell_isSome]; simp
    have go : ∀ h : Heap, ∀ r ∈ (⟨x.cidr, ⟨h.length, x.values.length⟩⟩ : HRow) ::
          (allocRows id (some ⟨h.length, x.values.length⟩) rs
            (h ++ [x.values ++ List.replicate (id x.values.length - x.values.length) []])).1,
        ¬ ((allocRows id (some ⟨h.length, x.values.length⟩) rs
            (h ++ [x.values ++ List.replicate (id x.values.length - x.values.length) []])).2.cell r.vals.arr r.vals.len).isSome := by
      intro h r hr
      obtain ⟨f1, f2, f3⟩ := fresh h
      rcases List.mem_cons.mp hr with rfl | hr
      · exact keep _ _ f1 f2 f3
      · exact ih _ _ (fun s e => by cases e; exact ⟨f1, f2, f3⟩) r hr
    unfold allocRows
    cases prev with
    | none => exact go h
    | some s =>
      obtain ⟨hs, ha, hn⟩ := hp s rfl
      simp only []
      split
      · intro r hr
        rcases List.mem_cons.mp hr with rfl | hr
        · exact keep h s hs ha hn
        · exact ih _ _ (fun t e => by cases e; exact ⟨hs, ha, hn⟩) r hr
      · exact go h

theorem noSpare_dumped {D : IpData} (hl : ∀ r ∈ D.ips, r.values.length = D.fields.length) :
    ∀ r ∈ (dumped id D).rows, ¬ ((dumped id D).heap.cell r.vals.arr D.fields.length).isSome := by
  intro r hr
  have h1 := alloc_exact D.ips none [] (fun s e => by cases e) r hr
  rw [← show r.vals.len = D.fields.length from dumped_aligned hl r hr]
  exact h1

/-! ## The last operation -/

theorem oneContinent_add {fs : List Str} {f : Str} (h : OneContinent fs) (hf : f ∉ continentNames) :
    OneContinent (addField fs f) := by
  unfold addField
  split
  · exact h
  · unfold OneContinent at h ⊢
    rw [List.filter_append]
    simp [hf, h]

/-- AttachDistrict on good rows: rows the `.ipdb` packer takes. -/
theorem district_end {grow : Nat → Nat} {d : HData} (hw : d.WF) (ha : d.Aligned) (hp : fProvince ∈ d.fields)
    (hc : OneContinent d.fields) (hlen : d.fields.length ≤ 201) (hwf : ∀ r ∈ d.view.ips, WFNet r.cidr)
    (hall : ∀ r ∈ d.view.ips, hostBits r.cidr < 128) (hd : DisjointRows (rowsOf d.view)) (hfine : ∀ r ∈ d.view.ips, FineRow r) :
    ∃ d', AttachDistrict grow d = .ok d' ∧ d'.WF ∧ d'.fields = addField d.fields fDistrict ∧ d'.version = d.version ∧
      RowsOK d'.view ∧ ValuesOK d'.view ∧ DisjointRows (rowsOf d'.view) ∧
      d'.view.ips = d.view.ips.map fun x =>
        setOrAdd d.fields fDistrict (districtOf ((fieldVal d.fields fProvince x).getD [])) x := by
  obtain ⟨d', e, w', a', f', v', i'⟩ := C38_attach_district grow d hw ha hp
  have hfl : d'.fields.length ≤ 202 := by rw [f', addField_length]; split <;> omega
  have hfine' : ∀ r ∈ d'.view.ips, FineRow r := by
    intro r hr
    rw [i'] at hr
    obtain ⟨x, hx, rfl⟩ := List.mem_map.mp hr
    exact fine_setOrAdd (hfine x hx) (fine_districtOf _)
  have hcid : ∀ r ∈ d'.view.ips, ∃ x ∈ d.view.ips, r.cidr = x.cidr := by
    intro r hr
    rw [i'] at hr
    obtain ⟨x, hx, rfl⟩ := List.mem_map.mp hr
    exact ⟨x, hx, setOrAdd_cidr _ _ _ _⟩
  have hlen' : ∀ r ∈ d'.view.ips, r.values.length = d'.view.fields.length := by
    intro r hr
    obtain ⟨x, hx, rfl⟩ := List.mem_map.mp hr
    show (d'.heap.read x.vals).length = d'.fields.length
    rw [Heap.read_length (w' x hx), a' x hx]
  refine ⟨d', e, w', f', v', ⟨?_, ?_, ?_, hlen', ?_⟩, ⟨fun r hr v hv => (hfine' r hr v hv).2, ?_⟩, ?_, i'⟩
  · show d'.fields ≠ []
    intro h
    have h2 : fProvince ∈ addField d.fields fDistrict := by
      unfold addField; split
      · exact hp
      · exact List.mem_append_left _ hp
    rw [← f', h] at h2; cases h2
  · intro r hr; obtain ⟨x, hx, e⟩ := hcid r hr; rw [e]; exact hwf x hx
  · intro r hr; obtain ⟨x, hx, e⟩ := hcid r hr; rw [e]; exact hall x hx
  · intro r hr
    have h1 := joinByte_le (c := 0x09) (hfine' r hr)
    have h2 := hlen' r hr
    have h3 : d'.view.fields.length ≤ 202 := hfl
    omega
  · show OneContinent d'.fields
    rw [f']; exact oneContinent_add hc (by decide +kernel)
  · rw [disjoint_iff] at hd ⊢
    refine pairwise_cidr ?_ hd
    rw [i', List.map_map]
    exact List.map_congr_left fun x _ => setOrAdd_cidr _ _ _ _

/-! ## Writing and opening -/

/-- The registry opens `.ipdb` files with the ipdb reader. -/
def KnowsIpdb (w : World) (reg : Formats) : Prop :=
  reg.GetQueryFormat (gs ".ipdb") = some fun b => do
    let q ← Ipdb.newQuerier w.decMeta b
    return .ipdb q

theorem mapGet_gs_ne {α : Type} (m : GoMap α) {k k' : Str} (v : α) (h : k ≠ k') : mapGet (mapSet m k v) k' = mapGet m k' := by
  rw [mapGet_mapSet, if_neg h]

theorem knows_server (w : World) (fuel : Nat) : KnowsIpdb w (serverFormats w fuel) := by
  unfold KnowsIpdb serverFormats ipdbInit
  simp only [Registry.RegisterDumpFormat, Registry.RegisterQueryFormat, Registry.RegisterPackFormat, Registry.GetQueryFormat,
    mapGet_mapSet, if_pos]
  rfl

theorem knows_converter (w : World) (fuel : Nat) : KnowsIpdb w (converterFormats w fuel) := by
  unfold KnowsIpdb converterFormats plainInit memipInit ipdbInit
  simp only [Registry.RegisterDumpFormat, Registry.RegisterQueryFormat, Registry.RegisterPackFormat, Registry.GetQueryFormat,
    mapGet_mapSet, if_pos]
  rfl

/-- Opening packed bytes by kind, warm-up included: the answers of the packed table. -/
theorem opened_packed {w : World} {reg : Formats} (hk : KnowsIpdb w reg) {ipd : IpData} (h : RowsOK ipd) (hval : ValuesOK ipd)
    (hd : DisjointRows (rowsOf ipd)) (h2 : 2 ≤ ipd.fields.length)
    (hj : Ipdb.MetaRoundTrip w.encMeta w.decMeta (Ipdb.buildMeta w.now ipd.version ipd.fields)) :
    ∃ bytes, Ipdb.pack w.encMeta w.now ipd = .ok bytes ∧ (bytes.length < 2 ^ 32 →
      ∃ q, NewDbFromBytes w reg (gs ".ipdb") bytes = .ok q ∧ (∀ a, q.query a ≠ .panic) ∧
        (∀ a row, ValidIP a → Supports ipd.version a → row ∈ ipd.ips → Covers row.cidr (addrNum a) →
          q.query a = .ok (infoOf ipd.fields row.values, maskFor row.cidr a)) ∧
        (∀ a, (¬ ValidIP a ∨ ¬ Supports ipd.version a ∨ ∀ row ∈ ipd.ips, ¬ Covers row.cidr (addrNum a)) →
          q.query a = .err .databaseError)) := by
  obtain ⟨bytes, e1, k1⟩ := Ipdb.C12_pack_query_mask h hval hd hj
  obtain ⟨_, e2, k2⟩ := Ipdb.C13_uncovered h h2 hj
  obtain ⟨_, e3, k3⟩ := Ipdb.C22_packed h hj
  rw [e1] at e2 e3
  injection e2 with e2; subst e2
  injection e3 with e3; subst e3
  refine ⟨_, e1, fun hl => ?_⟩
  obtain ⟨q, o1, a1⟩ := k1 hl
  obtain ⟨q2, o2, a2⟩ := k2 hl
  obtain ⟨q3, o3, a3⟩ := k3 hl
  rw [o1] at o2 o3
  injection o2 with o2; subst o2
  injection o3 with o3; subst o3
  have hop : Ipdb.Opened w.decMeta q := .new o1
  obtain ⟨q', hq'⟩ := Ipdb.C16_build_cache_total hop
    (ips := ((splitByte 0x0A w.warm).filter (· ≠ [])).map fun s => (ParseIP s).getD []) (fun a _ => a3 a)
  have hsame := Ipdb.C16_build_cache hop hq'
  refine ⟨.ipdb q', ?_, fun a => ?_, fun a row h1 h2 h3 h4 => ?_, fun a ha => ?_⟩
  · unfold NewDbFromBytes
    rw [hk]
    simp only [o1, Res.ok_bind, Res.pure_eq, OpenDb.buildCache]
    rw [hq']; rfl
  · show q'.Query a ≠ _; rw [hsame]; exact a3 a
  · show q'.Query a = _; rw [hsame]; exact a1 a row h1 h2 h3 h4
  · show q'.Query a = _; rw [hsame]; exact a2 a ha

/-- PackFile of rows the packer takes. -/
theorem packFile_ipdb {w : World} {fuel : Nat} {canCreate : Str → Bool} {fs : Fs} {out : Str} {d : HData} (hw : d.WF)
    (he : pathExt out = gs ".ipdb") (hcc : canCreate out = true) {bytes : Bytes}
    (hp : Ipdb.pack w.encMeta w.now d.view = .ok bytes) :
    ∃ d', PackFile (converterFormats w fuel) canCreate fs out d = (fs.set out bytes, .ok d') := by
  obtain ⟨h', _, e⟩ := Ipdb.packH_spec (enc := w.encMeta) (now := w.now) (d0 := d) (d := d) rfl rfl rfl (Ipdb.Conv.refl _ _) hw
  rw [hp] at e
  refine ⟨{ d with heap := h' }, ?_⟩
  unfold PackFile
  rw [if_neg (by rw [hcc]; simp), he, C59_packWriter]
  unfold Convert.PackWriter
  rw [if_pos rfl]
  simp only [e, Res.ok_bind, Res.pure_eq]

theorem splitByte_none {c : UInt8} {s : Str} (h : c ∉ s) : splitByte c s = [s] := by
  induction s with
  | nil => rfl
  | cons b bs ih =>
    simp only [List.mem_cons, not_or] at h
    unfold splitByte
    rw [if_neg (fun e => h.1 e.symm), ih h.2]

end Uip.Program
