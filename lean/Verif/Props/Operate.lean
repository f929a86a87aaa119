import Verif.Spec.Info
import Verif.Proof.Trim
import Verif.Proof.Merge
import Verif.Proof.Names
/-!
# C32 – C43: operations on dumped data
-/
namespace Uip.Operate
open Uip Uip.Spec

/-! ## C38 -/

/-- Looking a province up region by region or in the flat table. -/
theorem mapGet_append {α : Type} (m m' : GoMap α) (k : Str) : mapGet (m ++ m') k = (mapGet m k).or (mapGet m' k) := by
  induction m with
  | nil => rfl
  | cons p m ih =>
    rw [List.cons_append]
    rw [show mapGet (p :: (m ++ m')) k = if p.1 = k then some p.2 else mapGet (m ++ m') k from rfl,
      show mapGet (p :: m) k = if p.1 = k then some p.2 else mapGet m k from rfl]
    split
    · rfl
    · exact ih

theorem mapGet_group (k v : Str) (ps : List Str) : mapGet (ps.map fun p => (p, v)) k = if k ∈ ps then some v else none := by
  induction ps with
  | nil => rfl
  | cons p ps ih =>
    rw [List.map_cons]
    unfold mapGet
    by_cases h : p = k
    · rw [if_pos h, if_pos (by simp [h])]
    · rw [if_neg h, ih]
      have : (k ∈ p :: ps) ↔ k ∈ ps := by
        rw [List.mem_cons]
        exact ⟨fun hh => hh.resolve_left (fun e => h e.symm), .inr⟩
      simp only [this]

theorem mapGet_regions (k : Str) (rs : List (Str × List Str)) :
    mapGet (rs.flatMap fun r => r.2.map fun p => (p, r.1)) k = (rs.find? fun r => decide (k ∈ r.2)).map (·.1) := by
  induction rs with
  | nil => rfl
  | cons r rs ih =>
    rw [List.flatMap_cons, mapGet_append, ih, mapGet_group, List.find?_cons]
    by_cases h : k ∈ r.2
    · rw [if_pos h, decide_eq_true h]; rfl
    · rw [if_neg h, decide_eq_false h]; rfl

theorem districtOf_table (p : Str) : districtOf p = if p = [] then [] else (mapGet provinceDistrict p).getD [] := by
  have h : provinceDistrict = regions.flatMap fun r => r.2.map fun p => (p, r.1) := by decide +kernel
  have h0 : mapGet provinceDistrict [] = none := by decide +kernel
  by_cases hp : p = []
  · subst hp
    rw [if_pos rfl]
    unfold districtOf
    rw [← mapGet_regions, ← h, h0]; rfl
  · rw [if_neg hp, h, mapGet_regions]; rfl

private theorem attachDistrict_loop (grow : Nat → Nat) (off : Option Nat) (pOff : Nat) :
    (fun (h : Heap) (r : HRow) => do
      let p ← h.get r.vals pOff
      let district := if p ≠ [] then (mapGet provinceDistrict p).getD [] else []
      setOrAppend grow off h r district) =
    setLoop grow off pOff (fun _ c => .ok (some (districtOf c))) := by
  funext h r
  unfold setLoop
  simp only [Res.ok_bind, ite_not, districtOf_table]

/-- C38: on rows with one value per field, whatever slices they share, the district of every row becomes the
table district of its province, everything else stays. -/
theorem C38_attach_district (grow : Nat → Nat) (d : HData) (hw : d.WF) (ha : d.Aligned) (hp : fProvince ∈ d.fields) :
    ∃ d', AttachDistrict grow d = .ok d' ∧ d'.WF ∧ d'.Aligned ∧ d'.fields = addField d.fields fDistrict ∧
      d'.version = d.version ∧
      d'.view.ips = d.view.ips.map fun x =>
        setOrAdd d.fields fDistrict (districtOf ((fieldVal d.fields fProvince x).getD [])) x := by
  have hne : fProvince ≠ fDistrict := by decide +kernel
  obtain ⟨pOff, hpo⟩ : ∃ i, Offset fProvince d.fields = some i := by
    cases e : Offset fProvince d.fields with
    | none => exact absurd hp (Offset_none.mp e)
    | some i => exact ⟨i, rfl⟩
  obtain ⟨h', rows', e, k1, k2, k3, k4⟩ := setLoop_view (grow := grow) (off := Offset fDistrict d.fields)
    (V := fun _ c => .ok (some (districtOf c))) (W := fun _ c => some (districtOf c))
    (Offset_lt hpo) (fun o ho => ⟨Offset_lt ho, Offset_ne ho hpo hne.symm⟩) d.rows d.heap hw ha
    (fun _ _ _ _ => rfl) (fun _ _ _ _ _ _ _ _ => rfl)
  refine ⟨{ d with fields := addField d.fields fDistrict, rows := rows', heap := h' }, ?_, k1, ?_, rfl, rfl, ?_⟩
  · unfold AttachDistrict
    simp only [addField_eq, Offset_addField hne, hpo, attachDistrict_loop, e, Res.ok_bind, Res.pure_eq]
  · intro r hr
    show r.vals.len = (addField d.fields fDistrict).length
    rw [addField_length]
    exact k4 (fun _ _ _ => rfl) r hr
  · show rows'.map _ = (d.rows.map d.rowView).map _
    rw [List.map_map]
    refine k3.trans (List.map_congr_left fun r hr => ?_)
    have hl : pOff < (d.heap.read r.vals).length := by
      rw [Heap.read_length (hw r hr), ha r hr]; exact Offset_lt hpo
    simp only [Function.comp, HData.rowView, fieldVal, hpo, Option.bind_some, List.getElem?_eq_getElem hl,
      Option.getD_some]
    unfold applySet setOrAdd
    cases Offset fDistrict d.fields <;> rfl

/-- C38: every province name the normalisation produces has a (non-empty) district. -/
theorem C38_normalised_provinces {k p : Str} (h : normValue NormalizedMap (some fProvince) k = p) (hk : k ≠ p) :
    districtOf p ≠ [] := by
  subst h
  unfold normValue at hk ⊢
  have ht : (some fProvince).bind (mapGet NormalizedMap) = some (parseData ProvinceList) := by
    show mapGet NormalizedMap fProvince = _
    unfold NormalizedMap Load mapSet mapGet
    rw [if_neg (by decide +kernel)]
    unfold mapGet
    rw [if_pos rfl]
  rw [ht] at hk ⊢
  cases e : mapGet (parseData ProvinceList) k with
  | none => simp only [e] at hk; exact absurd rfl hk
  | some v =>
    simp only [e]
    have := List.all_eq_true.mp province_districts _ (mapGet_mem e)
    cases e2 : mapGet provinceDistrict v with
    | none => simp [e2] at this
    | some dd =>
      simp only [e2, bne_iff_ne, ne_eq] at this
      rw [districtOf_table]
      split
      · rename_i hv; subst hv
        rw [show mapGet provinceDistrict [] = none by decide +kernel] at e2; cases e2
      · rw [e2]; exact this

/-- A data set as the converter sees it after merging: three rows, the first two share their slice. -/
def demoD : HData :=
  ⟨[fCountry, fProvince, fISP, fAsn], ⟨IpV4, 0, 0, [], [], []⟩,
   [⟨⟨[1, 0, 0, 0], [255, 0, 0, 0]⟩, ⟨0, 4⟩⟩, ⟨⟨[3, 0, 0, 0], [255, 0, 0, 0]⟩, ⟨0, 4⟩⟩, ⟨⟨[4, 0, 0, 0], [255, 0, 0, 0]⟩, ⟨1, 4⟩⟩],
   [[gs "中国", gs "上海市", gs "鹏博士", gs "4134"], [gs "中国", gs "北京市", gs "电信", gs "4134"]]⟩

example : demoD.WF ∧ demoD.Aligned ∧ fProvince ∈ demoD.fields ∧ demoD.fields.Nodup ∧
    (∀ r ∈ demoD.rows, WFNet r.cidr) := by decide +kernel

/-! ## C35 -/

/-- C35: every value is normalised by the table of its field and nothing else changes, whatever slices the
rows share. -/
theorem C35_replace_shortage (tables : GoMap (GoMap Str)) (hn : NoChains tables) (d : HData) (hw : d.WF) :
    ∃ d', ReplaceShortage tables d = .ok d' ∧ d'.WF ∧ d'.rows = d.rows ∧ d'.fields = d.fields ∧ d'.version = d.version ∧
      d'.view.ips = d.view.ips.map (normRow tables d.fields) := by
  obtain ⟨h', e, hc⟩ := replaceRows_spec (shortageTable tables d.fields)
    (fun i v => by rw [norm_eq, norm_eq]; exact normValue_idem hn _ _) d.rows d.heap hw
  have hcell : ∀ r ∈ d.rows, ∀ j < r.vals.len,
      Heap.cell h' r.vals.arr j = (d.heap.cell r.vals.arr j).map (normValue tables d.fields[j]?) := by
    intro r hr j hj
    exact (hc r.vals.arr j).1 ⟨r, hr, rfl, hj⟩
  have hin : ∀ r ∈ d.rows, r.vals.In h' := fun r hr => (show r.vals.In d.heap from hw r hr).mono fun j hj hs => by
    rw [hcell r hr j hj]; simpa using hs
  refine ⟨{ d with heap := h' }, by unfold ReplaceShortage; rw [e]; rfl, hin, rfl, rfl, rfl, ?_⟩
  show d.rows.map _ = (d.rows.map _).map _
  rw [List.map_map]
  refine List.map_congr_left fun r hr => ?_
  simp only [Function.comp, HData.rowView, normRow]
  congr 1
  apply List.ext_getElem?
  intro j
  rw [Heap.read_get?, List.getElem?_mapIdx, Heap.read_get?]
  split
  · rename_i hj; rw [hcell r hr j hj]
  · rfl

/-- C35: the built-in tables never map a normalised name further. -/
theorem C35_default_tables : NoChains NormalizedMap := NormalizedMap_noChains

/-- C35: doing it twice is the same as doing it once. -/
theorem C35_idempotent (tables : GoMap (GoMap Str)) (hn : NoChains tables) (d d' d'' : HData) (hw : d.WF)
    (h1 : ReplaceShortage tables d = .ok d') (h2 : ReplaceShortage tables d' = .ok d'') : d''.view = d'.view := by
  obtain ⟨e1, k1, k2, k3, k4, k5, k6⟩ := C35_replace_shortage tables hn d hw
  rw [h1] at k1; cases k1
  obtain ⟨e2, j1, j2, j3, j4, j5, j6⟩ := C35_replace_shortage tables hn d' k2
  rw [h2] at j1; cases j1
  unfold HData.view at *
  simp only [] at k6 j6 ⊢
  rw [j4, j5, j6]
  congr 1
  rw [k6, List.map_map, k4]
  refine List.map_congr_left fun x _ => ?_
  simp only [Function.comp, normRow, List.mapIdx_mapIdx]
  congr 1
  apply List.ext_getElem?
  intro j
  rw [List.getElem?_mapIdx, List.getElem?_mapIdx]
  cases x.values[j]? with
  | none => rfl
  | some v => simp only [Option.map_some, Function.comp, normValue_idem hn]

/-- C35: a value of a field without a table, or that is not in the table, is kept. -/
theorem C35_others_kept (tables : GoMap (GoMap Str)) (f : Option Str) (v : Str)
    (h : ∀ t, f.bind (mapGet tables) = some t → mapGet t v = none) : normValue tables f v = v := by
  unfold normValue
  cases e : f.bind (mapGet tables) with
  | none => rfl
  | some t => simp only []; rw [h t e]

/-- The built-in tables exist for city, province and isp only; two entries as a sample. -/
theorem C35_which_fields (f : Str) : (mapGet NormalizedMap f).isSome ↔ f = fCity ∨ f = fProvince ∨ f = fISP := by
  unfold NormalizedMap Load mapSet
  simp only [mapGet]
  constructor
  · intro h
    by_cases h1 : fISP = f
    · exact .inr (.inr h1.symm)
    · by_cases h2 : fProvince = f
      · exact .inr (.inl h2.symm)
      · by_cases h3 : fCity = f
        · exact .inl h3.symm
        · rw [if_neg h1, if_neg h2, if_neg h3] at h; cases h
  · rintro (rfl | rfl | rfl)
    · rw [if_neg (by decide +kernel), if_neg (by decide +kernel), if_pos rfl]; rfl
    · rw [if_neg (by decide +kernel), if_pos rfl]; rfl
    · rw [if_pos rfl]; rfl

set_option maxRecDepth 100000 in
example : mapGet (parseData ProvinceList) (gs "上海市") = some (gs "上海") := by decide +kernel

/-! ## C36, C37 -/

/-- A row holds a main ISP. -/
def HasMain (fields : List Str) (m s : Str) (y : IpRaw) : Prop :=
  m ∈ mainCarriers ∧ fieldVal fields fISP y = some m ∧ fieldVal fields fAsn y = some s

/-- C36: the columns the code works on are those of `isp` and `asn`; a field in column 0 counts as absent. -/
def Usable (fields : List Str) : Prop := ∃ i a, Offset fISP fields = some i ∧ Offset fAsn fields = some a ∧ 0 < i ∧ 0 < a

/-- The four main ISPs of the documentation. -/
example : mainIsp = [gs "电信", gs "联通", gs "移动", gs "铁通"] := rfl

theorem trim_cells (d : HData) (hw : d.WF) (ha : d.Aligned) (hnd : d.fields.Nodup) {i a : Nat}
    (hi : Offset fISP d.fields = some i) (hasn : Offset fAsn d.fields = some a) (hi0 : 0 < i) (ha0 : 0 < a)
    {orders : Nat → List Str}
    (hord : ∀ set, collectMain (ispAsnOffsets d.fields 0 (0, 0)).1 (ispAsnOffsets d.fields 0 (0, 0)).2 d.heap d.rows = .ok set →
      ∀ k, IsOrder set (orders k)) :
    ∃ h', TrimAsnIspDup orders d = .ok { d with heap := h' } ∧ (∀ b j, j ≠ i → Heap.cell h' b j = d.heap.cell b j) ∧
      (∀ b, Heap.cell h' b i = d.heap.cell b i ∨ ∃ u s m, d.heap.cell b i = some u ∧ u ∉ mainCarriers ∧ d.heap.cell b a = some s ∧
        (m ∈ mainCarriers ∧ ∃ y ∈ d.rows, d.heap.cell y.vals.arr i = some m ∧ d.heap.cell y.vals.arr a = some s) ∧
        Heap.cell h' b i = some m) ∧
      ∀ r ∈ d.rows, ∀ u s, d.heap.cell r.vals.arr i = some u → u ∉ mainCarriers → d.heap.cell r.vals.arr a = some s →
        (∃ m, m ∈ mainCarriers ∧ ∃ y ∈ d.rows, d.heap.cell y.vals.arr i = some m ∧ d.heap.cell y.vals.arr a = some s) →
        ∃ m, (m ∈ mainCarriers ∧ ∃ y ∈ d.rows, d.heap.cell y.vals.arr i = some m ∧ d.heap.cell y.vals.arr a = some s) ∧
          Heap.cell h' r.vals.arr i = some m := by
  have hne : fISP ≠ fAsn := by decide +kernel
  have hoffs : ispAsnOffsets d.fields 0 (0, 0) = (i, a) := by
    rw [ispAsnOffsets_eq hnd]; unfold pos0; rw [hi, hasn]; rfl
  rw [hoffs] at hord
  have hl : ∀ r ∈ d.rows, i < r.vals.len ∧ a < r.vals.len := fun r hr => by
    rw [ha r hr]; exact ⟨Offset_lt hi, Offset_lt hasn⟩
  obtain ⟨set, e, hset⟩ := collectMain_spec (o := i) (q := a) (by omega) d.heap d.rows hw hl
  obtain ⟨h', e', c1, c2, c3⟩ := trimLoop_spec (Offset_ne hi hasn hne) (set := set) (fun m s hm => ((hset m s).mp hm).1)
    (orders := orders) (hord set e) d.rows 0 d.heap hw hl
  refine ⟨h', ?_, c1, fun b => ?_, fun r hr u s h1 h2 h3 h4 => ?_⟩
  · unfold TrimAsnIspDup
    simp only [hoffs, show ¬ i = 0 by omega, show ¬ a = 0 by omega, if_false, e, Res.ok_bind, e', Res.pure_eq]
  · rcases c2 b with h | ⟨u, s, m, h1, h2, h3, h4, h5⟩
    · exact .inl h
    · exact .inr ⟨u, s, m, h1, h2, h3, (hset m s).mp h4, h5⟩
  · obtain ⟨m, hm⟩ := h4
    obtain ⟨m', h5, h6⟩ := c3 r hr u s h1 h2 h3 ⟨m, (hset m s).mpr hm⟩
    exact ⟨m', (hset m' s).mp h5, h6⟩

theorem fieldVal_cell {d : HData} {f : Str} {i : Nat} (hi : Offset f d.fields = some i)
    {r : HRow} (hl : i < r.vals.len) : fieldVal d.fields f (d.rowView r) = d.heap.cell r.vals.arr i := by
  unfold fieldVal HData.rowView
  rw [hi, Option.bind_some, Heap.read_get?, if_pos hl]

private theorem trim_unusable (d d' : HData) (hnd : d.fields.Nodup) (hu : ¬ Usable d.fields)
    (hr : TrimRuns d d') : d' = d := by
  obtain ⟨orders, _, hr⟩ := hr
  unfold TrimAsnIspDup at hr
  rw [ispAsnOffsets_eq hnd] at hr
  simp only [] at hr
  by_cases h0 : pos0 fISP d.fields = 0
  · rw [if_pos h0] at hr; injection hr with hr; exact hr.symm
  · rw [if_neg h0] at hr
    obtain ⟨set, _, hr⟩ := Res.bind_eq_ok.mp hr
    by_cases h1 : pos0 fAsn d.fields = 0
    · rw [if_pos h1] at hr; injection hr with hr; exact hr.symm
    · exfalso; apply hu
      unfold pos0 at h0 h1
      cases e : Offset fISP d.fields with
      | none => rw [e] at h0; simp at h0
      | some i =>
        cases e2 : Offset fAsn d.fields with
        | none => rw [e2] at h1; simp at h1
        | some a =>
          rw [e] at h0; rw [e2] at h1
          simp at h0 h1
          exact ⟨i, a, e, e2, by omega, by omega⟩

/-- C36: TrimAsnIspDup never fails, whatever map iteration orders occur. -/
theorem C36_trim_succeeds (d : HData) (hw : d.WF) (ha : d.Aligned) (hnd : d.fields.Nodup) (hu : Usable d.fields)
    (orders : Nat → List Str)
    (hord : ∀ set, collectMain (ispAsnOffsets d.fields 0 (0, 0)).1 (ispAsnOffsets d.fields 0 (0, 0)).2 d.heap d.rows = .ok set →
      ∀ k, IsOrder set (orders k)) : ∃ d', TrimAsnIspDup orders d = .ok d' := by
  obtain ⟨i, a, hi, hasn, hi0, ha0⟩ := hu
  obtain ⟨h', e, _⟩ := trim_cells d hw ha hnd hi hasn hi0 ha0 hord
  exact ⟨_, e⟩

/-- C36: what any run does to each row: only the isp value may change; it changes exactly on the rows that do not
have a main ISP while some row of a main ISP has the same ASN, and then to such a main ISP. -/
theorem C36_trim (d d' : HData) (hw : d.WF) (ha : d.Aligned) (hnd : d.fields.Nodup) (hr : TrimRuns d d') :
    d'.fields = d.fields ∧ d'.version = d.version ∧ d'.rows = d.rows ∧ d'.WF ∧
    Rel2 (fun x x' =>
      (Usable d.fields ∧ ∃ u s m, fieldVal d.fields fISP x = some u ∧ u ∉ mainCarriers ∧ fieldVal d.fields fAsn x = some s ∧
        (∃ y ∈ d.view.ips, HasMain d.fields m s y) ∧ x' = setField d.fields fISP m x) ∨
      (x' = x ∧ ¬ (Usable d.fields ∧ ∃ u s m, fieldVal d.fields fISP x = some u ∧ u ∉ mainCarriers ∧
        fieldVal d.fields fAsn x = some s ∧ ∃ y ∈ d.view.ips, HasMain d.fields m s y)))
      d.view.ips d'.view.ips := by
  by_cases hu : Usable d.fields
  · obtain ⟨orders, hord, hr⟩ := hr
    obtain ⟨i, a, hi, hasn, hi0, ha0⟩ := id hu
    obtain ⟨h', e, c1, c2, c3⟩ := trim_cells d hw ha hnd hi hasn hi0 ha0 hord
    rw [e] at hr
    injection hr with hr
    subst hr
    have hl : ∀ r ∈ d.rows, i < r.vals.len ∧ a < r.vals.len := fun r hr => by
      rw [ha r hr]; exact ⟨Offset_lt hi, Offset_lt hasn⟩
    have hmain : ∀ m s, (m ∈ mainCarriers ∧ ∃ y ∈ d.rows, d.heap.cell y.vals.arr i = some m ∧ d.heap.cell y.vals.arr a = some s) ↔
        ∃ y ∈ d.view.ips, HasMain d.fields m s y := by
      intro m s
      constructor
      · rintro ⟨hm, y, hy, h1, h2⟩
        exact ⟨d.rowView y, List.mem_map.mpr ⟨y, hy, rfl⟩, hm, by rw [fieldVal_cell hi (hl y hy).1, h1],
          by rw [fieldVal_cell hasn (hl y hy).2, h2]⟩
      · rintro ⟨x, hx, hm, h1, h2⟩
        obtain ⟨y, hy, rfl⟩ := List.mem_map.mp hx
        rw [fieldVal_cell hi (hl y hy).1] at h1
        rw [fieldVal_cell hasn (hl y hy).2] at h2
        exact ⟨hm, y, hy, h1, h2⟩
    have hsome : ∀ b j, (d.heap.cell b j).isSome → (Heap.cell h' b j).isSome := by
      intro b j hj
      by_cases hji : j = i
      · subst hji
        rcases c2 b with h | ⟨_, _, m, _, _, _, _, h⟩
        · rw [h]; exact hj
        · rw [h]; rfl
      · rw [c1 b j hji]; exact hj
    have hin : ∀ r ∈ d.rows, r.vals.In h' := fun r hr => (show r.vals.In d.heap from hw r hr).mono fun j _ hs => hsome _ _ hs
    refine ⟨rfl, rfl, rfl, hin, ?_⟩
    show Rel2 _ (d.rows.map d.rowView) (d.rows.map fun r => IpRaw.mk r.cidr (Heap.read h' r.vals))
    have key : ∀ rows : List HRow, (∀ r ∈ rows, r ∈ d.rows) →
        Rel2 (fun x x' => (Usable d.fields ∧ ∃ u s m, fieldVal d.fields fISP x = some u ∧ u ∉ mainCarriers ∧ fieldVal d.fields fAsn x = some s ∧
        (∃ y ∈ d.view.ips, HasMain d.fields m s y) ∧ x' = setField d.fields fISP m x) ∨
      (x' = x ∧ ¬ (Usable d.fields ∧ ∃ u s m, fieldVal d.fields fISP x = some u ∧ u ∉ mainCarriers ∧
        fieldVal d.fields fAsn x = some s ∧ ∃ y ∈ d.view.ips, HasMain d.fields m s y)))
      (rows.map d.rowView) (rows.map fun r => IpRaw.mk r.cidr (Heap.read h' r.vals)) := by
      intro rows
      induction rows with
      | nil => intro _; exact .nil
      | cons r rs ih =>
        intro hsub
        refine .cons ?_ (ih fun x hx => hsub x (by simp [hx]))
        have hrd := hsub r (by simp)
        obtain ⟨hli, hla⟩ := hl r hrd
        obtain ⟨u, hu'⟩ := (show r.vals.In d.heap from hw r hrd).cell hli
        obtain ⟨s, hs⟩ := (show r.vals.In d.heap from hw r hrd).cell hla
        have e1 := fieldVal_cell (d := d) hi hli
        have e2 := fieldVal_cell (d := d) hasn hla
        -- reading the row when its isp cell is `v`
        have hread : ∀ v, Heap.cell h' r.vals.arr i = some v →
            Heap.read h' r.vals = (d.heap.read r.vals).set i v := by
          intro v hv
          apply List.ext_getElem?
          intro j
          rw [Heap.read_get?, List.getElem?_set, Heap.read_get?, Heap.read_length (hw r hrd)]
          by_cases hj : j < r.vals.len
          · rw [if_pos hj]
            by_cases hji : i = j
            · subst hji; rw [if_pos rfl, if_pos hli, hv]
            · rw [if_neg hji, c1 _ _ (fun e => hji e.symm), if_pos hj]
          · rw [if_neg hj, if_neg (by omega), if_neg hj]
        by_cases hc : u ∉ mainCarriers ∧ ∃ m, ∃ y ∈ d.view.ips, HasMain d.fields m s y
        · left
          obtain ⟨hum, m0, hm0⟩ := hc
          obtain ⟨m, hm, hmc⟩ := c3 r hrd u s hu' hum hs ⟨m0, (hmain m0 s).mpr hm0⟩
          refine ⟨hu, u, s, m, by rw [e1, hu'], hum, by rw [e2, hs], (hmain m s).mp hm, ?_⟩
          unfold setField
          rw [hi]
          simp only [HData.rowView]
          rw [hread m hmc]
        · right
          refine ⟨?_, ?_⟩
          · have hcell : Heap.cell h' r.vals.arr i = some u := by
              rcases c2 r.vals.arr with h | ⟨u', s', m, h1, h2, h3, h4, _⟩
              · rw [h, hu']
              · rw [hu'] at h1; cases h1
                rw [hs] at h3; cases h3
                exact absurd ⟨h2, m, (hmain m s).mp h4⟩ hc
            simp only [HData.rowView]
            rw [hread u hcell]
            congr 1
            apply List.ext_getElem?
            intro j
            rw [List.getElem?_set]
            by_cases hji : i = j
            · subst hji
              rw [if_pos rfl, if_pos (by rw [Heap.read_length (hw r hrd)]; exact hli), Heap.read_get?, if_pos hli, hu']
            · rw [if_neg hji]
          · rintro ⟨_, u', s', m, h1, h2, h3, h4⟩
            rw [e1, hu'] at h1; cases h1
            rw [e2, hs] at h3; cases h3
            exact hc ⟨h2, m, h4⟩
    exact key d.rows (fun _ h => h)
  · have := trim_unusable d d' hnd hu hr
    subst this
    refine ⟨rfl, rfl, rfl, hw, ?_⟩
    have key : ∀ l : List IpRaw, Rel2 (fun x x' =>
      (Usable d'.fields ∧ ∃ u s m, fieldVal d'.fields fISP x = some u ∧ u ∉ mainCarriers ∧ fieldVal d'.fields fAsn x = some s ∧
        (∃ y ∈ d'.view.ips, HasMain d'.fields m s y) ∧ x' = setField d'.fields fISP m x) ∨
      (x' = x ∧ ¬ (Usable d'.fields ∧ ∃ u s m, fieldVal d'.fields fISP x = some u ∧ u ∉ mainCarriers ∧
        fieldVal d'.fields fAsn x = some s ∧ ∃ y ∈ d'.view.ips, HasMain d'.fields m s y))) l l := by
      intro l
      induction l with
      | nil => exact .nil
      | cons x l ih => exact .cons (.inr ⟨rfl, fun h => hu h.1⟩) ih
    exact key _

theorem rel2_det {α β : Type} {R : α → β → Prop} (hdet : ∀ a b c, R a b → R a c → b = c) {as : List α} {bs cs : List β}
    (h1 : Rel2 R as bs) (h2 : Rel2 R as cs) : bs = cs := by
  induction h1 generalizing cs with
  | nil => cases h2; rfl
  | cons hab _ ih => cases h2 with | cons hac ht => rw [hdet _ _ _ hab hac, ih ht]

/-- C37 holds when no ASN is used by two main ISPs: every run gives the same result.  (Without the hypothesis it
is false, `C37_negation`.) -/
theorem C37_deterministic (d d1 d2 : HData) (hw : d.WF) (ha : d.Aligned) (hnd : d.fields.Nodup)
    (hone : ∀ s m1 m2, (∃ y ∈ d.view.ips, HasMain d.fields m1 s y) → (∃ y ∈ d.view.ips, HasMain d.fields m2 s y) → m1 = m2)
    (h1 : TrimRuns d d1) (h2 : TrimRuns d d2) : d1.view = d2.view := by
  obtain ⟨a1, a2, _, _, a3⟩ := C36_trim d d1 hw ha hnd h1
  obtain ⟨b1, b2, _, _, b3⟩ := C36_trim d d2 hw ha hnd h2
  have : d1.view.ips = d2.view.ips := by
    refine rel2_det ?_ a3 b3
    rintro x y z (⟨hu, u, s, m, k1, k2, k3, k4, rfl⟩ | ⟨rfl, hno⟩) (⟨_, u', s', m', j1, j2, j3, j4, rfl⟩ | ⟨rfl, hno'⟩)
    · rw [k3] at j3; cases j3
      rw [hone s m m' k4 j4]
    · exact absurd ⟨hu, u, s, m, k1, k2, k3, k4⟩ hno'
    · exact absurd ⟨‹_›, u', s', m', j1, j2, j3, j4⟩ hno
    · rfl
  unfold HData.view at this ⊢
  simp only [] at this ⊢
  rw [a1, b1, a2, b2, this]

/-- Two main ISPs with the same ASN and a minor one. -/
def demoTwo : HData :=
  ⟨[fCountry, fISP, fAsn], ⟨IpV4, 0, 0, [], [], []⟩,
   [⟨⟨[1, 0, 0, 0], [255, 0, 0, 0]⟩, ⟨0, 3⟩⟩, ⟨⟨[3, 0, 0, 0], [255, 0, 0, 0]⟩, ⟨1, 3⟩⟩, ⟨⟨[4, 0, 0, 0], [255, 0, 0, 0]⟩, ⟨2, 3⟩⟩],
   [[gs "中国", gs "电信", gs "4134"], [gs "中国", gs "联通", gs "4134"], [gs "中国", gs "鹏博士", gs "4134"]]⟩

/-- C37 is false: two runs on the same data, differing in the iteration order of a Go map, give different data. -/
theorem C37_negation : ∃ d1 d2, TrimRuns demoTwo d1 ∧ TrimRuns demoTwo d2 ∧ d1.view.ips ≠ d2.view.ips := by
  have hset : collectMain (ispAsnOffsets demoTwo.fields 0 (0, 0)).1 (ispAsnOffsets demoTwo.fields 0 (0, 0)).2 demoTwo.heap
      demoTwo.rows = .ok [(gs "电信", gs "4134"), (gs "联通", gs "4134")] := by decide +kernel
  have hkeys : ∀ k, (∃ s, (k, s) ∈ [(gs "电信", gs "4134"), (gs "联通", gs "4134")]) ↔ k = gs "电信" ∨ k = gs "联通" := by
    intro k
    simp only [List.mem_cons, Prod.mk.injEq, List.not_mem_nil, or_false]
    constructor
    · rintro ⟨s, h | h⟩
      · exact .inl h.1
      · exact .inr h.1
    · rintro (h | h)
      · exact ⟨_, .inl ⟨h, rfl⟩⟩
      · exact ⟨_, .inr ⟨h, rfl⟩⟩
  have hn : [gs "电信", gs "联通"].Nodup := by decide +kernel
  have hn' : [gs "联通", gs "电信"].Nodup := by decide +kernel
  have ok : (TrimAsnIspDup (fun _ => [gs "电信", gs "联通"]) demoTwo).isOk = true ∧
      (TrimAsnIspDup (fun _ => [gs "联通", gs "电信"]) demoTwo).isOk = true := by decide +kernel
  have hne : (match TrimAsnIspDup (fun _ => [gs "电信", gs "联通"]) demoTwo, TrimAsnIspDup (fun _ => [gs "联通", gs "电信"]) demoTwo with
      | .ok a, .ok b => decide (a.view.ips ≠ b.view.ips) | _, _ => false) = true := by decide +kernel
  cases e1 : TrimAsnIspDup (fun _ => [gs "电信", gs "联通"]) demoTwo with
  | err _ => rw [e1] at ok; simp [Res.isOk] at ok
  | panic => rw [e1] at ok; simp [Res.isOk] at ok
  | ok d1 =>
    cases e2 : TrimAsnIspDup (fun _ => [gs "联通", gs "电信"]) demoTwo with
    | err _ => rw [e2] at ok; simp [Res.isOk] at ok
    | panic => rw [e2] at ok; simp [Res.isOk] at ok
    | ok d2 =>
      rw [e1, e2] at hne
      refine ⟨d1, d2, ⟨_, fun set hs k => ?_, e1⟩, ⟨_, fun set hs k => ?_, e2⟩, by simpa using hne⟩
      · rw [hset] at hs; cases hs
        refine ⟨hn, fun k => ?_⟩
        rw [hkeys]; simp
      · rw [hset] at hs; cases hs
        refine ⟨hn', fun k => ?_⟩
        rw [hkeys]; simp [or_comm]

/-- The hypotheses of C36 are met by the demo data, where the two shared rows get the main ISP. -/
example : demoD.fields.Nodup ∧ Usable demoD.fields := by
  refine ⟨by decide +kernel, 2, 3, by decide +kernel⟩

/-! ## C32, C33, C34 -/

/-- C32: merging keeps the record of every address (rows scanned from either end), the fields, and disjointness; the
version records the new number of rows. -/
theorem C32_merge (d : HData) (hne : d.rows ≠ []) (hw : ∀ r ∈ d.rows, WFNet r.cidr) :
    ∃ d', MergeNearNetwork d = .ok d' ∧ d'.fields = d.fields ∧
      d'.version = { d.version with count := UInt32.ofNat d'.rows.length } ∧
      (∀ r ∈ d'.rows, WFNet r.cidr) ∧
      (∀ x, firstMatch d'.view.ips x = firstMatch d.view.ips x) ∧
      (∀ x, lastMatch d'.view.ips x = lastMatch d.view.ips x) := by
  obtain ⟨d', e, k1, _, k3, _, k5, _, k7, k8, _⟩ := merge_spec d hne hw
  exact ⟨d', e, k1, k3, fun r hr => (k5 r hr).1, k7, k8⟩

/-- C32: disjoint rows stay disjoint. -/
theorem C32_disjoint (d d' : HData) (hw : ∀ r ∈ d.rows, WFNet r.cidr) (hd : DisjointRows (rowsOf d.view))
    (e : MergeNearNetwork d = .ok d') : DisjointRows (rowsOf d'.view) := by
  have h0 : ∀ d : HData, DisjointRows (rowsOf d.view) ↔ d.rows.Pairwise fun a b => ¬ Overlap a.cidr b.cidr := by
    intro d
    unfold DisjointRows rowsOf HData.view
    rw [List.map_map, List.pairwise_map]; rfl
  exact (h0 d').mpr (merge_disjoint d d' hw ((h0 d).mp hd) e)

/-- C33: merging merged data changes nothing. -/
theorem C33_idempotent (d d' : HData) (hw : ∀ r ∈ d.rows, WFNet r.cidr) (e : MergeNearNetwork d = .ok d') :
    MergeNearNetwork d' = .ok d' := by
  have hne : d.rows ≠ [] := by
    intro h
    unfold MergeNearNetwork at e; rw [h] at e; cases e
  obtain ⟨d2, e2, _, _, _, _, _, _, _, _, h⟩ := merge_spec d hne hw
  rw [e] at e2; injection e2 with e2; subst e2
  exact h

/-- C34 is false: with no rows the code dereferences a nil range, whatever the rest of the data. -/
theorem C34_negation (fields : List Str) (v : VersionInfo) (h : Heap) :
    MergeNearNetwork ⟨fields, v, [], h⟩ = .panic := rfl

/-- C34, what holds: with at least one row (well-formed networks) it succeeds. -/
theorem C34_nonempty (d : HData) (hne : d.rows ≠ []) (hw : ∀ r ∈ d.rows, WFNet r.cidr) :
    ∃ d', MergeNearNetwork d = .ok d' := by
  obtain ⟨d', e, _⟩ := merge_spec d hne hw
  exact ⟨d', e⟩

/-- Adjacent rows with equal values; merging makes one row of the first two. -/
def demoM : HData :=
  ⟨[fCountry], ⟨IpV4, 3, 0, [], [], []⟩,
   [⟨⟨[1, 0, 0, 0], [255, 128, 0, 0]⟩, ⟨0, 1⟩⟩, ⟨⟨[1, 128, 0, 0], [255, 128, 0, 0]⟩, ⟨1, 1⟩⟩,
    ⟨⟨[2, 0, 0, 0], [255, 0, 0, 0]⟩, ⟨2, 1⟩⟩], [[gs "a"], [gs "a"], [gs "b"]]⟩

example : demoM.rows ≠ [] ∧ (∀ r ∈ demoM.rows, WFNet r.cidr) ∧ DisjointRows (rowsOf demoM.view) := by decide +kernel
example : (match MergeNearNetwork demoM with | .ok d => d.rows.length == 2 && d.version.count == 2 | _ => false) = true := by
  decide +kernel

/-! ## C39 -/

theorem forRows_all {f : Heap → HRow → Res (Heap × HRow)} {P Q : HRow → Prop} (hf : ∀ h r h' r', P r → f h r = .ok (h', r') → Q r')
    (rows : List HRow) : ∀ h h' rows', (∀ r ∈ rows, P r) → forRows f h rows = .ok (h', rows') → ∀ r ∈ rows', Q r := by
  induction rows with
  | nil => intro h h' rows' _ e; injection e with e; injection e with e1 e2; subst e2; simp
  | cons r rs ih =>
    intro h h' rows' hP e
    unfold forRows at e
    obtain ⟨⟨h1, r1⟩, e1, e⟩ := Res.bind_eq_ok.mp e
    obtain ⟨⟨h2, rs2⟩, e2, e⟩ := Res.bind_eq_ok.mp e
    injection e with e; injection e with _ e; subst e
    intro x hx
    rcases List.mem_cons.mp hx with rfl | hx
    · exact hf _ _ _ _ (hP r (by simp)) e1
    · exact ih _ _ _ (fun y hy => hP y (by simp [hy])) e2 x hx

theorem setOrAppend_len {grow : Nat → Nat} {off : Option Nat} {h h' : Heap} {r r' : HRow} {v : Str}
    (e : setOrAppend grow off h r v = .ok (h', r')) :
    r'.vals.len = if off = none then r.vals.len + 1 else r.vals.len := by
  cases off with
  | none =>
    simp only [setOrAppend] at e
    injection e with e; injection e with _ e; subst e
    unfold Heap.append; simp only []
    split <;> rfl
  | some o =>
    simp only [setOrAppend] at e
    obtain ⟨h1, _, e⟩ := Res.bind_eq_ok.mp e
    injection e with e; injection e with _ e; subst e
    rfl

theorem aligned_attach {grow : Nat → Nat} {d : HData} {f : Str} {g : Heap → HRow → Res Str} (ha : d.Aligned)
    {h' : Heap} {rows' : List HRow} (e : forRows (fun h r => do
      let v ← g h r
      setOrAppend grow (Offset f d.fields) h r v) d.heap d.rows = .ok (h', rows')) :
    ∀ r ∈ rows', r.vals.len = (addField d.fields f).length := by
  refine forRows_all (P := fun r => r.vals.len = d.fields.length) (fun h r h1 r1 hP e => ?_) d.rows d.heap h' rows' ha e
  obtain ⟨v, _, e⟩ := Res.bind_eq_ok.mp e
  rw [setOrAppend_len e, addField_length, hP]

/-- C39, the operations that keep the rows aligned with the fields: always. -/
theorem C39_replace_shortage (tables : GoMap (GoMap Str)) (d d' : HData) (ha : d.Aligned)
    (e : ReplaceShortage tables d = .ok d') : d'.Aligned := by
  unfold ReplaceShortage at e
  obtain ⟨⟨h', rows'⟩, e1, e⟩ := Res.bind_eq_ok.mp e
  injection e with e; subst e
  refine forRows_all (P := fun r => r.vals.len = d.fields.length) (fun h r h1 r1 hP e => ?_) d.rows d.heap h' rows' ha e1
  obtain ⟨h2, _, e⟩ := Res.bind_eq_ok.mp e
  injection e with e; injection e with _ e; subst e
  exact hP

theorem C39_trim (orders : Nat → List Str) (d d' : HData) (ha : d.Aligned)
    (e : TrimAsnIspDup orders d = .ok d') : d'.Aligned := by
  unfold TrimAsnIspDup at e
  simp only [] at e
  split at e
  · injection e with e; subst e; exact ha
  · obtain ⟨set, _, e⟩ := Res.bind_eq_ok.mp e
    split at e
    · injection e with e; subst e; exact ha
    · obtain ⟨h, _, e⟩ := Res.bind_eq_ok.mp e
      injection e with e; subst e; exact ha

theorem C39_merge (d d' : HData) (hw : ∀ r ∈ d.rows, WFNet r.cidr) (ha : d.Aligned)
    (e : MergeNearNetwork d = .ok d') : d'.Aligned := by
  have hne : d.rows ≠ [] := by
    intro h
    unfold MergeNearNetwork at e; rw [h] at e; cases e
  obtain ⟨d2, e2, k1, _, _, _, _, k6, _⟩ := merge_spec d hne hw
  rw [e] at e2; injection e2 with e2; subst e2
  intro r hr
  obtain ⟨r0, hr0, hv⟩ := k6 r hr
  rw [hv, k1]; exact ha r0 hr0

theorem C39_replace_line (dec : Int → Str) (line : LineDb) (d d' : HData) (ha : d.Aligned)
    (e : ReplaceLineByCidr dec line d = .ok d') : d'.Aligned := by
  unfold ReplaceLineByCidr at e
  simp only [] at e
  cases h1 : Offset fISP d.fields with
  | none => rw [h1] at e; injection e with e; subst e; exact ha
  | some i =>
    cases h2 : Offset fCountry d.fields with
    | none => rw [h1, h2] at e; injection e with e; subst e; exact ha
    | some c =>
      rw [h1, h2] at e
      simp only [] at e
      obtain ⟨⟨h', rows'⟩, e1, e⟩ := Res.bind_eq_ok.mp e
      injection e with e; subst e
      refine forRows_all (P := fun r => r.vals.len = d.fields.length) (fun h r h1 r1 hP e => ?_) d.rows d.heap h' rows' ha e1
      obtain ⟨cc, _, e⟩ := Res.bind_eq_ok.mp e
      obtain ⟨l, _, e⟩ := Res.bind_eq_ok.mp e
      split at e
      · obtain ⟨h3, _, e⟩ := Res.bind_eq_ok.mp e
        injection e with e; injection e with _ e; subst e; exact hP
      · injection e with e; injection e with _ e; subst e; exact hP

/-- C39: AttachDistrict, when there is a province field. -/
theorem C39_attach_district (grow : Nat → Nat) (d d' : HData) (ha : d.Aligned) (hp : fProvince ∈ d.fields)
    (e : AttachDistrict grow d = .ok d') : d'.Aligned := by
  have hne : fProvince ≠ fDistrict := by decide +kernel
  unfold AttachDistrict at e
  simp only [addField_eq, Offset_addField hne] at e
  cases hpo : Offset fProvince d.fields with
  | none => exact absurd hp (Offset_none.mp hpo)
  | some p =>
    rw [hpo] at e
    simp only [] at e
    obtain ⟨⟨h', rows'⟩, e1, e⟩ := Res.bind_eq_ok.mp e
    injection e with e; subst e
    refine aligned_attach (g := fun h r => do
      let c ← h.get r.vals p
      return if c ≠ [] then (mapGet provinceDistrict c).getD [] else []) ha ?_ (grow := grow) (h' := h')
    rw [← e1]
    congr 1
    funext h r
    cases h.get r.vals p <;> rfl

/-- C39: AttachLineByCidr, when there is a country field. -/
theorem C39_attach_line_cidr (grow : Nat → Nat) (dec : Int → Str) (line : LineDb) (d d' : HData) (ha : d.Aligned)
    (hp : fCountry ∈ d.fields) (e : AttachLineByCidr grow dec line d = .ok d') : d'.Aligned := by
  have hne : fCountry ≠ fLine := by decide +kernel
  unfold AttachLineByCidr at e
  simp only [addField_eq, Offset_addField hne] at e
  cases hpo : Offset fCountry d.fields with
  | none => exact absurd hp (Offset_none.mp hpo)
  | some p =>
    rw [hpo] at e
    simp only [] at e
    obtain ⟨⟨h', rows'⟩, e1, e⟩ := Res.bind_eq_ok.mp e
    injection e with e; subst e
    refine aligned_attach (g := fun h r => do
      let c ← h.get r.vals p
      if c = china then queryLine r.cidr line else .ok []) ha ?_ (grow := grow) (h' := h')
    rw [← e1]
    congr 1
    funext h r
    cases h.get r.vals p <;> rfl

/-- C39: AttachLineByAsn, when the line field is already there (or there is no asn field). -/
theorem C39_attach_line_asn (grow : Nat → Nat) (asnLine : GoMap Str) (ver : Str) (d d' : HData) (ha : d.Aligned)
    (hp : fLine ∈ d.fields ∨ fAsn ∉ d.fields) (e : AttachLineByAsn grow asnLine ver d = .ok d') : d'.Aligned := by
  unfold AttachLineByAsn at e
  simp only [] at e
  split at e
  · injection e with e; subst e; exact ha
  · rename_i hasn
    have hl : ¬ InArray fLine d.fields = false := by
      rcases hp with hp | hp
      · rw [InArray_iff.mpr hp]; simp
      · exfalso; apply hasn
        cases h : InArray fAsn d.fields
        · rfl
        · exact absurd (InArray_iff.mp h) hp
    simp only [hl, if_false] at e
    obtain ⟨⟨h', rows'⟩, e1, e⟩ := Res.bind_eq_ok.mp e
    injection e with e; subst e
    refine forRows_all (P := fun r => r.vals.len = d.fields.length) (fun h r h1 r1 hP e => ?_) d.rows d.heap h' rows' ha e1
    obtain ⟨cc, _, e⟩ := Res.bind_eq_ok.mp e
    split at e
    · injection e with e; injection e with _ e; subst e; exact hP
    · rw [if_neg (by simp)] at e
      split at e
      · obtain ⟨h3, _, e⟩ := Res.bind_eq_ok.mp e
        injection e with e; injection e with _ e; subst e; exact hP
      · injection e with e; injection e with _ e; subst e; exact hP

/-- C39 is false for AttachDistrict: with no province field every non-empty data set that was aligned is not so
afterwards (`district` must be new). -/
theorem C39_negation_district (grow : Nat → Nat) (d : HData) (ha : d.Aligned) (hne : d.rows ≠ [])
    (hp : fProvince ∉ d.fields) (hd : fDistrict ∉ d.fields) :
    ∃ d', AttachDistrict grow d = .ok d' ∧ ¬ d'.Aligned := by
  have h0 : fProvince ≠ fDistrict := by decide +kernel
  refine ⟨{ d with fields := addField d.fields fDistrict }, ?_, fun h => ?_⟩
  · unfold AttachDistrict
    simp only [addField_eq, Offset_addField h0, Offset_none.mpr hp]
  · obtain ⟨r, rs, hr⟩ := List.exists_cons_of_ne_nil hne
    have h1 := ha r (by rw [hr]; simp)
    have h2 := h r (by show r ∈ d.rows; rw [hr]; simp)
    simp only [addField_length, Offset_none.mpr hd, if_true] at h2
    omega

/-- C39 is false for AttachLineByCidr in the same way, with no country field. -/
theorem C39_negation_line_cidr (grow : Nat → Nat) (dec : Int → Str) (line : LineDb) (d : HData) (ha : d.Aligned)
    (hne : d.rows ≠ []) (hp : fCountry ∉ d.fields) (hd : fLine ∉ d.fields) :
    ∃ d', AttachLineByCidr grow dec line d = .ok d' ∧ ¬ d'.Aligned := by
  have h0 : fCountry ≠ fLine := by decide +kernel
  refine ⟨{ d with fields := addField d.fields fLine, version := { d.version with extraInfo := d.version.extraInfo ++ [line.version ++ 0x2D :: dec line.build] } }, ?_, fun h => ?_⟩
  · unfold AttachLineByCidr
    simp only [addField_eq, Offset_addField h0, Offset_none.mpr hp]
    rfl
  · obtain ⟨r, rs, hr⟩ := List.exists_cons_of_ne_nil hne
    have h1 := ha r (by rw [hr]; simp)
    have h2 := h r (by show r ∈ d.rows; rw [hr]; simp)
    simp only [addField_length, Offset_none.mpr hd, if_true] at h2
    omega

/-- C39 is false for AttachLineByAsn: a row gets no line value even though its ASN is in the table (the code looks
the first column up instead). -/
theorem C39_negation_line_asn :
    ∃ d d', d.Aligned ∧ d.WF ∧ AttachLineByAsn (fun n => n + 1) [(gs "4134", gs "电信")] [] d = .ok d' ∧ ¬ d'.Aligned := by
  refine ⟨⟨[fCountry, fAsn], ⟨IpV4, 1, 0, [], [], []⟩, [⟨⟨[1, 0, 0, 0], [255, 0, 0, 0]⟩, ⟨0, 2⟩⟩], [[gs "中国", gs "4134"]]⟩,
    ⟨[fCountry, fAsn, fLine], ⟨IpV4, 1, 0, [], [], [[]]⟩, [⟨⟨[1, 0, 0, 0], [255, 0, 0, 0]⟩, ⟨0, 2⟩⟩], [[gs "中国", gs "4134"]]⟩, ?_⟩
  decide +kernel

/-! ## C42 -/

theorem splitByte_head (b : UInt8) (s : Str) : (splitByte b s).headD [] = s.takeWhile (· ≠ b) := by
  induction s with
  | nil => rfl
  | cons c s ih =>
    unfold splitByte
    by_cases h : c = b
    · simp [h]
    · simp only [h, if_false]
      cases e : splitByte b s with
      | nil => rw [e] at ih; simp only [List.headD_nil] at ih ⊢; rw [List.takeWhile_cons, if_pos (by simpa using h), ← ih]; rfl
      | cons p ps => rw [e] at ih; simp only [List.headD_cons] at ih ⊢; rw [List.takeWhile_cons, if_pos (by simpa using h), ← ih]

/-- C42: the line used for a network is the carrier of the line the line database gives for its first address,
empty when the database gives an error. -/
theorem C42_line (cidr : IPNet) (line : LineDb) :
    queryLine cidr line = match line.query cidr.ip with
      | .ok (info, _) => .ok (carrierLine info.line)
      | .err _ => .ok []
      | .panic => .panic := by
  unfold queryLine
  cases line.query cidr.ip with
  | panic => rfl
  | err _ => rfl
  | ok p =>
    obtain ⟨l, m⟩ := p
    simp only [splitByte_head]
    unfold carrierLine
    simp only []
    congr 1
    generalize List.takeWhile _ l.line = p
    by_cases h0 : p = []
    · simp [h0]
    · by_cases h1 : p = gs "电信" <;> by_cases h2 : p = gs "联通" <;> by_cases h3 : p = gs "移动" <;> simp [h0, h1, h2, h3]

/-- C42: it is one of three carriers or empty. -/
theorem C42_three (l : Str) : carrierLine l ∈ [[], gs "电信", gs "联通", gs "移动"] := by
  unfold carrierLine
  simp only []
  split
  · simp
  · split
    · rename_i h; rcases h with h | h | h <;> rw [h] <;> simp
    · split <;> simp

/-! ## C40, C41 -/

/-- The line the line database gives for an address. -/
def lineAt (line : LineDb) (a : IP) : Str :=
  match line.query a with
  | .ok (info, _) => carrierLine info.line
  | _ => []

/-- The line a row should get. -/
def rowLine (fields : List Str) (line : LineDb) (x : IpRaw) : Str :=
  if fieldVal fields fCountry x = some chinaName then lineAt line x.cidr.ip else []

theorem rowLine_china (fields : List Str) (line : LineDb) (x : IpRaw) :
    rowLine fields line x = if fieldVal fields fCountry x = some china then lineAt line x.cidr.ip else [] := rfl

theorem queryLine_ok {cidr : IPNet} {line : LineDb} (h : line.query cidr.ip ≠ .panic) :
    queryLine cidr line = .ok (lineAt line cidr.ip) := by
  rw [C42_line]
  unfold lineAt
  cases e : line.query cidr.ip with
  | panic => exact absurd e h
  | err _ => rfl
  | ok p => rfl

theorem attachLine_loop (grow : Nat → Nat) (off : Option Nat) (p : Nat) (line : LineDb) :
    (fun (h : Heap) (r : HRow) => do
      let c ← h.get r.vals p
      let ispline ← (if c = china then queryLine r.cidr line else .ok [])
      setOrAppend grow off h r ispline) =
    setLoop grow off p (fun r c => do
      let l ← (if c = china then queryLine r.cidr line else .ok [])
      return some l) := by
  funext h r
  unfold setLoop
  cases h.get r.vals p with
  | panic => rfl
  | err _ => rfl
  | ok c =>
    simp only [Res.ok_bind]
    cases (if c = china then queryLine r.cidr line else .ok []) <;> rfl

/-- C40 with sharing: two rows with the same slice may be given one line only if it is the right one for both.  The
hypothesis `hs` is needed (`C40_negation`): it only concerns rows whose line value is written in place, which is the
case when the field exists already or the slices have spare capacity. -/
theorem C40_attach_line_same (grow : Nat → Nat) (dec : Int → Str) (line : LineDb) (d : HData) (hw : d.WF) (ha : d.Aligned)
    (hc : fCountry ∈ d.fields) (hq : ∀ r ∈ d.rows, line.query r.cidr.ip ≠ .panic)
    (hs : ∀ r ∈ d.rows, ∀ r2 ∈ d.rows, r.vals.arr = r2.vals.arr →
      fLine ∈ d.fields ∨ (d.heap.cell r.vals.arr d.fields.length).isSome →
      rowLine d.fields line (d.rowView r) = rowLine d.fields line (d.rowView r2)) :
    ∃ d', AttachLineByCidr grow dec line d = .ok d' ∧ d'.WF ∧ d'.Aligned ∧ d'.fields = addField d.fields fLine ∧
      d'.version = { d.version with extraInfo := d.version.extraInfo ++ [line.version ++ 0x2D :: dec line.build] } ∧
      d'.view.ips = d.view.ips.map fun x => setOrAdd d.fields fLine (rowLine d.fields line x) x := by
  have hne : fCountry ≠ fLine := by decide +kernel
  obtain ⟨p, hp⟩ : ∃ i, Offset fCountry d.fields = some i := by
    cases e : Offset fCountry d.fields with
    | none => exact absurd hc (Offset_none.mp e)
    | some i => exact ⟨i, rfl⟩
  have hpl : ∀ r ∈ d.rows, p < r.vals.len := fun r hr => by rw [ha r hr]; exact Offset_lt hp
  have hfv : ∀ r ∈ d.rows, fieldVal d.fields fCountry (d.rowView r) = d.heap.cell r.vals.arr p :=
    fun r hr => fieldVal_cell hp (hpl r hr)
  obtain ⟨h', rows', e, k1, k2, k3, k4⟩ := setLoop_view (grow := grow) (off := Offset fLine d.fields)
    (V := fun r c => do
      let l ← (if c = china then queryLine r.cidr line else .ok [])
      return some l)
    (W := fun r c => some (if c = china then lineAt line r.cidr.ip else []))
    (Offset_lt hp) (fun o ho => ⟨Offset_lt ho, Offset_ne ho hp hne.symm⟩) d.rows d.heap hw ha
    (fun r hr c _ => by
      by_cases hcc : c = china
      · simp only [hcc, if_true, queryLine_ok (hq r hr), Res.ok_bind, Res.pure_eq]
      · simp only [hcc, if_false, Res.ok_bind, Res.pure_eq])
    (fun r hr r2 hr2 harr hin c hcell => by
      have := hs r hr r2 hr2 harr (by
        cases ho : Offset fLine d.fields with
        | none => right; rw [ho] at hin; exact hin
        | some o => left; exact List.mem_of_getElem? (Offset_some ho).1)
      simp only [rowLine_china] at this
      rw [hfv r hr, hfv r2 hr2, ← harr, hcell] at this
      simp only [Option.some.injEq] at this ⊢
      exact this)
  refine ⟨{ d with fields := addField d.fields fLine,
                   version := { d.version with extraInfo := d.version.extraInfo ++ [line.version ++ 0x2D :: dec line.build] },
                   rows := rows', heap := h' }, ?_, k1, ?_, rfl, rfl, ?_⟩
  · unfold AttachLineByCidr
    simp only [addField_eq, Offset_addField hne, hp]
    rw [attachLine_loop, e]; rfl
  · intro r hr
    show r.vals.len = (addField d.fields fLine).length
    rw [addField_length]
    exact k4 (fun _ _ _ => rfl) r hr
  · show rows'.map _ = (d.rows.map d.rowView).map _
    rw [List.map_map]
    refine k3.trans (List.map_congr_left fun r hr => ?_)
    have hl : p < (d.heap.read r.vals).length := by
      rw [Heap.read_length (hw r hr)]; exact hpl r hr
    have hcell := hfv r hr
    unfold fieldVal HData.rowView at hcell
    simp only [hp, Option.bind_some] at hcell
    simp only [Function.comp, HData.rowView, rowLine_china, fieldVal, hp, Option.bind_some, List.getElem?_eq_getElem hl,
      Option.some.injEq]
    unfold applySet setOrAdd
    cases Offset fLine d.fields <;> rfl

/-- C40 for data whose rows do not share slices. -/
theorem C40_attach_line_unshared (grow : Nat → Nat) (dec : Int → Str) (line : LineDb) (d : HData) (hw : d.WF)
    (ha : d.Aligned) (hc : fCountry ∈ d.fields) (hq : ∀ r ∈ d.rows, line.query r.cidr.ip ≠ .panic)
    (hs : ∀ r ∈ d.rows, ∀ r2 ∈ d.rows, r.vals.arr = r2.vals.arr → r = r2) :
    ∃ d', AttachLineByCidr grow dec line d = .ok d' ∧ d'.WF ∧ d'.Aligned ∧ d'.fields = addField d.fields fLine ∧
      d'.version = { d.version with extraInfo := d.version.extraInfo ++ [line.version ++ 0x2D :: dec line.build] } ∧
      d'.view.ips = d.view.ips.map fun x => setOrAdd d.fields fLine (rowLine d.fields line x) x :=
  C40_attach_line_same grow dec line d hw ha hc hq fun r hr r2 hr2 harr _ => by rw [hs r hr r2 hr2 harr]

/-- No slice has spare capacity. -/
def NoSpare (d : HData) : Prop := ∀ r ∈ d.rows, ¬ (d.heap.cell r.vals.arr d.fields.length).isSome

instance (d : HData) : Decidable (NoSpare d) := by unfold NoSpare; infer_instance

/-- C40 for shared slices without spare capacity, when the line field is new: this is what the converter does with a
rule (`C63`). -/
theorem C40_attach_line_new (grow : Nat → Nat) (dec : Int → Str) (line : LineDb) (d : HData) (hw : d.WF)
    (ha : d.Aligned) (hc : fCountry ∈ d.fields) (hq : ∀ r ∈ d.rows, line.query r.cidr.ip ≠ .panic)
    (hl : fLine ∉ d.fields) (hn : NoSpare d) :
    ∃ d', AttachLineByCidr grow dec line d = .ok d' ∧ d'.WF ∧ d'.Aligned ∧ d'.fields = d.fields ++ [fLine] ∧
      d'.version = { d.version with extraInfo := d.version.extraInfo ++ [line.version ++ 0x2D :: dec line.build] } ∧
      d'.view.ips = d.view.ips.map fun x => ⟨x.cidr, x.values ++ [rowLine d.fields line x]⟩ := by
  obtain ⟨d', k1, k2, k3, k4, kv, k5⟩ := C40_attach_line_same grow dec line d hw ha hc hq
    fun r hr r2 hr2 harr h => by
      rcases h with h | h
      · exact absurd h hl
      · exact absurd h (hn r hr)
  refine ⟨d', k1, k2, k3, by rw [k4]; unfold addField; rw [if_neg hl], kv, ?_⟩
  rw [k5]
  unfold setOrAdd
  rw [Offset_none.mpr hl]

/-- A line database that knows two networks. -/
def demoLine : LineDb where
  version := gs "l"
  build := 0
  query ip := .ok ({ line := if ip = [1, 0, 0, 0] then gs "电信/x" else gs "联通" }, 8)

/-- Two rows of the same values, as a dump leaves them: one slice for both. -/
def demoShared (fields : List Str) (values : List Str) (cap : Nat → Nat) : HData :=
  dumped cap ⟨fields, ⟨IpV4, 2, 0, [], [], []⟩, [⟨⟨[1, 0, 0, 0], [255, 0, 0, 0]⟩, values⟩, ⟨⟨[3, 0, 0, 0], [255, 0, 0, 0]⟩, values⟩]⟩

/-- C40 is false when the data already has a line field: the dumped data has two rows with equal values and so one
slice, and the first row ends up with the line of the second. -/
theorem C40_negation_existing (grow : Nat → Nat) (dec : Int → Str) :
    ∃ d', AttachLineByCidr grow dec demoLine (demoShared [fCountry, fLine] [china, []] id) = .ok d' ∧
      d'.view.ips.map (·.values) = [[china, gs "联通"], [china, gs "联通"]] ∧
      lineAt demoLine [1, 0, 0, 0] = gs "电信" := by
  refine ⟨⟨[fCountry, fLine], ⟨IpV4, 2, 0, [], [], [lineVer dec demoLine]⟩,
    [⟨⟨[1, 0, 0, 0], [255, 0, 0, 0]⟩, ⟨0, 2⟩⟩, ⟨⟨[3, 0, 0, 0], [255, 0, 0, 0]⟩, ⟨0, 2⟩⟩], [[china, gs "联通"]]⟩, ?_, ?_, ?_⟩
  · rfl
  · rfl
  · decide +kernel

/-- C40 is false without a rule even for a new line field: three fields built by `append` have capacity 4. -/
theorem C40_negation_spare (grow : Nat → Nat) (dec : Int → Str) :
    ∃ d', AttachLineByCidr grow dec demoLine (demoShared [fCountry, fProvince, fCity] [china, [], []] (fun _ => 4)) = .ok d' ∧
      d'.view.ips.map (·.values) = [[china, [], [], gs "联通"], [china, [], [], gs "联通"]] := by
  refine ⟨⟨[fCountry, fProvince, fCity, fLine], ⟨IpV4, 2, 0, [], [], [lineVer dec demoLine]⟩,
    [⟨⟨[1, 0, 0, 0], [255, 0, 0, 0]⟩, ⟨0, 4⟩⟩, ⟨⟨[3, 0, 0, 0], [255, 0, 0, 0]⟩, ⟨0, 4⟩⟩], [[china, [], [], gs "联通"]]⟩, ?_, ?_⟩
  · rfl
  · rfl

theorem replaceLine_loop (i p : Nat) (line : LineDb) :
    (fun (h : Heap) (r : HRow) => do
      let c ← h.get r.vals p
      let ispline ← (if c = china then queryLine r.cidr line else .ok [])
      if ispline ≠ [] then do
        let h ← h.put r.vals i ispline
        return (h, r)
      else return (h, r)) =
    setLoop id (some i) p (fun r c => do
      let l ← (if c = china then queryLine r.cidr line else .ok [])
      return if l ≠ [] then some l else none) := by
  funext h r
  unfold setLoop
  cases h.get r.vals p with
  | panic => rfl
  | err _ => rfl
  | ok c =>
    simp only [Res.ok_bind]
    cases (if c = china then queryLine r.cidr line else .ok []) with
    | panic => rfl
    | err _ => rfl
    | ok l =>
      simp only [Res.ok_bind, Res.pure_eq]
      by_cases h : l = []
      · simp [h]
      · simp [h, setOrAppend]

/-- The row ReplaceLineByCidr should leave. -/
def replacedRow (fields : List Str) (line : LineDb) (x : IpRaw) : IpRaw :=
  if rowLine fields line x ≠ [] then setField fields fISP (rowLine fields line x) x else x

/-- C41 with sharing: rows with the same slice must have the same line; without that it is false (`C41_negation`). -/
theorem C41_same_line (dec : Int → Str) (line : LineDb) (d : HData) (hw : d.WF) (ha : d.Aligned)
    (hc : fCountry ∈ d.fields) (hi : fISP ∈ d.fields) (hq : ∀ r ∈ d.rows, line.query r.cidr.ip ≠ .panic)
    (hs : ∀ r ∈ d.rows, ∀ r2 ∈ d.rows, r.vals.arr = r2.vals.arr →
      rowLine d.fields line (d.rowView r) = rowLine d.fields line (d.rowView r2)) :
    ∃ d', ReplaceLineByCidr dec line d = .ok d' ∧ d'.WF ∧ d'.fields = d.fields ∧
      d'.version = { d.version with extraInfo := d.version.extraInfo ++ [line.version ++ 0x2D :: dec line.build] } ∧
      d'.view.ips = d.view.ips.map (replacedRow d.fields line) := by
  have hne : fISP ≠ fCountry := by decide +kernel
  obtain ⟨p, hp⟩ : ∃ i, Offset fCountry d.fields = some i := by
    cases e : Offset fCountry d.fields with
    | none => exact absurd hc (Offset_none.mp e)
    | some i => exact ⟨i, rfl⟩
  obtain ⟨i, hio⟩ : ∃ i, Offset fISP d.fields = some i := by
    cases e : Offset fISP d.fields with
    | none => exact absurd hi (Offset_none.mp e)
    | some i => exact ⟨i, rfl⟩
  have hpl : ∀ r ∈ d.rows, p < r.vals.len := fun r hr => by rw [ha r hr]; exact Offset_lt hp
  have hfv : ∀ r ∈ d.rows, fieldVal d.fields fCountry (d.rowView r) = d.heap.cell r.vals.arr p :=
    fun r hr => fieldVal_cell hp (hpl r hr)
  obtain ⟨h', rows', e, k1, k2, k3, k4⟩ := setLoop_view (grow := id) (off := some i)
    (V := fun r c => do
      let l ← (if c = china then queryLine r.cidr line else .ok [])
      return if l ≠ [] then some l else none)
    (W := fun r c => if c = china ∧ lineAt line r.cidr.ip ≠ [] then some (lineAt line r.cidr.ip) else none)
    (Offset_lt hp) (fun o ho => by injection ho with ho; subst ho; exact ⟨Offset_lt hio, Offset_ne hio hp hne⟩)
    d.rows d.heap hw ha
    (fun r hr c _ => by
      by_cases hcc : c = china
      · simp only [hcc, if_true, queryLine_ok (hq r hr), Res.ok_bind, Res.pure_eq, true_and]
      · simp [hcc])
    (fun r hr r2 hr2 harr hin c hcell => by
      have := hs r hr r2 hr2 harr
      simp only [rowLine_china] at this
      rw [hfv r hr, hfv r2 hr2, ← harr, hcell] at this
      by_cases hcc : c = china
      · rw [if_pos (by rw [hcc]), if_pos (by rw [hcc])] at this
        simp only [hcc, true_and]
        show (if lineAt line r.cidr.ip ≠ [] then _ else _) = (if lineAt line r2.cidr.ip ≠ [] then _ else _)
        rw [show lineAt line r.cidr.ip = lineAt line r2.cidr.ip from this]
      · simp [hcc])
  refine ⟨{ d with version := { d.version with extraInfo := d.version.extraInfo ++ [line.version ++ 0x2D :: dec line.build] },
                   rows := rows', heap := h' }, ?_, k1, rfl, rfl, ?_⟩
  · unfold ReplaceLineByCidr
    simp only [hio, hp]
    rw [replaceLine_loop, e]; rfl
  · show rows'.map _ = (d.rows.map d.rowView).map _
    rw [List.map_map]
    refine k3.trans (List.map_congr_left fun r hr => ?_)
    have hl : p < (d.heap.read r.vals).length := by
      rw [Heap.read_length (hw r hr)]; exact hpl r hr
    simp only [Function.comp, HData.rowView, replacedRow, rowLine_china, fieldVal, hp, Option.bind_some, List.getElem?_eq_getElem hl,
      Option.some.injEq, setField, hio]
    by_cases h1 : (d.heap.read r.vals)[p] = china
    · by_cases h2 : lineAt line r.cidr.ip = []
      · simp [h1, h2, applySet]
      · simp [h1, h2, applySet]
    · simp [h1, applySet]

/-- C41 is false: rows with equal values share a slice after a dump, and both get the line of the last one. -/
theorem C41_negation (dec : Int → Str) :
    ∃ d', ReplaceLineByCidr dec demoLine (demoShared [fCountry, fISP] [china, gs "x"] id) = .ok d' ∧
      d'.view.ips.map (·.values) = [[china, gs "联通"], [china, gs "联通"]] ∧
      rowLine [fCountry, fISP] demoLine ⟨⟨[1, 0, 0, 0], [255, 0, 0, 0]⟩, [china, gs "x"]⟩ = gs "电信" := by
  refine ⟨⟨[fCountry, fISP], ⟨IpV4, 2, 0, [], [], [lineVer dec demoLine]⟩,
    [⟨⟨[1, 0, 0, 0], [255, 0, 0, 0]⟩, ⟨0, 2⟩⟩, ⟨⟨[3, 0, 0, 0], [255, 0, 0, 0]⟩, ⟨0, 2⟩⟩], [[china, gs "联通"]]⟩, ?_, ?_, ?_⟩
  · rfl
  · rfl
  · decide +kernel

/-- The positive theorems apply to the demo data (two rows share a slice; no spare capacity). -/
example : demoD.WF ∧ demoD.Aligned ∧ fCountry ∈ demoD.fields ∧ fISP ∈ demoD.fields ∧ fLine ∉ demoD.fields ∧ NoSpare demoD ∧
    (∀ r ∈ demoD.rows, demoLine.query r.cidr.ip ≠ .panic) := by
  refine ⟨by decide +kernel, by decide +kernel, by decide +kernel, by decide +kernel, by decide +kernel, by decide +kernel, ?_⟩
  intro r _ h; cases h

/-! ## Names of the columns -/

/-- The columns TrimAsnIspDup works on, by the names the databases use. -/
theorem C36_columns : fISP = gs "isp" ∧ fAsn = gs "asn" := by decide +kernel

/-- The columns AttachDistrict works on. -/
theorem C38_columns : fProvince = gs "province" ∧ fDistrict = gs "district" := by decide +kernel

/-- The columns AttachLineByCidr works on. -/
theorem C40_columns : fCountry = gs "country" ∧ fLine = gs "line" := by decide +kernel

/-- The columns ReplaceLineByCidr works on. -/
theorem C41_columns : fCountry = gs "country" ∧ fISP = gs "isp" := by decide +kernel

end Uip.Operate
