import Verif.Model.Program
import Verif.Spec.Pipeline
import Verif.Props.Operate
import Verif.Props.Ipdb
import Verif.Props.Registry
import Verif.Proof.Convert
/-!
# The converter's operations, one after the other
-/
namespace Uip.Program
open Uip Uip.Spec Uip.Operate

theorem firstMatch_of_disjoint {ips : List IpRaw} (hd : ips.Pairwise fun a b => ¬ Overlap a.cidr b.cidr) {x : IpRaw} {y : Nat}
    (hm : x ∈ ips) (hc : Covers x.cidr y) : firstMatch ips y = some x.values := by
  induction ips with
  | nil => simp at hm
  | cons a l ih =>
    rw [firstMatch_cons]
    rw [List.pairwise_cons] at hd
    rcases List.mem_cons.mp hm with rfl | hm
    · rw [if_pos hc]
    · have : ¬ Covers a.cidr y := fun h => hd.1 x hm (overlap_iff.mpr ⟨y, h, hc⟩)
      rw [if_neg this]; exact ih hd.2 hm

theorem firstMatch_some {ips : List IpRaw} {y : Nat} {v : List Str} (h : firstMatch ips y = some v) :
    ∃ x ∈ ips, Covers x.cidr y ∧ x.values = v := by
  unfold firstMatch at h
  cases hf : ips.find? (fun r => decide (Covers r.cidr y)) with
  | none => rw [hf] at h; cases h
  | some x =>
    rw [hf] at h
    refine ⟨x, List.mem_of_find?_eq_some hf, ?_, by simpa using h⟩
    simpa using List.find?_some hf

theorem disjoint_iff {d : IpData} : DisjointRows (rowsOf d) ↔ d.ips.Pairwise fun a b => ¬ Overlap a.cidr b.cidr := by
  unfold DisjointRows rowsOf
  rw [List.pairwise_map]

theorem pairwise_cidr {l l' : List IpRaw} (h : l'.map (·.cidr) = l.map (·.cidr))
    (hd : l.Pairwise fun a b => ¬ Overlap a.cidr b.cidr) : l'.Pairwise fun a b => ¬ Overlap a.cidr b.cidr := by
  have h1 := (List.pairwise_map (f := fun (x : IpRaw) => x.cidr) (R := fun a b => ¬ Overlap a b) (l := l)).mpr hd
  rw [← h] at h1
  exact List.pairwise_map.mp h1

theorem setField_cidr (fs : List Str) (f v : Str) (x : IpRaw) : (setField fs f v x).cidr = x.cidr := by
  unfold setField; split <;> rfl

theorem setOrAdd_cidr (fs : List Str) (f v : Str) (x : IpRaw) : (setOrAdd fs f v x).cidr = x.cidr := by
  unfold setOrAdd; split <;> rfl

theorem setOrAdd_values (fs : List Str) (f v : Str) {x y : IpRaw} (h : x.values = y.values) :
    (setOrAdd fs f v x).values = (setOrAdd fs f v y).values := by
  unfold setOrAdd; split <;> simp [h]

theorem fieldVal_values {fs : List Str} {f : Str} {x y : IpRaw} (h : x.values = y.values) :
    fieldVal fs f x = fieldVal fs f y := by unfold fieldVal; rw [h]

theorem MovedIsp.cidr {fs : List Str} {rows : List IpRaw} {x x' : IpRaw} (h : MovedIsp fs rows x x') : x'.cidr = x.cidr := by
  rcases h with ⟨_, _, _, _, _, _, _, rfl⟩ | ⟨rfl, _⟩
  · exact setField_cidr _ _ _ _
  · rfl

/-- The orders a Go run of TrimAsnIspDup may use on this data. -/
def LegalOrders (orders : Nat → List Str) (d : HData) : Prop :=
  ∀ set, collectMain (ispAsnOffsets d.fields 0 (0, 0)).1 (ispAsnOffsets d.fields 0 (0, 0)).2 d.heap d.rows = .ok set →
    ∀ k, IsOrder set (orders k)

/-- The record the default operations make of a row: names normalised, carrier moved. -/
def Settled (d : IpData) (x x' : IpRaw) : Prop :=
  MovedIsp d.fields (d.ips.map (normRow NormalizedMap d.fields)) (normRow NormalizedMap d.fields x) x'

theorem Settled.cidr {d : IpData} {x x' : IpRaw} (h : Settled d x x') : x'.cidr = x.cidr :=
  (MovedIsp.cidr (show MovedIsp _ _ _ _ from h)).trans rfl

theorem rel2_mem_left {α β : Type} {R : α → β → Prop} {as : List α} {bs : List β} (h : Rel2 R as bs) {a : α} (ha : a ∈ as) :
    ∃ b ∈ bs, R a b := by
  induction h with
  | nil => simp at ha
  | cons hab _ ih =>
    rcases List.mem_cons.mp ha with rfl | ha
    · exact ⟨_, by simp, hab⟩
    · obtain ⟨b, hb, hr⟩ := ih ha; exact ⟨b, by simp [hb], hr⟩

theorem rel2_mem_right {α β : Type} {R : α → β → Prop} {as : List α} {bs : List β} (h : Rel2 R as bs) {b : β} (hb : b ∈ bs) :
    ∃ a ∈ as, R a b := by
  induction h with
  | nil => simp at hb
  | cons hab _ ih =>
    rcases List.mem_cons.mp hb with rfl | hb
    · exact ⟨_, by simp, hab⟩
    · obtain ⟨a, ha, hr⟩ := ih hb; exact ⟨a, by simp [ha], hr⟩

/-! ## Writing in place keeps the arrays -/

/-- The same arrays with the same capacities. -/
def SameShape (h h' : Heap) : Prop := ∀ a j, (h'.cell a j).isSome = (h.cell a j).isSome

theorem SameShape.refl (h : Heap) : SameShape h h := fun _ _ => rfl

theorem SameShape.trans {h1 h2 h3 : Heap} (a : SameShape h1 h2) (b : SameShape h2 h3) : SameShape h1 h3 :=
  fun x y => (b x y).trans (a x y)

theorem put_shape {h h' : Heap} {s : Slice} {i : Nat} {v : Str} (e : h.put s i v = .ok h') : SameShape h h' := by
  unfold Heap.put at e
  split at e
  · split at e
    · rename_i c hc
      injection e with e; subst e
      intro a j
      rw [Heap.cell_modify_set (by rw [hc]; rfl)]
      split
      · rename_i hh; rw [hh.1, hh.2, hc]; rfl
      · rfl
    · cases e
  · cases e

theorem replaceLoop_shape {tbl : Nat → Option (GoMap Str)} {s : Slice} : ∀ (n i : Nat) {h h' : Heap},
    Operate.replaceLoop tbl s n i h = .ok h' → SameShape h h' := by
  intro n
  induction n with
  | zero => intro i h h' e; unfold Operate.replaceLoop at e; injection e with e; subst e; exact .refl _
  | succ n ih =>
    intro i h h' e
    unfold Operate.replaceLoop at e
    obtain ⟨v, _, e⟩ := Res.bind_eq_ok.mp e
    obtain ⟨h1, e1, e⟩ := Res.bind_eq_ok.mp e
    refine SameShape.trans ?_ (ih _ e)
    split at e1
    · injection e1 with e1; subst e1; exact .refl _
    · split at e1
      · injection e1 with e1; subst e1; exact .refl _
      · exact put_shape e1

theorem forRows_shape {f : Heap → HRow → Res (Heap × HRow)} (hf : ∀ h r h' r', f h r = .ok (h', r') → SameShape h h') :
    ∀ (rows : List HRow) {h h' : Heap} {rows' : List HRow}, forRows f h rows = .ok (h', rows') → SameShape h h' := by
  intro rows
  induction rows with
  | nil => intro h h' rows' e; unfold forRows at e; injection e with e; cases e; exact .refl _
  | cons r rs ih =>
    intro h h' rows' e
    unfold forRows at e
    obtain ⟨⟨h1, r1⟩, e1, e⟩ := Res.bind_eq_ok.mp e
    obtain ⟨⟨h2, rs2⟩, e2, e⟩ := Res.bind_eq_ok.mp e
    injection e with e; cases e
    exact (hf _ _ _ _ e1).trans (ih e2)

theorem shortage_shape {nm : GoMap (GoMap Str)} {d d' : HData} (e : ReplaceShortage nm d = .ok d') : SameShape d.heap d'.heap := by
  unfold ReplaceShortage at e
  obtain ⟨⟨h1, r1⟩, e1, e⟩ := Res.bind_eq_ok.mp e
  injection e with e; subst e
  refine forRows_shape (fun h r h' r' e => ?_) _ e1
  obtain ⟨h2, e2, e⟩ := Res.bind_eq_ok.mp e
  injection e with e; cases e
  exact replaceLoop_shape _ _ e2

theorem trimLoop_shape {i a : Nat} {set : List (Str × Str)} {orders : Nat → List Str} : ∀ (rows : List HRow) (k : Nat) {h h' : Heap},
    trimLoop i a set orders k h rows = .ok h' → SameShape h h' := by
  intro rows
  induction rows with
  | nil => intro k h h' e; unfold trimLoop at e; injection e with e; subst e; exact .refl _
  | cons r rs ih =>
    intro k h h' e
    unfold trimLoop at e
    obtain ⟨h1, e1, e⟩ := Res.bind_eq_ok.mp e
    refine SameShape.trans ?_ (ih _ e)
    unfold trimRow at e1
    obtain ⟨u, _, e1⟩ := Res.bind_eq_ok.mp e1
    obtain ⟨s, _, e1⟩ := Res.bind_eq_ok.mp e1
    split at e1
    · injection e1 with e1; subst e1; exact .refl _
    · split at e1
      · exact put_shape e1
      · injection e1 with e1; subst e1; exact .refl _

theorem trim_shape {orders : Nat → List Str} {d d' : HData} (e : TrimAsnIspDup orders d = .ok d') : SameShape d.heap d'.heap := by
  unfold TrimAsnIspDup at e
  simp only [] at e
  split at e
  · injection e with e; subst e; exact .refl _
  · obtain ⟨set, _, e⟩ := Res.bind_eq_ok.mp e
    split at e
    · injection e with e; subst e; exact .refl _
    · obtain ⟨h1, e1, e⟩ := Res.bind_eq_ok.mp e
      injection e with e; subst e
      exact trimLoop_shape _ _ e1

/-! ## The default operations -/

theorem normRow_cidr (t : GoMap (GoMap Str)) (fs : List Str) (x : IpRaw) : (normRow t fs x).cidr = x.cidr := rfl

theorem legal_orders {D : IpData} (ht : Table D) {cap : Nat → Nat} {orders : Nat → List Str}
    (h : CarrierOrders NormalizedMap D orders) (d1 : HData) (e1 : ReplaceShortage NormalizedMap (dumped cap D) = .ok d1) :
    LegalOrders orders d1 := by
  obtain ⟨hw0, hv0⟩ := dumped_spec cap D
  obtain ⟨d1', e1', hw1, hr1, hf1, hver1, hi1⟩ := C35_replace_shortage NormalizedMap C35_default_tables _ hw0
  rw [e1] at e1'
  injection e1' with e1'; subst e1'
  rw [hv0] at hi1
  have hf1 : d1.fields = D.fields := hf1
  have ha1 : d1.Aligned := C39_replace_shortage _ _ _ (dumped_aligned ht.len) e1
  obtain ⟨i, a, hi, ha, hi0, ha0⟩ := ht.usable
  rw [← hf1] at hi ha
  have hl : ∀ r ∈ d1.rows, i < r.vals.len ∧ a < r.vals.len := fun r hr => by
    rw [ha1 r hr]; exact ⟨Operate.Offset_lt hi, Operate.Offset_lt ha⟩
  obtain ⟨set, e, hs⟩ := collectMain_spec (o := i) (q := a) (by omega) d1.heap d1.rows hw1 hl
  intro set' hset k
  rw [ispAsnOffsets_eq (by rw [hf1]; exact ht.nodup)] at hset
  simp only [pos0, hi, ha, Option.getD_some] at hset
  rw [e] at hset
  injection hset with hset; subst hset
  refine ⟨(h k).1, fun m => ?_⟩
  rw [(h k).2 m]
  constructor
  · rintro ⟨hm, y, hy, hv⟩
    rw [show (dumped cap D).fields = D.fields from rfl] at hi1
    rw [← hi1] at hy
    obtain ⟨r, hr, rfl⟩ := List.mem_map.mp hy
    rw [← hf1, fieldVal_cell hi (hl r hr).1] at hv
    obtain ⟨s, hsv⟩ : ∃ s, d1.heap.cell r.vals.arr a = some s :=
      Option.isSome_iff_exists.mp (Heap.cell_isSome.mpr (Nat.lt_of_lt_of_le (hl r hr).2 (hw1 r hr)))
    exact ⟨s, (hs m s).mpr ⟨hm, r, hr, hv, hsv⟩⟩
  · rintro ⟨s, hms⟩
    obtain ⟨hm, r, hr, h1, h2⟩ := (hs m s).mp hms
    refine ⟨hm, d1.rowView r, ?_, by rw [← hf1, fieldVal_cell hi (hl r hr).1, h1]⟩
    rw [show (dumped cap D).fields = D.fields from rfl] at hi1
    rw [← hi1]
    exact List.mem_map.mpr ⟨r, hr, rfl⟩

/-- The default operations on a dumped table. -/
theorem default_ops {D : IpData} (ht : Table D) (cap : Nat → Nat) (orders : Nat → List Str)
    (hord : ∀ d1, ReplaceShortage NormalizedMap (dumped cap D) = .ok d1 → LegalOrders orders d1) :
    ∃ d1 d2 d3, ReplaceShortage NormalizedMap (dumped cap D) = .ok d1 ∧ TrimAsnIspDup orders d1 = .ok d2 ∧
      MergeNearNetwork d2 = .ok d3 ∧ Rel2 (Settled D) D.ips d2.view.ips ∧
      d3.WF ∧ d3.Aligned ∧ d3.fields = D.fields ∧ d3.rows ≠ [] ∧
      d3.version = { D.version with count := UInt32.ofNat d3.rows.length } ∧
      (∀ r ∈ d3.view.ips, WFNet r.cidr) ∧ DisjointRows (rowsOf d3.view) ∧
      (∀ r ∈ d3.view.ips, ∃ r2 ∈ d2.view.ips, r.values = r2.values) ∧
      (∀ y, firstMatch d3.view.ips y = firstMatch d2.view.ips y) ∧
      (∀ r ∈ d3.rows, ∃ r0 ∈ (dumped cap D).rows, r.vals = r0.vals) ∧ SameShape (dumped cap D).heap d3.heap := by
  obtain ⟨hw0, hv0⟩ := dumped_spec cap D
  have ha0 : (dumped cap D).Aligned := dumped_aligned ht.len
  obtain ⟨d1, e1, hw1, hr1, hf1, hver1, hi1⟩ := C35_replace_shortage NormalizedMap C35_default_tables _ hw0
  rw [hv0] at hi1
  have hf1 : d1.fields = D.fields := hf1
  have hver1 : d1.version = D.version := hver1
  have ha1 : d1.Aligned := C39_replace_shortage _ _ _ ha0 e1
  have hus : Usable d1.fields := by rw [hf1]; exact ht.usable
  have hnd1 : d1.fields.Nodup := by rw [hf1]; exact ht.nodup
  obtain ⟨d2, e2⟩ := C36_trim_succeeds d1 hw1 ha1 hnd1 hus orders (hord d1 e1)
  obtain ⟨hf2, hver2, hr2, hw2, hrel⟩ := C36_trim d1 d2 hw1 ha1 hnd1 ⟨orders, hord d1 e1, e2⟩
  have ha2 : d2.Aligned := C39_trim _ _ _ ha1 e2
  have hrows2 : d2.rows = (dumped cap D).rows := by rw [hr2, hr1]
  have hcid : d2.rows.map (·.cidr) = D.ips.map (·.cidr) := by
    rw [hrows2]
    have : (dumped cap D).view.ips.map (·.cidr) = D.ips.map (·.cidr) := by rw [hv0]
    unfold HData.view at this
    rw [List.map_map] at this
    exact this
  have hwf2 : ∀ r ∈ d2.rows, WFNet r.cidr := by
    intro r hr
    have : r.cidr ∈ D.ips.map (·.cidr) := by rw [← hcid]; exact List.mem_map.mpr ⟨r, hr, rfl⟩
    obtain ⟨x, hx, e⟩ := List.mem_map.mp this
    rw [← e]; exact ht.wf x hx
  have hne2 : d2.rows ≠ [] := by
    intro h
    rw [h] at hcid
    exact ht.rows (List.map_eq_nil_iff.mp hcid.symm)
  obtain ⟨d3, e3, k1, k2, k3, k4, k5, k6, k7, k8, _⟩ := merge_spec d2 hne2 hwf2
  have hset : Rel2 (Settled D) D.ips d2.view.ips := by
    have h := hrel
    rw [hi1, hf1] at h
    have key : ∀ (l : List IpRaw) (l' : List IpRaw), Rel2 (fun x x' =>
        (Usable D.fields ∧ ∃ u s m, fieldVal D.fields fISP x = some u ∧ u ∉ mainCarriers ∧ fieldVal D.fields fAsn x = some s ∧
          (∃ y ∈ List.map (normRow NormalizedMap (dumped cap D).fields) D.ips, HasMain D.fields m s y) ∧ x' = setField D.fields fISP m x) ∨
        (x' = x ∧ ¬ (Usable D.fields ∧ ∃ u s m, fieldVal D.fields fISP x = some u ∧ u ∉ mainCarriers ∧
          fieldVal D.fields fAsn x = some s ∧ ∃ y ∈ List.map (normRow NormalizedMap (dumped cap D).fields) D.ips, HasMain D.fields m s y)))
        (l.map (normRow NormalizedMap D.fields)) l' → Rel2 (Settled D) l l' := by
      intro l
      induction l with
      | nil => intro l' h; cases h; exact .nil
      | cons x l ih =>
        intro l' h
        rw [List.map_cons] at h
        cases h with
        | cons hab hrest =>
          refine .cons ?_ (ih _ hrest)
          unfold Settled MovedIsp
          rcases hab with ⟨_, u, s, m, h1, h2, h3, ⟨y, hy, hm⟩, h5⟩ | ⟨h1, h2⟩
          · left
            exact ⟨u, s, m, h1, h2, h3, ⟨hm.1, y, hy, hm.2.1, hm.2.2⟩, h5⟩
          · right
            refine ⟨h1, fun ⟨u, s, m, g1, g2, g3, g4, y, hy, g5, g6⟩ => h2 ⟨ht.usable, u, s, m, g1, g2, g3, y, hy, g4, g5, g6⟩⟩
    exact key _ _ h
  have hw3 : d3.WF := by
    intro r hr
    obtain ⟨r0, hr0, hv⟩ := k6 r hr
    rw [hv, k2]; exact hw2 r0 hr0
  refine ⟨d1, d2, d3, e1, e2, e3, hset, hw3, C39_merge d2 d3 hwf2 ha2 e3, by rw [k1, hf2, hf1], k4,
    by rw [k3, hver2, hver1], ?_, ?_, ?_, k7, ?_, ?_⟩
  · intro r hr
    obtain ⟨r0, hr0, rfl⟩ := List.mem_map.mp hr
    exact (k5 r0 hr0).1
  · refine C32_disjoint d2 d3 hwf2 ?_ e3
    rw [disjoint_iff]
    refine pairwise_cidr (l := D.ips) ?_ (disjoint_iff.mp ht.disjoint)
    unfold HData.view
    rw [List.map_map]; exact hcid
  · intro r hr
    obtain ⟨r0, hr0, rfl⟩ := List.mem_map.mp hr
    obtain ⟨r2, hr2, hv⟩ := k6 r0 hr0
    refine ⟨d2.rowView r2, List.mem_map.mpr ⟨r2, hr2, rfl⟩, ?_⟩
    show d3.heap.read r0.vals = d2.heap.read r2.vals
    rw [hv, k2]
  · intro r hr
    obtain ⟨r0, hr0, hv⟩ := k6 r hr
    exact ⟨r0, by rw [← hrows2]; exact hr0, hv⟩
  · rw [k2]
    exact (shortage_shape e1).trans (trim_shape e2)

/-! ## Values stay of ordinary size -/

/-- A value a record can hold without trouble. -/
def Fine (v : Str) : Prop := v.length ≤ 255 ∧ (0x09 : UInt8) ∉ v

/-- All results of a name table are fine. -/
def fineTable (m : GoMap Str) : Bool := m.all fun p => decide (p.2.length ≤ 255) && !(p.2.contains 0x09)

theorem fineTable_spec {m : GoMap Str} (h : fineTable m = true) {k v : Str} (hk : mapGet m k = some v) : Fine v := by
  have := List.all_eq_true.mp h (k, v) (mapGet_mem hk)
  simp only [Bool.and_eq_true, decide_eq_true_eq, Bool.not_eq_true'] at this
  exact ⟨this.1, fun hm => by have h2 := this.2; simp [List.contains_iff_mem, hm] at h2⟩

set_option maxRecDepth 100000 in
theorem fine_city : fineTable (parseData CityList) = true := by decide +kernel
set_option maxRecDepth 100000 in
theorem fine_isp : fineTable (parseData ISPList) = true := by decide +kernel
set_option maxRecDepth 100000 in
theorem fine_province : fineTable (parseData ProvinceList) = true := by decide +kernel
theorem fine_district : fineTable provinceDistrict = true := by decide +kernel

theorem fine_norm {f : Option Str} {v : Str} (h : Fine v) : Fine (normValue NormalizedMap f v) := by
  unfold normValue
  split
  · exact h
  · rename_i t ht
    have : fineTable t = true := by
      cases f with
      | none => cases ht
      | some f =>
        rcases NormalizedMap_cases (f := f) ht with h | h | h
        · rw [h.2]; exact fine_isp
        · rw [h.2]; exact fine_province
        · rw [h.2]; exact fine_city
    split
    · rename_i hv; exact fineTable_spec this hv
    · exact h

theorem fine_carrier {m : Str} (h : m ∈ mainCarriers) : Fine m := by
  have : ∀ m ∈ mainCarriers, m.length ≤ 255 ∧ (0x09 : UInt8) ∉ m := by decide +kernel
  exact this m h

theorem fine_nil : Fine [] := ⟨by simp, by simp⟩

theorem fine_districtOf (p : Str) : Fine (districtOf p) := by
  rw [districtOf_table]
  split
  · exact fine_nil
  · cases e : mapGet provinceDistrict p with
    | none => exact fine_nil
    | some v => exact fineTable_spec fine_district e

theorem fine_lineAt (l : LineDb) (a : IP) : Fine (lineAt l a) := by
  have : ∀ m ∈ [[], gs "电信", gs "联通", gs "移动"], m.length ≤ 255 ∧ (0x09 : UInt8) ∉ m := by decide +kernel
  unfold lineAt
  split
  · exact this _ (C42_three _)
  · exact fine_nil

/-- All values of a row are fine. -/
def FineRow (x : IpRaw) : Prop := ∀ v ∈ x.values, Fine v

theorem fine_set {l : List Str} {i : Nat} {v : Str} (h : ∀ u ∈ l, Fine u) (hv : Fine v) : ∀ u ∈ l.set i v, Fine u := by
  intro u hu
  rcases List.mem_or_eq_of_mem_set hu with hu | rfl
  · exact h u hu
  · exact hv

theorem fine_setField {fs : List Str} {f v : Str} {x : IpRaw} (h : FineRow x) (hv : Fine v) : FineRow (setField fs f v x) := by
  unfold setField
  split
  · exact fine_set h hv
  · exact h

theorem fine_setOrAdd {fs : List Str} {f v : Str} {x : IpRaw} (h : FineRow x) (hv : Fine v) : FineRow (setOrAdd fs f v x) := by
  unfold setOrAdd
  split
  · exact fine_set h hv
  · intro u hu
    rcases List.mem_append.mp hu with hu | hu
    · exact h u hu
    · rw [List.mem_singleton.mp hu]; exact hv

theorem fine_settled {D : IpData} {x x' : IpRaw} (hs : Settled D x x') (h : FineRow x) : FineRow x' := by
  have hn : FineRow (normRow NormalizedMap D.fields x) := by
    intro v hv
    obtain ⟨i, hi, rfl⟩ := List.getElem_of_mem hv
    unfold normRow at hi ⊢
    simp only [List.length_mapIdx, List.getElem_mapIdx] at hi ⊢
    exact fine_norm (h _ (List.getElem_mem _))
  rcases hs with ⟨u, s, m, _, _, _, hc, rfl⟩ | ⟨rfl, _⟩
  · exact fine_setField hn (fine_carrier hc.1)
  · exact hn

theorem joinByte_le {c : UInt8} : ∀ {l : List Str}, (∀ v ∈ l, Fine v) → (joinByte c l).length ≤ 256 * l.length
  | [], _ => by simp [joinByte]
  | [x], h => by have := (h x (by simp)).1; simp only [joinByte, List.length_singleton]; omega
  | x :: y :: r, h => by
    have h1 := (h x (by simp)).1
    have h2 := joinByte_le (c := c) (l := y :: r) (fun v hv => h v (by simp [hv]))
    simp only [joinByte, List.length_append, List.length_cons] at h2 ⊢
    omega

/-! ## The country is left alone -/

theorem fieldVal_setField {fs : List Str} {f g v : Str} {x : IpRaw} (hne : f ≠ g) :
    fieldVal fs f (setField fs g v x) = fieldVal fs f x := by
  unfold setField
  split
  · rename_i i hi
    unfold fieldVal
    cases ho : Offset f fs with
    | none => rfl
    | some j =>
      simp only [Option.bind_some]
      rw [List.getElem?_set_ne (Operate.Offset_ne hi ho hne.symm)]
  · rfl

theorem fieldVal_norm {fs : List Str} {f : Str} {x : IpRaw} (h : mapGet NormalizedMap f = none) :
    fieldVal fs f (normRow NormalizedMap fs x) = fieldVal fs f x := by
  unfold fieldVal
  cases ho : Offset f fs with
  | none => rfl
  | some j =>
    have hj := (Operate.Offset_some ho).1
    simp only [Option.bind_some, normRow, List.getElem?_mapIdx, hj]
    unfold normValue
    simp only [Option.bind_some, h]
    simp

theorem country_settled {D : IpData} {x x' : IpRaw} (hs : Settled D x x') :
    fieldVal D.fields fCountry x' = fieldVal D.fields fCountry x := by
  have hn : mapGet NormalizedMap fCountry = none := by
    have h := C35_which_fields fCountry
    have h1 : fCountry ≠ fCity := by decide +kernel
    have h2 : fCountry ≠ fProvince := by decide +kernel
    have h3 : fCountry ≠ fISP := by decide +kernel
    cases e : mapGet NormalizedMap fCountry with
    | none => rfl
    | some t => rw [e] at h; simp [h1, h2, h3] at h
  rcases hs with ⟨u, s, m, _, _, _, _, rfl⟩ | ⟨rfl, _⟩
  · rw [fieldVal_setField (by decide +kernel), fieldVal_norm hn]
  · rw [fieldVal_norm hn]

/-- No network of the merged table is the whole of `::/0`. -/
theorem not_all {D : IpData} (ht : Table D) {l2 l3 : List IpRaw} (hset : Rel2 (Settled D) D.ips l2)
    (hwf : ∀ r ∈ l3, WFNet r.cidr) (hdis : l3.Pairwise fun a b => ¬ Overlap a.cidr b.cidr)
    (hfm : ∀ y, firstMatch l3 y = firstMatch l2 y) : ∀ r ∈ l3, hostBits r.cidr < 128 := by
  intro r hr
  obtain ⟨_, hb, hh⟩ := WFNet_bounds (hwf r hr)
  apply Classical.byContradiction
  intro hn
  have h128 : 2 ^ 128 ≤ 2 ^ hostBits r.cidr := Nat.pow_le_pow_right (by omega) (by omega)
  have hlo : netLo r.cidr = 0 ∧ netEnd r.cidr = 2 ^ 128 := by
    unfold netEnd at hb ⊢; unfold netLo; omega
  have hcov : ∀ y < 2 ^ 128, Covers r.cidr y := by
    intro y hy; unfold Covers; rw [hlo.1, hlo.2]; omega
  have hval : ∀ y < 2 ^ 128, firstMatch l2 y = some r.values := by
    intro y hy
    rw [← hfm]; exact firstMatch_of_disjoint hdis hr (hcov y hy)
  have hc2 : l2.map (·.cidr) = D.ips.map (·.cidr) :=
    Rel2.map_eq (f := fun (x : IpRaw) => x.cidr) (g := fun (x : IpRaw) => x.cidr)
      (hset.imp_mem fun a _ b _ h => Settled.cidr h)
  have hd2 : l2.Pairwise fun a b => ¬ Overlap a.cidr b.cidr := pairwise_cidr hc2 (disjoint_iff.mp ht.disjoint)
  rcases ht.notUniform with ⟨y, hy, hno⟩ | ⟨a, ha, b, hb', hne⟩
  · obtain ⟨x, hx, hc, _⟩ := firstMatch_some (hval y hy)
    obtain ⟨x0, hx0, hs⟩ := rel2_mem_right hset hx
    exact hno x0 hx0 (by rw [← hs.cidr]; exact hc)
  · have key : ∀ a ∈ D.ips, fieldVal D.fields fCountry a = fieldVal D.fields fCountry r := by
      intro a ha
      obtain ⟨a2, ha2, hs⟩ := rel2_mem_left hset ha
      have hca : Covers a2.cidr (netLo a.cidr) := by
        rw [hs.cidr]; exact ⟨Nat.le_refl _, netLo_lt⟩
      have hlt : netLo a.cidr < 2 ^ 128 := by
        have := (WFNet_bounds (ht.wf a ha)).2.1
        have := netLo_lt (n := a.cidr)
        omega
      have h1 := firstMatch_of_disjoint hd2 ha2 hca
      rw [hval _ hlt] at h1
      injection h1 with h1
      rw [← country_settled hs, fieldVal_values h1.symm]
    exact hne ((key a ha).trans (key b hb').symm)

end Uip.Program
