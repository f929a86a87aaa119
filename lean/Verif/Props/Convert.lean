import Verif.Proof.Convert
import Verif.Proof.Plain
import Verif.Props.Ipdb
import Verif.Proof.Export
/-!
# Property C43: writing one data set to several outputs

The packers get the same data set one after the other; `.scan` replaces commas and `.ipdb` replaces continent names
in the value slices themselves.
-/
namespace Uip.Convert
open Uip Uip.Spec Uip.Operate

/-- The content of one output written on its own from the data set as it was. -/
def alone (d : HData) (o : Env × Str) : Res Bytes := do
  let r ← PackWriter o.1 o.2 d
  return r.1

/-- No value of any row has a comma. -/
def NoCommas (d : HData) : Prop := ∀ r ∈ d.view.ips, ∀ v ∈ r.values, (0x2C : UInt8) ∉ v

/-- No field is another spelling (by case) of `continent`. -/
def OneContinent (d : HData) : Prop := ∀ f ∈ d.fields, f ≠ gs "continent" → Ipdb.asciiLower f ≠ gs "continent"

instance (d) : Decidable (NoCommas d) := by unfold NoCommas; infer_instance
instance (d) : Decidable (OneContinent d) := by unfold OneContinent; infer_instance

/-- Writing an output of kind `a` before one of kind `b` does no harm. -/
def Harmless (d : HData) (a b : Str) : Prop :=
  (a = gs ".scan" → b = gs ".scan" ∨ NoCommas d) ∧ (a = gs ".ipdb" → b ≠ gs ".scan" ∨ OneContinent d)

instance (d a b) : Decidable (Harmless d a b) := by unfold Harmless; infer_instance

/-! ## Proof -/

theorem noCommas_eq {v : Str} (h : (0x2C : UInt8) ∉ v) : noCommas v = v := by
  unfold noCommas
  induction v with
  | nil => rfl
  | cons b v ih =>
    simp only [List.mem_cons, not_or] at h
    rw [List.map_cons, ih h.2, if_neg (Ne.symm h.1)]

/-- What earlier outputs (`scanned`, `packed`) may have done. -/
structure Inv (d0 d : HData) (scanned packed : Prop) : Prop where
  fields : d.fields = d0.fields
  version : d.version = d0.version
  rows : d.rows = d0.rows
  heap : ∃ h1, Plain.Partly d0.heap h1 ∧
    Ipdb.Conv (Ipdb.continentIdx (Ipdb.covertFields d0.fields) 0 none) h1 d.heap ∧
    (¬ scanned → h1 = d0.heap) ∧ (¬ packed → d.heap = h1)

theorem read_same {d0 : HData} {h1 : Heap} (hp : Plain.Partly d0.heap h1) (hn : NoCommas d0) {r : HRow} (hr : r ∈ d0.rows) :
    h1.read r.vals = d0.heap.read r.vals := by
  have hv : d0.rowView r ∈ d0.view.ips := List.mem_map.mpr ⟨r, hr, rfl⟩
  apply List.ext_getElem?
  intro j
  cases he : (d0.heap.read r.vals)[j]? with
  | none =>
    rw [Heap.read_get?] at he ⊢
    split
    · rename_i hj
      rw [if_pos hj] at he
      have := hp.isSome r.vals.arr j
      rw [he] at this
      cases hc : h1.cell r.vals.arr j with
      | none => rfl
      | some v => rw [hc] at this; cases this
    · rfl
  | some v =>
    have hc := hn _ hv v (List.mem_of_getElem? he)
    rw [Heap.read_get?] at he ⊢
    split at he
    · rename_i hj
      rw [if_pos hj]
      rcases hp r.vals.arr j with e | e
      · rw [e, he]
      · rw [e, he, Option.map_some, noCommas_eq hc]
    · cases he

theorem wf_partly {d : HData} {h1 : Heap} (hp : Plain.Partly d.heap h1) (hw : d.WF) : ({ d with heap := h1 } : HData).WF :=
  fun r hr => Plain.In_of_partly hp (show r.vals.In d.heap from hw r hr)

theorem wf_conv {off : Option Nat} {d : HData} {h1 : Heap} (hp : Ipdb.Conv off d.heap h1) (hw : d.WF) :
    ({ d with heap := h1 } : HData).WF :=
  fun r hr => hp.In (show r.vals.In d.heap from hw r hr)

theorem six_not_continent {fs : List Str} {i : Nat} (h : Ipdb.continentIdx (Ipdb.covertFields fs) 0 none = some i) {f : Str}
    (hf : f ∈ Memip.fields) : fs[i]? ≠ some f := by
  intro hx
  rcases Ipdb.continentIdx_lt h with ⟨_, _, g, hg, hl⟩ | h
  · rw [Ipdb.covertFields_eq, Nat.sub_zero, List.getElem?_map, hx, Option.map_some] at hg
    injection hg with hg
    subst hg
    have : ∀ f ∈ Memip.fields, ¬ Ipdb.asciiLower (Ipdb.conv1 f) = fContinent := by decide +kernel
    exact this f hf hl
  · cases h

theorem memip_same {d0 d d1 : HData} (hf : d.fields = d0.fields) (hv : d.version = d0.version)
    (hr : d.rows = d0.rows) (hf1 : d1.fields = d0.fields) (hv1 : d1.version = d0.version) (hr1 : d1.rows = d0.rows)
    (hc : Ipdb.Conv (Ipdb.continentIdx (Ipdb.covertFields d0.fields) 0 none) d1.heap d.heap) :
    Memip.pack d.view = Memip.pack d1.view ∧ Memip.packCalls d.view = Memip.packCalls d1.view := by
  apply Memip.pack_congr (show d.fields = d1.fields by rw [hf, hf1]) (show d.version = d1.version by rw [hv, hv1])
  have e1 : d.view.ips = d0.rows.map d.rowView := by rw [← hr]; rfl
  have e2 : d1.view.ips = d0.rows.map d1.rowView := by rw [← hr1]; rfl
  rw [e1, e2]
  have hall : ∀ r : HRow, (d.rowView r).cidr = (d1.rowView r).cidr ∧
      Memip.covertValues (Memip.fieldOffsets d1.fields) (d.rowView r).values =
        Memip.covertValues (Memip.fieldOffsets d1.fields) (d1.rowView r).values := by
    intro r
    refine ⟨rfl, ?_⟩
    apply Memip.covert_congr
    intro f hfm k hk
    apply hc.away
    intro hoff
    refine six_not_continent hoff hfm ?_
    rw [hf1] at hk
    exact (Export.Offset_getElem hk).1
  generalize d0.rows = l
  induction l with
  | nil => exact .nil
  | cons r l ih => exact .cons (hall r) ih

/-- The calls of a memip output after others that do it no harm are those it makes on its own. -/
theorem calls_step {d0 d : HData} {S P : Prop} (hi : Inv d0 d S P) (hS : S → NoCommas d0) :
    Memip.packCalls d.view = Memip.packCalls d0.view := by
  obtain ⟨hf, hv, hr, h1, hpart, hconv, hns, _⟩ := hi
  have hsame : ∀ r ∈ d0.rows, h1.read r.vals = d0.heap.read r.vals := by
    intro r hrm
    by_cases hs : S
    · exact read_same hpart (hS hs) hrm
    · rw [hns hs]
  have hview : ({ d0 with heap := h1 } : HData).view = d0.view := by
    unfold HData.view
    congr 1
    apply List.map_congr_left
    intro r hrm
    simp only [HData.rowView, hsame r hrm]
  rw [← hview]
  exact (memip_same (d0 := d0) (d1 := { d0 with heap := h1 }) hf hv hr rfl rfl rfl hconv).2

/-- One output, written after others whose kinds do it no harm, has the content it has on its own. -/
theorem step {d0 d : HData} {S P : Prop} (hw : d0.WF) (hi : Inv d0 d S P) (env : Env) (k : Str)
    (hS : S → k = gs ".scan" ∨ NoCommas d0) (hP : P → k ≠ gs ".scan" ∨ OneContinent d0) :
    ∃ d', PackWriter env k d = (do let b ← alone d0 (env, k); return (b, d')) ∧
      Inv d0 d' (S ∨ k = gs ".scan") (P ∨ k = gs ".ipdb") := by
  obtain ⟨hf, hv, hr, h1, hpart, hconv, hns, hnp⟩ := hi
  have hsame : k ≠ gs ".scan" → ∀ r ∈ d0.rows, h1.read r.vals = d0.heap.read r.vals := by
    intro hk r hrm
    by_cases hs : S
    · rcases hS hs with h | h
      · exact absurd h hk
      · exact read_same hpart h hrm
    · rw [hns hs]
  have hview : k ≠ gs ".scan" → ({ d0 with heap := h1 } : HData).view = d0.view := by
    intro hk
    unfold HData.view
    congr 1
    apply List.map_congr_left
    intro r hrm
    simp only [HData.rowView, hsame hk r hrm]
  by_cases hip : k = gs ".ipdb"
  · have hk : k ≠ gs ".scan" := by rw [hip]; decide
    obtain ⟨h', c', e'⟩ := Ipdb.packH_spec (enc := env.encMeta) (now := env.now) (d0 := { d0 with heap := h1 }) (d := d) hf hv hr hconv
      (wf_partly hpart hw)
    obtain ⟨h0', c0', e0'⟩ := Ipdb.packH_spec (enc := env.encMeta) (now := env.now) (d0 := d0) (d := d0) rfl rfl rfl (.refl _ _) hw
    refine ⟨{ d with heap := h' }, ?_, hf, hv, hr, h1, hpart, ?_, ?_, ?_⟩
    · unfold alone PackWriter
      rw [if_pos hip, if_pos hip, e', e0', hview hk]
      cases Ipdb.pack env.encMeta env.now d0.view <;> rfl
    · exact Ipdb.Conv.trans hconv c'
    · intro h; exact hns fun hs => h (.inl hs)
    · intro h; exact absurd (.inr hip) h
  · by_cases hsc : k = gs ".scan"
    · have hheap : ∀ a i, d.heap.cell a i = h1.cell a i := by
        by_cases hp : P
        · rcases hP hp with h | h
          · exact absurd hsc h
          · rw [Ipdb.continentIdx_plain h] at hconv
            intro a i
            rcases hconv a i with e | ⟨e, _⟩
            · exact e
            · cases e
        · intro a i; rw [hnp hp]
      have hp' : Plain.Partly d0.heap d.heap := by
        intro a i; rw [hheap]; exact hpart a i
      have hw' : d.WF := by
        have := wf_partly hp' hw
        intro r hrm
        rw [hr] at hrm
        exact this r hrm
      obtain ⟨d', e', hr', hf', hv', hp2, _⟩ := Plain.pack_text (enc := env.encVersion) (now := env.nowText) hw'
      obtain ⟨d0', e0', _⟩ := Plain.pack_text (enc := env.encVersion) (now := env.nowText) hw
      refine ⟨d', ?_, hf'.trans hf, hv'.trans hv, hr'.trans hr, d'.heap, hp'.trans hp2, .refl _ _, ?_, fun _ => rfl⟩
      · unfold alone PackWriter
        rw [if_neg hip, if_neg hip, if_pos hsc, if_pos hsc, e', e0']
        simp only [Res.ok_bind, Res.pure_eq]
        have : d.view.ips.map Plain.rowLine = d0.view.ips.map Plain.rowLine := by
          unfold HData.view
          simp only [hr, List.map_map]
          apply List.map_congr_left
          intro r _
          simp only [Function.comp, Plain.rowLine, HData.rowView, Plain.read_partly hp']
        rw [this, hf, hv]
      · intro h; exact absurd (.inr hsc) h
    · refine ⟨d, ?_, hf, hv, hr, h1, hpart, hconv, fun h => hns fun hs => h (.inl hs), fun h => hnp fun hp => h (.inl hp)⟩
      unfold alone PackWriter
      rw [if_neg hip, if_neg hip, if_neg hsc, if_neg hsc]
      by_cases hm : k = gs ".memip"
      · rw [if_pos hm, if_pos hm]
        have : Memip.pack d.view = Memip.pack d0.view := by
          rw [← hview hsc]
          exact (memip_same (d0 := d0) (d1 := { d0 with heap := h1 }) hf hv hr rfl rfl rfl hconv).1
        rw [this]
        cases Memip.pack d0.view <;> rfl
      · rw [if_neg hm, if_neg hm]; rfl

/-! ## Theorems -/

/-- **C43.** If no output harms a later one, every output has exactly the content it has when written alone; an
output that fails or panics does so alone too. -/
theorem C43_outputs {d : HData} (hw : d.WF) {os : List (Env × Str)} (hs : os.Pairwise fun a b => Harmless d a.2 b.2) :
    outputs os d = Res.mapM (alone d) os := by
  have key : ∀ (os : List (Env × Str)) (d1 : HData) (S P : Prop), Inv d d1 S P →
      (S → ∀ o ∈ os, o.2 = gs ".scan" ∨ NoCommas d) → (P → ∀ o ∈ os, o.2 ≠ gs ".scan" ∨ OneContinent d) →
      os.Pairwise (fun a b => Harmless d a.2 b.2) → outputs os d1 = Res.mapM (alone d) os := by
    intro os
    induction os with
    | nil => intro _ _ _ _ _ _ _; rfl
    | cons o os ih =>
      intro d1 S P hi hS hP hs
      obtain ⟨d2, e2, hi2⟩ := step hw hi o.1 o.2 (fun h => hS h o (by simp)) (fun h => hP h o (by simp))
      rw [List.pairwise_cons] at hs
      simp only [outputs, Res.mapM, e2]
      rw [show ((o.1, o.2) : Env × Str) = o from rfl]
      cases alone d o with
      | err e => rfl
      | panic => rfl
      | ok b =>
        simp only [Res.ok_bind, Res.pure_eq]
        rw [ih d2 _ _ hi2 ?_ ?_ hs.2]
        · rintro (h | h) x hx
          · exact hS h x (by simp [hx])
          · exact (hs.1 x hx).1 h
        · rintro (h | h) x hx
          · exact hP h x (by simp [hx])
          · exact (hs.1 x hx).2 h
  exact key os d False False ⟨rfl, rfl, rfl, d.heap, .refl _, .refl _ _, fun _ => rfl, fun _ => rfl⟩
    (fun h => h.elim) (fun h => h.elim) hs

/-- **C43 (any order).** With no comma in any value and no second spelling of `continent`, outputs never interfere. -/
theorem C43_clean_values {d : HData} (hw : d.WF) (hc : NoCommas d) (ho : OneContinent d) (os : List (Env × Str)) :
    outputs os d = Res.mapM (alone d) os :=
  C43_outputs hw (List.pairwise_iff_forall_sublist.mpr fun _ => ⟨fun _ => .inr hc, fun _ => .inr ho⟩)

/-- The data set with every comma of every value replaced by an underscore. -/
def commaless (d : HData) : HData := { d with heap := d.heap.map (List.map fun v => v.map fun b => if b = 0x2C then 0x5F else b) }

theorem commaless_read (d : HData) (s : Slice) : (commaless d).heap.read s = (d.heap.read s).map noCommas := by
  show (((d.heap.map (List.map noCommas))[s.arr]?).getD []).take s.len = _
  unfold Heap.read
  rw [List.getElem?_map, List.map_take]
  cases d.heap[s.arr]? <;> rfl

theorem commaless_wf {d : HData} (hw : d.WF) : (commaless d).WF := by
  intro r hr
  have := hw r hr
  show r.vals.len ≤ (((d.heap.map (List.map noCommas))[r.vals.arr]?).getD []).length
  rw [List.getElem?_map]
  cases h : d.heap[r.vals.arr]? with
  | none => rw [h] at this; exact this
  | some l => rw [h] at this; simpa using this

/-- An output depends on what a reader of the data set sees only. -/
theorem alone_view {d d' : HData} (hw : d.WF) (hw' : d'.WF) (h : d'.view = d.view) (o : Env × Str) : alone d' o = alone d o := by
  have hf : d'.fields = d.fields := congrArg IpData.fields h
  have hv : d'.version = d.version := congrArg IpData.version h
  unfold alone PackWriter
  split
  · obtain ⟨h1, _, e1⟩ := Ipdb.packH_spec (enc := o.1.encMeta) (now := o.1.now) (d0 := d) (d := d) rfl rfl rfl (.refl _ _) hw
    obtain ⟨h2, _, e2⟩ := Ipdb.packH_spec (enc := o.1.encMeta) (now := o.1.now) (d0 := d') (d := d') rfl rfl rfl (.refl _ _) hw'
    rw [e1, e2, h]
    cases Ipdb.pack o.1.encMeta o.1.now d.view <;> rfl
  · split
    · obtain ⟨_, e1, _⟩ := Plain.pack_text (enc := o.1.encVersion) (now := o.1.nowText) hw
      obtain ⟨_, e2, _⟩ := Plain.pack_text (enc := o.1.encVersion) (now := o.1.nowText) hw'
      rw [e1, e2, h, hf, hv]
      rfl
    · split
      · rw [h]; cases Memip.pack d.view <;> rfl
      · rfl

/-- Outputs of the other kinds leave the data set as it was, as far as later outputs can tell. -/
theorem before_scan {d : HData} (hw : d.WF) (ho : OneContinent d) (os : List (Env × Str)) (h : ∀ o ∈ os, o.2 ≠ gs ".scan") :
    ∀ (d1 : HData) (P : Prop), Inv d d1 False P →
      ∃ d2 P2, Inv d d2 False P2 ∧ ∀ rest, outputs (os ++ rest) d1 =
        (do let a ← Res.mapM (alone d) os; let b ← outputs rest d2; return a ++ b) := by
  induction os with
  | nil =>
    intro d1 P hi
    refine ⟨d1, P, hi, fun rest => ?_⟩
    simp only [List.nil_append, Res.mapM, Res.ok_bind, Res.pure_eq]
    cases outputs rest d1 <;> rfl
  | cons o os ih =>
    intro d1 P hi
    obtain ⟨d2, e2, hi2⟩ := step hw hi o.1 o.2 (fun h => h.elim) (fun _ => .inr ho)
    have hi3 : Inv d d2 False (P ∨ o.2 = gs ".ipdb") :=
      ⟨hi2.fields, hi2.version, hi2.rows, by
        obtain ⟨h1, a, b, c, e⟩ := hi2.heap
        exact ⟨h1, a, b, fun _ => c (fun x => x.elim id (h o (by simp))), e⟩⟩
    obtain ⟨d3, P3, hi4, e4⟩ := ih (fun x hx => h x (by simp [hx])) d2 _ hi3
    refine ⟨d3, P3, hi4, fun rest => ?_⟩
    rw [List.cons_append]
    simp only [outputs, Res.mapM, e2]
    rw [show ((o.1, o.2) : Env × Str) = o from rfl]
    cases alone d o with
    | err => rfl
    | panic => rfl
    | ok b =>
      simp only [Res.ok_bind, Res.pure_eq]
      rw [e4]
      simp only [Res.pure_eq]
      cases Res.mapM (alone d) os with
      | err => rfl
      | panic => rfl
      | ok a =>
        simp only [Res.ok_bind]
        cases outputs rest d3 <;> rfl

/-- The first `.scan` output and the data set it leaves. -/
theorem scan_step {d : HData} (hw : d.WF) (ho : OneContinent d) {d1 : HData} {P : Prop} (hi : Inv d d1 False P) (e : Env) :
    ∃ t d2, PackWriter e (gs ".scan") d1 = .ok (t, d2) ∧ alone d (e, gs ".scan") = .ok t ∧ d2.WF ∧
      d2.view = (commaless d).view ∧ NoCommas d2 ∧ OneContinent d2 := by
  have hheap : Plain.Partly d.heap d1.heap := by
    obtain ⟨h1, a, b, c, _⟩ := hi.heap
    rw [Ipdb.continentIdx_plain ho] at b
    intro x y
    left
    rcases b x y with e | ⟨e, _⟩
    · rw [e, c id]
    · cases e
  have hw1 : d1.WF := by
    have := wf_partly hheap hw
    intro r hr
    rw [hi.rows] at hr
    exact this r hr
  obtain ⟨d2, e2, hr2, hf2, hv2, hp2, hread⟩ := Plain.pack_text (enc := e.encVersion) (now := e.nowText) hw1
  obtain ⟨_, e3, hs⟩ := step hw hi e (gs ".scan") (fun h => h.elim) (fun _ => .inr ho)
  have hpw : PackWriter e (gs ".scan") d1 = Plain.pack e.encVersion e.nowText d1 := by
    unfold PackWriter
    rw [if_neg (by decide), if_pos rfl]
  rw [hpw, e2] at e3
  have hw2 : d2.WF := by
    have := wf_partly (hheap.trans hp2) hw
    intro r hr
    rw [hr2, hi.rows] at hr
    exact this r hr
  have hview : d2.view = (commaless d).view := by
    unfold HData.view
    rw [hr2, hi.rows, hf2, hi.fields, hv2, hi.version]
    congr 1
    apply List.map_congr_left
    intro r hr
    show (⟨r.cidr, d2.heap.read r.vals⟩ : IpRaw) = ⟨r.cidr, (commaless d).heap.read r.vals⟩
    rw [commaless_read, hread r (hi.rows ▸ hr), Plain.read_partly hheap]
  have hno : NoCommas d2 := by
    intro r hr v hv
    rw [hview] at hr
    obtain ⟨r0, hr0, rfl⟩ := List.mem_map.mp hr
    have : v ∈ (commaless d).heap.read r0.vals := hv
    rw [commaless_read] at this
    obtain ⟨u, _, rfl⟩ := List.mem_map.mp this
    unfold noCommas
    intro hm
    obtain ⟨b, _, hb⟩ := List.mem_map.mp hm
    split at hb
    · revert hb; decide
    · rename_i hne; exact hne hb
  have hone : OneContinent d2 := by
    intro f hf
    rw [hf2, hi.fields] at hf
    exact ho f hf
  refine ⟨_, d2, hpw.trans e2, ?_, hw2, hview, hno, hone⟩
  cases ha : alone d (e, gs ".scan") with
  | err x => rw [ha] at e3; cases e3
  | panic => rw [ha] at e3; cases e3
  | ok t =>
    rw [ha] at e3
    simp only [Res.ok_bind, Res.pure_eq] at e3
    have ht := congrArg Prod.fst (Res.ok.inj e3)
    exact congrArg Res.ok ht.symm

/-- **C43 (exact).** With no second spelling of `continent`: up to and including the first `.scan` output every output has
the content it has when written alone; every output after it has the content it has when written alone from the data set
with underscores for commas. -/
theorem C43_after_scan {d : HData} (hw : d.WF) (ho : OneContinent d) (os rest : List (Env × Str)) (e : Env)
    (h : ∀ o ∈ os, o.2 ≠ gs ".scan") :
    outputs (os ++ (e, gs ".scan") :: rest) d = (do
      let a ← Res.mapM (alone d) os
      let t ← alone d (e, gs ".scan")
      let b ← Res.mapM (alone (commaless d)) rest
      return a ++ t :: b) := by
  obtain ⟨d1, P, hi, e1⟩ := before_scan hw ho os h d False ⟨rfl, rfl, rfl, d.heap, .refl _, .refl _ _, fun _ => rfl, fun _ => rfl⟩
  rw [e1]
  obtain ⟨t, d2, e2, ha, hw2, hview, hno, hone⟩ := scan_step hw ho hi e
  cases Res.mapM (alone d) os with
  | err => rfl
  | panic => rfl
  | ok a =>
    simp only [Res.ok_bind, outputs, e2, ha]
    rw [C43_clean_values hw2 hno hone rest]
    have : alone d2 = alone (commaless d) := by
      funext o
      exact alone_view (commaless_wf hw) hw2 hview o
    rw [this]
    simp only [Res.ok_bind, Res.pure_eq]
    cases Res.mapM (alone (commaless d)) rest <;> rfl

/-- **C43 (without `.scan`).** Outputs of the other kinds never interfere, whatever the values. -/
theorem C43_no_scan {d : HData} (hw : d.WF) {os : List (Env × Str)} (h : ∀ o ∈ os, o.2 ≠ gs ".scan") :
    outputs os d = Res.mapM (alone d) os := by
  apply C43_outputs hw
  rw [List.pairwise_iff_forall_sublist]
  intro a b hab
  have ha := h a (hab.subset (by simp))
  have hb := h b (hab.subset (by simp))
  exact ⟨fun e => absurd e ha, fun _ => .inl hb⟩

/-- **C43 (one kind).** Repeating one kind of output gives the same content (but for the time). -/
theorem C43_same_kind {d : HData} (hw : d.WF) {os : List (Env × Str)} {k : Str} (h : ∀ o ∈ os, o.2 = k) :
    outputs os d = Res.mapM (alone d) os := by
  apply C43_outputs hw
  rw [List.pairwise_iff_forall_sublist]
  intro a b hab
  have ha := h a (hab.subset (by simp))
  have hb := h b (hab.subset (by simp))
  refine ⟨fun e => .inl (by rw [hb, ← ha, e]), fun e => .inl ?_⟩
  rw [hb, ← ha, e]; decide

def demoEnv : Env := ⟨fun _ => gs "{m}", fun _ => gs "{v}", 0, gs "now"⟩

/-- A table with a comma in a value, two rows sharing one slice. -/
def demoComma : HData :=
  ⟨[gs "country", gs "city"], ⟨1, 2, 0, gs "v", [gs "CN"], []⟩,
   [⟨⟨[10, 0, 0, 0], [255, 0, 0, 0]⟩, ⟨0, 2⟩⟩, ⟨⟨[12, 0, 0, 0], [255, 0, 0, 0]⟩, ⟨0, 2⟩⟩],
   [[gs "CN", gs "a,b"]]⟩

/-- A table with a field `Continent`. -/
def demoCont : HData :=
  ⟨[gs "country", gs "Continent"], ⟨1, 2, 0, gs "v", [gs "CN"], []⟩,
   [⟨⟨[10, 0, 0, 0], [255, 0, 0, 0]⟩, ⟨0, 2⟩⟩], [[gs "CN", gs "亚洲"]]⟩

example : demoComma.WF ∧ demoCont.WF ∧ ¬ NoCommas demoComma ∧ OneContinent demoComma ∧ NoCommas demoCont ∧ ¬ OneContinent demoCont := by
  decide +kernel

/-- The partial theorem applies to a table with commas written to `.ipdb`, `.memip`, then `.scan` twice. -/
example : [(demoEnv, gs ".ipdb"), (demoEnv, gs ".memip"), (demoEnv, gs ".scan"), (demoEnv, gs ".scan")].Pairwise
    fun a b => Harmless demoComma a.2 b.2 := by decide +kernel

/-- The exact theorem for a table with commas, a memip output before and three outputs after the `.scan` output, which all
succeed; the last ones show the underscore. -/
example : demoComma.WF ∧ OneContinent demoComma ∧
    (Res.mapM (alone (commaless demoComma)) [(demoEnv, gs ".ipdb"), (demoEnv, gs ".memip"), (demoEnv, gs ".scan")]).isOk = true ∧
    (commaless demoComma).view.ips.map (·.values) = [[gs "CN", gs "a_b"], [gs "CN", gs "a_b"]] := by
  refine ⟨?_, ?_, ?_, ?_⟩ <;> decide +kernel

/-- **C43 (negation).** Writing `.scan` first changes the `.memip` and the `.ipdb` output. -/
theorem C43_scan_changes_later :
    outputs [(demoEnv, gs ".scan"), (demoEnv, gs ".memip")] demoComma ≠
      Res.mapM (alone demoComma) [(demoEnv, gs ".scan"), (demoEnv, gs ".memip")] ∧
    outputs [(demoEnv, gs ".scan"), (demoEnv, gs ".ipdb")] demoComma ≠
      Res.mapM (alone demoComma) [(demoEnv, gs ".scan"), (demoEnv, gs ".ipdb")] := by
  decide +kernel

/-- **C43 (negation).** Writing `.ipdb` first changes the `.scan` output when a field is spelled `Continent`. -/
theorem C43_ipdb_changes_scan :
    outputs [(demoEnv, gs ".ipdb"), (demoEnv, gs ".scan")] demoCont ≠
      Res.mapM (alone demoCont) [(demoEnv, gs ".ipdb"), (demoEnv, gs ".scan")] := by
  decide +kernel

end Uip.Convert
