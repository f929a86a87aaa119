import Verif.Props.Operate
import Verif.Props.LineAsn
/-!
# Property C39, exactly: when the operations keep the rows aligned with the fields

`ReplaceShortage`, `TrimAsnIspDup`, `MergeNearNetwork` and `ReplaceLineByCidr` always do (Props/Operate).  Here: the exact
condition for the three operations that add a field.
-/
namespace Uip.Operate
open Uip Uip.Spec

/-- C39, AttachDistrict: the rows stay aligned exactly if there are none, or the provinces are there to find the
districts, or the district field already is. -/
theorem C39_attach_district_iff (grow : Nat → Nat) (d d' : HData) (ha : d.Aligned) (e : AttachDistrict grow d = .ok d') :
    d'.Aligned ↔ d.rows = [] ∨ fProvince ∈ d.fields ∨ fDistrict ∈ d.fields := by
  have h0 : fProvince ≠ fDistrict := by decide +kernel
  by_cases hp : fProvince ∈ d.fields
  · exact ⟨fun _ => .inr (.inl hp), fun _ => C39_attach_district grow d d' ha hp e⟩
  by_cases hne : d.rows = []
  · refine ⟨fun _ => .inl hne, fun _ => ?_⟩
    unfold AttachDistrict at e
    simp only [addField_eq, Offset_addField h0, Offset_none.mpr hp] at e
    injection e with e; subst e
    intro r hr
    exact absurd (show r ∈ d.rows from hr) (by rw [hne]; simp)
  by_cases hd : fDistrict ∈ d.fields
  · refine ⟨fun _ => .inr (.inr hd), fun _ => ?_⟩
    unfold AttachDistrict at e
    have hs : (Offset fDistrict d.fields).isNone = false := by
      cases h : Offset fDistrict d.fields with
      | none => exact absurd hd (Offset_none.mp h)
      | some _ => rfl
    simp only [hs, Bool.false_eq_true, if_false, Offset_none.mpr hp] at e
    injection e with e; subst e
    exact ha
  · refine ⟨fun h => ?_, fun h => ?_⟩
    · obtain ⟨d2, e2, hn⟩ := C39_negation_district grow d ha hne hp hd
      rw [e] at e2; injection e2 with e2; subst e2
      exact absurd h hn
    · rcases h with h | h | h
      · exact absurd h hne
      · exact absurd h hp
      · exact absurd h hd

/-- C39, AttachLineByCidr: the rows stay aligned exactly if there are none, or there is a country field, or the line
field already is there. -/
theorem C39_attach_line_cidr_iff (grow : Nat → Nat) (dec : Int → Str) (line : LineDb) (d d' : HData) (ha : d.Aligned)
    (e : AttachLineByCidr grow dec line d = .ok d') :
    d'.Aligned ↔ d.rows = [] ∨ fCountry ∈ d.fields ∨ fLine ∈ d.fields := by
  have h0 : fCountry ≠ fLine := by decide +kernel
  by_cases hp : fCountry ∈ d.fields
  · exact ⟨fun _ => .inr (.inl hp), fun _ => C39_attach_line_cidr grow dec line d d' ha hp e⟩
  by_cases hne : d.rows = []
  · refine ⟨fun _ => .inl hne, fun _ => ?_⟩
    unfold AttachLineByCidr at e
    simp only [addField_eq, Offset_addField h0, Offset_none.mpr hp] at e
    injection e with e; subst e
    intro r hr
    exact absurd (show r ∈ d.rows from hr) (by rw [hne]; simp)
  by_cases hd : fLine ∈ d.fields
  · refine ⟨fun _ => .inr (.inr hd), fun _ => ?_⟩
    unfold AttachLineByCidr at e
    have hs : (Offset fLine d.fields).isNone = false := by
      cases h : Offset fLine d.fields with
      | none => exact absurd hd (Offset_none.mp h)
      | some _ => rfl
    simp only [hs, Bool.false_eq_true, if_false, Offset_none.mpr hp] at e
    injection e with e; subst e
    exact ha
  · refine ⟨fun h => ?_, fun h => ?_⟩
    · obtain ⟨d2, e2, hn⟩ := C39_negation_line_cidr grow dec line d ha hne hp hd
      rw [e] at e2; injection e2 with e2; subst e2
      exact absurd h hn
    · rcases h with h | h | h
      · exact absurd h hne
      · exact absurd h hp
      · exact absurd h hd

/-- C39, AttachLineByAsn: the rows stay aligned exactly if there is no asn field, or the line field is already there, or
the table knows the first value of every row (not its AS number, unless that is the first column). -/
theorem C39_attach_line_asn_iff (grow : Nat → Nat) (t : GoMap Str) (ver : Str) (d d' : HData) (hw : d.WF) (ha : d.Aligned)
    (e : AttachLineByAsn grow t ver d = .ok d') :
    d'.Aligned ↔ fAsn ∉ d.fields ∨ fLine ∈ d.fields ∨
      ∀ x ∈ d.view.ips, ∃ v l, x.values.head? = some v ∧ mapGet t v = some l := by
  by_cases hp : fLine ∈ d.fields ∨ fAsn ∉ d.fields
  · refine ⟨fun _ => ?_, fun _ => C39_attach_line_asn grow t ver d d' ha hp e⟩
    rcases hp with hp | hp
    · exact .inr (.inl hp)
    · exact .inl hp
  · have hl : fLine ∉ d.fields := fun h => hp (.inl h)
    have has : fAsn ∈ d.fields := by
      by_cases h : fAsn ∈ d.fields
      · exact h
      · exact absurd (.inr h) hp
    obtain ⟨d2, e2, q1, q2, _, q4⟩ := LineAsn.C88_new_line grow t ver d hw ha has hl
    rw [e] at e2; injection e2 with e2; subst e2
    have hrows : (∀ r ∈ d'.rows, r.vals.len = d'.fields.length) ↔
        ∀ y ∈ d'.view.ips, y.values.length = d.fields.length + 1 := by
      constructor
      · intro h y hy
        obtain ⟨r, hr, rfl⟩ := List.mem_map.mp (show y ∈ d'.rows.map d'.rowView from hy)
        show (d'.heap.read r.vals).length = _
        rw [Heap.read_length (q1 r hr), h r hr, q2, List.length_append]; rfl
      · intro h r hr
        have := h (d'.rowView r) (List.mem_map_of_mem hr)
        have h2 : (d'.heap.read r.vals).length = _ := this
        rw [Heap.read_length (q1 r hr)] at h2
        rw [h2, q2, List.length_append]; rfl
    have hlen : ∀ x ∈ d.view.ips, x.values.length = d.fields.length := by
      intro x hx
      obtain ⟨r, hr, rfl⟩ := List.mem_map.mp (show x ∈ d.rows.map d.rowView from hx)
      show (d.heap.read r.vals).length = _
      rw [Heap.read_length (hw r hr), ha r hr]
    show (∀ r ∈ d'.rows, r.vals.len = d'.fields.length) ↔ _
    rw [hrows, q4]
    constructor
    · intro h
      refine .inr (.inr fun x hx => ?_)
      have h1 := h _ (List.mem_map_of_mem hx)
      simp only [List.length_append, hlen x hx] at h1
      cases hv : x.values.head? with
      | none => rw [hv] at h1; simp at h1
      | some v =>
        rw [hv] at h1
        cases hg : mapGet t v with
        | none => simp [hg] at h1
        | some l => exact ⟨v, l, rfl, hg⟩
    · rintro (h | h | h)
      · exact absurd has h
      · exact absurd h hl
      · intro y hy
        obtain ⟨x, hx, rfl⟩ := List.mem_map.mp hy
        obtain ⟨v, l, hv, hg⟩ := h x hx
        simp only [List.length_append, hlen x hx, hv, Option.bind_some, hg]
        rfl

/-- All three operations succeed on a table with rows; the conditions hold for one and fail for the other. -/
example : ∃ d1 d2 d3, AttachDistrict (fun n => n) (LineAsn.demoAsn [fAsn, fProvince] [gs "4134", gs "上海"]) = .ok d1 ∧ d1.Aligned ∧
    AttachLineByAsn (fun n => n) LineAsn.table [] (LineAsn.demoAsn [fAsn, fProvince] [gs "4134", gs "上海"]) = .ok d2 ∧ d2.Aligned ∧
    AttachLineByAsn (fun n => n) LineAsn.table [] (LineAsn.demoAsn [fProvince, fAsn] [gs "上海", gs "4134"]) = .ok d3 ∧ ¬ d3.Aligned := by
  have h1 : (match AttachDistrict (fun n => n) (LineAsn.demoAsn [fAsn, fProvince] [gs "4134", gs "上海"]) with
    | .ok d1 => decide d1.Aligned | _ => false) = true := by decide +kernel
  have h2 : (match AttachLineByAsn (fun n => n) LineAsn.table [] (LineAsn.demoAsn [fAsn, fProvince] [gs "4134", gs "上海"]) with
    | .ok d1 => decide d1.Aligned | _ => false) = true := by decide +kernel
  have h3 : (match AttachLineByAsn (fun n => n) LineAsn.table [] (LineAsn.demoAsn [fProvince, fAsn] [gs "上海", gs "4134"]) with
    | .ok d1 => decide (¬ d1.Aligned) | _ => false) = true := by decide +kernel
  split at h1
  · split at h2
    · split at h3
      · rename_i d1 e1 _ d2 e2 _ d3 e3
        exact ⟨d1, d2, d3, e1, of_decide_eq_true h1, e2, of_decide_eq_true h2, e3, of_decide_eq_true h3⟩
      · cases h3
    · cases h2
  · cases h1

end Uip.Operate
