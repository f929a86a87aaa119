import Verif.Props.Operate
/-!
# C88: AttachLineByAsn

The claim a user relies on (a row whose ASN is in the table gets the line of its ASN) is false in two ways: without a line
field the *first* column is looked up and rows that are not found stay short, with a line field a line is only ever
overwritten by the empty line.  Here is what the function does, for every data set and every sharing of slices, and where
the claim holds.
-/
namespace Uip.LineAsn
open Uip Uip.Spec Uip.Operate

theorem lineAsnOffsets_skip {fs : List Str} (hl : fLine ∉ fs) (ha : fAsn ∉ fs) (k : Nat) (acc : Nat × Nat) :
    lineAsnOffsets fs k acc = acc := by
  induction fs generalizing k acc with
  | nil => rfl
  | cons f fs ih =>
    simp only [List.mem_cons, not_or] at hl ha
    unfold lineAsnOffsets
    rw [if_neg (fun h => hl.1 h.symm), if_neg (fun h => ha.1 h.symm)]
    exact ih hl.2 ha.2 _ _

theorem lineAsnOffsets_eq {fs : List Str} (hn : fs.Nodup) (k : Nat) (acc : Nat × Nat) :
    lineAsnOffsets fs k acc =
      (((Offset fLine fs).map (· + k)).getD acc.1, ((Offset fAsn fs).map (· + k)).getD acc.2) := by
  have hne : fLine ≠ fAsn := by decide +kernel
  induction fs generalizing k acc with
  | nil => rfl
  | cons f fs ih =>
    obtain ⟨hf, hn⟩ := List.nodup_cons.mp hn
    unfold lineAsnOffsets
    rw [ih hn]
    by_cases h1 : f = fLine
    · have h2 : ¬ f = fAsn := fun h => hne (h1.symm.trans h)
      have h3 : Offset fLine fs = none := Offset_none.mpr (h1 ▸ hf)
      simp only [h1, if_true, Offset, h3, Option.map_none, Option.getD_none, Option.map_some, Option.getD_some, Nat.zero_add]
      rw [if_neg hne]
      cases Offset fAsn fs with
      | none => rfl
      | some j => simp; omega
    · by_cases h2 : f = fAsn
      · have h3 : Offset fAsn fs = none := Offset_none.mpr (h2 ▸ hf)
        simp only [h2, if_true, Offset, h3, Option.map_none, Option.getD_none, Option.map_some, Option.getD_some, Nat.zero_add]
        rw [if_neg (Ne.symm hne), if_neg (Ne.symm hne)]
        cases Offset fLine fs with
        | none => rfl
        | some j => simp; omega
      · simp only [h1, h2, if_false, Offset]
        cases Offset fLine fs <;> cases Offset fAsn fs <;> simp <;> omega

/-- The version after AttachLineByAsn: the name of the table is noted. -/
def noted (d : HData) (ver : Str) : VersionInfo := { d.version with extraInfo := d.version.extraInfo ++ [ver] }

/-- C88, no asn field: only the version changes. -/
theorem C88_no_asn (grow : Nat → Nat) (t : GoMap Str) (ver : Str) (d : HData) (ha : fAsn ∉ d.fields) :
    AttachLineByAsn grow t ver d = .ok { d with version := noted d ver } := by
  unfold AttachLineByAsn
  have : InArray fAsn d.fields = false := by
    cases h : InArray fAsn d.fields
    · rfl
    · exact absurd (InArray_iff.mp h) ha
  simp only [this, if_true]
  rfl

/-- C88, with a line field: a row loses its line when the table maps its ASN to the empty line, and nothing else
changes; however the rows share their slices. -/
theorem C88_existing_line (grow : Nat → Nat) (t : GoMap Str) (ver : Str) (d : HData) (hw : d.WF) (hal : d.Aligned)
    (hn : d.fields.Nodup) (ha : fAsn ∈ d.fields) (hl : fLine ∈ d.fields) :
    ∃ d', AttachLineByAsn grow t ver d = .ok d' ∧ d'.WF ∧ d'.Aligned ∧ d'.fields = d.fields ∧ d'.version = noted d ver ∧
      d'.view.ips = d.view.ips.map fun x =>
        if (fieldVal d.fields fAsn x).bind (mapGet t) = some [] then setField d.fields fLine [] x else x := by
  have hne : fLine ≠ fAsn := by decide +kernel
  obtain ⟨p, hp⟩ : ∃ i, Offset fAsn d.fields = some i := by
    cases e : Offset fAsn d.fields with
    | none => exact absurd ha (Offset_none.mp e)
    | some i => exact ⟨i, rfl⟩
  obtain ⟨o, ho⟩ : ∃ i, Offset fLine d.fields = some i := by
    cases e : Offset fLine d.fields with
    | none => exact absurd hl (Offset_none.mp e)
    | some i => exact ⟨i, rfl⟩
  obtain ⟨h', rows', e, k1, k2, k3, k4⟩ := setLoop_view (grow := grow) (off := some o) (n := d.fields.length) (p := p)
    (V := fun _ c => .ok (if mapGet t c = some [] then some [] else none))
    (W := fun _ c => if mapGet t c = some [] then some [] else none)
    (Offset_lt hp) (fun o' h => by cases h; exact ⟨Offset_lt ho, Offset_ne ho hp hne⟩) d.rows d.heap hw hal
    (fun _ _ _ _ => rfl) (fun _ _ _ _ _ _ _ _ => rfl)
  refine ⟨{ d with version := noted d ver, rows := rows', heap := h' }, ?_, k1, ?_, rfl, rfl, ?_⟩
  · unfold AttachLineByAsn
    have h1 : InArray fAsn d.fields = true := InArray_iff.mpr ha
    have h2 : InArray fLine d.fields = true := InArray_iff.mpr hl
    simp only [h1, h2, Bool.true_eq_false, if_false, lineAsnOffsets_eq hn, hp, ho, Option.map_some, Option.getD_some,
      Nat.add_zero]
    have key : ∀ g, g = setLoop grow (some o) p (fun _ c => .ok (if mapGet t c = some [] then some [] else none)) →
        (forRows g d.heap d.rows >>= fun x => (pure { d with version := noted d ver, rows := x.2, heap := x.1 } : Res HData)) =
          .ok { d with version := noted d ver, rows := rows', heap := h' } := by
      rintro _ rfl; rw [e]; rfl
    refine key _ ?_
    funext h r
    unfold setLoop
    cases h.get r.vals p with
    | panic => rfl
    | err _ => rfl
    | ok c =>
      simp only [Res.ok_bind]
      cases hm : mapGet t c with
      | none => simp
      | some l =>
        by_cases hl : l = []
        · subst hl; simp [setOrAppend]
        · simp [hl]
  · intro r hr
    rcases k2 r hr with h | h
    · exact h
    · simpa using h
  · show rows'.map _ = (d.rows.map d.rowView).map _
    rw [List.map_map]
    refine k3.trans (List.map_congr_left fun r _ => ?_)
    simp only [Function.comp, HData.rowView, fieldVal, setField, hp, ho, Option.bind_some]
    cases (d.heap.read r.vals)[p]? with
    | none => simp [applySet]
    | some c =>
      simp only [Option.bind_some]
      by_cases h : mapGet t c = some []
      · rw [if_pos h, if_pos h]; rfl
      · rw [if_neg h, if_neg h]; rfl

/-- C88, without a line field: the value of the *first* column is looked up; a row for which it is in the table gets the
line behind its values, another row stays as it was. -/
theorem C88_new_line (grow : Nat → Nat) (t : GoMap Str) (ver : Str) (d : HData) (hw : d.WF) (hal : d.Aligned)
    (ha : fAsn ∈ d.fields) (hl : fLine ∉ d.fields) :
    ∃ d', AttachLineByAsn grow t ver d = .ok d' ∧ d'.WF ∧ d'.fields = d.fields ++ [fLine] ∧ d'.version = noted d ver ∧
      d'.view.ips = d.view.ips.map fun x => ⟨x.cidr, x.values ++ (x.values.head?.bind (mapGet t)).toList⟩ := by
  obtain ⟨h', rows', e, k1, k2, k3, k4⟩ := setLoop_view (grow := grow) (off := none) (n := d.fields.length) (p := 0)
    (V := fun _ c => .ok (mapGet t c)) (W := fun _ c => mapGet t c)
    (List.length_pos_of_mem ha) (fun o' h => by cases h) d.rows d.heap hw hal
    (fun _ _ _ _ => rfl) (fun _ _ _ _ _ _ _ _ => rfl)
  refine ⟨{ d with fields := d.fields ++ [fLine], version := noted d ver, rows := rows', heap := h' }, ?_, k1, rfl, rfl, ?_⟩
  · unfold AttachLineByAsn
    have h1 : InArray fAsn d.fields = true := InArray_iff.mpr ha
    have h2 : InArray fLine d.fields = false := by
      cases h : InArray fLine d.fields
      · rfl
      · exact absurd (InArray_iff.mp h) hl
    simp only [h1, h2, Bool.true_eq_false, if_false, if_true]
    have key : ∀ g, g = setLoop grow none 0 (fun _ c => .ok (mapGet t c)) →
        (forRows g d.heap d.rows >>= fun x => (pure { d with fields := d.fields ++ [fLine], version := noted d ver, rows := x.2, heap := x.1 } : Res HData)) =
          .ok { d with fields := d.fields ++ [fLine], version := noted d ver, rows := rows', heap := h' } := by
      rintro _ rfl; rw [e]; rfl
    refine key _ ?_
    funext h r
    unfold setLoop
    cases h.get r.vals 0 with
    | panic => rfl
    | err _ => rfl
    | ok c =>
      simp only [Res.ok_bind]
      cases mapGet t c <;> rfl
  · show rows'.map _ = (d.rows.map d.rowView).map _
    rw [List.map_map]
    refine k3.trans (List.map_congr_left fun r _ => ?_)
    simp only [Function.comp, HData.rowView, List.head?_eq_getElem?]
    cases (d.heap.read r.vals)[0]?.bind (mapGet t) <;> simp [applySet]

/-- **C88 (partial).** The line of its ASN for every row: when asn is the first column, there is no line field yet and
the table knows the ASN of every row. -/
theorem C88_first_column (grow : Nat → Nat) (t : GoMap Str) (ver : Str) (d : HData) (hw : d.WF) (hal : d.Aligned)
    (ha : d.fields.head? = some fAsn) (hl : fLine ∉ d.fields)
    (hk : ∀ r ∈ d.rows, ((fieldVal d.fields fAsn (d.rowView r)).bind (mapGet t)).isSome) :
    ∃ d', AttachLineByAsn grow t ver d = .ok d' ∧ d'.WF ∧ d'.Aligned ∧ d'.fields = d.fields ++ [fLine] ∧
      d'.version = noted d ver ∧
      d'.view.ips = d.view.ips.map fun x => ⟨x.cidr, x.values ++ [((fieldVal d.fields fAsn x).bind (mapGet t)).getD []]⟩ := by
  have h0 : Offset fAsn d.fields = some 0 := by
    cases hf : d.fields with
    | nil => rw [hf] at ha; cases ha
    | cons f fs => rw [hf] at ha; simp at ha; simp [Offset, ha]
  have hmem : fAsn ∈ d.fields := List.mem_of_getElem? (Offset_some h0).1
  obtain ⟨d', e, q1, q2, q3, q4⟩ := C88_new_line grow t ver d hw hal hmem hl
  have hips : d'.view.ips = d.view.ips.map fun x =>
      ⟨x.cidr, x.values ++ [((fieldVal d.fields fAsn x).bind (mapGet t)).getD []]⟩ := by
    rw [q4]
    show (d.rows.map d.rowView).map _ = (d.rows.map d.rowView).map _
    rw [List.map_map, List.map_map]
    apply List.map_congr_left
    intro r hr
    have h1 := hk r hr
    simp only [fieldVal, h0, Option.bind_some, ← List.head?_eq_getElem?] at h1 ⊢
    simp only [Function.comp]
    cases hh : (d.rowView r).values.head?.bind (mapGet t) with
    | none => rw [hh] at h1; cases h1
    | some l => rfl
  refine ⟨d', e, q1, fun r hr => ?_, q2, q3, hips⟩
  have hrow : d'.rowView r ∈ d'.view.ips := List.mem_map_of_mem hr
  rw [hips] at hrow
  obtain ⟨x, hx, hxe⟩ := List.mem_map.mp hrow
  obtain ⟨r0, hr0, rfl⟩ := List.mem_map.mp (show x ∈ d.rows.map d.rowView from hx)
  have hlen := congrArg (fun y : IpRaw => y.values.length) hxe
  simp only [HData.rowView, List.length_append, List.length_cons, List.length_nil] at hlen
  rw [Heap.read_length (q1 r hr), Heap.read_length (hw r0 hr0), hal r0 hr0] at hlen
  rw [q2, List.length_append]
  exact hlen.symm

/-- The claim fails without a line field: asn is the second column, the table knows the ASN, the row gets no line. -/
theorem C88_negation_new (grow : Nat → Nat) (t : GoMap Str) (ver : Str) (d : HData) (hw : d.WF) (hal : d.Aligned)
    (ha : fAsn ∈ d.fields) (hl : fLine ∉ d.fields)
    (hf : ∀ r ∈ d.rows, ((d.rowView r).values.head?.bind (mapGet t)) = none) :
    ∃ d', AttachLineByAsn grow t ver d = .ok d' ∧ d'.fields = d.fields ++ [fLine] ∧ d'.view.ips = d.view.ips := by
  obtain ⟨d', e, _, q2, _, q4⟩ := C88_new_line grow t ver d hw hal ha hl
  refine ⟨d', e, q2, ?_⟩
  rw [q4]
  show (d.rows.map d.rowView).map _ = d.rows.map d.rowView
  rw [List.map_map]
  apply List.map_congr_left
  intro r hr
  simp only [Function.comp, hf r hr, Option.toList_none, List.append_nil]

/-- The claim fails with a line field: whatever line the table has for an ASN, no row gets it. -/
theorem C88_negation_existing (grow : Nat → Nat) (t : GoMap Str) (ver : Str) (d : HData) (hw : d.WF) (hal : d.Aligned)
    (hn : d.fields.Nodup) (ha : fAsn ∈ d.fields) (hl : fLine ∈ d.fields) (ht : ∀ k, mapGet t k ≠ some []) :
    ∃ d', AttachLineByAsn grow t ver d = .ok d' ∧ d'.view.ips = d.view.ips := by
  obtain ⟨d', e, _, _, _, _, q⟩ := C88_existing_line grow t ver d hw hal hn ha hl
  refine ⟨d', e, ?_⟩
  rw [q]
  apply List.map_id''
  intro x
  rw [if_neg]
  cases fieldVal d.fields fAsn x with
  | none => simp
  | some c => simpa using ht c

/-! ## Concrete cases -/

/-- Two rows that share one slice, ASN first. -/
def demoAsn (fields : List Str) (values : List Str) : HData :=
  ⟨fields, ⟨IpV4, 2, 0, [], [], []⟩, [⟨⟨[1, 0, 0, 0], [255, 0, 0, 0]⟩, ⟨0, values.length⟩⟩, ⟨⟨[3, 0, 0, 0], [255, 0, 0, 0]⟩, ⟨0, values.length⟩⟩], [values]⟩

def table : GoMap Str := [(gs "4134", gs "电信"), (gs "64512", [])]

/-- The hypotheses of `C88_first_column`. -/
example : (demoAsn [fAsn, fCountry] [gs "4134", china]).WF ∧ (demoAsn [fAsn, fCountry] [gs "4134", china]).Aligned ∧
    (demoAsn [fAsn, fCountry] [gs "4134", china]).fields.head? = some fAsn ∧ fLine ∉ (demoAsn [fAsn, fCountry] [gs "4134", china]).fields ∧
    ∀ r ∈ (demoAsn [fAsn, fCountry] [gs "4134", china]).rows,
      ((fieldVal [fAsn, fCountry] fAsn ((demoAsn [fAsn, fCountry] [gs "4134", china]).rowView r)).bind (mapGet table)).isSome := by
  decide +kernel

/-- The hypotheses of `C88_existing_line`, and a row that loses its line. -/
example : (demoAsn [fAsn, fLine] [gs "64512", gs "电信"]).WF ∧ (demoAsn [fAsn, fLine] [gs "64512", gs "电信"]).Aligned ∧
    (demoAsn [fAsn, fLine] [gs "64512", gs "电信"]).fields.Nodup ∧
    (fieldVal [fAsn, fLine] fAsn ⟨⟨[], []⟩, [gs "64512", gs "电信"]⟩).bind (mapGet table) = some [] := by
  decide +kernel

/-- Both negations happen: country first and the ASN known; a line field and a table of non-empty lines. -/
example : (demoAsn [fCountry, fAsn] [china, gs "4134"]).WF ∧ (demoAsn [fCountry, fAsn] [china, gs "4134"]).Aligned ∧
    (fieldVal [fCountry, fAsn] fAsn ⟨⟨[], []⟩, [china, gs "4134"]⟩).bind (mapGet table) = some (gs "电信") ∧
    ∀ r ∈ (demoAsn [fCountry, fAsn] [china, gs "4134"]).rows,
      (((demoAsn [fCountry, fAsn] [china, gs "4134"]).rowView r).values.head?.bind (mapGet table)) = none := by
  decide +kernel

example : ∀ k, mapGet [(gs "4134", gs "电信")] k ≠ some [] := by
  intro k
  have hne : gs "电信" ≠ [] := by decide +kernel
  simp only [mapGet]
  split
  · simpa using hne
  · simp

end Uip.LineAsn
