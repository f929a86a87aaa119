import Verif.Props.Operate
/-!
# C40, C41, exactly: the line operations on rows that share slices

`C40_negation_existing`, `C40_negation_spare` and `C41_negation` show that the claims fail when rows share a slice.  Here is
what happens instead, for every data set: of the rows that share the slice that is written, the last one decides for all.
-/
namespace Uip.Operate
open Uip Uip.Spec

/-- The value given by the last row of the list that refers to the array `a` and gives one. -/
def lastWriter (w : HRow → Option Str) (a : Nat) (rows : List HRow) : Option Str :=
  (rows.filterMap fun r => if r.vals.arr = a then w r else none).getLast?

theorem lastWriter_cons (w : HRow → Option Str) (a : Nat) (r : HRow) (rs : List HRow) :
    lastWriter w a (r :: rs) = (lastWriter w a rs).or (if r.vals.arr = a then w r else none) := by
  unfold lastWriter
  rw [List.filterMap_cons]
  cases h : (if r.vals.arr = a then w r else none) with
  | none => simp
  | some v =>
    simp only [List.getLast?_cons]
    cases List.getLast? (List.filterMap (fun r => if r.vals.arr = a then w r else none) rs) <;> rfl

theorem lastWriter_congr {w w' : HRow → Option Str} {a : Nat} : ∀ {rows : List HRow},
    (∀ r ∈ rows, r.vals.arr = a → w r = w' r) → lastWriter w a rows = lastWriter w' a rows
  | [], _ => rfl
  | r :: rs, h => by
    rw [lastWriter_cons, lastWriter_cons, lastWriter_congr (rows := rs) fun x hx => h x (by simp [hx])]
    by_cases e : r.vals.arr = a
    · rw [if_pos e, if_pos e, h r (by simp) e]
    · rw [if_neg e, if_neg e]

/-- A pass that writes one existing column. -/
theorem setLoop_in_place {grow : Nat → Nat} {o n p : Nat} {V : HRow → Str → Res (Option Str)} {W : HRow → Str → Option Str}
    (hp : p < n) (ho : o < n) (hop : o ≠ p) : ∀ (rows : List HRow) (h : Heap), (∀ r ∈ rows, r.vals.In h) →
    (∀ r ∈ rows, r.vals.len = n) → (∀ r ∈ rows, ∀ c, h.cell r.vals.arr p = some c → V r c = .ok (W r c)) →
    ∃ h', forRows (setLoop grow (some o) p V) h rows = .ok (h', rows) ∧
      ∀ a j, Heap.cell h' a j = if j = o then
        (lastWriter (fun r => (h.cell r.vals.arr p).bind (W r)) a rows).or (h.cell a j) else h.cell a j
  | [], h, _, _, _ => ⟨h, rfl, fun a j => by simp [lastWriter]⟩
  | r :: rs, h, hin, hlen, hV => by
    obtain ⟨c, hg, hc⟩ := Heap.get_ok (hin r (by simp)) (i := p) (by rw [hlen r (by simp)]; exact hp)
    obtain ⟨h1, e1, hc1⟩ : ∃ h1, setLoop grow (some o) p V h r = .ok (h1, r) ∧
        ∀ a j, Heap.cell h1 a j = if j = o ∧ a = r.vals.arr then (W r c).or (h.cell a j) else h.cell a j := by
      unfold setLoop
      simp only [hg, Res.ok_bind, hV r (by simp) c hc]
      cases hW : W r c with
      | none => exact ⟨h, rfl, fun a j => by simp⟩
      | some v =>
        obtain ⟨h', hp', hc'⟩ := Heap.put_ok (hin r (by simp)) (i := o) (by rw [hlen r (by simp)]; exact ho) v
        refine ⟨h', by simp [setOrAppend, hp'], fun a j => ?_⟩
        rw [hc']
        by_cases haj : a = r.vals.arr ∧ j = o
        · rw [if_pos haj, if_pos ⟨haj.2, haj.1⟩]; rfl
        · rw [if_neg haj, if_neg (fun hh => haj ⟨hh.2, hh.1⟩)]
    have hpc : ∀ a, Heap.cell h1 a p = h.cell a p := fun a => by rw [hc1, if_neg (fun hh => hop hh.1.symm)]
    have hsome : ∀ a j, (h.cell a j).isSome → (Heap.cell h1 a j).isSome := fun a j hs => by
      rw [hc1]; split
      · rw [Option.isSome_or, hs, Bool.or_true]
      · exact hs
    obtain ⟨h2, e2, hc2⟩ := setLoop_in_place hp ho hop rs h1 (fun x hx => (hin x (by simp [hx])).mono fun j _ hj => hsome _ j hj)
      (fun x hx => hlen x (by simp [hx])) (fun x hx c' hc' => hV x (by simp [hx]) c' (by rw [← hpc]; exact hc'))
    refine ⟨h2, forRows_cons e1 e2, fun a j => ?_⟩
    rw [hc2, hc1]
    by_cases hj : j = o
    · rw [if_pos hj, if_pos hj, lastWriter_cons]
      rw [lastWriter_congr (w' := fun r => (h.cell r.vals.arr p).bind (W r)) (fun x _ _ => by rw [hpc])]
      by_cases ha : a = r.vals.arr
      · rw [if_pos ⟨hj, ha⟩, if_pos ha.symm, hc, Option.bind_some, Option.or_assoc]
      · rw [if_neg (fun hh => ha hh.2), if_neg (fun hh => ha hh.symm), Option.or_none]
    · rw [if_neg hj, if_neg hj, if_neg (fun hh => hj hh.1)]

/-- What a row shows after a pass over one existing column. -/
theorem read_in_place {h h' : Heap} {o : Nat} {s : Slice} (hin : s.In h) (ho : o < s.len) {w : Option Str}
    (hc : ∀ j, Heap.cell h' s.arr j = if j = o then w.or (h.cell s.arr j) else h.cell s.arr j) :
    s.In h' ∧ h'.read s = w.elim (h.read s) (fun v => (h.read s).set o v) := by
  have hin' : s.In h' := hin.mono fun j _ hj => by
    rw [hc]; split
    · rw [Option.isSome_or, hj, Bool.or_true]
    · exact hj
  refine ⟨hin', ?_⟩
  apply List.ext_getElem?
  intro j
  rw [Heap.read_get?, hc]
  cases w with
  | none => simp only [Option.none_or, ite_self, Option.elim_none]; rw [Heap.read_get?]
  | some v =>
    simp only [Option.some_or, Option.elim_some]
    rw [List.getElem?_set, Heap.read_length hin, Heap.read_get?]
    by_cases hj : j = o
    · subst hj; rw [if_pos ho, if_pos rfl, if_pos rfl, if_pos ho]
    · rw [if_neg hj, if_neg (show ¬ o = j from fun hh => hj hh.symm)]

/-- **C41, exactly.** ReplaceLineByCidr gives every row the line of the last Chinese row with a line that shares its
slice, and leaves the other rows alone. -/
theorem C41_exact (dec : Int → Str) (line : LineDb) (d : HData) (hw : d.WF) (ha : d.Aligned)
    (hc : fCountry ∈ d.fields) (hi : fISP ∈ d.fields) (hq : ∀ r ∈ d.rows, line.query r.cidr.ip ≠ .panic) :
    ∃ d', ReplaceLineByCidr dec line d = .ok d' ∧ d'.WF ∧ d'.Aligned ∧ d'.rows = d.rows ∧ d'.fields = d.fields ∧
      d'.version = { d.version with extraInfo := d.version.extraInfo ++ [line.version ++ 0x2D :: dec line.build] } ∧
      d'.view.ips = d.rows.map fun r =>
        match lastWriter (fun r => if rowLine d.fields line (d.rowView r) = [] then none
            else some (rowLine d.fields line (d.rowView r))) r.vals.arr d.rows with
        | none => d.rowView r
        | some l => setField d.fields fISP l (d.rowView r) := by
  have hne : fISP ≠ fCountry := by decide +kernel
  obtain ⟨p, hp⟩ : ∃ i, Offset fCountry d.fields = some i := by
    cases e : Offset fCountry d.fields with
    | none => exact absurd hc (Offset_none.mp e)
    | some i => exact ⟨i, rfl⟩
  obtain ⟨i, hio⟩ : ∃ i, Offset fISP d.fields = some i := by
    cases e : Offset fISP d.fields with
    | none => exact absurd hi (Offset_none.mp e)
    | some i => exact ⟨i, rfl⟩
  have hpl : ∀ r ∈ d.rows, p < r.vals.len := fun r hr => by rw [ha r hr]; exact Offset_lt hp
  have hfv : ∀ r ∈ d.rows, fieldVal d.fields fCountry (d.rowView r) = d.heap.cell r.vals.arr p :=
    fun r hr => fieldVal_cell hp (hpl r hr)
  obtain ⟨h', e, k⟩ := setLoop_in_place (grow := id) (o := i) (n := d.fields.length) (p := p)
    (V := fun r c => do
      let l ← (if c = china then queryLine r.cidr line else .ok [])
      return if l ≠ [] then some l else none)
    (W := fun r c => if c = china ∧ lineAt line r.cidr.ip ≠ [] then some (lineAt line r.cidr.ip) else none)
    (Offset_lt hp) (Offset_lt hio) (Offset_ne hio hp hne) d.rows d.heap hw ha
    (fun r hr c _ => by
      by_cases hcc : c = china
      · simp only [hcc, if_true, queryLine_ok (hq r hr), Res.ok_bind, Res.pure_eq, true_and]
      · simp [hcc])
  have hwr : ∀ a, lastWriter (fun r => (d.heap.cell r.vals.arr p).bind fun c =>
        if c = china ∧ lineAt line r.cidr.ip ≠ [] then some (lineAt line r.cidr.ip) else none) a d.rows =
      lastWriter (fun r => if rowLine d.fields line (d.rowView r) = [] then none
            else some (rowLine d.fields line (d.rowView r))) a d.rows := by
    intro a
    apply lastWriter_congr
    intro r hr _
    rw [rowLine_china, hfv r hr]
    obtain ⟨c, hcell⟩ := Slice.In.cell (show r.vals.In d.heap from hw r hr) (hpl r hr)
    rw [hcell]
    by_cases h1 : c = china
    · by_cases h2 : lineAt line r.cidr.ip = [] <;> simp [h1, h2, HData.rowView]
    · simp [h1]
  have hread : ∀ r ∈ d.rows, _ := fun r hr => read_in_place (h' := h') (show r.vals.In d.heap from hw r hr) (o := i)
    (by rw [ha r hr]; exact Offset_lt hio) (k r.vals.arr)
  refine ⟨{ d with version := { d.version with extraInfo := d.version.extraInfo ++ [line.version ++ 0x2D :: dec line.build] },
                   heap := h' }, ?_, fun r hr => (hread r hr).1, ha, rfl, rfl, rfl, ?_⟩
  · unfold ReplaceLineByCidr
    simp only [hio, hp]
    rw [replaceLine_loop, e]; rfl
  · show d.rows.map _ = d.rows.map _
    apply List.map_congr_left
    intro r hr
    have := (hread r hr).2
    rw [hwr] at this
    generalize lastWriter _ r.vals.arr d.rows = w at this ⊢
    show IpRaw.mk r.cidr (h'.read r.vals) = _
    rw [this]
    cases w
    · rfl
    · simp only [setField, hio]; rfl

theorem arr_lt {h : Heap} {s : Slice} (hin : s.In h) {p : Nat} (hp : p < s.len) : s.arr < h.length := by
  rcases Nat.lt_or_ge s.arr h.length with h1 | h1
  · exact h1
  · obtain ⟨v, hv⟩ := Slice.In.cell hin hp
    rw [Heap.cell_none_of_ge h1] at hv; cases hv

/-- No row of the list refers to the array. -/
theorem lastWriter_none {w : HRow → Option Str} {a : Nat} : ∀ {rows : List HRow}, (∀ r ∈ rows, r.vals.arr ≠ a) →
    lastWriter w a rows = none
  | [], _ => rfl
  | r :: rs, h => by
    rw [lastWriter_cons, lastWriter_none fun x hx => h x (by simp [hx]), if_neg (h r (by simp))]; rfl

/-- A pass that appends a column. -/
theorem setLoop_append {grow : Nat → Nat} {n p : Nat} {V : HRow → Str → Res (Option Str)} {W : HRow → Str → Str}
    (hp : p < n) : ∀ (rows : List HRow) (h : Heap), (∀ r ∈ rows, r.vals.In h) → (∀ r ∈ rows, r.vals.len = n) →
    (∀ r ∈ rows, ∀ c, h.cell r.vals.arr p = some c → V r c = .ok (some (W r c))) →
    ∃ h' rows', forRows (setLoop grow none p V) h rows = .ok (h', rows') ∧ h.length ≤ h'.length ∧
      (∀ a < h.length, ∀ j, Heap.cell h' a j = if j = n ∧ (h.cell a n).isSome then
        (lastWriter (fun r => (h.cell r.vals.arr p).map (W r)) a rows).or (h.cell a j) else h.cell a j) ∧
      Rel2 (fun r r' => r'.cidr = r.cidr ∧ r'.vals.len = n + 1 ∧
        ((h.cell r.vals.arr n).isSome → r'.vals.arr = r.vals.arr) ∧
        (¬ (h.cell r.vals.arr n).isSome → (∀ j < n, Heap.cell h' r'.vals.arr j = h.cell r.vals.arr j) ∧
          Heap.cell h' r'.vals.arr n = (h.cell r.vals.arr p).map (W r))) rows rows'
  | [], h, _, _, _ => ⟨h, [], rfl, Nat.le_refl _, fun a _ j => by simp [lastWriter], .nil⟩
  | r :: rs, h, hin, hlen, hV => by
    have hrl := hlen r (by simp)
    have harr : ∀ x ∈ r :: rs, x.vals.arr < h.length := fun x hx => arr_lt (hin x hx) (by rw [hlen x hx]; exact hp)
    obtain ⟨c, hg, hc⟩ := Heap.get_ok (hin r (by simp)) (i := p) (by rw [hrl]; exact hp)
    have hstep : setLoop grow none p V h r = .ok ((h.append grow r.vals (W r c)).1, { r with vals := (h.append grow r.vals (W r c)).2 }) := by
      unfold setLoop
      simp only [hg, Res.ok_bind, hV r (by simp) c hc, setOrAppend]
    by_cases hsp : (h.cell r.vals.arr r.vals.len).isSome
    · obtain ⟨h1, e, hl, hc1⟩ := append_in_place (grow := grow) (W r c) hsp
      rw [e] at hstep
      rw [hrl] at hsp hc1
      have hpc : ∀ a, Heap.cell h1 a p = h.cell a p := fun a => by rw [hc1, if_neg]; omega
      have hsome : ∀ a j, (Heap.cell h1 a j).isSome = (h.cell a j).isSome := fun a j => by
        rw [hc1]; split
        · rename_i hh; rw [hh.1, hh.2, hsp]; rfl
        · rfl
      obtain ⟨h2, rs2, e2, hl2, q1, q2⟩ := setLoop_append hp rs h1
        (fun x hx => (hin x (by simp [hx])).mono fun j _ hj => by rw [hsome]; exact hj)
        (fun x hx => hlen x (by simp [hx])) (fun x hx c' hc' => hV x (by simp [hx]) c' (by rw [← hpc]; exact hc'))
      refine ⟨h2, _, forRows_cons hstep e2, by omega, fun a ha j => ?_, .cons ?_ ?_⟩
      · rw [q1 a (by omega), hsome, hc1]
        by_cases hj : j = n ∧ (h.cell a n).isSome
        · rw [if_pos hj, if_pos hj, lastWriter_cons]
          rw [lastWriter_congr (w' := fun r => (h.cell r.vals.arr p).map (W r)) (fun x _ _ => by rw [hpc])]
          by_cases hax : a = r.vals.arr
          · rw [if_pos ⟨hax, hj.1⟩, if_pos hax.symm, hc, Option.map_some, Option.or_assoc]; rfl
          · rw [if_neg (fun hh => hax hh.1), if_neg (fun hh => hax hh.symm), Option.or_none]
        · rw [if_neg hj, if_neg hj, if_neg]
          rintro ⟨rfl, rfl⟩; exact hj ⟨rfl, hsp⟩
      · exact ⟨rfl, by simp [hrl], fun _ => rfl, fun hh => absurd hsp hh⟩
      · refine q2.imp_mem fun x hx y _ ⟨k1, k2, k3, k4⟩ => ⟨k1, k2, fun hs => k3 (by rw [hsome]; exact hs), fun hs => ?_⟩
        obtain ⟨m1, m2⟩ := k4 (by rw [hsome]; exact hs)
        refine ⟨fun j hj => ?_, by rw [m2, hpc]⟩
        rw [m1 j hj, hc1, if_neg]; omega
    · obtain ⟨h1, e, hl, hc1, hc2, hc3⟩ := append_fresh (grow := grow) (W r c) (hin r (by simp)) hsp
      rw [e] at hstep
      rw [hrl] at hsp hc2 hc3
      obtain ⟨h2, rs2, e2, hl2, q1, q2⟩ := setLoop_append hp rs h1
        (fun x hx => (hin x (by simp [hx])).mono fun j _ hj => by rw [hc1 _ (harr x (by simp [hx]))]; exact hj)
        (fun x hx => hlen x (by simp [hx]))
        (fun x hx c' hc' => hV x (by simp [hx]) c' (by rw [← hc1 _ (harr x (by simp [hx]))]; exact hc'))
      refine ⟨h2, _, forRows_cons hstep e2, by omega, fun a ha j => ?_, .cons ?_ ?_⟩
      · rw [q1 a (by omega), hc1 a ha, hc1 a ha]
        by_cases hj : j = n ∧ (h.cell a n).isSome
        · rw [if_pos hj, if_pos hj, lastWriter_cons]
          rw [lastWriter_congr (w' := fun r => (h.cell r.vals.arr p).map (W r))
            (fun x hx _ => by rw [hc1 _ (harr x (by simp [hx]))])]
          rw [if_neg, Option.or_none]
          rintro rfl; exact hsp hj.2
        · rw [if_neg hj, if_neg hj]
      · refine ⟨rfl, by simp [hrl], fun hh => absurd hh hsp, fun _ => ?_⟩
        have hkeep : ∀ j, Heap.cell h2 h.length j = Heap.cell h1 h.length j := fun j => by
          rw [q1 h.length (by omega), lastWriter_none fun x hx => Nat.ne_of_lt (harr x (by simp [hx])), Option.none_or]
          simp
        refine ⟨fun j hj => ?_, ?_⟩
        · show Heap.cell h2 h.length j = _
          rw [hkeep, hc2 j hj]
        · show Heap.cell h2 h.length n = _
          rw [hkeep, hc3, hc]; rfl
      · refine q2.imp_mem fun x hx y _ ⟨k1, k2, k3, k4⟩ => ?_
        have hxa := harr x (by simp [hx])
        simp only [hc1 _ hxa] at k3 k4
        exact ⟨k1, k2, k3, k4⟩

/-- The line that ends up in the row of a data set: its own, or, when the value is written into a slice that already has
the cell, the line of the last row that shares the slice. -/
def settledLine (line : LineDb) (d : HData) (r : HRow) : Str :=
  if fLine ∈ d.fields ∨ (d.heap.cell r.vals.arr d.fields.length).isSome then
    (lastWriter (fun r => some (rowLine d.fields line (d.rowView r))) r.vals.arr d.rows).getD []
  else rowLine d.fields line (d.rowView r)

theorem lastWriter_isSome {f : HRow → Str} {r : HRow} : ∀ {rows : List HRow}, r ∈ rows →
    (lastWriter (fun r => some (f r)) r.vals.arr rows).isSome
  | [], h => by cases h
  | x :: xs, h => by
    rw [lastWriter_cons]
    rcases List.mem_cons.mp h with rfl | h
    · rw [if_pos rfl, Option.isSome_or]; simp
    · rw [Option.isSome_or, lastWriter_isSome h]; rfl

/-- **C40, exactly.** AttachLineByCidr on every data set, shared slices or not. -/
theorem C40_exact (grow : Nat → Nat) (dec : Int → Str) (line : LineDb) (d : HData) (hw : d.WF) (ha : d.Aligned)
    (hc : fCountry ∈ d.fields) (hq : ∀ r ∈ d.rows, line.query r.cidr.ip ≠ .panic) :
    ∃ d', AttachLineByCidr grow dec line d = .ok d' ∧ d'.WF ∧ d'.Aligned ∧ d'.fields = addField d.fields fLine ∧
      d'.version = { d.version with extraInfo := d.version.extraInfo ++ [line.version ++ 0x2D :: dec line.build] } ∧
      d'.view.ips = d.rows.map fun r => setOrAdd d.fields fLine (settledLine line d r) (d.rowView r) := by
  have hne : fCountry ≠ fLine := by decide +kernel
  obtain ⟨p, hp⟩ : ∃ i, Offset fCountry d.fields = some i := by
    cases e : Offset fCountry d.fields with
    | none => exact absurd hc (Offset_none.mp e)
    | some i => exact ⟨i, rfl⟩
  have hpl : ∀ r ∈ d.rows, p < r.vals.len := fun r hr => by rw [ha r hr]; exact Offset_lt hp
  have hfv : ∀ r ∈ d.rows, fieldVal d.fields fCountry (d.rowView r) = d.heap.cell r.vals.arr p :=
    fun r hr => fieldVal_cell hp (hpl r hr)
  have hV : ∀ r ∈ d.rows, ∀ c, d.heap.cell r.vals.arr p = some c → (do
      let l ← (if c = china then queryLine r.cidr line else .ok [])
      return some l : Res (Option Str)) = .ok (some (if c = china then lineAt line r.cidr.ip else [])) := fun r hr c _ => by
    by_cases hcc : c = china
    · simp only [hcc, if_true, queryLine_ok (hq r hr), Res.ok_bind, Res.pure_eq]
    · simp only [hcc, if_false, Res.ok_bind, Res.pure_eq]
  have hcellv : ∀ r ∈ d.rows, (d.heap.cell r.vals.arr p).map (fun c => if c = china then lineAt line r.cidr.ip else []) =
      some (rowLine d.fields line (d.rowView r)) := fun r hr => by
    obtain ⟨c, hcell⟩ := Slice.In.cell (show r.vals.In d.heap from hw r hr) (hpl r hr)
    rw [rowLine_china, hfv r hr, hcell]
    by_cases h1 : c = china <;> simp [h1, HData.rowView]
  cases ho : Offset fLine d.fields with
  | some o =>
    have hmem : fLine ∈ d.fields := List.mem_of_getElem? (Offset_some ho).1
    obtain ⟨h', e, k⟩ := setLoop_in_place (grow := grow) (o := o) (n := d.fields.length) (p := p)
      (W := fun r c => some (if c = china then lineAt line r.cidr.ip else []))
      (Offset_lt hp) (Offset_lt ho) (Offset_ne ho hp hne.symm) d.rows d.heap hw ha hV
    have hwr : ∀ a, lastWriter (fun r => (d.heap.cell r.vals.arr p).bind fun c =>
        some (if c = china then lineAt line r.cidr.ip else [])) a d.rows =
        lastWriter (fun r => some (rowLine d.fields line (d.rowView r))) a d.rows := fun a => by
      apply lastWriter_congr
      intro r hr _
      rw [← hcellv r hr]
      cases d.heap.cell r.vals.arr p <;> rfl
    have hread : ∀ r ∈ d.rows, _ := fun r hr => read_in_place (h' := h') (show r.vals.In d.heap from hw r hr) (o := o)
      (by rw [ha r hr]; exact Offset_lt ho) (k r.vals.arr)
    refine ⟨{ d with fields := addField d.fields fLine,
                     version := { d.version with extraInfo := d.version.extraInfo ++ [line.version ++ 0x2D :: dec line.build] },
                     heap := h' }, ?_, fun r hr => (hread r hr).1, ?_, rfl, rfl, ?_⟩
    · unfold AttachLineByCidr
      simp only [addField_eq, Offset_addField hne, hp]
      rw [attachLine_loop, ho, e]; rfl
    · intro r hr
      show r.vals.len = (addField d.fields fLine).length
      rw [addField, if_pos hmem]; exact ha r hr
    · show d.rows.map _ = d.rows.map _
      apply List.map_congr_left
      intro r hr
      have := (hread r hr).2
      rw [hwr] at this
      show IpRaw.mk r.cidr (h'.read r.vals) = _
      have hs := lastWriter_isSome (f := fun r => rowLine d.fields line (d.rowView r)) hr
      unfold settledLine
      rw [if_pos (.inl hmem), this]
      revert hs
      generalize lastWriter _ r.vals.arr d.rows = w
      intro hs
      cases w with
      | none => cases hs
      | some v => simp only [setOrAdd, ho]; rfl
  | none =>
    have hmem : fLine ∉ d.fields := Offset_none.mp ho
    obtain ⟨h', rows', e, hl, k1, k2⟩ := setLoop_append (grow := grow) (n := d.fields.length) (p := p)
      (W := fun r c => if c = china then lineAt line r.cidr.ip else []) (Offset_lt hp) d.rows d.heap hw ha hV
    have hwr : ∀ a, lastWriter (fun r => (d.heap.cell r.vals.arr p).map fun c =>
        (if c = china then lineAt line r.cidr.ip else [])) a d.rows =
        lastWriter (fun r => some (rowLine d.fields line (d.rowView r))) a d.rows := fun a =>
      lastWriter_congr fun r hr _ => hcellv r hr
    -- what every row shows
    have hrows : Rel2 (fun r r' => r'.vals.In h' ∧ r'.vals.len = d.fields.length + 1 ∧
        (⟨r'.cidr, h'.read r'.vals⟩ : IpRaw) = setOrAdd d.fields fLine (settledLine line d r) (d.rowView r)) d.rows rows' := by
      refine k2.imp_mem fun r hr r' _ ⟨m1, m2, m3, m4⟩ => ?_
      have hrin : r.vals.In d.heap := hw r hr
      have hrl : r.vals.len = d.fields.length := ha r hr
      have hcells : (∀ j < d.fields.length, Heap.cell h' r'.vals.arr j = d.heap.cell r.vals.arr j) ∧
          Heap.cell h' r'.vals.arr d.fields.length = some (settledLine line d r) := by
        unfold settledLine
        by_cases hsp : (d.heap.cell r.vals.arr d.fields.length).isSome
        · rw [if_pos (.inr hsp), m3 hsp]
          have hal := arr_lt hrin (hpl r hr)
          refine ⟨fun j hj => ?_, ?_⟩
          · rw [k1 _ hal, if_neg]; omega
          · rw [k1 _ hal, if_pos ⟨rfl, hsp⟩, hwr]
            have hs := lastWriter_isSome (f := fun r => rowLine d.fields line (d.rowView r)) hr
            revert hs
            generalize lastWriter _ r.vals.arr d.rows = w
            intro hs
            cases w with
            | none => cases hs
            | some v => rfl
        · rw [if_neg (by simp [hmem, hsp])]
          refine ⟨(m4 hsp).1, ?_⟩
          rw [(m4 hsp).2, hcellv r hr]
      have hin' : r'.vals.In h' := Slice.in_iff.mpr fun j hj => by
        rw [m2] at hj
        rcases Nat.lt_or_ge j d.fields.length with h1 | h1
        · rw [hcells.1 j h1]; exact Slice.in_iff.mp hrin j (by omega)
        · have : j = d.fields.length := by omega
          rw [this, hcells.2]; rfl
      refine ⟨hin', m2, ?_⟩
      simp only [setOrAdd, ho, HData.rowView, m1]
      congr 1
      apply List.ext_getElem?
      intro j
      rw [Heap.read_get?, m2, List.getElem?_append, Heap.read_length hrin, Heap.read_get?, hrl]
      rcases Nat.lt_trichotomy j d.fields.length with h1 | h1 | h1
      · rw [if_pos (by omega), if_pos h1, if_pos h1, hcells.1 j h1]
      · subst h1; rw [if_pos (by omega), if_neg (by omega), hcells.2]; simp
      · rw [if_neg (by omega), if_neg (by omega), List.getElem?_eq_none (by simp; omega)]
    refine ⟨{ d with fields := addField d.fields fLine,
                     version := { d.version with extraInfo := d.version.extraInfo ++ [line.version ++ 0x2D :: dec line.build] },
                     rows := rows', heap := h' }, ?_, ?_, ?_, rfl, rfl, ?_⟩
    · unfold AttachLineByCidr
      simp only [addField_eq, Offset_addField hne, hp]
      rw [attachLine_loop, ho, e]; rfl
    · intro r hr
      obtain ⟨_, _, q⟩ := hrows.exists_of_mem hr
      exact q.1
    · intro r hr
      show r.vals.len = (addField d.fields fLine).length
      rw [addField, if_neg hmem]
      obtain ⟨_, _, q⟩ := hrows.exists_of_mem hr
      simpa using q.2.1
    · show rows'.map _ = d.rows.map _
      exact (hrows.imp_mem fun _ _ _ _ q => q.2.2).map_eq

/-- Both theorems on the data sets of the counterexamples: the second row decides for both. -/
example : settledLine demoLine (demoShared [fCountry, fLine] [china, []] id) ⟨⟨[1, 0, 0, 0], [255, 0, 0, 0]⟩, ⟨0, 2⟩⟩ = gs "联通" := by
  decide +kernel

example : (demoShared [fCountry, fLine] [china, []] id).WF ∧ (demoShared [fCountry, fLine] [china, []] id).Aligned := by
  decide +kernel

end Uip.Operate
