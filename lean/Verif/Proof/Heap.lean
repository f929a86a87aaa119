import Verif.Model.Heap
/-!
# Facts about heaps of value slices
-/
namespace Uip

namespace Heap

theorem cell_isSome {h : Heap} {a i : Nat} : (h.cell a i).isSome ↔ i < ((h[a]?).getD []).length := by
  unfold cell
  cases h[a]? <;> simp

/-- Overwriting one cell. -/
theorem cell_modify_set {h : Heap} {a i : Nat} {v : Str} (hc : (h.cell a i).isSome) (a' j : Nat) :
    Heap.cell (h.modify a (·.set i v)) a' j = if a' = a ∧ j = i then some v else h.cell a' j := by
  unfold cell at *
  rw [List.getElem?_modify]
  by_cases ha : a = a'
  · subst ha
    cases e : h[a]? with
    | none => simp [e] at hc
    | some l =>
      simp only [e, Option.bind_some, if_true, Option.map_eq_map, Option.map_some, true_and] at hc ⊢
      rw [List.getElem?_set]
      by_cases hj : i = j
      · subst hj; simp at hc; simp [hc]
      · rw [if_neg hj, if_neg (fun e => hj e.symm)]
  · simp [ha, show ¬ a' = a from fun e => ha e.symm]

theorem cell_append {h : Heap} {l : List Str} (a j : Nat) :
    Heap.cell (h ++ [l]) a j = if a = h.length then l[j]? else h.cell a j := by
  unfold cell
  by_cases ha : a = h.length
  · subst ha; simp
  · rw [if_neg ha, List.getElem?_append]
    by_cases hl : a < h.length
    · simp [hl]
    · rw [if_neg hl]
      have : h[a]? = none := by simp; omega
      rw [this, List.getElem?_singleton, if_neg (by omega)]

theorem cell_none_of_ge {h : Heap} {a j : Nat} (ha : h.length ≤ a) : h.cell a j = none := by
  unfold cell
  have : h[a]? = none := by simp; omega
  rw [this]; rfl

end Heap

/-- The slice lies inside its array. -/
def Slice.In (s : Slice) (h : Heap) : Prop := s.len ≤ ((h[s.arr]?).getD []).length

theorem Slice.In.cell {s : Slice} {h : Heap} (hs : s.In h) {j : Nat} (hj : j < s.len) :
    ∃ v, h.cell s.arr j = some v := by
  have : (h.cell s.arr j).isSome := Heap.cell_isSome.mpr (by unfold Slice.In at hs; omega)
  exact Option.isSome_iff_exists.mp this

theorem Slice.in_iff {s : Slice} {h : Heap} : s.In h ↔ ∀ j < s.len, (h.cell s.arr j).isSome := by
  constructor
  · intro hs j hj; obtain ⟨v, hv⟩ := hs.cell hj; rw [hv]; rfl
  · intro hh
    unfold Slice.In
    cases e : s.len with
    | zero => omega
    | succ n => have := Heap.cell_isSome.mp (hh n (by omega)); omega

theorem HData.WF_iff {d : HData} : d.WF ↔ ∀ r ∈ d.rows, r.vals.In d.heap := Iff.rfl

namespace Heap

theorem read_length {h : Heap} {s : Slice} (hs : s.In h) : (h.read s).length = s.len := by
  unfold read Slice.In at *
  rw [List.length_take]; omega

theorem read_get? {h : Heap} {s : Slice} (j : Nat) :
    (h.read s)[j]? = if j < s.len then h.cell s.arr j else none := by
  unfold read cell
  rw [List.getElem?_take]
  split
  · cases h[s.arr]? <;> simp
  · rfl

/-- What a slice denotes is determined by its cells. -/
theorem read_eq_iff {h h' : Heap} {s s' : Slice} (hs : s.In h) (hs' : s'.In h') :
    h.read s = h'.read s' ↔ s.len = s'.len ∧ ∀ j < s.len, h.cell s.arr j = h'.cell s'.arr j := by
  constructor
  · intro e
    have hl : s.len = s'.len := by rw [← read_length hs, ← read_length hs', e]
    refine ⟨hl, fun j hj => ?_⟩
    have := congrArg (fun l => l[j]?) e
    simpa only [read_get?, hj, if_true, hl ▸ hj] using this
  · rintro ⟨hl, hc⟩
    apply List.ext_getElem?
    intro j
    rw [read_get?, read_get?, ← hl]
    split
    · exact hc j ‹_›
    · rfl

theorem get_eq {h : Heap} {s : Slice} {i : Nat} : h.get s i = Res.ofOption (h.read s)[i]? := by
  rw [read_get?]; unfold get
  split <;> rfl

theorem get_ok {h : Heap} {s : Slice} (hs : s.In h) {i : Nat} (hi : i < s.len) :
    ∃ v, h.get s i = .ok v ∧ h.cell s.arr i = some v := by
  obtain ⟨v, hv⟩ := hs.cell hi
  exact ⟨v, by unfold get; rw [if_pos hi, hv]; rfl, hv⟩

theorem get_ok_iff {h : Heap} {s : Slice} {i : Nat} {v : Str} :
    h.get s i = .ok v ↔ i < s.len ∧ h.cell s.arr i = some v := by
  unfold get
  split
  · rw [Res.ofOption_eq_ok]; simp [*]
  · simp [*]

theorem put_ok {h : Heap} {s : Slice} (hs : s.In h) {i : Nat} (hi : i < s.len) (v : Str) :
    ∃ h', h.put s i v = .ok h' ∧ ∀ a j, Heap.cell h' a j = if a = s.arr ∧ j = i then some v else h.cell a j := by
  obtain ⟨w, hw⟩ := hs.cell hi
  refine ⟨_, by unfold put; rw [if_pos hi, hw], fun a j => cell_modify_set (by rw [hw]; rfl) a j⟩

theorem put_length {h h' : Heap} {s : Slice} {i : Nat} {v : Str} (hp : h.put s i v = .ok h') :
    h'.length = h.length := by
  unfold put at hp
  split at hp
  · split at hp
    · injection hp with hp; subst hp; simp
    · cases hp
  · cases hp

end Heap

theorem Slice.In.mono {s : Slice} {h h' : Heap} (hs : s.In h)
    (hm : ∀ j < s.len, (h.cell s.arr j).isSome → (h'.cell s.arr j).isSome) : s.In h' :=
  Slice.in_iff.mpr fun j hj => hm j hj (Slice.in_iff.mp hs j hj)

/-! ## Loops over the rows -/

/-- A loop that keeps the row headers and whose effect on the heap is described cell by cell by `R`. -/
theorem forRows_nil {f : Heap → HRow → Res (Heap × HRow)} {h : Heap} : forRows f h [] = .ok (h, []) := rfl

theorem forRows_cons {f : Heap → HRow → Res (Heap × HRow)} {h h1 h2 : Heap} {r r' : HRow} {rs rs' : List HRow}
    (h1e : f h r = .ok (h1, r')) (h2e : forRows f h1 rs = .ok (h2, rs')) :
    forRows f h (r :: rs) = .ok (h2, r' :: rs') := by
  simp only [forRows, h1e, Res.ok_bind, h2e, Res.pure_eq]

/-! ## The sharing created by a dump -/

theorem allocRows_spec (cap : Nat → Nat) (rs : List IpRaw) : ∀ (prev : Option Slice) (h : Heap),
    (∀ s, prev = some s → s.In h) →
    let out := allocRows cap prev rs h
    h.length ≤ out.2.length ∧ (∀ a < h.length, out.2[a]? = h[a]?) ∧
    (∀ r ∈ out.1, r.vals.In out.2) ∧ out.1.map (fun r => IpRaw.mk r.cidr (out.2.read r.vals)) = rs := by
  induction rs with
  | nil => intro prev h _; simp [allocRows]
  | cons r rs ih =>
    have fresh : ∀ (h : Heap), let s' : Slice := ⟨h.length, r.values.length⟩
        let h1 := h ++ [r.values ++ List.replicate (cap r.values.length - r.values.length) []]
        let out := allocRows cap (some s') rs h1
        h.length ≤ out.2.length ∧ (∀ a < h.length, out.2[a]? = h[a]?) ∧
        (∀ x ∈ (⟨r.cidr, s'⟩ :: out.1 : List HRow), x.vals.In out.2) ∧
        (⟨r.cidr, s'⟩ :: out.1 : List HRow).map (fun x => IpRaw.mk x.cidr (out.2.read x.vals)) = r :: rs := by
      intro h s' h1 out
      have hh1 : h1[h.length]? = some (r.values ++ List.replicate (cap r.values.length - r.values.length) []) := by
        simp [h1]
      have hin : s'.In h1 := by unfold Slice.In; rw [hh1]; simp [s']
      obtain ⟨i1, i2, i3, i4⟩ := ih (some s') h1 (fun s e => by cases e; exact hin)
      have hl1 : h1.length = h.length + 1 := by simp [h1]
      have i1' : h1.length ≤ out.2.length := i1
      have i2' : ∀ a < h1.length, out.2[a]? = h1[a]? := i2
      have hlast : out.2[h.length]? = some (r.values ++ List.replicate (cap r.values.length - r.values.length) []) := by
        rw [i2' h.length (by omega), hh1]
      refine ⟨by omega, fun a ha => ?_, fun x hx => ?_, ?_⟩
      · rw [i2' a (by omega)]; simp [h1, List.getElem?_append, ha]
      · rcases List.mem_cons.mp hx with rfl | hx
        · unfold Slice.In; rw [hlast]; simp [s']
        · exact i3 x hx
      · rw [List.map_cons]
        congr 1
        unfold Heap.read
        simp only [s', hlast, Option.getD_some]
        simp
    intro prev h hp
    cases prev with
    | none => exact fresh h
    | some s =>
      unfold allocRows
      by_cases hv : h.read s = r.values
      · simp only [hv, if_true]
        obtain ⟨i1, i2, i3, i4⟩ := ih (some s) h hp
        refine ⟨i1, i2, fun x hx => ?_, ?_⟩
        · rcases List.mem_cons.mp hx with rfl | hx
          · have hs := hp s rfl
            unfold Slice.In at *
            by_cases hb : s.arr < h.length
            · simp only [i2 _ hb]; exact hs
            · have : h[s.arr]? = none := by simp; omega
              rw [this] at hs; simp at hs; simp [hs]
          · exact i3 x hx
        · rw [List.map_cons]
          congr 1
          by_cases hb : s.arr < h.length
          · unfold Heap.read at hv ⊢; simp only [i2 _ hb, hv]
          · have hs := hp s rfl
            unfold Slice.In at hs
            have e : h[s.arr]? = none := by simp; omega
            rw [e] at hs; simp at hs
            unfold Heap.read at hv ⊢
            simp only [hs, List.take_zero] at hv ⊢
            cases r; simp_all
      · simp only [hv, if_false]
        exact fresh h

/-- A dump produces a well-formed data set that shows the dumped rows. -/
theorem dumped_spec (cap : Nat → Nat) (d : IpData) : (dumped cap d).WF ∧ (dumped cap d).view = d := by
  obtain ⟨_, _, h3, h4⟩ := allocRows_spec cap d.ips none [] (fun s e => by cases e)
  refine ⟨h3, ?_⟩
  unfold HData.view HData.rowView dumped
  simp only []
  rw [h4]

theorem dumped_aligned {cap : Nat → Nat} {d : IpData} (h : ∀ x ∈ d.ips, x.values.length = d.fields.length) :
    (dumped cap d).Aligned := by
  obtain ⟨hw, hv⟩ := dumped_spec cap d
  intro r hr
  have hm : (dumped cap d).rowView r ∈ (dumped cap d).view.ips := List.mem_map.mpr ⟨r, hr, rfl⟩
  rw [hv] at hm
  have := h _ hm
  unfold HData.rowView at this
  rw [Heap.read_length (hw r hr)] at this
  exact this

end Uip
