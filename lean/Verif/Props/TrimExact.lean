import Verif.Props.Operate
/-!
# Property C37, exactly: when TrimAsnIspDup is deterministic
-/
namespace Uip.Operate
open Uip Uip.Spec

/-- Each element once. -/
def once : List Str → List Str
  | [] => []
  | x :: xs => if x ∈ once xs then once xs else x :: once xs

theorem once_spec : ∀ l : List Str, (once l).Nodup ∧ ∀ x, x ∈ once l ↔ x ∈ l := by
  intro l
  induction l with
  | nil => exact ⟨.nil, fun _ => Iff.rfl⟩
  | cons x xs ih =>
    unfold once
    by_cases h : x ∈ once xs
    · rw [if_pos h]
      refine ⟨ih.1, fun y => ?_⟩
      rw [ih.2, List.mem_cons]
      exact ⟨.inr, fun hy => hy.elim (fun e => e ▸ (ih.2 x).mp h) id⟩
    · rw [if_neg h]
      refine ⟨List.nodup_cons.mpr ⟨h, ih.1⟩, fun y => ?_⟩
      rw [List.mem_cons, List.mem_cons, ih.2]

/-- The keys of the map, a given one first. -/
def keysFrom (m : Str) (set : List (Str × Str)) : List Str := m :: (once (set.map (·.1))).filter (· ≠ m)

theorem keysFrom_order {m s : Str} {set : List (Str × Str)} (h : (m, s) ∈ set) : IsOrder set (keysFrom m set) := by
  obtain ⟨h1, h2⟩ := once_spec (set.map (·.1))
  unfold keysFrom
  refine ⟨List.nodup_cons.mpr ⟨by simp, h1.filter _⟩, fun k => ?_⟩
  rw [List.mem_cons, List.mem_filter, h2, List.mem_map]
  constructor
  · rintro (rfl | ⟨⟨⟨a, b⟩, hp, rfl⟩, _⟩)
    · exact ⟨s, h⟩
    · exact ⟨b, hp⟩
  · rintro ⟨t, ht⟩
    by_cases hk : k = m
    · exact .inl hk
    · exact .inr ⟨⟨_, ht, rfl⟩, by simpa using hk⟩

theorem match_keysFrom {m s : Str} {set : List (Str × Str)} (h : (m, s) ∈ set) : asnMatchIsp (keysFrom m set) s set = m := by
  unfold asnMatchIsp keysFrom
  rw [List.find?_cons_of_pos (by rw [List.any_eq_true]; exact ⟨_, h, by simp⟩)]
  rfl

/-- With one order throughout, a changed cell holds the match of the row's AS number. -/
theorem trimLoop_const {o q : Nat} (hoq : o ≠ q) {set : List (Str × Str)} {ord : List Str} : ∀ (rows : List HRow) (k : Nat) (h h' : Heap),
    (∀ r ∈ rows, r.vals.In h) → (∀ r ∈ rows, o < r.vals.len ∧ q < r.vals.len) →
    trimLoop o q set (fun _ => ord) k h rows = .ok h' →
    ∀ b, (Heap.cell h' b o = h.cell b o ∨ ∃ s, h.cell b q = some s ∧ Heap.cell h' b o = some (asnMatchIsp ord s set)) ∧
      Heap.cell h' b q = h.cell b q := by
  intro rows
  induction rows with
  | nil => intro k h h' _ _ e b; unfold trimLoop at e; injection e with e; subst e; exact ⟨.inl rfl, rfl⟩
  | cons r rs ih =>
    intro k h h' hin hl e b
    unfold trimLoop at e
    obtain ⟨h1, e1, e⟩ := Res.bind_eq_ok.mp e
    have hstep : ∀ b, (Heap.cell h1 b o = h.cell b o ∨ ∃ s, h.cell b q = some s ∧ Heap.cell h1 b o = some (asnMatchIsp ord s set)) ∧
        Heap.cell h1 b q = h.cell b q ∧ ∀ j, (h.cell b j).isSome → (Heap.cell h1 b j).isSome := by
      intro b
      obtain ⟨i, gi, ci⟩ := Heap.get_ok (hin r (by simp)) (hl r (by simp)).1
      obtain ⟨s, gs', cs⟩ := Heap.get_ok (hin r (by simp)) (hl r (by simp)).2
      unfold trimRow at e1
      simp only [gi, gs', Res.ok_bind] at e1
      split at e1
      · injection e1 with e1; subst e1; exact ⟨.inl rfl, rfl, fun _ h => h⟩
      · split at e1
        · obtain ⟨h2, hp, hc⟩ := Heap.put_ok (hin r (by simp)) (hl r (by simp)).1 (asnMatchIsp ord s set)
          rw [hp] at e1; injection e1 with e1; subst e1
          refine ⟨?_, by rw [hc, if_neg (fun hh => hoq hh.2.symm)], fun j hj => ?_⟩
          · rw [hc]
            by_cases hb : b = r.vals.arr
            · subst hb; exact .inr ⟨s, cs, if_pos ⟨rfl, rfl⟩⟩
            · exact .inl (if_neg fun hh => hb hh.1)
          · rw [hc]; split
            · rfl
            · exact hj
        · injection e1 with e1; subst e1; exact ⟨.inl rfl, rfl, fun _ h => h⟩
    obtain ⟨s1, s2, _⟩ := hstep b
    obtain ⟨t1, t2⟩ := ih (k + 1) h1 h' (fun x hx => (hin x (by simp [hx])).mono fun j _ hj => (hstep _).2.2 j hj)
      (fun x hx => hl x (by simp [hx])) e b
    refine ⟨?_, by rw [t2, s2]⟩
    rcases t1 with t1 | ⟨s, h2, h3⟩
    · rw [t1]; exact s1
    · rw [s2] at h2; exact .inr ⟨s, h2, h3⟩

/-- For a row without a main ISP and each main ISP of its AS number there is a run that writes it. -/
theorem trim_reaches (d : HData) (hw : d.WF) (ha : d.Aligned) (hnd : d.fields.Nodup) (hu : Usable d.fields) {x : HRow}
    (hx : x ∈ d.rows) {u s m : Str} (h1 : fieldVal d.fields fISP (d.rowView x) = some u) (h2 : u ∉ mainCarriers)
    (h3 : fieldVal d.fields fAsn (d.rowView x) = some s) (h4 : ∃ y ∈ d.view.ips, HasMain d.fields m s y) :
    ∃ d', TrimRuns d d' ∧ d'.rows = d.rows ∧ d'.fields = d.fields ∧ fieldVal d.fields fISP (d'.rowView x) = some m := by
  obtain ⟨i, a, hi, hasn, hi0, ha0⟩ := hu
  have hne : fISP ≠ fAsn := by decide +kernel
  have hoffs : ispAsnOffsets d.fields 0 (0, 0) = (i, a) := by
    rw [ispAsnOffsets_eq hnd]; unfold pos0; rw [hi, hasn]; rfl
  have hl : ∀ r ∈ d.rows, i < r.vals.len ∧ a < r.vals.len := fun r hr => by
    rw [ha r hr]; exact ⟨Offset_lt hi, Offset_lt hasn⟩
  obtain ⟨set, e, hset⟩ := collectMain_spec (o := i) (q := a) (by omega) d.heap d.rows hw hl
  obtain ⟨y, hy, hm, g1, g2⟩ := h4
  obtain ⟨y, hyr, rfl⟩ := List.mem_map.mp (show y ∈ d.rows.map d.rowView from hy)
  rw [fieldVal_cell hi (hl y hyr).1] at g1
  rw [fieldVal_cell hasn (hl y hyr).2] at g2
  have hms : (m, s) ∈ set := (hset m s).mpr ⟨hm, y, hyr, g1, g2⟩
  have hord : ∀ set', collectMain (ispAsnOffsets d.fields 0 (0, 0)).1 (ispAsnOffsets d.fields 0 (0, 0)).2 d.heap d.rows = .ok set' →
      ∀ k : Nat, IsOrder set' ((fun _ => keysFrom m set) k) := by
    intro set' e' k
    rw [hoffs] at e'
    simp only [e] at e'
    injection e' with e'; subst e'
    exact keysFrom_order hms
  obtain ⟨h', er, c1, c2, c3⟩ := trim_cells d hw ha hnd hi hasn hi0 ha0 hord
  refine ⟨{ d with heap := h' }, ⟨_, hord, er⟩, rfl, rfl, ?_⟩
  rw [fieldVal_cell hi (hl x hx).1] at h1
  rw [fieldVal_cell hasn (hl x hx).2] at h3
  obtain ⟨m', ⟨hm', _⟩, hc⟩ := c3 x hx u s h1 h2 h3 ⟨m, hm, y, hyr, g1, g2⟩
  have hloop : trimLoop i a set (fun _ => keysFrom m set) 0 d.heap d.rows = .ok h' := by
    unfold TrimAsnIspDup at er
    simp only [hoffs, show ¬ i = 0 by omega, show ¬ a = 0 by omega, if_false, e, Res.ok_bind] at er
    obtain ⟨h2, e2, er⟩ := Res.bind_eq_ok.mp er
    have hh : { d with heap := h2 } = { d with heap := h' } := Res.ok.inj er
    injection hh with _ _ _ hh
    rw [e2, hh]
  have hcell : Heap.cell h' x.vals.arr i = some m := by
    rcases (trimLoop_const (Offset_ne hi hasn hne) d.rows 0 d.heap h' hw hl hloop x.vals.arr).1 with h | ⟨s', k1, k2⟩
    · rw [hc, h1] at h
      injection h with h
      exact absurd (h ▸ hm') h2
    · rw [h3] at k1; injection k1 with k1; subst k1
      rw [k2, match_keysFrom hms]
  have := fieldVal_cell (d := { d with heap := h' }) (r := x) hi (hl x hx).1
  simp only at this
  rw [this]
  exact hcell

/-- **C37.** Every run of TrimAsnIspDup gives the same result, whatever the map iteration orders, exactly if no row without
a main ISP has an AS number that rows of two different main ISPs have.  (`Usable`: isp and asn are fields, neither the
first; otherwise nothing changes.) -/
theorem C37_iff (d : HData) (hw : d.WF) (ha : d.Aligned) (hnd : d.fields.Nodup) :
    (∀ d1 d2, TrimRuns d d1 → TrimRuns d d2 → d1.view = d2.view) ↔
    (Usable d.fields → ∀ x ∈ d.view.ips, ∀ u s m1 m2, fieldVal d.fields fISP x = some u → u ∉ mainCarriers →
      fieldVal d.fields fAsn x = some s → (∃ y ∈ d.view.ips, HasMain d.fields m1 s y) →
      (∃ y ∈ d.view.ips, HasMain d.fields m2 s y) → m1 = m2) := by
  constructor
  · intro h hu x hx u s m1 m2 k1 k2 k3 k4 k5
    obtain ⟨r, hr, rfl⟩ := List.mem_map.mp (show x ∈ d.rows.map d.rowView from hx)
    obtain ⟨d1, r1, e1, f1, v1⟩ := trim_reaches d hw ha hnd hu hr k1 k2 k3 k4
    obtain ⟨d2, r2, e2, f2, v2⟩ := trim_reaches d hw ha hnd hu hr k1 k2 k3 k5
    have hv := congrArg IpData.ips (h d1 d2 r1 r2)
    have hv : d1.rows.map d1.rowView = d2.rows.map d2.rowView := hv
    rw [e1, e2] at hv
    have := List.map_inj_left.mp hv r hr
    rw [this, v2] at v1
    injection v1 with v1
    exact v1.symm
  · intro hone d1 d2 h1 h2
    obtain ⟨a1, a2, _, _, a3⟩ := C36_trim d d1 hw ha hnd h1
    obtain ⟨b1, b2, _, _, b3⟩ := C36_trim d d2 hw ha hnd h2
    have : d1.view.ips = d2.view.ips := by
      refine rel2_det ?_ (a3.imp_mem fun x hx o _ h => And.intro hx h) (b3.imp_mem fun x hx o _ h => And.intro hx h)
      rintro x y z ⟨hx, ⟨hu, u, s, m, k1, k2, k3, k4, rfl⟩ | ⟨rfl, hno⟩⟩ ⟨_, ⟨_, u', s', m', j1, j2, j3, j4, rfl⟩ | ⟨rfl, hno'⟩⟩
      · rw [k3] at j3; cases j3
        rw [hone hu x hx u s m m' k1 k2 k3 k4 j4]
      · exact absurd ⟨hu, u, s, m, k1, k2, k3, k4⟩ hno'
      · exact absurd ⟨‹_›, u', s', m', j1, j2, j3, j4⟩ hno
      · rfl
    unfold HData.view at this ⊢
    simp only [] at this ⊢
    rw [a1, b1, a2, b2, this]

/-- A table to which the theorem applies (its runs differ, `C37_negation`). -/
example : demoTwo.WF ∧ demoTwo.Aligned ∧ demoTwo.fields.Nodup ∧ Usable demoTwo.fields := by
  refine ⟨by decide +kernel, by decide +kernel, by decide +kernel, 1, 2, by decide +kernel, by decide +kernel, by decide, by decide⟩

end Uip.Operate
