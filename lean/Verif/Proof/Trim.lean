import Verif.Proof.Operate
/-!
# TrimAsnIspDup on shared slices
-/
namespace Uip.Operate
open Uip Uip.Spec

/-- Position of a field, 0 when absent. -/
def pos0 (f : Str) (fs : List Str) : Nat := (Offset f fs).getD 0

theorem ispAsnOffsets_spec (fs : List Str) : ∀ (i : Nat) (acc : Nat × Nat), fs.Nodup →
    ispAsnOffsets fs i acc = ((match Offset fISP fs with | some k => i + k | none => acc.1),
      (match Offset fAsn fs with | some k => i + k | none => acc.2)) := by
  have hne : fISP ≠ fAsn := by decide +kernel
  induction fs with
  | nil => intro i acc _; rfl
  | cons f fs ih =>
    intro i acc hnd
    obtain ⟨a, b⟩ := acc
    obtain ⟨hf, hnd⟩ := List.nodup_cons.mp hnd
    unfold ispAsnOffsets
    rw [ih _ _ hnd]
    by_cases h1 : f = fISP
    · subst h1
      have hn : Offset fISP fs = none := Offset_none.mpr hf
      simp only [if_true, Offset, hn, if_neg hne]
      cases Offset fAsn fs <;> simp [Nat.add_assoc, Nat.add_comm 1]
    · by_cases h2 : f = fAsn
      · subst h2
        have hn : Offset fAsn fs = none := Offset_none.mpr hf
        simp only [if_neg hne.symm, if_true, Offset, hn]
        cases Offset fISP fs <;> simp [Nat.add_assoc, Nat.add_comm 1]
      · simp only [if_neg h1, if_neg h2, Offset]
        cases Offset fISP fs <;> cases Offset fAsn fs <;> simp [Nat.add_assoc, Nat.add_comm 1]

theorem ispAsnOffsets_eq {fs : List Str} (h : fs.Nodup) : ispAsnOffsets fs 0 (0, 0) = (pos0 fISP fs, pos0 fAsn fs) := by
  rw [ispAsnOffsets_spec fs 0 (0, 0) h]
  unfold pos0
  cases Offset fISP fs <;> cases Offset fAsn fs <;> simp

theorem collectMain_spec {o q : Nat} (hq : q ≠ 0) (h : Heap) (rows : List HRow) (hin : ∀ r ∈ rows, r.vals.In h)
    (hl : ∀ r ∈ rows, o < r.vals.len ∧ q < r.vals.len) :
    ∃ set, collectMain o q h rows = .ok set ∧ ∀ m s, (m, s) ∈ set ↔
      m ∈ mainIsp ∧ ∃ r ∈ rows, h.cell r.vals.arr o = some m ∧ h.cell r.vals.arr q = some s := by
  induction rows with
  | nil => exact ⟨[], rfl, by simp⟩
  | cons r rs ih =>
    obtain ⟨set, e, hs⟩ := ih (fun x hx => hin x (by simp [hx])) (fun x hx => hl x (by simp [hx]))
    obtain ⟨i, gi, ci⟩ := Heap.get_ok (hin r (by simp)) (hl r (by simp)).1
    obtain ⟨s, gs', cs⟩ := Heap.get_ok (hin r (by simp)) (hl r (by simp)).2
    refine ⟨if InArray i mainIsp then (i, s) :: set else set, ?_, fun m t => ?_⟩
    · simp only [collectMain, gi, gs', e, Res.ok_bind, if_neg hq, Res.pure_eq]
    · by_cases hm : InArray i mainIsp = true
      · rw [if_pos hm, List.mem_cons, hs]
        constructor
        · rintro (h1 | ⟨h1, x, hx, h2⟩)
          · injection h1 with h1 h2
            subst h1; subst h2
            exact ⟨InArray_iff.mp hm, r, by simp, ci, cs⟩
          · exact ⟨h1, x, by simp [hx], h2⟩
        · rintro ⟨h1, x, hx, h2, h3⟩
          rcases List.mem_cons.mp hx with rfl | hx
          · left; rw [ci] at h2; rw [cs] at h3
            cases h2; cases h3; rfl
          · exact .inr ⟨h1, x, hx, h2, h3⟩
      · rw [if_neg hm, hs]
        constructor
        · rintro ⟨h1, x, hx, h2⟩; exact ⟨h1, x, by simp [hx], h2⟩
        · rintro ⟨h1, x, hx, h2, h3⟩
          rcases List.mem_cons.mp hx with rfl | hx
          · rw [ci] at h2; cases h2; exact absurd (InArray_iff.mpr h1) hm
          · exact ⟨h1, x, hx, h2, h3⟩

theorem mainIsp_ne_nil {m : Str} (h : m ∈ mainIsp) : m ≠ [] := by
  rintro rfl; revert h; decide +kernel

theorem asnMatchIsp_spec {set : List (Str × Str)} (hset : ∀ m s, (m, s) ∈ set → m ∈ mainIsp) {order : List Str}
    (ho : IsOrder set order) (s : Str) :
    ((∃ m, (m, s) ∈ set) → (asnMatchIsp order s set, s) ∈ set ∧ asnMatchIsp order s set ≠ []) ∧
    ((¬ ∃ m, (m, s) ∈ set) → asnMatchIsp order s set = []) := by
  have hf : ∀ k, (set.any fun p => p.1 == k && p.2 == s) = true ↔ (k, s) ∈ set := by
    intro k
    rw [List.any_eq_true]
    constructor
    · rintro ⟨⟨a, b⟩, hp, he⟩
      simp at he; obtain ⟨rfl, rfl⟩ := he; exact hp
    · intro h; exact ⟨_, h, by simp⟩
  unfold asnMatchIsp
  cases e : order.find? fun k => set.any fun p => p.1 == k && p.2 == s with
  | none =>
    have hnone := List.find?_eq_none.mp e
    refine ⟨fun ⟨m, hm⟩ => ?_, fun _ => rfl⟩
    exact absurd ((hf m).mpr hm) (hnone m ((ho.2 m).mpr ⟨s, hm⟩))
  | some k =>
    have h1 : (k, s) ∈ set := (hf k).mp (List.find?_some (p := fun k => set.any fun p => p.1 == k && p.2 == s) e)
    refine ⟨fun _ => ⟨h1, mainIsp_ne_nil (hset _ _ h1)⟩, fun hno => absurd ⟨k, h1⟩ hno⟩

theorem trimLoop_spec {o q : Nat} (hoq : o ≠ q) {set : List (Str × Str)} (hset : ∀ m s, (m, s) ∈ set → m ∈ mainIsp)
    {orders : Nat → List Str} (hord : ∀ k, IsOrder set (orders k)) (rows : List HRow) :
    ∀ (k : Nat) (h : Heap), (∀ r ∈ rows, r.vals.In h) → (∀ r ∈ rows, o < r.vals.len ∧ q < r.vals.len) →
    ∃ h', trimLoop o q set orders k h rows = .ok h' ∧ (∀ a j, j ≠ o → Heap.cell h' a j = h.cell a j) ∧
      (∀ a, Heap.cell h' a o = h.cell a o ∨ ∃ i s m, h.cell a o = some i ∧ i ∉ mainIsp ∧ h.cell a q = some s ∧
        (m, s) ∈ set ∧ Heap.cell h' a o = some m) ∧
      ∀ r ∈ rows, ∀ i s, h.cell r.vals.arr o = some i → i ∉ mainIsp → h.cell r.vals.arr q = some s →
        (∃ m, (m, s) ∈ set) → ∃ m, (m, s) ∈ set ∧ Heap.cell h' r.vals.arr o = some m := by
  induction rows with
  | nil => intro k h _ _; exact ⟨h, rfl, fun _ _ _ => rfl, fun _ => .inl rfl, by simp⟩
  | cons r rs ih =>
    intro k h hin hl
    obtain ⟨i, gi, ci⟩ := Heap.get_ok (hin r (by simp)) (hl r (by simp)).1
    obtain ⟨s, gs', cs⟩ := Heap.get_ok (hin r (by simp)) (hl r (by simp)).2
    obtain ⟨hyes, hno⟩ := asnMatchIsp_spec hset (hord k) s
    -- effect of the first row
    obtain ⟨h1, e1, c1, c2, c3⟩ : ∃ h1, trimRow o q set (orders k) h r = .ok h1 ∧
        (∀ a j, (a ≠ r.vals.arr ∨ j ≠ o) → Heap.cell h1 a j = h.cell a j) ∧
        ((i ∈ mainIsp ∨ ¬ ∃ m, (m, s) ∈ set) → Heap.cell h1 r.vals.arr o = some i) ∧
        (i ∉ mainIsp → (∃ m, (m, s) ∈ set) → ∃ m, (m, s) ∈ set ∧ Heap.cell h1 r.vals.arr o = some m) := by
      unfold trimRow
      simp only [gi, gs', Res.ok_bind]
      by_cases hm : InArray i mainIsp = true
      · rw [if_pos hm]
        exact ⟨h, rfl, fun _ _ _ => rfl, fun _ => ci, fun hh => absurd (InArray_iff.mp hm) hh⟩
      · rw [if_neg hm]
        have hm' : i ∉ mainIsp := fun hh => hm (InArray_iff.mpr hh)
        by_cases hex : ∃ m, (m, s) ∈ set
        · obtain ⟨h2, h3⟩ := hyes hex
          rw [if_pos h3]
          obtain ⟨h', hp, hc⟩ := Heap.put_ok (hin r (by simp)) (hl r (by simp)).1 (asnMatchIsp (orders k) s set)
          refine ⟨h', hp, fun a j hh => ?_, fun hh => ?_, fun _ _ => ⟨_, h2, ?_⟩⟩
          · rw [hc, if_neg]; rintro ⟨rfl, rfl⟩; rcases hh with hh | hh <;> exact hh rfl
          · rcases hh with hh | hh
            · exact absurd hh hm'
            · exact absurd hex hh
          · rw [hc, if_pos ⟨rfl, rfl⟩]
        · rw [if_neg (by rw [hno hex]; simp)]
          exact ⟨h, rfl, fun _ _ _ => rfl, fun _ => ci, fun _ hh => absurd hh hex⟩
    have hsome : ∀ a j, (h.cell a j).isSome → (Heap.cell h1 a j).isSome := by
      intro a j hj
      by_cases haj : a ≠ r.vals.arr ∨ j ≠ o
      · rw [c1 a j haj]; exact hj
      · have haj' : a = r.vals.arr ∧ j = o := by
          constructor
          · rcases Decidable.em (a = r.vals.arr) with h0 | h0
            · exact h0
            · exact absurd (Or.inl h0) haj
          · rcases Decidable.em (j = o) with h0 | h0
            · exact h0
            · exact absurd (Or.inr h0) haj
        obtain ⟨rfl, rfl⟩ := haj'
        by_cases hm : i ∈ mainIsp
        · rw [c2 (.inl hm)]; rfl
        · by_cases hex : ∃ m, (m, s) ∈ set
          · obtain ⟨m, _, hh⟩ := c3 hm hex; rw [hh]; rfl
          · rw [c2 (.inr hex)]; rfl
    obtain ⟨h2, e2, d1, d2, d3⟩ := ih (k + 1) h1
      (fun x hx => (hin x (by simp [hx])).mono fun j _ hj => hsome _ _ hj) (fun x hx => hl x (by simp [hx]))
    have hq : ∀ a, Heap.cell h1 a q = h.cell a q := fun a => c1 a q (.inr (Ne.symm hoq))
    -- the isp cell of the first row's array in the final heap
    have hfinal : (i ∈ mainIsp ∨ ¬ ∃ m, (m, s) ∈ set) ∧ Heap.cell h2 r.vals.arr o = some i ∨
        i ∉ mainIsp ∧ ∃ m, (m, s) ∈ set ∧ Heap.cell h2 r.vals.arr o = some m := by
      by_cases hcond : i ∉ mainIsp ∧ ∃ m, (m, s) ∈ set
      · right
        obtain ⟨m, hms, hmc⟩ := c3 hcond.1 hcond.2
        refine ⟨hcond.1, m, hms, ?_⟩
        rcases d2 r.vals.arr with h3 | ⟨i', s', m', h3, h4, _⟩
        · rw [h3, hmc]
        · rw [hmc] at h3; cases h3; exact absurd (hset _ _ hms) h4
      · left
        have hc' : i ∈ mainIsp ∨ ¬ ∃ m, (m, s) ∈ set := by
          by_cases hm : i ∈ mainIsp
          · exact .inl hm
          · exact .inr fun hex => hcond ⟨hm, hex⟩
        refine ⟨hc', ?_⟩
        rcases d2 r.vals.arr with h3 | ⟨i', s', m', h3, h4, h5, h6, _⟩
        · rw [h3, c2 hc']
        · rw [c2 hc'] at h3; cases h3
          rw [hq, cs] at h5; cases h5
          rcases hc' with hh | hh
          · exact absurd hh h4
          · exact absurd ⟨m', h6⟩ hh
    refine ⟨h2, by simp only [trimLoop, e1, Res.ok_bind, e2], fun a j hj => ?_, fun a => ?_, fun x hx i' s' hi' hm' hs' hex' => ?_⟩
    · rw [d1 a j hj, c1 a j (.inr hj)]
    · by_cases ha : a = r.vals.arr
      · subst ha
        rcases hfinal with ⟨_, hh⟩ | ⟨hm, m, hms, hh⟩
        · left; rw [hh, ci]
        · right; exact ⟨i, s, m, ci, hm, cs, hms, hh⟩
      · rcases d2 a with h3 | ⟨i', s', m', h3, h4, h5, h6⟩
        · left; rw [h3, c1 a o (.inl ha)]
        · right
          rw [c1 a o (.inl ha)] at h3
          rw [hq] at h5
          exact ⟨i', s', m', h3, h4, h5, h6⟩
    · by_cases ha : x.vals.arr = r.vals.arr
      · rw [ha] at hi' hs' ⊢
        rw [ci] at hi'; rw [cs] at hs'; cases hi'; cases hs'
        rcases hfinal with ⟨hh | hh, _⟩ | ⟨_, hh⟩
        · exact absurd hh hm'
        · exact absurd hex' hh
        · exact hh
      · rcases List.mem_cons.mp hx with rfl | hx
        · exact absurd rfl ha
        · exact d3 x hx i' s' (by rw [c1 _ _ (.inl ha)]; exact hi') hm' (by rw [hq]; exact hs') hex'

end Uip.Operate
