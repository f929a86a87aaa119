import Verif.Props.IpNet2
/-!
# Property C78: what sorting a list of ranges gives

`sort.Sort` (Go std) is not modelled: it exchanges elements with `Swap` until no element is `Less` than its predecessor.
-/
namespace Uip
open Spec

/-- `s` is reached from `r` by calls of `Swap`. -/
inductive Swapped (r : List Range) : List Range → Prop
  | start : Swapped r r
  | swap {s t : List Range} {i j : Nat} : Swapped r s → Ranges.Swap s i j = .ok t → Swapped r t

/-- C78: whatever sequence of exchanges a sorting procedure makes, and however it chooses them, it keeps every range as often as it
was there; and once no range is `Less` than the one before it, the ranges are ordered by the addresses they start at. -/
theorem C78_sorted (r s : List Range) (h : Swapped r s) (hv : ∀ x ∈ r, ValidIP x.start) :
    s.Perm r ∧ ((∀ i, i + 1 < s.length → Ranges.Less s (i + 1) i = .ok false) →
      s.Pairwise fun a b => addrNum a.start ≤ addrNum b.start) := by
  have hp : s.Perm r := by
    induction h with
    | start => exact List.Perm.refl _
    | @swap s t i j _ hs ih =>
      unfold Ranges.Swap at hs
      by_cases hi : i < s.length
      · by_cases hj : j < s.length
        · rw [List.getElem?_eq_getElem hi, List.getElem?_eq_getElem hj] at hs
          rw [← Res.ok.inj hs]
          exact (List.set_set_perm hi hj).trans ih
        · rw [List.getElem?_eq_none (Nat.le_of_not_lt hj)] at hs
          split at hs
          · rename_i h; cases h
          · cases hs
      · rw [List.getElem?_eq_none (Nat.le_of_not_lt hi)] at hs
        cases hs
  refine ⟨hp, fun hl => ?_⟩
  have hv' : ∀ x ∈ s, ValidIP x.start := fun x hx => hv x (hp.mem_iff.mp hx)
  have adj : ∀ i (hi : i + 1 < s.length), addrNum s[i].start ≤ addrNum s[i + 1].start := by
    intro i hi
    have h1 := hl i hi
    rw [C78_less s (i + 1) i hi (by omega) hv'] at h1
    have := of_decide_eq_false (Res.ok.inj h1)
    omega
  rw [List.pairwise_iff_getElem]
  intro i j hi hj hij
  obtain ⟨d, rfl⟩ : ∃ d, j = i + 1 + d := ⟨j - (i + 1), by omega⟩
  clear hij
  induction d with
  | zero => exact adj i hj
  | succ d ih => exact Nat.le_trans (ih (by omega)) (adj (i + 1 + d) hj)

/-- Three ranges sorted by three exchanges of neighbours. -/
example :
    let a : Range := ⟨[10, 0, 0, 0], [10, 0, 0, 9]⟩
    let b : Range := ⟨[9, 0, 0, 0], [9, 0, 0, 9]⟩
    let c : Range := ⟨[1, 0, 0, 0], [1, 0, 0, 9]⟩
    Swapped [a, b, c] [c, b, a] ∧ (∀ i, i + 1 < [c, b, a].length → Ranges.Less [c, b, a] (i + 1) i = .ok false) := by
  refine ⟨.swap (i := 1) (j := 2) (.swap (i := 0) (j := 1) (.swap (i := 1) (j := 2) .start rfl) rfl) rfl, ?_⟩
  intro i hi
  have : i = 0 ∨ i = 1 := by simp at hi; omega
  rcases this with rfl | rfl <;> decide

end Uip
