import Verif.Proof.Awdb.Total
import Verif.Proof.Awdb.Decoder
import Verif.Model.Awdb.Reader
/-!
# Node records
-/
namespace Uip.Awdb
open Uip Uip.Spec.Awdb

theorem nodeBytes_length {rs : Nat} (h : rs = 24 ∨ rs = 28 ∨ rs = 32) (n : Nat × Nat) : (nodeBytes rs n).length = rs / 4 := by
  rcases h with rfl | rfl | rfl <;> simp [nodeBytes, be_length]

theorem tree_get {rs : Nat} (h : rs = 24 ∨ rs = 28 ∨ rs = 32) {nodes : List (Nat × Nat)} {i : Nat} {n : Nat × Nat}
    (hi : nodes[i]? = some n) {j : Nat} (hj : j < rs / 4) :
    (treeBytes rs nodes)[i * (rs / 4) + j]? = (nodeBytes rs n)[j]? := by
  induction nodes generalizing i with
  | nil => simp at hi
  | cons m nodes ih =>
    have hl := nodeBytes_length h m
    rw [treeBytes, List.flatMap_cons]
    cases i with
    | zero =>
      simp only [List.getElem?_cons_zero, Option.some.injEq] at hi
      subst hi
      rw [Nat.zero_mul, Nat.zero_add, List.getElem?_append_left (by omega)]
    | succ i =>
      rw [List.getElem?_append_right (by rw [Nat.succ_mul]; omega), hl, Nat.succ_mul]
      have e : i * (rs / 4) + rs / 4 + j - rs / 4 = i * (rs / 4) + j := by omega
      rw [e]
      exact ih (by simpa using hi)

theorem at_tree {rs : Nat} (h : rs = 24 ∨ rs = 28 ∨ rs = 32) {nodes : List (Nat × Nat)} {i : Nat} {n : Nat × Nat}
    (hi : nodes[i]? = some n) {j : Nat} (hj : j < rs / 4) {b : UInt8} (hb : (nodeBytes rs n)[j]? = some b) :
    at_ (treeBytes rs nodes) (i * (rs / 4) + j) = .ok b.toNat := by
  unfold at_
  rw [tree_get h hi hj, hb]

theorem child_tree {rs : Nat} (h : rs = 24 ∨ rs = 28 ∨ rs = 32) {nodes : List (Nat × Nat)} {i : Nat} {n : Nat × Nat}
    (hi : nodes[i]? = some n) (hl : n.1 < 2 ^ rs) (hr : n.2 < 2 ^ rs) (bit : Bool) :
    child (treeBytes rs nodes) rs i bit = .ok (if bit then n.2 else n.1) := by
  obtain ⟨l, r⟩ := n
  simp only [] at hl hr
  have g : ∀ (j : Nat) (b : UInt8), j < rs / 4 → (nodeBytes rs (l, r))[j]? = some b →
      at_ (treeBytes rs nodes) (i * (rs / 4) + j) = .ok b.toNat := fun j b hj hb => at_tree h hi hj hb
  have g0 := g 0
  rw [Nat.add_zero] at g0
  rcases h with rfl | rfl | rfl
  · simp only [nodeBytes, be] at g g0
    cases bit
    · simp only [child, readLeft]
      rw [g0 _ (by omega) rfl, g 1 _ (by omega) rfl, g 2 _ (by omega) rfl]
      simp
      omega
    · simp only [child, readRight]
      rw [g 3 _ (by omega) rfl, g 4 _ (by omega) rfl, g 5 _ (by omega) rfl]
      simp
      omega
  · simp only [nodeBytes, be] at g g0
    cases bit
    · simp only [child, readLeft]
      rw [g0 _ (by omega) rfl, g 1 _ (by omega) rfl, g 2 _ (by omega) rfl, g 3 _ (by omega) rfl]
      simp
      omega
    · simp only [child, readRight]
      rw [g 3 _ (by omega) rfl, g 4 _ (by omega) rfl, g 5 _ (by omega) rfl, g 6 _ (by omega) rfl]
      simp
      omega
  · simp only [nodeBytes, be] at g g0
    cases bit
    · simp only [child, readLeft]
      rw [g0 _ (by omega) rfl, g 1 _ (by omega) rfl, g 2 _ (by omega) rfl, g 3 _ (by omega) rfl]
      simp
      omega
    · simp only [child, readRight]
      rw [g 4 _ (by omega) rfl, g 5 _ (by omega) rfl, g 6 _ (by omega) rfl, g 7 _ (by omega) rfl]
      simp
      omega

end Uip.Awdb
