import Verif.Proof.Text
import Verif.Proof.Net
/-!
# The printed form of a network is short
-/
namespace Uip
open Uip.Spec

theorem digitsAux_length {b : Nat} (hb : 2 ≤ b) : ∀ (f n k : Nat), 1 ≤ k → n < b ^ k → (digitsAux b f n).length ≤ k
  | 0, n, k, _, _ => by simp [digitsAux]
  | f + 1, n, k, hk, hn => by
    unfold digitsAux
    split
    · simpa using hk
    · rename_i hge
      obtain ⟨k, rfl⟩ : ∃ j, k = j + 1 := ⟨k - 1, by omega⟩
      have hk1 : 1 ≤ k := by
        rcases Nat.eq_zero_or_pos k with h | h
        · subst h; rw [Nat.pow_one] at hn; omega
        · exact h
      have := digitsAux_length hb f (n / b) k hk1 (by
        rw [Nat.div_lt_iff_lt_mul (by omega), ← Nat.pow_succ]; exact hn)
      rw [List.length_append]; simp only [List.length_singleton]; omega

theorem decStr_length_le {n k : Nat} (hk : 1 ≤ k) (h : n < 10 ^ k) : (decStr n).length ≤ k := by
  unfold decStr digits; rw [List.length_map]; exact digitsAux_length (by omega) _ _ _ hk h

theorem hexStr_length_le {n k : Nat} (hk : 1 ≤ k) (h : n < 16 ^ k) : (hexStr n).length ≤ k := by
  unfold hexStr digits; rw [List.length_map]; exact digitsAux_length (by omega) _ _ _ hk h

theorem hexBytes_length (b : Bytes) : (hexBytes b).length = 2 * b.length := by
  unfold hexBytes
  induction b with
  | nil => rfl
  | cons x b ih => simp only [List.flatMap_cons, List.length_append, ih, List.length_cons, List.length_nil]; omega

theorem bytesToWords_lt : ∀ (n : Nat) (b : Bytes), b.length ≤ n → ∀ w ∈ bytesToWords b, w < 16 ^ 4
  | 0, [], _ => by simp [bytesToWords]
  | _ + 1, [], _ => by simp [bytesToWords]
  | _ + 1, [_], _ => by simp [bytesToWords]
  | n + 1, a :: b :: r, h => by
    intro w hw
    simp only [bytesToWords, List.mem_cons] at hw
    rcases hw with rfl | hw
    · have := UInt8.toNat_lt a; have := UInt8.toNat_lt b; omega
    · exact bytesToWords_lt n r (by simp at h; omega) w hw

theorem v6Print_length {ws : List Nat} (hw : ∀ w ∈ ws, w < 16 ^ 4) (e : Option (Nat × Nat)) :
    ∀ f i, (v6Print ws e f i).length ≤ 6 * f
  | 0, i => by simp [v6Print]
  | f + 1, i => by
    have hg : ∀ j, (hexStr (ws.getD j 0)).length ≤ 4 := fun j => hexStr_length_le (by omega) (by
      rw [List.getD_eq_getElem?_getD]
      cases h : ws[j]? with
      | none => simp
      | some w => exact hw w (List.mem_of_getElem? h))
    unfold v6Print
    split
    · simp
    · split
      · rename_i e0 e1
        split
        · split
          · simp; omega
          · have := hg e1; have := v6Print_length hw (some (e0, e1)) f (e1 + 1)
            simp only [List.length_cons, List.length_append]; omega
        · have := hg i; have := v6Print_length hw (some (e0, e1)) f (i + 1)
          simp only [List.length_append]
          split <;> simp only [List.length_singleton, List.length_nil] <;> omega
      · have := hg i; have := v6Print_length hw none f (i + 1)
        simp only [List.length_append]
        split <;> simp only [List.length_singleton, List.length_nil] <;> omega

theorem joinByte_length_le {c : UInt8} {k : Nat} : ∀ (l : List Str), (∀ s ∈ l, s.length ≤ k) → (joinByte c l).length ≤ (k + 1) * l.length
  | [], _ => by simp [joinByte]
  | [x], h => by have := h x (by simp); simp only [joinByte, List.length_singleton]; omega
  | x :: y :: r, h => by
    have h1 := h x (by simp)
    have h2 := joinByte_length_le (c := c) (y :: r) (fun s hs => h s (by simp [hs]))
    simp only [joinByte, List.length_append, List.length_cons] at h2 ⊢
    have h3 : (k + 1) * (r.length + 1 + 1) = (k + 1) * (r.length + 1) + (k + 1) := by rw [Nat.mul_succ]
    omega

theorem IPString_length {ip : IP} (h : ip.length = 4 ∨ ip.length = 16) : (IPString ip).length ≤ 48 := by
  unfold IPString
  rw [if_neg (by omega)]
  split
  · rename_i p4 hp
    unfold dotted
    have hl : p4.length = 4 := (To4_eq_some hp).2.1
    have := joinByte_length_le (c := 0x2E) (k := 3) (p4.map fun b => decStr b.toNat) (by
      intro s hs
      obtain ⟨b, _, rfl⟩ := List.mem_map.mp hs
      exact decStr_length_le (by omega) (Nat.lt_of_lt_of_le (UInt8.toNat_lt b) (by decide)))
    rw [List.length_map, hl] at this
    omega
  · split
    · rw [List.length_append, hexBytes_length]
      have : (gs "?").length = 1 := by decide
      omega
    · exact v6Print_length (bytesToWords_lt _ _ (Nat.le_refl _)) _ 8 0

/-- The printed form of a network with a four or sixteen byte mask. -/
theorem IPNetString_length (n : IPNet) : (IPNetString n).length ≤ 81 := by
  unfold IPNetString
  cases h : networkNumberAndMask n with
  | none => decide
  | some p =>
    obtain ⟨ip, m⟩ := p
    have hb : (ip.length = 4 ∨ ip.length = 16) ∧ m.length ≤ 16 := by
      unfold networkNumberAndMask at h
      split at h
      · cases h
      · rename_i ip' hip'
        have hl : ip'.length = 4 ∨ ip'.length = 16 := by
          split at hip'
          · rename_i p4 hp4
            injection hip' with hip'; subst hip'
            exact .inl (To4_eq_some hp4).2.1
          · split at hip'
            · injection hip' with hip'; subst hip'; right; assumption
            · cases hip'
        split at h
        · split at h
          · injection h with h; injection h with h1 h2; subst h1; subst h2; exact ⟨hl, by omega⟩
          · cases h
        · split at h
          · injection h with h; injection h with h1 h2; subst h1; subst h2
            refine ⟨hl, ?_⟩
            split
            · rw [List.length_drop]; omega
            · omega
          · cases h
    have h1 := IPString_length hb.1
    simp only []
    split
    · rw [List.length_append, List.length_cons, hexBytes_length]; omega
    · rename_i l hl
      have hl' := (simpleMaskLength_iff m l).mp hl
      have : l ≤ 8 * m.length := hl'.1
      have := decStr_length_le (n := l) (k := 3) (by omega) (by omega)
      rw [List.length_append, List.length_cons]; omega

end Uip
