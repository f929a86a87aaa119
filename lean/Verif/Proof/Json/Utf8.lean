import Verif.Model.GoJson
/-!
# UTF-8: the characters of a text
-/
namespace Uip.Json
open Uip

theorem within_iff {lo hi b : UInt8} : within lo hi b = true ↔ lo.toNat ≤ b.toNat ∧ b.toNat ≤ hi.toNat := by
  unfold within
  rw [decide_eq_true_eq, UInt8.le_iff_toNat_le, UInt8.le_iff_toNat_le]

theorem runeLen_bounds {s : Bytes} {n : Nat} (h : runeLen s = some n) : 1 ≤ n ∧ n ≤ 4 ∧ n ≤ s.length := by
  unfold runeLen at h
  repeat' split at h
  all_goals first | (cases h; done) | (injection h with h; subst h; simp only [List.length_cons]; omega)

theorem byte_toNat (n : Nat) (h : n < 256) : (UInt8.ofNat n).toNat = n := by
  rw [UInt8.toNat_ofNat']; exact Nat.mod_eq_of_lt h

theorem byte_ext {a : UInt8} {n : Nat} (h : a.toNat = n) : UInt8.ofNat n = a := by
  subst h; exact UInt8.ofNat_toNat

theorem lt_byte {a b : UInt8} : a < b ↔ a.toNat < b.toNat := UInt8.lt_iff_toNat_lt
theorem eq_byte {a b : UInt8} : a = b ↔ a.toNat = b.toNat := UInt8.toNat_inj.symm

theorem runeLen_one {a : UInt8} {r : Bytes} (h : a < 0x80) : runeLen (a :: r) = some 1 := by
  unfold runeLen; dsimp only; rw [if_pos h]

theorem runeLen_two {a b : UInt8} {r : Bytes} (h1 : 0xC2 ≤ a.toNat) (h2 : a.toNat < 0xE0) (h3 : 0x80 ≤ b.toNat) (h4 : b.toNat ≤ 0xBF) :
    runeLen (a :: b :: r) = some 2 := by
  unfold runeLen
  dsimp only
  rw [if_neg (by rw [lt_byte]; show ¬ _ < 0x80; omega), if_neg (by rw [lt_byte]; show ¬ _ < 0xC2; omega), if_pos (by rw [lt_byte]; show _ < 0xE0; omega)]
  rw [if_pos ((within_iff (lo := 0x80) (hi := 0xBF)).mpr ⟨h3, h4⟩)]

theorem runeLen_three {a b c : UInt8} {r : Bytes} (h1 : 0xE0 ≤ a.toNat) (h2 : a.toNat < 0xF0)
    (h3 : (if a.toNat = 0xE0 then 0xA0 else 0x80) ≤ b.toNat) (h4 : b.toNat ≤ (if a.toNat = 0xED then 0x9F else 0xBF))
    (h5 : 0x80 ≤ c.toNat) (h6 : c.toNat ≤ 0xBF) : runeLen (a :: b :: c :: r) = some 3 := by
  unfold runeLen
  dsimp only
  rw [if_neg (by rw [lt_byte]; show ¬ _ < 0x80; omega), if_neg (by rw [lt_byte]; show ¬ _ < 0xC2; omega),
    if_neg (by rw [lt_byte]; show ¬ _ < 0xE0; omega), if_pos (by rw [lt_byte]; show _ < 0xF0; omega)]
  rw [if_pos]
  rw [Bool.and_eq_true, within_iff, within_iff]
  refine ⟨⟨?_, ?_⟩, h5, h6⟩
  · have : (a = 0xE0) ↔ a.toNat = 0xE0 := eq_byte
    by_cases e : a = 0xE0
    · rw [if_pos e]; rw [if_pos (this.mp e)] at h3; exact h3
    · rw [if_neg e]; rw [if_neg (fun h => e (this.mpr h))] at h3; exact h3
  · have : (a = 0xED) ↔ a.toNat = 0xED := eq_byte
    by_cases e : a = 0xED
    · rw [if_pos e]; rw [if_pos (this.mp e)] at h4; exact h4
    · rw [if_neg e]; rw [if_neg (fun h => e (this.mpr h))] at h4; exact h4

theorem runeLen_four {a b c d : UInt8} {r : Bytes} (h1 : 0xF0 ≤ a.toNat) (h2 : a.toNat < 0xF5)
    (h3 : (if a.toNat = 0xF0 then 0x90 else 0x80) ≤ b.toNat) (h4 : b.toNat ≤ (if a.toNat = 0xF4 then 0x8F else 0xBF))
    (h5 : 0x80 ≤ c.toNat) (h6 : c.toNat ≤ 0xBF) (h7 : 0x80 ≤ d.toNat) (h8 : d.toNat ≤ 0xBF) :
    runeLen (a :: b :: c :: d :: r) = some 4 := by
  unfold runeLen
  dsimp only
  rw [if_neg (by rw [lt_byte]; show ¬ _ < 0x80; omega), if_neg (by rw [lt_byte]; show ¬ _ < 0xC2; omega),
    if_neg (by rw [lt_byte]; show ¬ _ < 0xE0; omega), if_neg (by rw [lt_byte]; show ¬ _ < 0xF0; omega),
    if_pos (by rw [lt_byte]; show _ < 0xF5; omega)]
  rw [if_pos]
  rw [Bool.and_eq_true, Bool.and_eq_true, within_iff, within_iff, within_iff]
  refine ⟨⟨⟨?_, ?_⟩, h5, h6⟩, h7, h8⟩
  · have : (a = 0xF0) ↔ a.toNat = 0xF0 := eq_byte
    by_cases e : a = 0xF0
    · rw [if_pos e]; rw [if_pos (this.mp e)] at h3; exact h3
    · rw [if_neg e]; rw [if_neg (fun h => e (this.mpr h))] at h3; exact h3
  · have : (a = 0xF4) ↔ a.toNat = 0xF4 := eq_byte
    by_cases e : a = 0xF4
    · rw [if_pos e]; rw [if_pos (this.mp e)] at h4; exact h4
    · rw [if_neg e]; rw [if_neg (fun h => e (this.mpr h))] at h4; exact h4

/-- The encoding of a character is recognised. -/
theorem runeLen_char (c : Char) (t : Bytes) :
    runeLen (String.utf8EncodeChar c ++ t) = some (String.utf8EncodeChar c).length := by
  have hv : c.val.toNat < 0xd800 ∨ (0xdfff < c.val.toNat ∧ c.val.toNat < 0x110000) := c.valid
  unfold String.utf8EncodeChar
  simp only []
  generalize c.val.toNat = v at hv ⊢
  by_cases h1 : v ≤ 0x7f
  · rw [if_pos h1]
    exact runeLen_one (by rw [lt_byte, byte_toNat _ (by omega)]; show _ < 0x80; omega)
  rw [if_neg h1]
  by_cases h2 : v ≤ 0x7ff
  · rw [if_pos h2]
    apply runeLen_two <;> rw [byte_toNat _ (by omega)] <;> omega
  rw [if_neg h2]
  by_cases h3 : v ≤ 0xffff
  · rw [if_pos h3]
    apply runeLen_three <;> rw [byte_toNat _ (by omega)] <;> try rw [byte_toNat _ (by omega)]
    all_goals try (split)
    all_goals omega
  · rw [if_neg h3]
    apply runeLen_four <;> rw [byte_toNat _ (by omega)] <;> try rw [byte_toNat _ (by omega)]
    all_goals try (split)
    all_goals omega

/-- A recognised character is the encoding of some character. -/
theorem char_of_runeLen {s : Bytes} {n : Nat} (h : runeLen s = some n) : ∃ c : Char, s.take n = String.utf8EncodeChar c := by
  have mk : ∀ v : Nat, (v < 0xd800 ∨ (0xdfff < v ∧ v < 0x110000)) → ∃ c : Char, c.val.toNat = v := by
    intro v hv
    refine ⟨⟨UInt32.ofNat v, ?_⟩, ?_⟩
    · have : (UInt32.ofNat v).toNat = v := by rw [UInt32.toNat_ofNat']; exact Nat.mod_eq_of_lt (by omega)
      show (UInt32.ofNat v).toNat.isValidChar
      rw [this]; exact hv
    · show (UInt32.ofNat v).toNat = v
      rw [UInt32.toNat_ofNat']; exact Nat.mod_eq_of_lt (by omega)
  unfold runeLen at h
  split at h
  · cases h
  rename_i a r
  have ha : a.toNat < 256 := a.toNat_lt
  by_cases h1 : a < 0x80
  · rw [if_pos h1] at h
    injection h with h; subst h
    have h1' : a.toNat < 0x80 := lt_byte.mp h1
    obtain ⟨c, hc⟩ := mk a.toNat (by omega)
    refine ⟨c, ?_⟩
    unfold String.utf8EncodeChar
    simp only [hc]
    rw [if_pos (by omega), byte_ext rfl]; rfl
  rw [if_neg h1] at h
  have h1' : 0x80 ≤ a.toNat := by rw [lt_byte] at h1; exact Nat.not_lt.mp h1
  by_cases h2 : a < 0xC2
  · rw [if_pos h2] at h; cases h
  rw [if_neg h2] at h
  have h2' : 0xC2 ≤ a.toNat := by rw [lt_byte] at h2; exact Nat.not_lt.mp h2
  by_cases h3 : a < 0xE0
  · rw [if_pos h3] at h
    have h3' : a.toNat < 0xE0 := lt_byte.mp h3
    split at h
    · rename_i b r
      split at h
      · rename_i hb
        obtain ⟨hb1, hb2⟩ := within_iff.mp hb
        have hb1 : 0x80 ≤ b.toNat := hb1
        have hb2 : b.toNat ≤ 0xBF := hb2
        injection h with h; subst h
        obtain ⟨c, hc⟩ := mk ((a.toNat - 0xC0) * 64 + (b.toNat - 0x80)) (by omega)
        refine ⟨c, ?_⟩
        unfold String.utf8EncodeChar
        simp only [hc]
        rw [if_neg (by omega), if_pos (by omega), byte_ext (a := a) (by omega), byte_ext (a := b) (by omega)]; rfl
      · cases h
    · cases h
  rw [if_neg h3] at h
  have h3' : 0xE0 ≤ a.toNat := by rw [lt_byte] at h3; exact Nat.not_lt.mp h3
  by_cases h4 : a < 0xF0
  · rw [if_pos h4] at h
    have h4' : a.toNat < 0xF0 := lt_byte.mp h4
    split at h
    · rename_i b c' r
      rw [Option.ite_none_right_eq_some] at h
      obtain ⟨hb, h⟩ := h
      · rw [Bool.and_eq_true] at hb
        obtain ⟨hb1, hb2⟩ := within_iff.mp hb.1
        obtain ⟨hc1, hc2⟩ := within_iff.mp hb.2
        have hc1 : 0x80 ≤ c'.toNat := hc1
        have hc2 : c'.toNat ≤ 0xBF := hc2
        have hE0 : (a = 0xE0) ↔ a.toNat = 0xE0 := eq_byte
        have hED : (a = 0xED) ↔ a.toNat = 0xED := eq_byte
        have hb3 : 0x80 ≤ b.toNat ∧ (a.toNat = 0xE0 → 0xA0 ≤ b.toNat) := by
          by_cases e : a = 0xE0
          · rw [if_pos e] at hb1
            have hb1 : 0xA0 ≤ b.toNat := hb1
            omega
          · rw [if_neg e] at hb1
            have hb1 : 0x80 ≤ b.toNat := hb1
            have hne := mt hE0.mpr e
            omega
        have hb4 : b.toNat ≤ 0xBF ∧ (a.toNat = 0xED → b.toNat ≤ 0x9F) := by
          by_cases e : a = 0xED
          · rw [if_pos e] at hb2
            have hb2 : b.toNat ≤ 0x9F := hb2
            omega
          · rw [if_neg e] at hb2
            have hb2 : b.toNat ≤ 0xBF := hb2
            have hne := mt hED.mpr e
            omega
        injection h with h; subst h
        obtain ⟨c, hc⟩ := mk ((a.toNat - 0xE0) * 4096 + (b.toNat - 0x80) * 64 + (c'.toNat - 0x80)) (by omega)
        refine ⟨c, ?_⟩
        unfold String.utf8EncodeChar
        simp only [hc]
        rw [if_neg (by omega), if_neg (by omega), if_pos (by omega), byte_ext (a := a) (by omega), byte_ext (a := b) (by omega),
          byte_ext (a := c') (by omega)]; rfl
    · cases h
  rw [if_neg h4] at h
  have h4' : 0xF0 ≤ a.toNat := by rw [lt_byte] at h4; exact Nat.not_lt.mp h4
  by_cases h5 : a < 0xF5
  · rw [if_pos h5] at h
    have h5' : a.toNat < 0xF5 := lt_byte.mp h5
    split at h
    · rename_i b c' d r
      rw [Option.ite_none_right_eq_some] at h
      obtain ⟨hb, h⟩ := h
      · rw [Bool.and_eq_true, Bool.and_eq_true] at hb
        obtain ⟨hb1, hb2⟩ := within_iff.mp hb.1.1
        obtain ⟨hc1, hc2⟩ := within_iff.mp hb.1.2
        obtain ⟨hd1, hd2⟩ := within_iff.mp hb.2
        have hc1 : 0x80 ≤ c'.toNat := hc1
        have hc2 : c'.toNat ≤ 0xBF := hc2
        have hd1 : 0x80 ≤ d.toNat := hd1
        have hd2 : d.toNat ≤ 0xBF := hd2
        have hE0 : (a = 0xF0) ↔ a.toNat = 0xF0 := eq_byte
        have hED : (a = 0xF4) ↔ a.toNat = 0xF4 := eq_byte
        have hb3 : 0x80 ≤ b.toNat ∧ (a.toNat = 0xF0 → 0x90 ≤ b.toNat) := by
          by_cases e : a = 0xF0
          · rw [if_pos e] at hb1
            have hb1 : 0x90 ≤ b.toNat := hb1
            omega
          · rw [if_neg e] at hb1
            have hb1 : 0x80 ≤ b.toNat := hb1
            have hne := mt hE0.mpr e
            omega
        have hb4 : b.toNat ≤ 0xBF ∧ (a.toNat = 0xF4 → b.toNat ≤ 0x8F) := by
          by_cases e : a = 0xF4
          · rw [if_pos e] at hb2
            have hb2 : b.toNat ≤ 0x8F := hb2
            omega
          · rw [if_neg e] at hb2
            have hb2 : b.toNat ≤ 0xBF := hb2
            have hne := mt hED.mpr e
            omega
        injection h with h; subst h
        obtain ⟨c, hc⟩ := mk ((a.toNat - 0xF0) * 262144 + (b.toNat - 0x80) * 4096 + (c'.toNat - 0x80) * 64 + (d.toNat - 0x80)) (by omega)
        refine ⟨c, ?_⟩
        unfold String.utf8EncodeChar
        simp only [hc]
        rw [if_neg (by omega), if_neg (by omega), if_neg (by omega), byte_ext (a := a) (by omega), byte_ext (a := b) (by omega),
          byte_ext (a := c') (by omega), byte_ext (a := d) (by omega)]; rfl
    · cases h
  · rw [if_neg h5] at h; cases h

/-- Whether there is a character at the front depends on its bytes only. -/
theorem runeLen_append {s : Bytes} {n : Nat} (h : runeLen s = some n) (t : Bytes) : runeLen (s.take n ++ t) = some n := by
  obtain ⟨c, hc⟩ := char_of_runeLen h
  have hl : (String.utf8EncodeChar c).length = n := by
    rw [← hc, List.length_take]; have := runeLen_bounds h; omega
  rw [hc, runeLen_char, hl]

end Uip.Json
