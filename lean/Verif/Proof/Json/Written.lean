import Verif.Proof.Json.DecodeEnd
import Verif.Proof.Json.Values
/-!
# What the encoder writes is sound JSON
-/
namespace Uip.Json
open Uip Uip.Spec.AddrText Uip.Spec.JsonText

theorem escapeByte_cases : ∀ a : UInt8, a < 0x80 → 
    (escapeByte a = String.utf8EncodeChar (Char.ofNat a.toNat) ∧ 0x20 ≤ (Char.ofNat a.toNat).toNat ∧ Char.ofNat a.toNat ≠ '"' ∧ Char.ofNat a.toNat ≠ '\\') ∨
    (∃ p ∈ escapes, escapeByte a = [0x5C, p.1]) ∨
    (escapeByte a = 0x5C :: 0x75 :: 0x30 :: 0x30 :: digitChar (a.toNat / 16) :: digitChar (a.toNat % 16) :: [] ∧
      digitOf (digitChar (a.toNat / 16)) = a.toNat / 16 ∧ digitOf (digitChar (a.toNat % 16)) = a.toNat % 16 ∧
      (Char.ofNat a.toNat).toNat = a.toNat) := by
  refine byte_all _ ?_
  decide +kernel

theorem fold_four (a b c d : UInt8) : [a, b, c, d].foldl (fun n c => n * 16 + digitOf c) 0 =
    ((digitOf a * 16 + digitOf b) * 16 + digitOf c) * 16 + digitOf d := by
  simp only [List.foldl]; omega

/-- What is written between quotes always stands for a text. -/
theorem chars_escape (s : Str) : ∃ cs, Chars false (escape s) cs := by
  induction s using text_ind' with
  | h0 => exact ⟨[], .nil⟩
  | h1 a r ha ih =>
    obtain ⟨cs, ih⟩ := ih
    rw [escape_ascii ha]
    rcases escapeByte_cases a ha with ⟨e, h1, h2, h3⟩ | ⟨p, hp, e⟩ | ⟨e, h1, h2, h3⟩
    · rw [e]; exact ⟨_, .plain h1 h2 h3 ih⟩
    · rw [e]; exact ⟨_, .short (e := p.1) (c := p.2) hp ih⟩
    · rw [e]
      have hlt : a.toNat < 256 := a.toNat_lt
      refine ⟨Char.ofNat a.toNat :: cs, .long ⟨by simp, ?_, ?_⟩ ih⟩
      · simp only [List.forall_mem_cons]
        exact ⟨by decide, by decide, by omega, by omega, by simp⟩
      · rw [fold_four, h1, h2, h3]
        have : digitOf 0x30 = 0 := rfl
        omega
  | h2 a r h ih =>
    obtain ⟨cs, ih⟩ := ih
    rw [escape_bad h]
    exact ⟨'\uFFFD' :: cs, .long ⟨by simp, by decide, by decide⟩ ih⟩
  | h3 s n h ha ih =>
    obtain ⟨cs, ih⟩ := ih
    rw [escape_good h ha]
    unfold escapeChar
    split
    · exact ⟨'\u2028' :: cs, .long ⟨by simp, by decide, by decide⟩ ih⟩
    split
    · exact ⟨'\u2029' :: cs, .long ⟨by simp, by decide, by decide⟩ ih⟩
    · obtain ⟨c, hc⟩ := char_of_runeLen h
      have hb := high_bytes h ha
      rw [hc] at hb ⊢
      have big : ∀ (c : Char), (∀ b ∈ String.utf8EncodeChar c, ¬ b < 0x80) → ¬ c.toNat < 0x80 := by
        intro c hb hlt
        have hlt : c.val.toNat < 0x80 := hlt
        unfold String.utf8EncodeChar at hb
        simp only [] at hb
        rw [if_pos (by omega)] at hb
        have := hb _ (List.mem_singleton.mpr rfl)
        rw [lt_byte] at this
        apply this
        rw [byte_toNat _ (by omega)]
        exact hlt
      have := big c hb
      refine ⟨c :: cs, .plain (by omega) ?_ ?_ ih⟩
      · rintro rfl; exact this (by decide)
      · rintro rfl; exact this (by decide)

theorem stands_escape (s : Str) : Stands false (escape s) (repair s) := by
  obtain ⟨cs, h⟩ := chars_escape s
  exact ⟨cs, h, by rw [← unquote_chars h, unquote_escape]⟩

theorem sound_fits : ∀ (d : Nat) (j : Spec.JsonText.Json), Fits d (toJ j) → Sound j := by
  intro d
  induction d with
  | zero =>
    intro j h
    cases j with
    | null => exact .null
    | bool b => exact .bool b
    | num t => exact .num t
    | str t => obtain ⟨s, rfl⟩ := h; exact .str (stands_escape s)
    | arr l => exact h.elim
    | obj l => exact h.elim
  | succ d ih =>
    intro j h
    cases j with
    | null => exact .null
    | bool b => exact .bool b
    | num t => exact .num t
    | str t => obtain ⟨s, rfl⟩ := h; exact .str (stands_escape s)
    | arr l =>
      rw [toJ, toJs_eq] at h
      exact .arr fun v hv => ih v (h _ (List.mem_map_of_mem hv))
    | obj l =>
      rw [toJ, toJps_eq] at h
      refine .obj (fun p hp => ?_) fun p hp => ih _ (h _ (List.mem_map_of_mem hp)).2
      obtain ⟨⟨s, e⟩, _⟩ := h _ (List.mem_map_of_mem hp)
      simp only [] at e
      exact ⟨_, by rw [e]; exact stands_escape s⟩

/-- A value of the encoder is a sound JSON text. -/
theorem written_sound {v : JVal} (h : Fits maxDepth v) : ∃ j, Text maxDepth j v.text ∧ Sound j ∧ toJ j = v := by
  obtain ⟨j, h1, rfl⟩ := parse_spec (parse_text h)
  exact ⟨j, h1, sound_fits _ j h, rfl⟩

end Uip.Json
