import Verif.Proof.Json.Extend
import Verif.Proof.AddrText
import Verif.Spec.JsonText
/-!
# The scanner accepts exactly the texts of the grammar
-/
namespace Uip.Json
open Uip Uip.Spec.AddrText Uip.Spec.JsonText

/-! ## Digits -/

theorem isDigit_digitOf (c : UInt8) : isDigit c = true ↔ digitOf c < 10 := by
  rw [isDigit_iff]; exact (digitOf_dec c).1

theorem isHex_digitOf (c : UInt8) : isHex c = true ↔ digitOf c < 16 := by
  unfold isHex
  rw [digitOf_hex]
  split <;> simp_all

theorem digits_isDigit {t : Bytes} : Digits t ↔ t ≠ [] ∧ ∀ c ∈ t, isDigit c = true := by
  unfold Digits
  constructor
  · exact fun h => ⟨h.1, fun c hc => (isDigit_digitOf c).mpr (h.2 c hc)⟩
  · exact fun h => ⟨h.1, fun c hc => (isDigit_digitOf c).mp (h.2 c hc)⟩

theorem scanDigits_spec : ∀ (s d r : Bytes), scanDigits s = (d, r) → s = d ++ r ∧ ∀ c ∈ d, isDigit c = true := by
  intro s
  induction s with
  | nil => intro d r h; simp [scanDigits] at h; obtain ⟨rfl, rfl⟩ := h; simp
  | cons b s ih =>
    intro d r h
    rw [scanDigits] at h
    split at h
    · rename_i hb
      obtain ⟨e1, e2⟩ := Prod.mk.inj h
      obtain ⟨i1, i2⟩ := ih _ _ rfl
      subst e1 e2
      refine ⟨by rw [List.cons_append, ← i1], ?_⟩
      intro c hc
      rcases List.mem_cons.mp hc with rfl | hc
      · exact hb
      · exact i2 c hc
    · obtain ⟨rfl, rfl⟩ := Prod.mk.inj h
      simp

/-! ## Numbers -/

theorem scanWhole_grammar {w r : Bytes} (h : Digits w) (hz : w.head? = some 0x30 → w = [0x30])
    (hr : ∀ c, r.head? = some c → isDigit c = false) : scanWhole (w ++ r) = some (w, r) := by
  obtain ⟨hne, hd⟩ := digits_isDigit.mp h
  cases w with
  | nil => exact absurd rfl hne
  | cons a w =>
    unfold scanWhole
    split
    · rename_i t e
      simp only [List.cons_append, List.cons.injEq] at e
      obtain ⟨rfl, e⟩ := e
      have := hz rfl
      simp only [List.cons.injEq, true_and] at this
      subst this
      simp only [List.nil_append] at e
      rw [e]
    · rw [scanDigits_all hd hr]

theorem scanWhole_spec {s w r : Bytes} (h : scanWhole s = some (w, r)) :
    s = w ++ r ∧ Digits w ∧ (w.head? = some 0x30 → w = [0x30]) := by
  unfold scanWhole at h
  split at h
  · obtain ⟨rfl, rfl⟩ := Prod.mk.inj (Option.some.inj h)
    exact ⟨rfl, digits_isDigit.mpr ⟨by simp, by decide⟩, fun _ => rfl⟩
  · rename_i hs
    split at h
    · cases h
    · rename_i p hp
      have h := Option.some.inj h
      have e := scanDigits_spec s w r h
      refine ⟨e.1, digits_isDigit.mpr ⟨?_, e.2⟩, ?_⟩
      · rintro rfl; exact hp r h
      · intro hz
        obtain ⟨e1, _⟩ := e
        cases w with
        | nil => cases hz
        | cons a w =>
          simp at hz
          subst hz
          exact absurd e1 (hs _)

theorem scanFraction_spec {s w r : Bytes} (h : scanFraction s = some (w, r)) :
    s = w ++ r ∧ (w = [] ∨ ∃ d, w = 0x2E :: d ∧ Digits d) := by
  unfold scanFraction at h
  split at h
  · rename_i t
    split at h
    · cases h
    · rename_i d r' hne e
      obtain ⟨rfl, rfl⟩ := Prod.mk.inj (Option.some.inj h)
      obtain ⟨e1, e2⟩ := scanDigits_spec _ _ _ e
      refine ⟨by rw [e1]; rfl, .inr ⟨d, rfl, digits_isDigit.mpr ⟨?_, e2⟩⟩⟩
      rintro rfl; exact hne rfl
  · obtain ⟨rfl, rfl⟩ := Prod.mk.inj (Option.some.inj h)
    exact ⟨rfl, .inl rfl⟩

theorem scanSign_spec (s : Bytes) : s = (scanSign s).1 ++ (scanSign s).2 ∧
    ((scanSign s).1 = [] ∨ (scanSign s).1 = [0x2B] ∨ (scanSign s).1 = [0x2D]) := by
  unfold scanSign
  split <;> simp

theorem scanExponent_spec {s w r : Bytes} (h : scanExponent s = some (w, r)) :
    s = w ++ r ∧ (w = [] ∨ ∃ e sign d, w = e :: (sign ++ d) ∧ (e = 0x65 ∨ e = 0x45) ∧
      (sign = [] ∨ sign = [0x2B] ∨ sign = [0x2D]) ∧ Digits d) := by
  cases s with
  | nil =>
    obtain ⟨rfl, rfl⟩ := Prod.mk.inj (Option.some.inj h)
    exact ⟨rfl, .inl rfl⟩
  | cons a s =>
    simp only [scanExponent] at h
    split at h
    · rename_i ha
      obtain ⟨g1, g2⟩ := scanSign_spec s
      split at h
      · cases h
      · rename_i d t hne e
        obtain ⟨rfl, rfl⟩ := Prod.mk.inj (Option.some.inj h)
        obtain ⟨e1, e2⟩ := scanDigits_spec _ _ _ e
        refine ⟨?_, .inr ⟨a, _, d, rfl, ha, g2, digits_isDigit.mpr ⟨?_, e2⟩⟩⟩
        · conv => lhs; rw [g1, e1]
          simp
        · rintro rfl; exact hne rfl
    · obtain ⟨rfl, rfl⟩ := Prod.mk.inj (Option.some.inj h)
      exact ⟨rfl, .inl rfl⟩

theorem scanMinus_spec (s : Bytes) : s = (scanMinus s).1 ++ (scanMinus s).2 ∧
    ((scanMinus s).1 = [] ∨ (scanMinus s).1 = [0x2D]) := by
  unfold scanMinus
  split <;> simp

theorem scanNum_spec {s t r : Bytes} (h : scanNum s = some (t, r)) : s = t ++ r ∧ Number t := by
  unfold scanNum at h
  obtain ⟨m1, m2⟩ := scanMinus_spec s
  split at h
  · cases h
  rename_i w r1 hw
  split at h
  · cases h
  rename_i f r2 hf
  split at h
  · cases h
  rename_i e r3 he
  obtain ⟨rfl, rfl⟩ := Prod.mk.inj (Option.some.inj h)
  obtain ⟨w1, w2, w3⟩ := scanWhole_spec hw
  obtain ⟨f1, f2⟩ := scanFraction_spec hf
  obtain ⟨e1, e2⟩ := scanExponent_spec he
  refine ⟨?_, (scanMinus s).1, w, f, e, by simp, m2, w2, w3, f2, e2⟩
  conv => lhs; rw [m1, w1, f1, e1]
  simp

theorem scanFraction_grammar {f r : Bytes} (h : f = [] ∨ ∃ d, f = 0x2E :: d ∧ Digits d)
    (hr : ∀ c, r.head? = some c → isDigit c = false ∧ c ≠ 0x2E) : scanFraction (f ++ r) = some (f, r) := by
  rcases h with rfl | ⟨d, rfl, hd⟩
  · exact scanFraction_none fun c hc => (hr c hc).2
  · obtain ⟨hne, hd⟩ := digits_isDigit.mp hd
    show scanFraction (0x2E :: (d ++ r)) = _
    unfold scanFraction
    simp only []
    rw [scanDigits_all hd fun c hc => (hr c hc).1]
    cases d with
    | nil => exact absurd rfl hne
    | cons a d => rfl

theorem scanExponent_grammar {f r : Bytes} (h : f = [] ∨ ∃ e sign d, f = e :: (sign ++ d) ∧ (e = 0x65 ∨ e = 0x45) ∧
      (sign = [] ∨ sign = [0x2B] ∨ sign = [0x2D]) ∧ Digits d)
    (hr : NumEnds r) : scanExponent (f ++ r) = some (f, r) := by
  rcases h with rfl | ⟨e, sign, d, rfl, he, hs, hd⟩
  · exact scanExponent_none fun c hc => (hr c hc).2.2
  · obtain ⟨hne, hd⟩ := digits_isDigit.mp hd
    show scanExponent (e :: (sign ++ d ++ r)) = _
    have hsign : scanSign (sign ++ d ++ r) = (sign, d ++ r) := by
      cases d with
      | nil => exact absurd rfl hne
      | cons a d =>
        have ha := hd a (List.mem_cons_self ..)
        rcases hs with rfl | rfl | rfl
        · unfold scanSign
          split
          · rename_i e; simp at e; rw [e.1] at ha; exact absurd ha (by decide)
          · rename_i e; simp at e; rw [e.1] at ha; exact absurd ha (by decide)
          · rfl
        · rfl
        · rfl
    simp only [scanExponent]
    rw [if_pos he, hsign]
    simp only []
    rw [scanDigits_all hd fun c hc => (hr c hc).1]
    cases d with
    | nil => exact absurd rfl hne
    | cons a d => rfl

theorem head_not_digit {f e r : Bytes} (hf : f = [] ∨ ∃ d, f = 0x2E :: d ∧ Digits d)
    (he : e = [] ∨ ∃ x sign d, e = x :: (sign ++ d) ∧ (x = 0x65 ∨ x = 0x45) ∧ (sign = [] ∨ sign = [0x2B] ∨ sign = [0x2D]) ∧ Digits d)
    (hr : NumEnds r) : (∀ c, (f ++ (e ++ r)).head? = some c → isDigit c = false) ∧
      ∀ c, (e ++ r).head? = some c → isDigit c = false ∧ c ≠ 0x2E := by
  have h2 : ∀ c, (e ++ r).head? = some c → isDigit c = false ∧ c ≠ 0x2E := by
    intro c hc
    rcases he with rfl | ⟨x, sign, d, rfl, hx, _⟩
    · exact ⟨(hr c hc).1, (hr c hc).2.1⟩
    · simp at hc; subst hc; rcases hx with rfl | rfl <;> decide
  refine ⟨fun c hc => ?_, h2⟩
  rcases hf with rfl | ⟨d, rfl, _⟩
  · exact (h2 c hc).1
  · simp at hc; subst hc; decide

theorem scanNum_grammar {t r : Bytes} (h : Number t) (hr : NumEnds r) : scanNum (t ++ r) = some (t, r) := by
  obtain ⟨m, w, f, e, rfl, hm, hw, hz, hf, he⟩ := h
  obtain ⟨h1, h2⟩ := head_not_digit hf he hr
  have hmin : scanMinus (m ++ (w ++ (f ++ e)) ++ r) = (m, w ++ (f ++ (e ++ r))) := by
    simp only [List.append_assoc]
    rcases hm with rfl | rfl
    · cases w with
      | nil => exact absurd rfl hw.1
      | cons a w =>
        have ha := (isDigit_digitOf a).mpr (hw.2 a (List.mem_cons_self ..))
        unfold scanMinus
        split
        · rename_i e; simp at e; rw [e.1] at ha; exact absurd ha (by decide)
        · rfl
    · rfl
  unfold scanNum
  rw [hmin]
  simp only []
  rw [scanWhole_grammar hw hz h1]
  simp only []
  rw [scanFraction_grammar hf h2]
  simp only []
  rw [scanExponent_grammar he hr]
  simp

theorem number_head {t : Bytes} (h : Number t) : ∃ b r, t = b :: r ∧ (b = 0x2D ∨ isDigit b = true) := by
  obtain ⟨m, w, f, e, rfl, hm, hw, _⟩ := h
  rcases hm with rfl | rfl
  · cases w with
    | nil => exact absurd rfl hw.1
    | cons a w => exact ⟨a, _, rfl, .inr ((isDigit_digitOf a).mpr (hw.2 a (List.mem_cons_self ..)))⟩
  · exact ⟨_, _, rfl, .inl rfl⟩

/-! ## Strings -/

theorem hex4_hex {a b c d : UInt8} {n : Nat} (h : Hex4 a b c d n) : (isHex a && isHex b && isHex c && isHex d) = true := by
  have := h.digit
  simp only [Bool.and_eq_true, isHex_digitOf]
  exact ⟨⟨⟨this a (by simp), this b (by simp)⟩, this c (by simp)⟩, this d (by simp)⟩

theorem hex4_of {a b c d : UInt8} (h : (isHex a && isHex b && isHex c && isHex d) = true) :
    ∃ n, Hex4 a b c d n := by
  simp only [Bool.and_eq_true, isHex_digitOf] at h
  obtain ⟨⟨⟨h1, h2⟩, h3⟩, h4⟩ := h
  exact ⟨_, by simp, by simp only [List.forall_mem_cons]; exact ⟨h1, h2, h3, h4, by simp⟩, rfl⟩

theorem escapes_mem {e : UInt8} {c : Char} (h : (e, c) ∈ escapes) :
    e ≠ 0x75 ∧ (e = 0x62 ∨ e = 0x66 ∨ e = 0x6E ∨ e = 0x72 ∨ e = 0x74 ∨ e = 0x5C ∨ e = 0x2F ∨ e = 0x22) ∧
      String.utf8EncodeChar c = [unescape e] := by
  have : ∀ p ∈ escapes, p.1 ≠ 0x75 ∧ (p.1 = 0x62 ∨ p.1 = 0x66 ∨ p.1 = 0x6E ∨ p.1 = 0x72 ∨ p.1 = 0x74 ∨ p.1 = 0x5C ∨ p.1 = 0x2F ∨ p.1 = 0x22) ∧
      String.utf8EncodeChar p.2 = [unescape p.1] := by decide
  exact this _ h

theorem escapes_of {e : UInt8} (h : e = 0x62 ∨ e = 0x66 ∨ e = 0x6E ∨ e = 0x72 ∨ e = 0x74 ∨ e = 0x5C ∨ e = 0x2F ∨ e = 0x22) :
    ∃ c, (e, c) ∈ escapes := by
  rcases h with rfl | rfl | rfl | rfl | rfl | rfl | rfl | rfl
  · exact ⟨'\x08', by decide⟩
  · exact ⟨'\x0C', by decide⟩
  · exact ⟨'\n', by decide⟩
  · exact ⟨'\r', by decide⟩
  · exact ⟨'\t', by decide⟩
  · exact ⟨'\\', by decide⟩
  · exact ⟨'/', by decide⟩
  · exact ⟨'"', by decide⟩

theorem not_lt_20 {b : UInt8} : ¬ b < 0x20 ↔ 0x20 ≤ b := by
  rw [lt_byte, UInt8.le_iff_toNat_le]
  show ¬ b.toNat < 32 ↔ 32 ≤ b.toNat
  omega

theorem scanStr_grammar {s : Bytes} (h : Quoted s) (r : Bytes) : scanStr (s ++ 0x22 :: r) = some (s, r) := by
  induction h with
  | nil => exact scanStr_quote r
  | plain h1 h2 h3 _ ih => rw [List.cons_append, scanStr_plain h2 h3 (not_lt_20.mpr h1), ih]; rfl
  | short h1 _ ih =>
    obtain ⟨g1, g2, _⟩ := escapes_mem h1
    rw [List.cons_append, List.cons_append, scanStr_short g1 g2, ih]; rfl
  | long h1 _ ih => simp only [List.cons_append]; rw [scanStr_u (hex4_hex h1), ih]; rfl

theorem scanStr_spec : ∀ (n : Nat) (s p r : Bytes), s.length ≤ n → scanStr s = some (p, r) → s = p ++ 0x22 :: r ∧ Quoted p := by
  intro n
  induction n with
  | zero =>
    intro s p r hs h
    cases s with
    | nil => rw [scanStr.eq_def] at h; cases h
    | cons a s => simp at hs
  | succ n ih =>
    intro s p r hs h
    rw [scanStr.eq_def] at h
    cases s with
    | nil => cases h
    | cons b s =>
      simp only [List.length_cons] at hs
      simp only [] at h
      by_cases h1 : b = 0x22
      · rw [if_pos h1] at h
        obtain ⟨rfl, rfl⟩ := Prod.mk.inj (Option.some.inj h)
        subst h1
        exact ⟨rfl, .nil⟩
      rw [if_neg h1] at h
      by_cases h2 : b = 0x5C
      · subst h2
        rw [if_pos rfl] at h
        cases s with
        | nil => cases h
        | cons c s =>
          simp only [List.length_cons] at hs
          simp only [] at h
          by_cases h3 : c = 0x75
          · subst h3
            rw [if_pos rfl] at h
            split at h
            · rename_i d1 d2 d3 d4 r''
              split at h
              · rename_i hx
                simp only [List.length_cons] at hs
                rw [Option.map_eq_some_iff] at h
                obtain ⟨⟨p', r'⟩, hq, e⟩ := h
                obtain ⟨rfl, rfl⟩ := Prod.mk.inj e
                obtain ⟨i1, i2⟩ := ih _ _ _ (by omega) hq
                obtain ⟨m, hm⟩ := hex4_of hx
                exact ⟨by rw [i1]; simp, .long hm i2⟩
              · cases h
            · cases h
          rw [if_neg h3] at h
          split at h
          · rename_i hc
            rw [Option.map_eq_some_iff] at h
            obtain ⟨⟨p', r'⟩, hq, e⟩ := h
            obtain ⟨rfl, rfl⟩ := Prod.mk.inj e
            obtain ⟨i1, i2⟩ := ih _ _ _ (by omega) hq
            obtain ⟨m, hm⟩ := escapes_of hc
            exact ⟨by rw [i1]; simp, .short hm i2⟩
          · cases h
      rw [if_neg h2] at h
      split at h
      · cases h
      · rename_i h4
        rw [Option.map_eq_some_iff] at h
        obtain ⟨⟨p', r'⟩, hq, e⟩ := h
        obtain ⟨rfl, rfl⟩ := Prod.mk.inj e
        obtain ⟨i1, i2⟩ := ih _ _ _ (by omega) hq
        exact ⟨by rw [i1]; simp, .plain (not_lt_20.mp h4) h1 h2 i2⟩

end Uip.Json
