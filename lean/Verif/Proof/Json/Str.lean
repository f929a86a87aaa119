import Verif.Proof.Json.Utf8
import Verif.Proof.Text
import Verif.Spec.Json
/-!
# Strings in JSON: escaping and unquoting
-/
namespace Uip.Json
open Uip

/-! ## Repairing a text -/

theorem repairLoop_eq : ∀ (f : Nat) (s : Str), s.length ≤ f → ∀ g, s.length ≤ g → repairLoop f s = repairLoop g s := by
  intro f
  induction f with
  | zero => intro s hs g _; cases s with
            | nil => cases g <;> rfl
            | cons a r => simp at hs
  | succ f ih =>
    intro s hs g hg
    cases s with
    | nil => cases g <;> rfl
    | cons a r =>
      cases g with
      | zero => simp at hg
      | succ g =>
        simp only [repairLoop]
        simp only [List.length_cons] at hs hg
        cases h : runeLen (a :: r) with
        | none => simp only []; rw [ih r (by omega) g (by omega)]
        | some n =>
          have := runeLen_bounds h
          simp only []
          rw [ih _ (by rw [List.length_drop, List.length_cons]; omega) g (by rw [List.length_drop, List.length_cons]; omega)]

theorem repair_nil : repair [] = [] := rfl

theorem repair_bad {a : UInt8} {r : Str} (h : runeLen (a :: r) = none) : repair (a :: r) = [0xEF, 0xBF, 0xBD] ++ repair r := by
  unfold repair
  simp only [List.length_cons, repairLoop, h]

theorem repair_good {s : Str} {n : Nat} (h : runeLen s = some n) : repair s = s.take n ++ repair (s.drop n) := by
  cases s with
  | nil => cases h
  | cons a r =>
    unfold repair
    simp only [List.length_cons, repairLoop, h]
    have := runeLen_bounds h
    rw [repairLoop_eq _ _ (by rw [List.length_drop, List.length_cons]; omega) ((a :: r).drop n).length (by omega)]

/-- Induction over the characters of a text. -/
theorem text_ind {P : Str → Prop} (h0 : P []) (h1 : ∀ a r, runeLen (a :: r) = none → P r → P (a :: r))
    (h2 : ∀ s n, runeLen s = some n → P (s.drop n) → P s) : ∀ s, P s := by
  intro s
  generalize hl : s.length = l
  induction l using Nat.strongRecOn generalizing s with
  | _ l ih =>
    subst hl
    cases s with
    | nil => exact h0
    | cons a r =>
      cases h : runeLen (a :: r) with
      | none => exact h1 a r h (ih r.length (by simp) r rfl)
      | some n =>
        have := runeLen_bounds h
        exact h2 _ n h (ih _ (by rw [List.length_drop, List.length_cons]; omega) _ rfl)

theorem repair_length (s : Str) : s.length ≤ (repair s).length := by
  induction s using text_ind with
  | h0 => simp
  | h1 a r h ih => rw [repair_bad h]; simp; omega
  | h2 s n h ih =>
    rw [repair_good h, List.length_append, List.length_take]
    rw [List.length_drop] at ih
    have := runeLen_bounds h
    omega

theorem gs_cons (c : Char) (l : List Char) : gs (String.ofList (c :: l)) = String.utf8EncodeChar c ++ gs (String.ofList l) := by
  simp [gs]

theorem isText_nil : IsText [] := ⟨"", rfl⟩
theorem isText_gs (t : String) : IsText (gs t) := ⟨t, rfl⟩

theorem isText_char {s : Str} (c : Char) (h : IsText s) : IsText (String.utf8EncodeChar c ++ s) := by
  obtain ⟨t, rfl⟩ := h
  refine ⟨String.ofList (c :: t.toList), ?_⟩
  rw [gs_cons]; simp

/-- Texts, and only they, are left as they are. -/
theorem repair_eq_iff (s : Str) : repair s = s ↔ IsText s := by
  constructor
  · induction s using text_ind with
    | h0 => intro _; exact isText_nil
    | h1 a r h ih =>
      intro e
      have := congrArg List.length e
      rw [repair_bad h, List.length_append] at this
      have := repair_length r
      simp only [List.length_cons, List.length_nil] at *
      omega
    | h2 s n h ih =>
      intro e
      rw [repair_good h] at e
      conv at e => rhs; rw [← List.take_append_drop n s]
      have := List.append_cancel_left e
      obtain ⟨c, hc⟩ := char_of_runeLen h
      rw [← List.take_append_drop n s, hc]
      exact isText_char c (ih this)
  · rintro ⟨t, rfl⟩
    unfold gs
    generalize t.toList = l
    induction l with
    | nil => rfl
    | cons c l ih =>
      rw [List.flatMap_cons, repair_good (runeLen_char c _), List.take_left, List.drop_left, ih]

/-- A repaired text is a text. -/
theorem isText_repair (s : Str) : IsText (repair s) := by
  induction s using text_ind with
  | h0 => exact isText_nil
  | h1 a r h ih =>
    rw [repair_bad h]
    exact isText_char (Char.ofNat 0xFFFD) ih
  | h2 s n h ih =>
    obtain ⟨c, hc⟩ := char_of_runeLen h
    rw [repair_good h, hc]; exact isText_char c ih

/-! ## Escaping -/

theorem escapeLoop_eq : ∀ (f : Nat) (s : Str), s.length ≤ f → ∀ g, s.length ≤ g → escapeLoop f s = escapeLoop g s := by
  intro f
  induction f with
  | zero => intro s hs g _; cases s with
            | nil => cases g <;> rfl
            | cons a r => simp at hs
  | succ f ih =>
    intro s hs g hg
    cases s with
    | nil => cases g <;> rfl
    | cons a r =>
      cases g with
      | zero => simp at hg
      | succ g =>
        simp only [escapeLoop]
        simp only [List.length_cons] at hs hg
        rw [ih r (by omega) g (by omega)]
        cases h : runeLen (a :: r) with
        | none => rfl
        | some n =>
          have := runeLen_bounds h
          simp only []
          rw [ih ((a :: r).drop n) (by rw [List.length_drop, List.length_cons]; omega) g (by rw [List.length_drop, List.length_cons]; omega)]

theorem escape_ascii {a : UInt8} {r : Str} (h : a < 0x80) : escape (a :: r) = escapeByte a ++ escape r := by
  unfold escape
  simp only [List.length_cons, escapeLoop, h, if_true]

theorem escape_bad {a : UInt8} {r : Str} (h : runeLen (a :: r) = none) :
    escape (a :: r) = [0x5C, 0x75, 0x66, 0x66, 0x66, 0x64] ++ escape r := by
  have ha : ¬ a < 0x80 := fun h' => by rw [runeLen_one h'] at h; cases h
  unfold escape
  simp only [List.length_cons, escapeLoop, if_neg ha, h]

/-- What a character beyond ASCII is written as. -/
def escapeChar (c : Bytes) : Bytes :=
  if c = [0xE2, 0x80, 0xA8] then [0x5C, 0x75, 0x32, 0x30, 0x32, 0x38]
  else if c = [0xE2, 0x80, 0xA9] then [0x5C, 0x75, 0x32, 0x30, 0x32, 0x39] else c

theorem escape_good {s : Str} {n : Nat} (h : runeLen s = some n) (ha : ∀ a, s.head? = some a → ¬ a < 0x80) :
    escape s = escapeChar (s.take n) ++ escape (s.drop n) := by
  cases s with
  | nil => cases h
  | cons a r =>
    have := runeLen_bounds h
    unfold escape
    simp only [List.length_cons, escapeLoop, if_neg (ha a rfl), h]
    rw [escapeLoop_eq _ _ (by rw [List.length_drop, List.length_cons]; omega) ((a :: r).drop n).length (by omega)]
    rfl

/-- Induction over the characters of a text, ASCII apart. -/
theorem text_ind' {P : Str → Prop} (h0 : P []) (h1 : ∀ a r, a < 0x80 → P r → P (a :: r))
    (h2 : ∀ a r, runeLen (a :: r) = none → P r → P (a :: r))
    (h3 : ∀ s n, runeLen s = some n → (∀ a, s.head? = some a → ¬ a < 0x80) → P (s.drop n) → P s) : ∀ s, P s := by
  intro s
  induction s using text_ind with
  | h0 => exact h0
  | h1 a r h ih => exact h2 a r h ih
  | h2 s n h ih =>
    cases s with
    | nil => cases h
    | cons a r =>
      by_cases ha : a < 0x80
      · rw [runeLen_one ha] at h
        injection h with h; subst h
        exact h1 a r ha ih
      · exact h3 _ n h (fun b hb => by simp at hb; subst hb; exact ha) ih

/-- The bytes of a character beyond ASCII are beyond ASCII. -/
theorem high_bytes {s : Str} {n : Nat} (h : runeLen s = some n) (ha : ∀ a, s.head? = some a → ¬ a < 0x80) :
    ∀ b ∈ s.take n, ¬ b < 0x80 := by
  obtain ⟨c, hc⟩ := char_of_runeLen h
  have hv : c.val.toNat < 0xd800 ∨ (0xdfff < c.val.toNat ∧ c.val.toNat < 0x110000) := c.valid
  obtain ⟨h1, _, h2⟩ := runeLen_bounds h
  cases s with
  | nil => cases h
  | cons a r =>
    have ha := ha a rfl
    have hd : (String.utf8EncodeChar c).head? = some a := by
      rw [← hc]
      obtain ⟨n, rfl⟩ : ∃ m, n = m + 1 := ⟨n - 1, by omega⟩
      rfl
    rw [hc]
    clear hc h h1 h2
    unfold String.utf8EncodeChar at hd ⊢
    simp only [] at hd ⊢
    generalize c.val.toNat = v at hv hd ⊢
    have key : ∀ x : Nat, x < 64 → ¬ UInt8.ofNat (x + 0x80) < 0x80 := by
      intro x hx
      rw [lt_byte, byte_toNat _ (by omega)]
      show ¬ x + 0x80 < 0x80
      omega
    by_cases h1 : v ≤ 0x7f
    · rw [if_pos h1] at hd
      simp only [List.head?_cons, Option.some.injEq] at hd
      subst hd
      exact absurd (by rw [lt_byte, byte_toNat _ (by omega)]; show v < 0x80; omega) ha
    rw [if_neg h1] at hd ⊢
    by_cases h2 : v ≤ 0x7ff
    · rw [if_pos h2] at hd ⊢
      simp only [List.head?_cons, Option.some.injEq] at hd
      rw [hd]
      intro b hb
      simp only [List.mem_cons, List.not_mem_nil, or_false] at hb
      rcases hb with rfl | rfl
      · exact ha
      · exact key _ (by omega)
    rw [if_neg h2] at hd ⊢
    by_cases h3 : v ≤ 0xffff
    · rw [if_pos h3] at hd ⊢
      simp only [List.head?_cons, Option.some.injEq] at hd
      rw [hd]
      intro b hb
      simp only [List.mem_cons, List.not_mem_nil, or_false] at hb
      rcases hb with rfl | rfl | rfl
      · exact ha
      · exact key _ (by omega)
      · exact key _ (by omega)
    · rw [if_neg h3] at hd ⊢
      simp only [List.head?_cons, Option.some.injEq] at hd
      rw [hd]
      intro b hb
      simp only [List.mem_cons, List.not_mem_nil, or_false] at hb
      rcases hb with rfl | rfl | rfl | rfl
      · exact ha
      · exact key _ (by omega)
      · exact key _ (by omega)
      · exact key _ (by omega)

/-! ## Unquoting -/

theorem unquoteLoop_nil (f : Nat) : unquoteLoop f [] = [] := by cases f <;> rfl

theorem unquote_escapeByte {a : UInt8} (ha : a < 0x80) (f : Nat) (r : Bytes) :
    unquoteLoop (f + 1) (escapeByte a ++ r) = a :: unquoteLoop f r := by
  have hu : htmlSafe a = false → a ≠ 0x5C → a ≠ 0x22 → a ≠ 0x0A → a ≠ 0x0D → a ≠ 0x09 →
      unquoteU ([0x30, 0x30, digitChar (a.toNat / 16), digitChar (a.toNat % 16)] ++ r) = ([a], r) := by
    intro _ _ _ _ _ _
    have h4 : hex4 ([0x30, 0x30, digitChar (a.toNat / 16), digitChar (a.toNat % 16)] ++ r) = some a.toNat := by
      simp only [List.cons_append, List.nil_append, hex4]
      rw [digitChar_hex _ (by have := a.toNat_lt; omega), digitChar_hex _ (by omega)]
      show some (((0 * 16 + 0) * 16 + a.toNat / 16) * 16 + a.toNat % 16) = _
      congr 1; omega
    unfold unquoteU
    rw [h4]
    have : a.toNat < 0x80 := lt_byte.mp ha
    simp only []
    rw [if_neg (by omega)]
    unfold encodeRune
    rw [if_pos (by omega)]
    simp
  unfold escapeByte
  by_cases h0 : htmlSafe a = true
  · rw [if_pos h0]
    unfold htmlSafe at h0
    rw [decide_eq_true_eq] at h0
    simp only [List.cons_append, List.nil_append, unquoteLoop]
    rw [if_neg h0.2.2.2.1, if_pos ha]
  rw [if_neg h0]
  by_cases h1 : a = 0x5C ∨ a = 0x22
  · rw [if_pos h1]
    rcases h1 with rfl | rfl <;> rfl
  rw [if_neg h1]
  by_cases h2 : a = 0x0A
  · subst h2; rfl
  rw [if_neg h2]
  by_cases h3 : a = 0x0D
  · subst h3; rfl
  rw [if_neg h3]
  by_cases h4 : a = 0x09
  · subst h4; rfl
  rw [if_neg h4]
  have := hu (by simpa using h0) (fun e => h1 (.inl e)) (fun e => h1 (.inr e)) h2 h3 h4
  unfold escape00
  simp only [List.cons_append, List.nil_append] at this ⊢
  simp only [unquoteLoop, if_true, this]
  rfl

theorem unquote_escapeChar {s : Str} {n : Nat} (h : runeLen s = some n) (ha : ∀ a, s.head? = some a → ¬ a < 0x80) (f : Nat) (r : Bytes) :
    unquoteLoop (f + 1) (escapeChar (s.take n) ++ r) = s.take n ++ unquoteLoop f r := by
  unfold escapeChar
  by_cases h1 : s.take n = [0xE2, 0x80, 0xA8]
  · rw [if_pos h1, h1]; rfl
  rw [if_neg h1]
  by_cases h2 : s.take n = [0xE2, 0x80, 0xA9]
  · rw [if_pos h2, h2]; rfl
  rw [if_neg h2]
  have hr := runeLen_append h r
  have hb := high_bytes h ha
  obtain ⟨hn1, _, hn2⟩ := runeLen_bounds h
  have hlen : (s.take n).length = n := by rw [List.length_take]; omega
  cases hc : s.take n with
  | nil => rw [hc] at hlen; simp at hlen; omega
  | cons b t =>
    rw [hc] at hr hb hlen
    have hb := hb b (by simp)
    simp only [List.cons_append] at hr ⊢
    simp only [unquoteLoop]
    rw [if_neg (fun e => hb (by rw [e]; decide)), if_neg hb, hr]
    simp only []
    have e : b :: (t ++ r) = (b :: t) ++ r := rfl
    rw [e, ← hlen, List.take_left, List.drop_left]; rfl

theorem escapeByte_length (a : UInt8) : 1 ≤ (escapeByte a).length := by
  unfold escapeByte escape00
  repeat' split
  all_goals simp

theorem escapeChar_length {s : Str} {n : Nat} (h : runeLen s = some n) : 1 ≤ (escapeChar (s.take n)).length := by
  have := runeLen_bounds h
  unfold escapeChar
  repeat' split
  · simp
  · simp
  · rw [List.length_take]; omega

/-- Reading back what was written: the text, with every invalid byte replaced. -/
theorem unquote_escape (s : Str) : unquote (escape s) = repair s := by
  have key : ∀ f, (escape s).length ≤ f → unquoteLoop f (escape s) = repair s := by
    induction s using text_ind' with
    | h0 => intro f _; exact unquoteLoop_nil f
    | h1 a r ha ih =>
      intro f hf
      rw [escape_ascii ha] at hf ⊢
      have := escapeByte_length a
      rw [List.length_append] at hf
      obtain ⟨f, rfl⟩ : ∃ g, f = g + 1 := ⟨f - 1, by omega⟩
      rw [unquote_escapeByte ha, ih f (by omega), repair_good (runeLen_one ha)]; rfl
    | h2 a r h ih =>
      intro f hf
      rw [escape_bad h] at hf ⊢
      rw [List.length_append] at hf
      simp only [List.length_cons, List.length_nil] at hf
      obtain ⟨f, rfl⟩ : ∃ g, f = g + 1 := ⟨f - 1, by omega⟩
      rw [repair_bad h, ← ih f (by omega)]; rfl
    | h3 s n h ha ih =>
      intro f hf
      rw [escape_good h ha] at hf ⊢
      have := escapeChar_length h
      rw [List.length_append] at hf
      obtain ⟨f, rfl⟩ : ∃ g, f = g + 1 := ⟨f - 1, by omega⟩
      rw [unquote_escapeChar h ha, ih f (by omega), repair_good h]
  exact key _ (Nat.le_refl _)

/-! ## The scanner -/

theorem scanStr_quote (r : Bytes) : scanStr (0x22 :: r) = some ([], r) := by rw [scanStr.eq_def]; rfl

/-- A byte that needs no escape. -/
theorem scanStr_plain {b : UInt8} (h1 : b ≠ 0x22) (h2 : b ≠ 0x5C) (h3 : ¬ b < 0x20) (r : Bytes) :
    scanStr (b :: r) = (scanStr r).map fun p => (b :: p.1, p.2) := by
  conv => lhs; rw [scanStr.eq_def]
  simp only []
  rw [if_neg h1, if_neg h2, if_neg h3]

theorem scanStr_short {c : UInt8} (h1 : c ≠ 0x75)
    (h2 : c = 0x62 ∨ c = 0x66 ∨ c = 0x6E ∨ c = 0x72 ∨ c = 0x74 ∨ c = 0x5C ∨ c = 0x2F ∨ c = 0x22) (r : Bytes) :
    scanStr (0x5C :: c :: r) = (scanStr r).map fun p => (0x5C :: c :: p.1, p.2) := by
  conv => lhs; rw [scanStr.eq_def]
  simp only []
  rw [if_neg (by decide), if_pos trivial, if_neg h1, if_pos h2]

theorem scanStr_u {a b c d : UInt8} (h : isHex a && isHex b && isHex c && isHex d) (r : Bytes) :
    scanStr (0x5C :: 0x75 :: a :: b :: c :: d :: r) = (scanStr r).map fun p => (0x5C :: 0x75 :: a :: b :: c :: d :: p.1, p.2) := by
  conv => lhs; rw [scanStr.eq_def]
  simp only []
  rw [if_neg (by decide), if_pos trivial, if_pos trivial, if_pos h]

theorem scanStr_escapeByte {a : UInt8} (ha : a < 0x80) (r : Bytes) :
    scanStr (escapeByte a ++ r) = (scanStr r).map fun p => (escapeByte a ++ p.1, p.2) := by
  unfold escapeByte
  by_cases h0 : htmlSafe a = true
  · simp only [if_pos h0]
    unfold htmlSafe at h0
    rw [decide_eq_true_eq] at h0
    obtain ⟨g1, g2, g3, g4, _⟩ := h0
    exact scanStr_plain g3 g4 (by rw [lt_byte]; rw [UInt8.le_iff_toNat_le] at g1; omega) r
  simp only [if_neg h0]
  by_cases h1 : a = 0x5C ∨ a = 0x22
  · simp only [if_pos h1]
    rcases h1 with rfl | rfl
    · exact scanStr_short (by decide) (by decide) r
    · exact scanStr_short (by decide) (by decide) r
  simp only [if_neg h1]
  by_cases h2 : a = 0x0A
  · simp only [if_pos h2]; exact scanStr_short (by decide) (by decide) r
  simp only [if_neg h2]
  by_cases h3 : a = 0x0D
  · simp only [if_pos h3]; exact scanStr_short (by decide) (by decide) r
  simp only [if_neg h3]
  by_cases h4 : a = 0x09
  · simp only [if_pos h4]; exact scanStr_short (by decide) (by decide) r
  simp only [if_neg h4]
  unfold escape00
  have hx : ∀ d < 16, isHex (digitChar d) = true := by decide
  exact scanStr_u (by rw [hx _ (by have := a.toNat_lt; omega), hx _ (by omega)]; decide) r

theorem scanStr_high {c : Bytes} (h : ∀ b ∈ c, ¬ b < 0x80) (r : Bytes) :
    scanStr (c ++ r) = (scanStr r).map fun p => (c ++ p.1, p.2) := by
  induction c with
  | nil => simp
  | cons b c ih =>
    have hb := h b (by simp)
    have ih := ih (fun x hx => h x (by simp [hx]))
    rw [List.cons_append, scanStr_plain (fun e => hb (by rw [e]; decide)) (fun e => hb (by rw [e]; decide))
      (fun e => hb (by rw [lt_byte] at e ⊢; exact Nat.lt_trans e (by decide))), ih]
    cases scanStr r <;> rfl

theorem scanStr_escape (s : Str) (r : Bytes) : scanStr (escape s ++ 0x22 :: r) = some (escape s, r) := by
  induction s using text_ind' with
  | h0 => exact scanStr_quote r
  | h1 a t ha ih =>
    rw [escape_ascii ha, List.append_assoc, scanStr_escapeByte ha, ih]; rfl
  | h2 a t h ih =>
    rw [escape_bad h, List.append_assoc]
    generalize hs : escape t ++ 0x22 :: r = w at ih
    have e : scanStr ([0x5C, 0x75, 0x66, 0x66, 0x66, 0x64] ++ w) =
        (scanStr w).map fun p => ([0x5C, 0x75, 0x66, 0x66, 0x66, 0x64] ++ p.1, p.2) := scanStr_u (by decide) w
    rw [e, ih]; rfl
  | h3 s n h ha ih =>
    rw [escape_good h ha, List.append_assoc]
    generalize hs : escape (s.drop n) ++ 0x22 :: r = w at ih
    have e : scanStr (escapeChar (s.take n) ++ w) = (scanStr w).map fun p => (escapeChar (s.take n) ++ p.1, p.2) := by
      unfold escapeChar
      by_cases h1 : s.take n = [0xE2, 0x80, 0xA8]
      · simp only [if_pos h1]; exact scanStr_u (by decide) w
      simp only [if_neg h1]
      by_cases h2 : s.take n = [0xE2, 0x80, 0xA9]
      · simp only [if_pos h2]; exact scanStr_u (by decide) w
      simp only [if_neg h2]
      exact scanStr_high (high_bytes h ha) w
    rw [e, ih]; rfl

end Uip.Json
