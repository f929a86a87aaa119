import Verif.Proof.Json.GrammarValue
import Verif.Proof.Json.Texts
/-!
# What strings stand for
-/
namespace Uip.Json
open Uip Uip.Spec.AddrText Uip.Spec.JsonText

theorem hexVal_digitOf {c : UInt8} (h : digitOf c < 16) : hexVal c = some (digitOf c) := by rw [digitOf_hex, if_pos h]

theorem hex4_grammar {a b c d : UInt8} {n : Nat} (h : Hex4 a b c d n) (r : Bytes) : hex4 (a :: b :: c :: d :: r) = some n := by
  have hd := h.digit
  have hv := h.value
  simp only [hex4]
  rw [hexVal_digitOf (hd a (by simp)), hexVal_digitOf (hd b (by simp)), hexVal_digitOf (hd c (by simp)), hexVal_digitOf (hd d (by simp))]
  simp only [List.foldl_cons, List.foldl_nil] at hv
  simp only []
  congr 1
  omega

theorem hex4_lt {a b c d : UInt8} {n : Nat} (h : Hex4 a b c d n) : n < 65536 := by
  have hd := h.digit
  have hv := h.value
  have h1 := hd a (by simp); have h2 := hd b (by simp); have h3 := hd c (by simp); have h4 := hd d (by simp)
  simp only [List.foldl_cons, List.foldl_nil] at hv
  omega

theorem char_bounds (c : Char) : c.toNat < 0xD800 ∨ (0xDFFF < c.toNat ∧ c.toNat < 0x110000) := c.valid

theorem char_of {v : Nat} (h : v < 0xD800 ∨ (0xDFFF < v ∧ v < 0x110000)) : ∃ c : Char, c.toNat = v := by
  refine ⟨⟨UInt32.ofNat v, ?_⟩, ?_⟩
  · have : (UInt32.ofNat v).toNat = v := by rw [UInt32.toNat_ofNat']; exact Nat.mod_eq_of_lt (by omega)
    show (UInt32.ofNat v).toNat.isValidChar
    rw [this]; exact h
  · show (UInt32.ofNat v).toNat = v
    rw [UInt32.toNat_ofNat']; exact Nat.mod_eq_of_lt (by omega)

theorem encodeRune_char (c : Char) : encodeRune c.toNat = String.utf8EncodeChar c := by
  have hv := char_bounds c
  have e : c.val.toNat = c.toNat := rfl
  unfold encodeRune String.utf8EncodeChar
  simp only [e]
  generalize c.toNat = v at hv
  by_cases h1 : v ≤ 0x7f
  · rw [if_pos (by omega), if_pos h1]
  rw [if_neg (by omega), if_neg h1]
  by_cases h2 : v ≤ 0x7ff
  · rw [if_pos (by omega), if_pos h2]
    congr 1
    · congr 1; omega
    · congr 2; omega
  rw [if_neg (by omega), if_neg h2, if_neg (by omega)]
  by_cases h3 : v ≤ 0xffff
  · rw [if_pos (by omega), if_pos h3]
    congr 1
    · congr 1; omega
    · congr 1
      · congr 1; omega
      · congr 2; omega
  · rw [if_neg (by omega), if_neg h3]
    congr 1
    · congr 1; omega
    · congr 1
      · congr 1; omega
      · congr 1
        · congr 1; omega
        · congr 2; omega

theorem unquoteU_char {a b c d : UInt8} {ch : Char} (h : Hex4 a b c d ch.toNat) (r : Bytes) :
    unquoteU (a :: b :: c :: d :: r) = (String.utf8EncodeChar ch, r) := by
  have hv := char_bounds ch
  unfold unquoteU
  rw [hex4_grammar h]
  simp only [List.drop_succ_cons, List.drop_zero]
  rw [if_neg (by omega), encodeRune_char]

theorem unquoteU_pair {a b c d e f g i : UInt8} {n m : Nat} {ch : Char} (h1 : Hex4 a b c d n) (h2 : Hex4 e f g i m)
    (hn1 : 0xD800 ≤ n) (hn2 : n < 0xDC00) (hm1 : 0xDC00 ≤ m) (hm2 : m < 0xE000)
    (hc : ch.toNat = 0x10000 + (n - 0xD800) * 0x400 + (m - 0xDC00)) (r : Bytes) :
    unquoteU (a :: b :: c :: d :: 0x5C :: 0x75 :: e :: f :: g :: i :: r) = (String.utf8EncodeChar ch, r) := by
  unfold unquoteU
  rw [hex4_grammar h1]
  simp only [List.drop_succ_cons, List.drop_zero]
  rw [if_pos (by omega)]
  simp only [lowHalf]
  rw [hex4_grammar h2]
  simp only []
  rw [if_pos (by omega), ← hc, encodeRune_char]

theorem lowHalf_spec {t : Bytes} {m : Nat} (h : lowHalf t = some m) :
    ∃ a b c d r, t = 0x5C :: 0x75 :: a :: b :: c :: d :: r ∧ Hex4 a b c d m := by
  unfold lowHalf at h
  split at h
  · rename_i r
    unfold hex4 at h
    split at h
    · rename_i a b c d r'
      split at h
      · rename_i a' b' c' d' ha hb hc hd
        have key : ∀ {x : UInt8} {y : Nat}, hexVal x = some y → digitOf x < 16 ∧ digitOf x = y := by
          intro x y hx
          rw [digitOf_hex] at hx
          split at hx
          · rename_i hlt; exact ⟨hlt, Option.some.inj hx⟩
          · cases hx
        have ha := key ha; have hb := key hb; have hc := key hc; have hd := key hd
        refine ⟨a, b, c, d, r', rfl, by simp, ?_, ?_⟩
        · simp only [List.forall_mem_cons]; exact ⟨ha.1, hb.1, hc.1, hd.1, by simp⟩
        · have := Option.some.inj h
          simp only [List.foldl_cons, List.foldl_nil]
          omega
      · cases h
    · cases h
  · cases h

theorem unquoteU_lone {a b c d : UInt8} {n : Nat} {r : Bytes} (h : Hex4 a b c d n) (hn1 : 0xD800 ≤ n) (hn2 : n < 0xE000)
    (hl : ¬ (n < 0xDC00 ∧ LowNext r)) : unquoteU (a :: b :: c :: d :: r) = (runeError, r) := by
  unfold unquoteU
  rw [hex4_grammar h]
  simp only [List.drop_succ_cons, List.drop_zero]
  rw [if_pos (by omega)]
  split
  · rename_i m hm
    rw [if_neg]
    rintro ⟨g1, g2, g3⟩
    obtain ⟨a', b', c', d', r', rfl, hx⟩ := lowHalf_spec hm
    exact hl ⟨g1, a', b', c', d', r', m, rfl, hx, g2, g3⟩
  · rfl

theorem utf8_fffd : String.utf8EncodeChar '\uFFFD' = runeError := by decide

theorem quote_char {c : Char} {t : Bytes} (f : Nat) (h2 : c ≠ '\\') :
    unquoteLoop (f + 1) (String.utf8EncodeChar c ++ t) = String.utf8EncodeChar c ++ unquoteLoop f t := by
  have hr := runeLen_char c t
  by_cases hc : c.toNat < 0x80
  · have e : String.utf8EncodeChar c = [UInt8.ofNat c.toNat] := by
      rw [← encodeRune_char]; unfold encodeRune; rw [if_pos hc]
    rw [e]
    simp only [List.cons_append, List.nil_append, unquoteLoop]
    rw [if_neg, if_pos]
    · rw [lt_byte, byte_toNat _ (by omega)]; exact hc
    · intro e
      have := congrArg UInt8.toNat e
      rw [byte_toNat _ (by omega)] at this
      refine h2 (Char.toNat_inj.mp ?_)
      rw [this]; rfl
  · have hhead : ∃ b u, String.utf8EncodeChar c = b :: u ∧ ¬ b < 0x80 := by
      have hv := char_bounds c
      rw [← encodeRune_char]
      generalize c.toNat = v at hc hv
      unfold encodeRune
      rw [if_neg (by omega)]
      split
      · exact ⟨_, _, rfl, by rw [lt_byte, byte_toNat _ (by omega)]; show ¬ _ < 128; omega⟩
      · rw [if_neg (by omega)]
        split
        · exact ⟨_, _, rfl, by rw [lt_byte, byte_toNat _ (by omega)]; show ¬ _ < 128; omega⟩
        · exact ⟨_, _, rfl, by rw [lt_byte, byte_toNat _ (by omega)]; show ¬ _ < 128; omega⟩
    obtain ⟨b, u, e, hb⟩ := hhead
    rw [e] at hr ⊢
    simp only [List.cons_append] at hr ⊢
    simp only [unquoteLoop]
    rw [if_neg (fun e => hb (by rw [e]; decide)), if_neg hb, hr]
    simp only []
    have e : b :: (u ++ t) = (b :: u) ++ t := rfl
    rw [e, List.take_left, List.drop_left]; rfl

theorem utf8_length (c : Char) : 1 ≤ (String.utf8EncodeChar c).length := (runeLen_bounds (runeLen_char c [])).1

theorem stray_none {b : UInt8} {t : Bytes} (h : ∀ (c : Char) r, b :: t ≠ String.utf8EncodeChar c ++ r) : runeLen (b :: t) = none := by
  cases hr : runeLen (b :: t) with
  | none => rfl
  | some n =>
    obtain ⟨c, hc⟩ := char_of_runeLen hr
    exact absurd (List.take_append_drop n (b :: t)).symm (by rw [hc]; exact h c _)

/-- What the decoder makes of the text between quotes. -/
theorem unquote_chars {l : Bool} {t : Bytes} {cs : List Char} (h : Chars l t cs) : unquote t = gs (String.ofList cs) := by
  have key : ∀ f, t.length ≤ f → unquoteLoop f t = gs (String.ofList cs) := by
    induction h with
    | nil => intro f _; exact unquoteLoop_nil f
    | plain h1 h2 h3 _ ih =>
      rename_i c t cs _
      intro f hf
      have := utf8_length c
      rw [List.length_append] at hf
      obtain ⟨f, rfl⟩ : ∃ g, f = g + 1 := ⟨f - 1, by omega⟩
      rw [quote_char f h3, gs_cons, ih f (by omega)]
    | short h1 _ ih =>
      intro f hf
      simp only [List.length_cons] at hf
      obtain ⟨f, rfl⟩ : ∃ g, f = g + 1 := ⟨f - 1, by omega⟩
      obtain ⟨g1, _, g3⟩ := escapes_mem h1
      simp only [unquoteLoop]
      rw [if_pos trivial, if_neg g1, gs_cons, g3, ih f (by omega)]; rfl
    | long h1 _ ih =>
      intro f hf
      simp only [List.length_cons] at hf
      obtain ⟨f, rfl⟩ : ∃ g, f = g + 1 := ⟨f - 1, by omega⟩
      simp only [unquoteLoop]
      rw [if_pos trivial, if_pos trivial, unquoteU_char h1, gs_cons, ih f (by omega)]
    | pair h1 h2 a1 a2 a3 a4 hc _ ih =>
      intro f hf
      simp only [List.length_cons] at hf
      obtain ⟨f, rfl⟩ : ∃ g, f = g + 1 := ⟨f - 1, by omega⟩
      simp only [unquoteLoop]
      rw [if_pos trivial, if_pos trivial, unquoteU_pair h1 h2 a1 a2 a3 a4 hc, gs_cons, ih f (by omega)]
    | lone _ h1 a1 a2 a3 _ ih =>
      intro f hf
      simp only [List.length_cons] at hf
      obtain ⟨f, rfl⟩ : ∃ g, f = g + 1 := ⟨f - 1, by omega⟩
      simp only [unquoteLoop]
      rw [if_pos trivial, if_pos trivial, unquoteU_lone h1 a1 a2 a3, gs_cons, ih f (by omega), utf8_fffd]
    | stray _ h1 h2 _ ih =>
      intro f hf
      simp only [List.length_cons] at hf
      obtain ⟨f, rfl⟩ : ∃ g, f = g + 1 := ⟨f - 1, by omega⟩
      rename_i b t cs _ _
      have hb : ¬ b < 0x80 := by rw [lt_byte]; rw [UInt8.le_iff_toNat_le] at h1; omega
      simp only [unquoteLoop]
      rw [if_neg (fun e => hb (by rw [e]; decide)), if_neg hb, stray_none h2, gs_cons, utf8_fffd]
      simp only []
      rw [ih f (by omega)]
  exact key _ (Nat.le_refl _)

theorem Quoted.drop : ∀ (n : Nat) {s : Bytes}, Quoted s → (∀ b ∈ s.take n, ¬ b < 0x80) → Quoted (s.drop n)
  | 0, s, h, _ => h
  | n + 1, [], h, _ => h
  | n + 1, b :: r, h, hb => by
    have h0 := hb b (by simp)
    cases h with
    | plain _ _ _ h2 => exact Quoted.drop n h2 (fun c hc => hb c (by simp [hc]))
    | short => exact absurd (by decide) h0
    | long => exact absurd (by decide) h0

theorem quoted_u {t : Bytes} {a b c d : UInt8} {r : Bytes} (h : Quoted t) (e : t = 0x5C :: 0x75 :: a :: b :: c :: d :: r) : Quoted r := by
  cases h with
  | nil => cases e
  | plain _ _ h3 _ => injection e with e; exact absurd e h3
  | short h1 _ => injection e with _ e; injection e with e; subst e; exact absurd rfl (escapes_mem h1).1
  | long _ h => injection e with _ e; injection e with _ e; injection e with _ e; injection e with _ e; injection e with _ e; injection e with _ e; subst e; exact h

/-- Everything that may stand between quotes stands for characters. -/
theorem chars_exist : ∀ (n : Nat) {t : Bytes}, t.length ≤ n → Quoted t → ∃ cs, Chars true t cs := by
  intro n
  induction n with
  | zero =>
    intro t ht h
    cases t with
    | nil => exact ⟨[], .nil⟩
    | cons a t => simp at ht
  | succ n ih =>
    intro t ht h
    cases h with
    | nil => exact ⟨[], .nil⟩
    | plain h1 h2 h3 h4 =>
      rename_i b r
      simp only [List.length_cons] at ht
      cases hr : runeLen (b :: r) with
      | none =>
        obtain ⟨cs, hcs⟩ := ih (by omega) h4
        have hb : ¬ b < 0x80 := fun h => by rw [runeLen_one h] at hr; cases hr
        refine ⟨_, .stray rfl ?_ ?_ hcs⟩
        · rw [UInt8.le_iff_toNat_le]; rw [lt_byte] at hb; exact Nat.not_lt.mp hb
        · intro c u e
          rw [e, runeLen_char] at hr; cases hr
      | some k =>
        obtain ⟨c, hc⟩ := char_of_runeLen hr
        obtain ⟨k1, _, k2⟩ := runeLen_bounds hr
        have hq : Quoted ((b :: r).drop k) := by
          by_cases hb : b < 0x80
          · rw [runeLen_one hb] at hr
            obtain rfl := Option.some.inj hr
            exact h4
          · exact Quoted.drop k (.plain h1 h2 h3 h4) (high_bytes hr (fun a ha => by simp at ha; subst ha; exact hb))
        obtain ⟨cs, hcs⟩ := ih (by rw [List.length_drop]; simp only [List.length_cons]; omega) hq
        refine ⟨c :: cs, ?_⟩
        rw [← List.take_append_drop k (b :: r), hc]
        have hhead : ∀ x, x.toNat < 0x80 → c.toNat = x.toNat → b = x := by
          intro x hx hcx
          have e : String.utf8EncodeChar c = [x] := by
            rw [← encodeRune_char]; unfold encodeRune; rw [if_pos (by omega), hcx, byte_ext rfl]
          rw [e] at hc
          obtain ⟨k, rfl⟩ : ∃ j, k = j + 1 := ⟨k - 1, by omega⟩
          rw [List.take_succ_cons] at hc
          exact (List.cons.inj hc).1
        refine .plain ?_ ?_ ?_ hcs
        · by_cases hlt : c.toNat < 0x20
          · have hx : (UInt8.ofNat c.toNat).toNat = c.toNat := byte_toNat _ (by omega)
            have := hhead (UInt8.ofNat c.toNat) (by omega) hx.symm
            rw [this, UInt8.le_iff_toNat_le, hx] at h1
            exact h1
          · omega
        · rintro rfl; exact h2 (hhead 0x22 (by decide) (by decide))
        · rintro rfl; exact h3 (hhead 0x5C (by decide) (by decide))
    | short h1 h2 =>
      simp only [List.length_cons] at ht
      obtain ⟨cs, hcs⟩ := ih (by omega) h2
      exact ⟨_, .short h1 hcs⟩
    | long h1 h2 =>
      rename_i a b c d m r
      simp only [List.length_cons] at ht
      have hm := hex4_lt h1
      by_cases hs : 0xD800 ≤ m ∧ m < 0xE000
      · by_cases hl : m < 0xDC00 ∧ LowNext r
        · obtain ⟨hlt, a', b', c', d', r', m', e, h5, h6, h7⟩ := hl
          have hq := quoted_u h2 e
          subst e
          simp only [List.length_cons] at ht
          obtain ⟨cs, hcs⟩ := ih (by omega) hq
          obtain ⟨ch, hch⟩ := char_of (v := 0x10000 + (m - 0xD800) * 0x400 + (m' - 0xDC00)) (by omega)
          exact ⟨_, .pair h1 h5 hs.1 hlt h6 h7 hch hcs⟩
        · obtain ⟨cs, hcs⟩ := ih (by omega) h2
          exact ⟨_, .lone rfl h1 hs.1 hs.2 hl hcs⟩
      · obtain ⟨cs, hcs⟩ := ih (by omega) h2
        obtain ⟨ch, rfl⟩ := char_of (v := m) (by omega)
        exact ⟨_, .long h1 hcs⟩

theorem stands_iff {t : Bytes} (h : Quoted t) (s : Str) : Stands true t s ↔ s = unquote t := by
  constructor
  · rintro ⟨cs, hcs, rfl⟩; exact (unquote_chars hcs).symm
  · rintro rfl
    obtain ⟨cs, hcs⟩ := chars_exist _ (Nat.le_refl _) h
    exact ⟨cs, hcs, unquote_chars hcs⟩

theorem Chars.lenient {t : Bytes} {cs : List Char} (h : Chars false t cs) : Chars true t cs := by
  induction h with
  | nil => exact .nil
  | plain h1 h2 h3 _ ih => exact .plain h1 h2 h3 ih
  | short h1 _ ih => exact .short h1 ih
  | long h1 _ ih => exact .long h1 ih
  | pair h1 h2 a1 a2 a3 a4 hc _ ih => exact .pair h1 h2 a1 a2 a3 a4 hc ih
  | lone h => cases h
  | stray h => cases h

end Uip.Json
