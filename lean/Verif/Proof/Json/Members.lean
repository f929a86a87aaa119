import Verif.Proof.Json.GrammarStr
/-!
# Which member a name belongs to
-/
namespace Uip.Json
open Uip Uip.Spec.AddrText Uip.Spec.JsonText

/-- The bytes of characters. -/
def utf8s (cs : List Char) : Bytes := cs.flatMap String.utf8EncodeChar

theorem gs_ofList (cs : List Char) : gs (String.ofList cs) = utf8s cs := by unfold gs utf8s; rw [String.toList_ofList]
theorem gs_utf8s (s : String) : gs s = utf8s s.toList := rfl

theorem utf8s_cons (c : Char) (cs : List Char) : utf8s (c :: cs) = String.utf8EncodeChar c ++ utf8s cs := by
  unfold utf8s; rw [List.flatMap_cons]

theorem utf8_ascii {c : Char} (h : c.toNat < 0x80) : String.utf8EncodeChar c = [UInt8.ofNat c.toNat] := by
  rw [← encodeRune_char]; unfold encodeRune; rw [if_pos h]

theorem utf8_high {c : Char} (hc : ¬ c.toNat < 0x80) : ∃ b u, String.utf8EncodeChar c = b :: u ∧ ¬ b < 0x80 := by
  have hv := char_bounds c
  rw [← encodeRune_char]
  generalize c.toNat = v at hc hv
  unfold encodeRune
  rw [if_neg (by omega)]
  split
  · exact ⟨_, _, rfl, by rw [lt_byte, byte_toNat _ (by omega)]; show ¬ _ < 128; omega⟩
  · rw [if_neg (by omega)]
    split
    · exact ⟨_, _, rfl, by rw [lt_byte, byte_toNat _ (by omega)]; show ¬ _ < 128; omega⟩
    · exact ⟨_, _, rfl, by rw [lt_byte, byte_toNat _ (by omega)]; show ¬ _ < 128; omega⟩

/-- The long s is the only character that starts like this. -/
theorem long_s {c : Char} {r t : Bytes} (h : String.utf8EncodeChar c ++ r = 0xC5 :: 0xBF :: t) : c = 'ſ' ∧ r = t := by
  have hv := char_bounds c
  have e : c.toNat = 0x17F ∧ r = t := by
    rw [← encodeRune_char] at h
    generalize c.toNat = v at h hv
    unfold encodeRune at h
    split at h
    · have := congrArg UInt8.toNat (List.cons.inj h).1
      rw [byte_toNat _ (by omega)] at this
      change v = 197 at this
      omega
    split at h
    · have h1 := congrArg UInt8.toNat (List.cons.inj h).1
      have h2 := congrArg UInt8.toNat (List.cons.inj (List.cons.inj h).2).1
      rw [byte_toNat _ (by omega)] at h1 h2
      change _ = 197 at h1
      change _ = 191 at h2
      exact ⟨by omega, (List.cons.inj (List.cons.inj h).2).2⟩
    · rw [if_neg (by omega)] at h
      split at h <;>
      · have h1 := congrArg UInt8.toNat (List.cons.inj h).1
        rw [byte_toNat _ (by omega)] at h1
        change _ = 197 at h1
        omega
  exact ⟨Char.toNat_inj.mp (by rw [e.1]; rfl), e.2⟩

/-- The Kelvin sign is the only character that starts like this. -/
theorem kelvin {c : Char} {r t : Bytes} (h : String.utf8EncodeChar c ++ r = 0xE2 :: 0x84 :: 0xAA :: t) : c = '\u212A' ∧ r = t := by
  have hv := char_bounds c
  have e : c.toNat = 0x212A ∧ r = t := by
    rw [← encodeRune_char] at h
    generalize c.toNat = v at h hv
    unfold encodeRune at h
    split at h
    · have := congrArg UInt8.toNat (List.cons.inj h).1
      rw [byte_toNat _ (by omega)] at this
      change v = 226 at this
      omega
    split at h
    · have h1 := congrArg UInt8.toNat (List.cons.inj h).1
      rw [byte_toNat _ (by omega)] at h1
      change _ = 226 at h1
      omega
    · rw [if_neg (by omega)] at h
      split at h
      · have h1 := congrArg UInt8.toNat (List.cons.inj h).1
        have h2 := congrArg UInt8.toNat (List.cons.inj (List.cons.inj h).2).1
        have h3 := congrArg UInt8.toNat (List.cons.inj (List.cons.inj (List.cons.inj h).2).2).1
        rw [byte_toNat _ (by omega)] at h1 h2 h3
        change _ = 226 at h1
        change _ = 132 at h2
        change _ = 170 at h3
        exact ⟨by omega, (List.cons.inj (List.cons.inj (List.cons.inj h).2).2).2⟩
      · have h1 := congrArg UInt8.toNat (List.cons.inj h).1
        rw [byte_toNat _ (by omega)] at h1
        change _ = 226 at h1
        omega
  exact ⟨Char.toNat_inj.mp (by rw [e.1]; rfl), e.2⟩

/-- Numbers of letters without regard to case. -/
def foldNat (n : Nat) : Nat := if 0x41 ≤ n ∧ n ≤ 0x5A then n + 32 else n

theorem upper_fold : ∀ a < 128, ∀ b < 128, (upperByte (UInt8.ofNat a) = upperByte (UInt8.ofNat b) ↔ foldNat a = foldNat b) := by
  decide +kernel
theorem upper_s : ∀ a < 128, (upperByte (UInt8.ofNat a) = 0x53 ↔ foldNat a = 0x73) := by decide +kernel
theorem upper_k : ∀ a < 128, (upperByte (UInt8.ofNat a) = 0x4B ↔ foldNat a = 0x6B) := by decide +kernel

theorem fold_table : ∀ v < 128, (fold (Char.ofNat v)).toNat = foldNat v := by decide +kernel

theorem fold_ascii {c : Char} (h : c.toNat < 128) : (fold c).toNat = foldNat c.toNat := by
  have := fold_table c.toNat h
  rwa [Char.ofNat_toNat] at this

theorem fold_high {c : Char} (h : ¬ c.toNat < 128) (h1 : c ≠ 'ſ') (h2 : c ≠ '\u212A') : fold c = c := by
  unfold fold
  rw [if_neg, if_neg h1, if_neg h2]
  rintro ⟨_, h3⟩
  have : c.toNat ≤ 0x5A := h3
  omega

theorem foldNat_lt {n : Nat} (h : n < 128) : foldNat n < 128 := by unfold foldNat; split <;> omega

theorem foldEq_low {a b : UInt8} {s t : Str} (h : b < 0x80) :
    foldEq (a :: s) (b :: t) = (decide (upperByte a = upperByte b) && foldEq s t) := by
  rw [foldEq.eq_def]; simp only []; rw [if_pos h]

theorem foldEq_high {a b : UInt8} {s t : Str} (h : ¬ b < 0x80) (he : foldEq (a :: s) (b :: t) = true) :
    (upperByte a = 0x53 ∧ b = 0xC5 ∧ ∃ r, t = 0xBF :: r ∧ foldEq s r = true) ∨
    (upperByte a = 0x4B ∧ b = 0xE2 ∧ ∃ r, t = 0x84 :: 0xAA :: r ∧ foldEq s r = true) := by
  rw [foldEq.eq_def] at he
  simp only [] at he
  rw [if_neg h] at he
  split at he
  · rename_i hs
    split at he
    · exact .inl ⟨hs, rfl, _, rfl, he⟩
    · cases he
  · split at he
    · rename_i hs
      split at he
      · exact .inr ⟨hs, rfl, _, rfl, he⟩
      · cases he
    · cases he

theorem foldEq_long {a : UInt8} {s t : Str} (ha : upperByte a = 0x53) (h : foldEq s t = true) : foldEq (a :: s) (0xC5 :: 0xBF :: t) = true := by
  rw [foldEq.eq_def]; simp only []; rw [if_neg (by decide), if_pos ha]; exact h

theorem foldEq_kelvin {a : UInt8} {s t : Str} (ha : upperByte a = 0x4B) (h : foldEq s t = true) :
    foldEq (a :: s) (0xE2 :: 0x84 :: 0xAA :: t) = true := by
  rw [foldEq.eq_def]; simp only []; rw [if_neg (by decide), if_neg (by rw [ha]; decide), if_pos ha]; exact h

/-- The comparison of names is that of the folded characters. -/
theorem foldEq_iff : ∀ (ns : List Char), (∀ n ∈ ns, n.toNat < 128) → ∀ cs : List Char,
    (foldEq (utf8s ns) (utf8s cs) = true ↔ cs.map fold = ns.map fold) := by
  intro ns
  induction ns with
  | nil =>
    intro _ cs
    cases cs with
    | nil => simp [utf8s, foldEq]
    | cons c cs =>
      have := utf8_length c
      have hne : utf8s (c :: cs) ≠ [] := by
        rw [utf8s_cons]; intro e; rw [List.append_eq_nil_iff] at e; rw [e.1] at this; simp at this
      show (decide (utf8s (c :: cs) = []) = true ↔ _)
      simp [hne]
  | cons n ns ih =>
    intro hn cs
    have hn0 := hn n (List.mem_cons_self ..)
    have ih := ih (fun x hx => hn x (List.mem_cons_of_mem _ hx))
    rw [utf8s_cons n, utf8_ascii hn0, List.singleton_append]
    cases cs with
    | nil => simp [utf8s, foldEq]
    | cons c cs =>
      rw [utf8s_cons c, List.map_cons, List.map_cons, List.cons.injEq, ← ih cs]
      have hinj : fold c = fold n ↔ (fold c).toNat = (fold n).toNat := Char.toNat_inj.symm
      by_cases hc : c.toNat < 128
      · rw [utf8_ascii hc, List.singleton_append, foldEq_low (by rw [lt_byte, byte_toNat _ (by omega)]; exact hc), Bool.and_eq_true,
          decide_eq_true_eq, upper_fold _ hn0 _ hc, hinj, fold_ascii hc, fold_ascii hn0]
        constructor
        · exact fun h => ⟨h.1.symm, h.2⟩
        · exact fun h => ⟨h.1.symm, h.2⟩
      · have hfn := fold_ascii hn0
        have hlt := foldNat_lt hn0
        obtain ⟨b, u, e, hb⟩ := utf8_high hc
        constructor
        · intro h
          rw [e, List.cons_append] at h
          rcases foldEq_high hb h with ⟨h1, h2, r, h3, h4⟩ | ⟨h1, h2, r, h3, h4⟩
          · obtain ⟨g1, g2⟩ := long_s (c := c) (r := utf8s cs) (t := r) (by rw [e, List.cons_append, h3, h2])
            subst g1
            refine ⟨?_, by rw [g2]; exact h4⟩
            rw [hinj, hfn, (upper_s _ hn0).mp h1]; decide
          · obtain ⟨g1, g2⟩ := kelvin (c := c) (r := utf8s cs) (t := r) (by rw [e, List.cons_append, h3, h2])
            subst g1
            refine ⟨?_, by rw [g2]; exact h4⟩
            rw [hinj, hfn, (upper_k _ hn0).mp h1]; decide
        · rintro ⟨h1, h2⟩
          rw [hinj, hfn] at h1
          by_cases hs : c = 'ſ'
          · subst hs
            rw [show String.utf8EncodeChar 'ſ' = [0xC5, 0xBF] from by decide]
            exact foldEq_long ((upper_s _ hn0).mpr (by rw [← h1]; decide)) h2
          by_cases hk : c = '\u212A'
          · subst hk
            rw [show String.utf8EncodeChar '\u212A' = [0xE2, 0x84, 0xAA] from by decide]
            exact foldEq_kelvin ((upper_k _ hn0).mpr (by rw [← h1]; decide)) h2
          rw [fold_high hc hs hk] at h1
          omega

/-- The names are ASCII and differ in more than their case. -/
structure NamesOK (names : List String) : Prop where
  ascii : ∀ n ∈ names, ∀ c ∈ n.toList, c.toNat < 128
  apart : ∀ n ∈ names, ∀ m ∈ names, n.toList.map fold = m.toList.map fold → n = m

/-- Names as they are decoded. -/
theorem named_iff {k : Bytes} (hk : Quoted k) {n : String} (hn : ∀ c ∈ n.toList, c.toNat < 128) :
    Named k n ↔ foldEq (gs n) (unquote k) = true := by
  obtain ⟨cs, hcs⟩ := chars_exist _ (Nat.le_refl _) hk
  have hu := unquote_chars hcs
  rw [gs_ofList] at hu
  constructor
  · rintro ⟨cs', h1, h2⟩
    have hu' := unquote_chars h1
    rw [gs_ofList] at hu'
    rw [hu', gs_utf8s]
    exact (foldEq_iff _ hn cs').mpr h2
  · intro h
    rw [hu, gs_utf8s] at h
    exact ⟨cs, hcs, (foldEq_iff _ hn cs).mp h⟩

theorem named_unique {names : List String} (hn : NamesOK names) {k : Bytes} (hk : Quoted k) {n m : String} (h1 : n ∈ names) (h2 : m ∈ names)
    (h3 : Named k n) (h4 : Named k m) : n = m := by
  obtain ⟨cs, hcs, e⟩ := h3
  have h4 := (named_iff hk (hn.ascii m h2)).mp h4
  have hu := unquote_chars hcs
  rw [gs_ofList] at hu
  rw [hu, gs_utf8s] at h4
  have := (foldEq_iff _ (hn.ascii m h2) cs).mp h4
  exact hn.apart n h1 m h2 (e.symm.trans this)

/-- The member a name belongs to. -/
theorem fieldFor_iff {names : List String} (hn : NamesOK names) {k : Bytes} (hk : Quoted k) (n : String) :
    fieldFor names (unquote k) = some n ↔ n ∈ names ∧ Named k n := by
  have hexact : ∀ m ∈ names, gs m = unquote k → Named k m := by
    intro m hm e
    rw [named_iff hk (hn.ascii m hm), ← e, gs_utf8s]
    exact (foldEq_iff _ (hn.ascii m hm) _).mpr rfl
  have hsome : ∀ m, fieldFor names (unquote k) = some m → m ∈ names ∧ Named k m := by
    intro m h
    unfold fieldFor at h
    split at h
    · rename_i n' hf
      obtain rfl := Option.some.inj h
      have h1 := List.mem_of_find?_eq_some hf
      have h2 := List.find?_some hf
      exact ⟨h1, hexact _ h1 (by simpa using h2)⟩
    · have h1 := List.mem_of_find?_eq_some h
      have h2 := List.find?_some h
      exact ⟨h1, (named_iff hk (hn.ascii m h1)).mpr h2⟩
  refine ⟨hsome n, fun ⟨h1, h2⟩ => ?_⟩
  cases hf : fieldFor names (unquote k) with
  | some m => rw [named_unique hn hk h1 (hsome m hf).1 h2 (hsome m hf).2]
  | none =>
    exfalso
    unfold fieldFor at hf
    split at hf
    · cases hf
    · rw [List.find?_eq_none] at hf
      exact hf n h1 ((named_iff hk (hn.ascii n h1)).mp h2)

theorem metaNames_ok : NamesOK metaMembers := ⟨by decide +kernel, by decide +kernel⟩
theorem versionNames_ok : NamesOK versionMembers := ⟨by decide +kernel, by decide +kernel⟩

end Uip.Json
