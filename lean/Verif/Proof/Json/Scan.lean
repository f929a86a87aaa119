import Verif.Proof.Json.Str
/-!
# Scanning what was written
-/
namespace Uip.Json
open Uip

/-! ## Numbers -/

/-- The text does not go on with anything a number could go on with. -/
def NumEnds (r : Bytes) : Prop := ∀ c, r.head? = some c → isDigit c = false ∧ c ≠ 0x2E ∧ c ≠ 0x65 ∧ c ≠ 0x45

theorem numEnds_nil : NumEnds [] := by intro c h; cases h
theorem numEnds_cons {c : UInt8} {r : Bytes} (h : isDigit c = false ∧ c ≠ 0x2E ∧ c ≠ 0x65 ∧ c ≠ 0x45) : NumEnds (c :: r) := by
  intro d hd; simp at hd; subst hd; exact h

theorem isDigit_iff {b : UInt8} : isDigit b = true ↔ 0x30 ≤ b ∧ b ≤ 0x39 := by unfold isDigit; exact decide_eq_true_iff

theorem decStr_digit {n : Nat} {c : UInt8} (h : c ∈ decStr n) : isDigit c = true := isDigit_iff.mpr (digitChar_dec_mem h)

theorem decStr_ne (n : Nat) : decStr n ≠ [] := by
  have := digits_ne_nil (b := 10) (by omega) n
  simpa [decStr] using this

theorem scanDigits_all {d r : Bytes} (h : ∀ c ∈ d, isDigit c = true) (hr : ∀ c, r.head? = some c → isDigit c = false) :
    scanDigits (d ++ r) = (d, r) := by
  induction d with
  | nil =>
    cases r with
    | nil => rfl
    | cons c r => simp [scanDigits, hr c rfl]
  | cons c d ih =>
    rw [List.cons_append, scanDigits, if_pos (h c (by simp)), ih (fun x hx => h x (by simp [hx]))]

theorem scanFraction_none {r : Bytes} (h : ∀ c, r.head? = some c → c ≠ 0x2E) : scanFraction r = some ([], r) := by
  unfold scanFraction
  split
  · exact absurd rfl (h _ rfl)
  · rfl

theorem scanExponent_none {r : Bytes} (h : ∀ c, r.head? = some c → c ≠ 0x65 ∧ c ≠ 0x45) : scanExponent r = some ([], r) := by
  cases r with
  | nil => rfl
  | cons c r =>
    obtain ⟨h1, h2⟩ := h c rfl
    simp only [scanExponent]
    rw [if_neg (by rintro (e | e) <;> contradiction)]

theorem scanWhole_decStr (n : Nat) {r : Bytes} (hr : NumEnds r) : scanWhole (decStr n ++ r) = some (decStr n, r) := by
  unfold scanWhole
  split
  · rename_i t e
    have hh : (decStr n).head? = some 0x30 := by
      cases hd : decStr n with
      | nil => exact absurd hd (decStr_ne n)
      | cons a l => rw [hd] at e; simp at e; simp [e.1]
    have hl := decStr_head hh
    cases hd : decStr n with
    | nil => exact absurd hd (decStr_ne n)
    | cons a l =>
      rw [hd] at hl hh e
      simp at hl hh
      subst hl hh
      simp at e
      rw [e]
  · rw [scanDigits_all (fun c hc => decStr_digit hc) (fun c hc => (hr c hc).1)]
    split
    · rename_i e; simp at e; exact absurd e.1 (decStr_ne n)
    · rfl

theorem scanNum_intText (n : Int) {r : Bytes} (hr : NumEnds r) : scanNum (intText n ++ r) = some (intText n, r) := by
  have hw := scanWhole_decStr n.natAbs hr
  have hf := scanFraction_none (fun c hc => (hr c hc).2.1)
  have he := scanExponent_none (fun c hc => (hr c hc).2.2)
  have hm : scanMinus (intText n ++ r) = (if n < 0 then [0x2D] else [], decStr n.natAbs ++ r) := by
    unfold intText
    by_cases hn : n < 0
    · simp only [if_pos hn]; rfl
    · simp only [if_neg hn]
      unfold scanMinus
      split
      · rename_i t e
        cases hd : decStr n.natAbs with
        | nil => exact absurd hd (decStr_ne _)
        | cons a l =>
          have := decStr_digit (n := n.natAbs) (c := a) (by rw [hd]; simp)
          rw [hd] at e; simp at e; rw [e.1] at this
          exact absurd this (by decide)
      · rfl
  unfold scanNum
  rw [hm]
  simp only [hw, hf, he]
  unfold intText
  by_cases hn : n < 0 <;> simp [hn]

/-- The value of digits. -/
theorem value_digits (ds : List Nat) (h : ∀ d ∈ ds, d < 10) : ∀ n : Nat,
    (ds.map digitChar).foldl (fun n b => n * 10 + (b.toNat - 0x30)) n = numFrom 10 n ds := by
  induction ds with
  | nil => intro n; rfl
  | cons d ds ih =>
    intro n
    rw [numFrom_cons, List.map_cons, List.foldl_cons, (digitChar_dec d (h d (by simp))).2.2, ih (fun x hx => h x (by simp [hx]))]

theorem value_decStr (n : Nat) : (decStr n).foldl (fun n b => n * 10 + (b.toNat - 0x30)) 0 = n := by
  unfold decStr
  rw [value_digits _ (digits_lt (by omega) n), numFrom_digits (by omega)]

theorem rawInt_intText (n : Int) : rawInt (intText n) = some n := by
  have hall : (decStr n.natAbs).all isDigit = true := by
    rw [List.all_eq_true]; exact fun c hc => decStr_digit hc
  unfold rawInt intText
  simp only []
  by_cases hn : n < 0
  · simp only [if_pos hn]
    rw [if_pos ⟨decStr_ne _, hall⟩, value_decStr]
    congr 1; omega
  · simp only [if_neg hn]
    split
    · rename_i d e
      have := decStr_digit (n := n.natAbs) (c := 0x2D) (by rw [e]; simp)
      exact absurd this (by decide)
    · rw [if_pos ⟨decStr_ne _, hall⟩, value_decStr]
      congr 1; omega

theorem intText_head (n : Int) : ∃ b t, intText n = b :: t ∧ (b = 0x2D ∨ isDigit b = true) ∧
    (0 ≤ n → b ≠ 0x2D) := by
  unfold intText
  split
  · exact ⟨_, _, rfl, .inl rfl, fun h => by omega⟩
  · cases hd : decStr n.natAbs with
    | nil => exact absurd hd (decStr_ne _)
    | cons a l =>
      have := decStr_digit (n := n.natAbs) (c := a) (by rw [hd]; simp)
      exact ⟨_, _, rfl, .inr this, fun _ e => by rw [e] at this; exact absurd this (by decide)⟩

/-! ## Values -/

/-- What can be written and read again with at most `d` levels of arrays and objects. -/
def Fits : Nat → JVal → Prop
  | _, .null => True
  | _, .bool _ => True
  | _, .num raw => ∃ n : Int, raw = intText n
  | _, .str raw => ∃ s : Str, raw = escape s
  | 0, .arr _ => False
  | 0, .obj _ => False
  | d + 1, .arr l => ∀ v ∈ l, Fits d v
  | d + 1, .obj l => ∀ p ∈ l, (∃ s : Str, p.1 = escape s) ∧ Fits d p.2

theorem skipSpace_of {b : UInt8} {r : Bytes} (h : isSpace b = false) : skipSpace (b :: r) = b :: r := by
  simp [skipSpace, h]

theorem gs_null : gs "null" = [0x6E, 0x75, 0x6C, 0x6C] := by decide
theorem gs_true : gs "true" = [0x74, 0x72, 0x75, 0x65] := by decide
theorem gs_false : gs "false" = [0x66, 0x61, 0x6C, 0x73, 0x65] := by decide

/-- The first byte of a written value. -/
theorem text_head {d : Nat} {v : JVal} (h : Fits d v) : ∃ b t, v.text = b :: t ∧ isSpace b = false ∧ b ≠ 0x5D ∧ b ≠ 0x7D := by
  cases v with
  | null => exact ⟨_, _, by rw [JVal.text, gs_null], by decide, by decide, by decide⟩
  | bool b =>
    cases b
    · exact ⟨_, _, by rw [JVal.text, gs_false], by decide, by decide, by decide⟩
    · exact ⟨_, _, by rw [JVal.text, gs_true], by decide, by decide, by decide⟩
  | num raw =>
    obtain ⟨n, rfl⟩ : ∃ n : Int, raw = intText n := by cases d <;> exact h
    obtain ⟨b, t, e, hb, _⟩ := intText_head n
    refine ⟨b, t, by rw [JVal.text, e], ?_, ?_, ?_⟩
    · rcases hb with rfl | hb
      · decide
      · revert hb; apply byte_all (fun b => isDigit b = true → isSpace b = false); decide +kernel
    · rintro rfl; rcases hb with hb | hb <;> exact absurd hb (by decide)
    · rintro rfl; rcases hb with hb | hb <;> exact absurd hb (by decide)
  | str raw => exact ⟨_, _, by rw [JVal.text]; rfl, by decide, by decide, by decide⟩
  | arr l => exact ⟨_, _, by rw [JVal.text], by decide, by decide, by decide⟩
  | obj l => exact ⟨_, _, by rw [JVal.text], by decide, by decide, by decide⟩

theorem scanWord_append (w r : Bytes) : scanWord w (w ++ r) = some r := by
  unfold scanWord
  rw [if_pos (List.prefix_append w r), List.drop_left]

/-- Scanning a scalar. -/
def IsScalar : JVal → Prop
  | .arr _ => False
  | .obj _ => False
  | _ => True

theorem scanScalar_text {d : Nat} {v : JVal} (h : Fits d v) (hs : IsScalar v) {r : Bytes} (hr : NumEnds r) :
    scanScalar (v.text ++ r) = some (v, r) := by
  cases v with
  | null =>
    have := scanWord_append (gs "null") r
    rw [JVal.text]
    rw [gs_null] at this ⊢
    simp only [List.cons_append, List.nil_append] at this ⊢
    unfold scanScalar
    simp only []
    rw [if_neg (by decide), if_pos trivial, gs_null, this]; rfl
  | bool b =>
    cases b
    · have := scanWord_append (gs "false") r
      rw [JVal.text]
      rw [gs_false] at this ⊢
      simp only [List.cons_append, List.nil_append] at this ⊢
      unfold scanScalar
      simp only []
      rw [if_neg (by decide), if_neg (by decide), if_neg (by decide), if_pos trivial, gs_false, this]; rfl
    · have := scanWord_append (gs "true") r
      rw [JVal.text]
      rw [gs_true] at this ⊢
      simp only [List.cons_append, List.nil_append] at this ⊢
      unfold scanScalar
      simp only []
      rw [if_neg (by decide), if_neg (by decide), if_pos trivial, gs_true, this]; rfl
  | num raw =>
    obtain ⟨n, rfl⟩ : ∃ n : Int, raw = intText n := by cases d <;> exact h
    have := scanNum_intText n hr
    obtain ⟨b, t, e, hb, _⟩ := intText_head n
    rw [JVal.text]
    rw [e] at this ⊢
    simp only [List.cons_append] at this ⊢
    unfold scanScalar
    have hne : b ≠ 0x22 ∧ b ≠ 0x6E ∧ b ≠ 0x74 ∧ b ≠ 0x66 := by
      rcases hb with rfl | hb
      · decide
      · revert hb; apply byte_all (fun b => isDigit b = true → b ≠ 0x22 ∧ b ≠ 0x6E ∧ b ≠ 0x74 ∧ b ≠ 0x66); decide +kernel
    simp only []
    rw [if_neg hne.1, if_neg hne.2.1, if_neg hne.2.2.1, if_neg hne.2.2.2, if_pos hb, this]; rfl
  | str raw =>
    obtain ⟨s, rfl⟩ : ∃ s : Str, raw = escape s := by cases d <;> exact h
    have := scanStr_escape s r
    rw [JVal.text]
    simp only [List.cons_append, List.append_assoc, List.nil_append]
    unfold scanScalar
    simp only []
    rw [if_pos trivial, this]; rfl
  | arr l => exact hs.elim
  | obj l => exact hs.elim

theorem scanElems_text {d : Nat} (ih : ∀ v, Fits d v → ∀ r, NumEnds r → scanValue d (v.text ++ r) = some (v, r)) :
    ∀ (l : List JVal), l ≠ [] → (∀ v ∈ l, Fits d v) → ∀ (f : Nat) (r : Bytes), (elemsText l ++ 0x5D :: r).length ≤ f →
      scanElems (scanValue d) f (elemsText l ++ 0x5D :: r) = some (l, r) := by
  intro l
  induction l with
  | nil => intro h; exact absurd rfl h
  | cons v l ihl =>
    intro _ hl f r hf
    obtain ⟨f, rfl⟩ : ∃ g, f = g + 1 := ⟨f - 1, by simp at hf; omega⟩
    cases l with
    | nil =>
      simp only [elemsText]
      rw [scanElems, ih v (hl v (by simp)) _ (numEnds_cons (by decide))]
      simp only []
      rw [skipSpace_of (by decide)]
      simp only []
      rw [if_neg (by decide), if_pos trivial]
    | cons w l =>
      simp only [elemsText, List.append_assoc, List.cons_append] at hf ⊢
      rw [scanElems, ih v (hl v (by simp)) _ (numEnds_cons (by decide))]
      simp only []
      rw [skipSpace_of (by decide)]
      simp only []
      rw [if_pos trivial, ihl (by simp) (fun x hx => hl x (List.mem_cons_of_mem _ hx)) f r (by
        simp only [List.length_append, List.length_cons] at hf ⊢; omega)]
      rfl

theorem scanKey_text (s : Str) (r : Bytes) : scanKey (0x22 :: (escape s ++ 0x22 :: 0x3A :: r)) = some (escape s, r) := by
  unfold scanKey
  rw [skipSpace_of (by decide)]
  simp only []
  rw [scanStr_escape]
  simp only []
  rw [skipSpace_of (by decide)]
  rfl

theorem scanMembers_text {d : Nat} (ih : ∀ v, Fits d v → ∀ r, NumEnds r → scanValue d (v.text ++ r) = some (v, r)) :
    ∀ (l : List (Bytes × JVal)), l ≠ [] → (∀ p ∈ l, (∃ s : Str, p.1 = escape s) ∧ Fits d p.2) →
      ∀ (f : Nat) (r : Bytes), (membersText l ++ 0x7D :: r).length ≤ f →
      scanMembers (scanValue d) f (membersText l ++ 0x7D :: r) = some (l, r) := by
  intro l
  induction l with
  | nil => intro h; exact absurd rfl h
  | cons p l ihl =>
    intro _ hl f r hf
    obtain ⟨k, v⟩ := p
    obtain ⟨⟨s, hk⟩, hv⟩ := hl (k, v) (by simp)
    simp only [] at hk hv
    subst hk
    obtain ⟨f, rfl⟩ : ∃ g, f = g + 1 := ⟨f - 1, by simp at hf; omega⟩
    cases l with
    | nil =>
      simp only [membersText, List.cons_append, List.append_assoc]
      rw [scanMembers, scanKey_text]
      simp only []
      rw [ih v hv _ (numEnds_cons (by decide))]
      simp only []
      rw [skipSpace_of (by decide)]
      simp only []
      rw [if_neg (by decide), if_pos trivial]
    | cons w l =>
      simp only [membersText, List.append_assoc, List.cons_append] at hf ⊢
      rw [scanMembers, scanKey_text]
      simp only []
      rw [ih v hv _ (numEnds_cons (by decide))]
      simp only []
      rw [skipSpace_of (by decide)]
      simp only []
      rw [if_pos trivial, ihl (by simp) (fun x hx => hl x (List.mem_cons_of_mem _ hx)) f r (by
        simp only [List.length_append, List.length_cons] at hf ⊢; omega)]
      rfl

/-- Scanning what was written gives the value back. -/
theorem scanValue_text : ∀ (d : Nat) (v : JVal), Fits d v → ∀ r, NumEnds r → scanValue d (v.text ++ r) = some (v, r) := by
  intro d
  induction d with
  | zero =>
    intro v h r hr
    obtain ⟨b, t, e, hb, _⟩ := text_head h
    have hs : IsScalar v := by cases v <;> first | trivial | exact h
    have := scanScalar_text h hs hr
    rw [scanValue]
    rw [e] at this ⊢
    rw [List.cons_append, skipSpace_of hb]; exact this
  | succ d ih =>
    intro v h r hr
    rw [scanValue]
    by_cases hs : IsScalar v
    · obtain ⟨b, t, e, hb, _⟩ := text_head h
      have := scanScalar_text h hs hr
      have hne : b ≠ 0x5B ∧ b ≠ 0x7B := by
        constructor <;> rintro rfl <;> rw [e] at this <;> exact absurd this (by simp [scanScalar, isDigit])
      rw [e] at this ⊢
      rw [List.cons_append, skipSpace_of hb]
      simp only []
      rw [if_neg hne.1, if_neg hne.2]; exact this
    · cases v with
      | arr l =>
        rw [JVal.text]
        simp only [List.cons_append, List.append_assoc, List.nil_append]
        rw [skipSpace_of (by decide)]
        simp only []
        rw [if_pos trivial]
        cases l with
        | nil =>
          simp only [elemsText, List.nil_append]
          rw [skipSpace_of (by decide)]
          rfl
        | cons v l =>
          have hl : ∀ x ∈ v :: l, Fits d x := h
          obtain ⟨b, t, e, hb, hb2, _⟩ := text_head (hl v (by simp))
          have hscan := scanElems_text ih (v :: l) (by simp) hl ((elemsText (v :: l) ++ 0x5D :: r).length + 1) r (by omega)
          have he : ∃ t', elemsText (v :: l) ++ 0x5D :: r = b :: t' := by
            cases l with
            | nil => exact ⟨t ++ 0x5D :: r, by simp [elemsText, e]⟩
            | cons w l => exact ⟨_, by simp only [elemsText, e, List.cons_append]; rfl⟩
          rw [hscan]
          obtain ⟨t', he⟩ := he
          rw [he, skipSpace_of hb]
          split
          · rename_i e'; injection e' with e' _; exact absurd e' hb2
          · rfl
      | obj l =>
        rw [JVal.text]
        simp only [List.cons_append, List.append_assoc, List.nil_append]
        rw [skipSpace_of (by decide)]
        simp only []
        rw [if_neg (by decide), if_pos trivial]
        cases l with
        | nil =>
          simp only [membersText, List.nil_append]
          rw [skipSpace_of (by decide)]
          rfl
        | cons v l =>
          have hl : ∀ p ∈ v :: l, (∃ s : Str, p.1 = escape s) ∧ Fits d p.2 := h
          have hscan := scanMembers_text ih (v :: l) (by simp) hl ((membersText (v :: l) ++ 0x7D :: r).length + 1) r (by omega)
          have he : ∃ t', membersText (v :: l) ++ 0x7D :: r = 0x22 :: t' := by
            obtain ⟨k, v⟩ := v
            cases l with
            | nil => exact ⟨_, by simp only [membersText, List.cons_append]; rfl⟩
            | cons w l => exact ⟨_, by simp only [membersText, List.cons_append]; rfl⟩
          rw [hscan]
          obtain ⟨t', he⟩ := he
          rw [he, skipSpace_of (by decide)]
          split
          · rename_i e'; injection e' with e' _; exact absurd e' (by decide)
          · rfl
      | _ => exact absurd trivial hs

theorem parse_text {v : JVal} (h : Fits maxDepth v) : parse v.text = some v := by
  unfold parse
  have := scanValue_text _ v h [] numEnds_nil
  rw [List.append_nil] at this
  rw [this]; rfl

theorem Fits.mono : ∀ {d e : Nat} {v : JVal}, d ≤ e → Fits d v → Fits e v := by
  intro d
  induction d with
  | zero =>
    intro e v _ h
    cases v <;> first | (cases e <;> exact h) | exact h.elim
  | succ d ih =>
    intro e v he h
    obtain ⟨e, rfl⟩ : ∃ g, e = g + 1 := ⟨e - 1, by omega⟩
    cases v with
    | arr l => exact fun x hx => ih (by omega) (h x hx)
    | obj l => exact fun p hp => ⟨(h p hp).1, ih (by omega) (h p hp).2⟩
    | _ => exact h

end Uip.Json
