import Verif.Proof.Json.Scan
/-!
# A value ends where it ends: what follows does not change what is scanned
-/
namespace Uip.Json
open Uip

theorem skipSpace_append {s : Bytes} (h : skipSpace s ≠ []) (t : Bytes) : skipSpace (s ++ t) = skipSpace s ++ t := by
  induction s with
  | nil => exact absurd rfl h
  | cons b s ih =>
    rw [List.cons_append, skipSpace, skipSpace]
    split
    · rename_i hb
      rw [skipSpace, if_pos hb] at h
      exact ih h
    · rfl

theorem skipSpace_cons {s t : Bytes} {b : UInt8} {r : Bytes} (h : skipSpace s = b :: r) : skipSpace (s ++ t) = b :: (r ++ t) := by
  rw [skipSpace_append (by rw [h]; simp), h]; rfl

theorem scanStr_extend (t : Bytes) : ∀ (n : Nat) (s p r : Bytes), s.length ≤ n → scanStr s = some (p, r) →
    scanStr (s ++ t) = some (p, r ++ t) := by
  intro n
  induction n with
  | zero =>
    intro s p r hs h
    cases s with
    | nil => rw [scanStr.eq_def] at h; cases h
    | cons b s => simp at hs
  | succ n ih =>
    intro s p r hs h
    rw [scanStr.eq_def] at h
    cases s with
    | nil => cases h
    | cons b s =>
      simp only [] at h
      simp only [List.length_cons] at hs
      rw [scanStr.eq_def, List.cons_append]
      simp only []
      by_cases h1 : b = 0x22
      · rw [if_pos h1] at h ⊢
        injection h with h; injection h with h2 h3; subst h2 h3; rfl
      rw [if_neg h1] at h ⊢
      by_cases h2 : b = 0x5C
      · rw [if_pos h2] at h ⊢
        cases s with
        | nil => cases h
        | cons c s =>
          simp only [List.cons_append, List.length_cons] at h hs ⊢
          by_cases h3 : c = 0x75
          · rw [if_pos h3] at h ⊢
            match s, hs, h with
            | d1 :: d2 :: d3 :: d4 :: s, hs, h =>
              simp only [List.cons_append, List.length_cons] at h hs ⊢
              by_cases h4 : (isHex d1 && isHex d2 && isHex d3 && isHex d4) = true
              · rw [if_pos h4] at h ⊢
                cases hr : scanStr s with
                | none => rw [hr] at h; cases h
                | some q =>
                  rw [hr] at h
                  injection h with h; injection h with h5 h6
                  rw [ih s q.1 q.2 (by omega) hr]
                  simp only [Option.map_some, h5, h6]
              · rw [if_neg h4] at h; cases h
            | [], _, h => cases h
            | [_], _, h => cases h
            | [_, _], _, h => cases h
            | [_, _, _], _, h => cases h
          · rw [if_neg h3] at h ⊢
            by_cases h4 : c = 0x62 ∨ c = 0x66 ∨ c = 0x6E ∨ c = 0x72 ∨ c = 0x74 ∨ c = 0x5C ∨ c = 0x2F ∨ c = 0x22
            · rw [if_pos h4] at h ⊢
              cases hr : scanStr s with
              | none => rw [hr] at h; cases h
              | some q =>
                rw [hr] at h
                injection h with h; injection h with h5 h6
                rw [ih s q.1 q.2 (by omega) hr]
                simp only [Option.map_some, h5, h6]
            · rw [if_neg h4] at h; cases h
      · rw [if_neg h2] at h ⊢
        by_cases h3 : b < 0x20
        · rw [if_pos h3] at h; cases h
        · rw [if_neg h3] at h ⊢
          cases hr : scanStr s with
          | none => rw [hr] at h; cases h
          | some q =>
            rw [hr] at h
            injection h with h; injection h with h5 h6
            rw [ih s q.1 q.2 (by omega) hr]
            simp only [Option.map_some, h5, h6]

theorem scanDigits_extend (t : Bytes) : ∀ (s d r : Bytes), scanDigits s = (d, r) → r ≠ [] → scanDigits (s ++ t) = (d, r ++ t) := by
  intro s
  induction s with
  | nil => intro d r h hr; injection h with _ h; exact absurd h.symm hr
  | cons b s ih =>
    intro d r h hr
    rw [List.cons_append, scanDigits] at *
    by_cases hb : isDigit b = true
    · rw [if_pos hb] at h ⊢
      injection h with h1 h2
      rw [ih (scanDigits s).1 (scanDigits s).2 rfl (by rw [h2]; exact hr), h1, h2]
    · rw [if_neg hb] at h ⊢
      injection h with h1 h2
      subst h1 h2; rfl

theorem scanWhole_extend {t s w r : Bytes} (h : scanWhole s = some (w, r)) (hr : r ≠ []) : scanWhole (s ++ t) = some (w, r ++ t) := by
  unfold scanWhole at h ⊢
  split at h
  · injection h with h; injection h with h1 h2
    subst h1 h2; rfl
  · rename_i hs
    have hd : (scanDigits s).1 ≠ [] ∧ scanDigits s = (w, r) := by
      split at h
      · cases h
      · rename_i hne
        injection h with h
        refine ⟨fun e => ?_, h⟩
        exact hne (scanDigits s).2 (by rw [← e])
    have he := scanDigits_extend t s w r hd.2 hr
    have hw : w ≠ [] := by rw [hd.2] at hd; exact hd.1
    split
    · rename_i u e
      cases s with
      | nil =>
        have := hd.1
        exact absurd rfl this
      | cons b s =>
        simp only [List.cons_append] at e
        injection e with e1 e2
        exact absurd (by rw [e1]) (hs s)
    · rw [he]
      split
      · rename_i e; injection e with e _; exact absurd e hw
      · rfl

theorem scanFraction_extend {t s f r : Bytes} (h : scanFraction s = some (f, r)) (hr : r ≠ []) : scanFraction (s ++ t) = some (f, r ++ t) := by
  cases s with
  | nil =>
    unfold scanFraction at h
    simp only [] at h
    injection h with h; injection h with _ h; exact absurd h.symm hr
  | cons b s =>
    by_cases hb : b = 0x2E
    · subst hb
      simp only [scanFraction, List.cons_append] at h ⊢
      split at h
      · cases h
      · rename_i d u hne e
        injection h with h; injection h with h1 h2
        subst h1 h2
        rw [scanDigits_extend t s d u e hr]
        split
        · rename_i e; injection e with e _
          exact absurd e hne
        · rename_i e; injection e with e1 e2; subst e1 e2; rfl
    · rw [scanFraction_none (by intro c hc; simp at hc; subst hc; exact hb)] at h
      injection h with h; injection h with h1 h2
      subst h1 h2
      rw [List.cons_append, scanFraction_none (by intro c hc; simp at hc; subst hc; exact hb)]

theorem scanSign_extend {t s : Bytes} (h : (scanSign s).2 ≠ []) : scanSign (s ++ t) = ((scanSign s).1, (scanSign s).2 ++ t) := by
  cases s with
  | nil => exact absurd rfl h
  | cons b s =>
    by_cases h1 : b = 0x2B
    · subst h1; rfl
    by_cases h2 : b = 0x2D
    · subst h2; rfl
    have : ∀ u : Bytes, scanSign (b :: u) = ([], b :: u) := by
      intro u
      unfold scanSign
      split
      · rename_i e; injection e with e _; exact absurd e h1
      · rename_i e; injection e with e _; exact absurd e h2
      · rfl
    rw [List.cons_append, this, this]; rfl

theorem scanExponent_extend {t s f r : Bytes} (h : scanExponent s = some (f, r)) (hr : r ≠ []) : scanExponent (s ++ t) = some (f, r ++ t) := by
  cases s with
  | nil =>
    unfold scanExponent at h
    simp only [] at h
    injection h with h; injection h with _ h; exact absurd h.symm hr
  | cons b s =>
    simp only [scanExponent, List.cons_append] at h ⊢
    by_cases hb : b = 0x65 ∨ b = 0x45
    · rw [if_pos hb] at h ⊢
      split at h
      · cases h
      · rename_i d u hne e
        injection h with h; injection h with h1 h2
        subst h1 h2
        have hs : (scanSign s).2 ≠ [] := by
          intro h0
          rw [h0] at e
          injection e with e1 e2
          exact hr e2.symm
        rw [scanSign_extend hs]
        simp only []
        rw [scanDigits_extend t _ d u e hr]
        split
        · rename_i e; injection e with e _
          exact absurd e hne
        · rename_i e; injection e with e1 e2; subst e1 e2; rfl
    · rw [if_neg hb] at h ⊢
      injection h with h; injection h with h1 h2
      subst h1 h2; rfl

theorem scanMinus_extend {t s : Bytes} (h : (scanMinus s).2 ≠ []) : scanMinus (s ++ t) = ((scanMinus s).1, (scanMinus s).2 ++ t) := by
  cases s with
  | nil => exact absurd rfl h
  | cons b s =>
    by_cases h1 : b = 0x2D
    · subst h1; rfl
    have : ∀ u : Bytes, scanMinus (b :: u) = ([], b :: u) := by
      intro u
      unfold scanMinus
      split
      · rename_i e; injection e with e _; exact absurd e h1
      · rfl
    rw [List.cons_append, this, this]; rfl

theorem scanNum_extend {t s raw r : Bytes} (h : scanNum s = some (raw, r)) (hr : r ≠ []) : scanNum (s ++ t) = some (raw, r ++ t) := by
  unfold scanNum at h ⊢
  cases h1 : scanWhole (scanMinus s).2 with
  | none => rw [h1] at h; cases h
  | some x =>
    obtain ⟨w, r1⟩ := x
    rw [h1] at h
    simp only [] at h
    cases h2 : scanFraction r1 with
    | none => rw [h2] at h; cases h
    | some x =>
      obtain ⟨f, r2⟩ := x
      rw [h2] at h
      simp only [] at h
      cases h3 : scanExponent r2 with
      | none => rw [h3] at h; cases h
      | some x =>
        obtain ⟨e, r3⟩ := x
        rw [h3] at h
        injection h with h; injection h with h4 h5
        subst h4 h5
        have hr2 : r2 ≠ [] := by
          rintro rfl
          injection h3 with h3; injection h3 with _ h3; exact hr h3.symm
        have hr1 : r1 ≠ [] := by
          rintro rfl
          injection h2 with h2; injection h2 with _ h2; exact hr2 h2.symm
        have hm : (scanMinus s).2 ≠ [] := by
          intro h0
          rw [h0] at h1
          cases h1
        rw [scanMinus_extend hm]
        simp only []
        rw [scanWhole_extend h1 hr1]
        simp only []
        rw [scanFraction_extend h2 hr2]
        simp only []
        rw [scanExponent_extend h3 hr]

theorem scanWord_extend {w s r : Bytes} (t : Bytes) (h : scanWord w s = some r) : scanWord w (s ++ t) = some (r ++ t) := by
  unfold scanWord at h
  split at h
  · rename_i hp
    obtain ⟨u, rfl⟩ := hp
    rw [List.drop_left] at h
    injection h with h; subst h
    rw [List.append_assoc, scanWord_append]
  · cases h

/-- Not a number. -/
def NotNum : JVal → Prop
  | .num _ => False
  | _ => True

theorem scanScalar_extend {s r : Bytes} {v : JVal} (t : Bytes) (h : scanScalar s = some (v, r)) (hv : r ≠ [] ∨ NotNum v) :
    scanScalar (s ++ t) = some (v, r ++ t) := by
  cases s with
  | nil => cases h
  | cons b s =>
    simp only [scanScalar, List.cons_append] at h ⊢
    by_cases h1 : b = 0x22
    · rw [if_pos h1] at h ⊢
      cases hr : scanStr s with
      | none => rw [hr] at h; cases h
      | some q =>
        rw [hr] at h
        injection h with h; injection h with h5 h6
        rw [scanStr_extend t s.length s q.1 q.2 (Nat.le_refl _) hr]
        simp only [Option.map_some, h5, h6]
    rw [if_neg h1] at h ⊢
    have word : ∀ (w : Bytes) (x : JVal), ((scanWord w (b :: s)).map fun t => (x, t)) = some (v, r) →
        ((scanWord w (b :: (s ++ t))).map fun t => (x, t)) = some (v, r ++ t) := by
      intro w x h
      cases hr : scanWord w (b :: s) with
      | none => rw [hr] at h; cases h
      | some q =>
        rw [hr] at h
        injection h with h; injection h with h5 h6
        have := scanWord_extend t hr
        rw [List.cons_append] at this
        rw [this]
        simp only [Option.map_some, h5, h6]
    by_cases h2 : b = 0x6E
    · rw [if_pos h2] at h ⊢; exact word _ _ h
    rw [if_neg h2] at h ⊢
    by_cases h3 : b = 0x74
    · rw [if_pos h3] at h ⊢; exact word _ _ h
    rw [if_neg h3] at h ⊢
    by_cases h4 : b = 0x66
    · rw [if_pos h4] at h ⊢; exact word _ _ h
    rw [if_neg h4] at h ⊢
    by_cases h5 : b = 0x2D ∨ isDigit b = true
    · rw [if_pos h5] at h ⊢
      cases hr : scanNum (b :: s) with
      | none => rw [hr] at h; cases h
      | some q =>
        rw [hr] at h
        injection h with h; injection h with h5 h6
        have hne : q.2 ≠ [] := by
          rcases hv with hv | hv
          · rw [h6]; exact hv
          · rw [← h5] at hv; exact hv.elim
        have := scanNum_extend (t := t) hr hne
        rw [List.cons_append] at this
        rw [this]
        simp only [Option.map_some, h5, h6]
    · rw [if_neg h5] at h; cases h

theorem scanElems_extend {pv : Bytes → Option (JVal × Bytes)} (t : Bytes)
    (hpv : ∀ s v r, pv s = some (v, r) → r ≠ [] → pv (s ++ t) = some (v, r ++ t)) :
    ∀ (f : Nat) (s : Bytes) (l : List JVal) (r : Bytes), scanElems pv f s = some (l, r) → ∀ g, f ≤ g →
      scanElems pv g (s ++ t) = some (l, r ++ t) := by
  intro f
  induction f with
  | zero => intro s l r h; cases h
  | succ f ih =>
    intro s l r h g hg
    obtain ⟨g, rfl⟩ : ∃ k, g = k + 1 := ⟨g - 1, by omega⟩
    rw [scanElems] at h ⊢
    cases hv : pv s with
    | none => rw [hv] at h; cases h
    | some x =>
      obtain ⟨v, s1⟩ := x
      rw [hv] at h
      simp only [] at h
      cases hs : skipSpace s1 with
      | nil => rw [hs] at h; cases h
      | cons b s2 =>
        rw [hs] at h
        simp only [] at h
        rw [hpv s v s1 hv (by rintro rfl; cases hs)]
        simp only []
        rw [skipSpace_cons hs]
        simp only []
        by_cases h1 : b = 0x2C
        · rw [if_pos h1] at h ⊢
          cases hr : scanElems pv f s2 with
          | none => rw [hr] at h; cases h
          | some q =>
            rw [hr] at h
            injection h with h; injection h with h5 h6
            rw [ih s2 q.1 q.2 hr g (by omega)]
            simp only [Option.map_some, h5, h6]
        · rw [if_neg h1] at h ⊢
          by_cases h2 : b = 0x5D
          · rw [if_pos h2] at h ⊢
            injection h with h; injection h with h5 h6
            subst h5 h6; rfl
          · rw [if_neg h2] at h; cases h

theorem scanKey_extend {s k r : Bytes} (t : Bytes) (h : scanKey s = some (k, r)) : scanKey (s ++ t) = some (k, r ++ t) := by
  unfold scanKey at h ⊢
  split at h
  · rename_i s1 hs
    rw [skipSpace_cons hs]
    simp only []
    cases hr : scanStr s1 with
    | none => rw [hr] at h; cases h
    | some q =>
      obtain ⟨k', s2⟩ := q
      rw [hr] at h
      simp only [] at h
      rw [scanStr_extend t s1.length s1 k' s2 (Nat.le_refl _) hr]
      simp only []
      split at h
      · rename_i s3 hs3
        injection h with h; injection h with h5 h6
        subst h5 h6
        rw [skipSpace_cons hs3]
        rfl
      · cases h
  · cases h

theorem scanMembers_extend {pv : Bytes → Option (JVal × Bytes)} (t : Bytes)
    (hpv : ∀ s v r, pv s = some (v, r) → r ≠ [] → pv (s ++ t) = some (v, r ++ t)) :
    ∀ (f : Nat) (s : Bytes) (l : List (Bytes × JVal)) (r : Bytes), scanMembers pv f s = some (l, r) → ∀ g, f ≤ g →
      scanMembers pv g (s ++ t) = some (l, r ++ t) := by
  intro f
  induction f with
  | zero => intro s l r h; cases h
  | succ f ih =>
    intro s l r h g hg
    obtain ⟨g, rfl⟩ : ∃ k, g = k + 1 := ⟨g - 1, by omega⟩
    rw [scanMembers] at h ⊢
    cases hk : scanKey s with
    | none => rw [hk] at h; cases h
    | some x =>
      obtain ⟨k, s0⟩ := x
      rw [hk] at h
      simp only [] at h
      rw [scanKey_extend t hk]
      simp only []
      cases hv : pv s0 with
      | none => rw [hv] at h; cases h
      | some x =>
        obtain ⟨v, s1⟩ := x
        rw [hv] at h
        simp only [] at h
        cases hs : skipSpace s1 with
        | nil => rw [hs] at h; cases h
        | cons b s2 =>
          rw [hs] at h
          simp only [] at h
          rw [hpv s0 v s1 hv (by rintro rfl; cases hs)]
          simp only []
          rw [skipSpace_cons hs]
          simp only []
          by_cases h1 : b = 0x2C
          · rw [if_pos h1] at h ⊢
            cases hr : scanMembers pv f s2 with
            | none => rw [hr] at h; cases h
            | some q =>
              rw [hr] at h
              injection h with h; injection h with h5 h6
              rw [ih s2 q.1 q.2 hr g (by omega)]
              simp only [Option.map_some, h5, h6]
          · rw [if_neg h1] at h ⊢
            by_cases h2 : b = 0x7D
            · rw [if_pos h2] at h ⊢
              injection h with h; injection h with h5 h6
              subst h5 h6; rfl
            · rw [if_neg h2] at h; cases h

/-- Bytes after the end of a value change nothing, unless the value is a number at the very end. -/
theorem scanValue_extend (t : Bytes) : ∀ (d : Nat) (s : Bytes) (v : JVal) (r : Bytes), scanValue d s = some (v, r) →
    r ≠ [] ∨ NotNum v → scanValue d (s ++ t) = some (v, r ++ t) := by
  intro d
  induction d with
  | zero =>
    intro s v r h hv
    rw [scanValue] at h ⊢
    have hne : skipSpace s ≠ [] := by intro e; rw [e] at h; cases h
    rw [skipSpace_append hne]
    exact scanScalar_extend t h hv
  | succ d ih =>
    intro s v r h hv
    rw [scanValue] at h ⊢
    have hpv : ∀ s v r, scanValue d s = some (v, r) → r ≠ [] → scanValue d (s ++ t) = some (v, r ++ t) :=
      fun s v r h hr => ih s v r h (.inl hr)
    cases hs : skipSpace s with
    | nil => rw [hs] at h; cases h
    | cons b s1 =>
      rw [hs] at h
      rw [skipSpace_cons hs]
      simp only [] at h ⊢
      by_cases h1 : b = 0x5B
      · rw [if_pos h1] at h ⊢
        cases hs1 : skipSpace s1 with
        | nil =>
          exfalso
          rw [hs1] at h
          simp only [] at h
          have hn : scanValue d s1 = none := by cases d <;> rw [scanValue, hs1] <;> rfl
          rw [scanElems, hn] at h; cases h
        | cons c s2 =>
          rw [hs1] at h
          rw [skipSpace_cons hs1]
          by_cases h2 : c = 0x5D
          · subst h2
            simp only [] at h ⊢
            injection h with h; injection h with h5 h6
            subst h5 h6; rfl
          · split at h
            · rename_i e; injection e with e _; exact absurd e h2
            · split
              · rename_i e; injection e with e _; exact absurd e h2
              · cases hr : scanElems (scanValue d) (s1.length + 1) s1 with
                | none => rw [hr] at h; cases h
                | some q =>
                  rw [hr] at h
                  injection h with h; injection h with h5 h6
                  rw [scanElems_extend t hpv _ s1 q.1 q.2 hr _ (by rw [List.length_append]; omega)]
                  simp only [Option.map_some, h5, h6]
      · rw [if_neg h1] at h ⊢
        by_cases h2 : b = 0x7B
        · rw [if_pos h2] at h ⊢
          cases hs1 : skipSpace s1 with
          | nil =>
            exfalso
            rw [hs1] at h
            simp only [] at h
            have hn : scanKey s1 = none := by unfold scanKey; rw [hs1]
            rw [scanMembers, hn] at h; cases h
          | cons c s2 =>
            rw [hs1] at h
            rw [skipSpace_cons hs1]
            by_cases h3 : c = 0x7D
            · subst h3
              simp only [] at h ⊢
              injection h with h; injection h with h5 h6
              subst h5 h6; rfl
            · split at h
              · rename_i e; injection e with e _; exact absurd e h3
              · split
                · rename_i e; injection e with e _; exact absurd e h3
                · cases hr : scanMembers (scanValue d) (s1.length + 1) s1 with
                  | none => rw [hr] at h; cases h
                  | some q =>
                    rw [hr] at h
                    injection h with h; injection h with h5 h6
                    rw [scanMembers_extend t hpv _ s1 q.1 q.2 hr _ (by rw [List.length_append]; omega)]
                    simp only [Option.map_some, h5, h6]
        · rw [if_neg h2] at h ⊢
          have := scanScalar_extend t h hv
          rw [List.cons_append] at this
          exact this

theorem scanValue_open {d : Nat} {s r : Bytes} {v : JVal} (h : scanValue d (0x7B :: s) = some (v, r)) : NotNum v := by
  cases d with
  | zero =>
    rw [scanValue, skipSpace_of (by decide)] at h
    unfold scanScalar at h
    simp only [] at h
    rw [if_neg (by decide), if_neg (by decide), if_neg (by decide), if_neg (by decide), if_neg (by decide)] at h
    cases h
  | succ d =>
    rw [scanValue, skipSpace_of (by decide)] at h
    simp only [] at h
    rw [if_neg (by decide), if_pos trivial] at h
    split at h
    · injection h with h; injection h with h _; subst h; trivial
    · cases hr : scanMembers (scanValue d) (s.length + 1) s with
      | none => rw [hr] at h; cases h
      | some q =>
        rw [hr] at h
        injection h with h; injection h with h _; subst h; trivial

/-- No proper part at the front of a written object is JSON. -/
theorem parse_prefix {l : List (Bytes × JVal)} (h : Fits maxDepth (.obj l)) {p q : Bytes} (hp : p ++ q = (JVal.obj l).text)
    (hq : q ≠ []) : parse p = none := by
  unfold parse
  cases hs : scanValue maxDepth p with
  | none => rfl
  | some x =>
    obtain ⟨v, r⟩ := x
    exfalso
    cases p with
    | nil =>
      rw [show maxDepth = 9999 + 1 from rfl, scanValue] at hs
      cases hs
    | cons b p =>
      have hb : b = 0x7B := by rw [JVal.text] at hp; injection hp
      subst hb
      have := scanValue_extend q _ _ _ _ hs (.inr (scanValue_open hs))
      rw [hp] at this
      have ht := scanValue_text _ _ h [] numEnds_nil
      rw [List.append_nil] at ht
      rw [ht] at this
      injection this with this
      injection this with _ this
      exact hq (List.append_eq_nil_iff.mp this.symm).2

end Uip.Json
