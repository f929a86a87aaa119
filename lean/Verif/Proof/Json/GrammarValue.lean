import Verif.Proof.Json.Grammar
/-!
# The scanner accepts exactly the texts of the grammar: values
-/
namespace Uip.Json
open Uip Uip.Spec.AddrText Uip.Spec.JsonText

mutual
/-- The same value in the model. -/
def toJ : Spec.JsonText.Json → JVal
  | .null => .null
  | .bool b => .bool b
  | .num t => .num t
  | .str t => .str t
  | .arr l => .arr (toJs l)
  | .obj l => .obj (toJps l)
def toJs : List Spec.JsonText.Json → List JVal
  | [] => []
  | v :: r => toJ v :: toJs r
def toJps : List (Bytes × Spec.JsonText.Json) → List (Bytes × JVal)
  | [] => []
  | (k, v) :: r => (k, toJ v) :: toJps r
end

theorem skipSpace_space {a : Bytes} (h : Space a) (r : Bytes) : skipSpace (a ++ r) = skipSpace r := by
  induction a with
  | nil => rfl
  | cons b a ih =>
    have hb := h b (List.mem_cons_self ..)
    have : isSpace b = true := by
      unfold isSpace; rw [decide_eq_true_eq]
      rcases hb with h | h | h | h <;> simp [h]
    rw [List.cons_append, skipSpace, if_pos this, ih fun x hx => h x (List.mem_cons_of_mem _ hx)]

theorem skipSpace_spec (s : Bytes) : ∃ a, Space a ∧ s = a ++ skipSpace s := by
  induction s with
  | nil => exact ⟨[], (fun b hb => by cases hb), rfl⟩
  | cons b s ih =>
    rw [skipSpace]
    split
    · rename_i hb
      obtain ⟨a, ha, e⟩ := ih
      unfold isSpace at hb
      rw [decide_eq_true_eq] at hb
      refine ⟨b :: a, fun x hx => ?_, by rw [List.cons_append, ← e]⟩
      rcases List.mem_cons.mp hx with rfl | hx
      · rcases hb with h | h | h | h <;> simp [h]
      · exact ha x hx
    · exact ⟨[], (fun b hb => by cases hb), rfl⟩

theorem space_nil : Space [] := fun b hb => by cases hb
theorem space_append {a b : Bytes} (ha : Space a) (hb : Space b) : Space (a ++ b) := by
  intro x hx
  rcases List.mem_append.mp hx with h | h
  · exact ha x h
  · exact hb x h

theorem space_skip {a : Bytes} (h : Space a) : skipSpace a = [] := by
  have := skipSpace_space h []
  rwa [List.append_nil] at this

theorem numEnds_space {a r : Bytes} (h : Space a) (hr : NumEnds r) : NumEnds (a ++ r) := by
  cases a with
  | nil => exact hr
  | cons b a =>
    refine numEnds_cons ?_
    rcases h b (List.mem_cons_self ..) with rfl | rfl | rfl | rfl <;> decide

/-- The first byte of the text of a value. -/
theorem value_head {d : Nat} {j : Spec.JsonText.Json} {t : Bytes} (h : Value d j t) :
    ∃ b r, t = b :: r ∧ isSpace b = false ∧ b ≠ 0x5D ∧ b ≠ 0x7D := by
  cases j with
  | null =>
    have : t = gs "null" := by cases d <;> exact h
    subst this; exact ⟨_, _, gs_null, by decide, by decide, by decide⟩
  | bool b =>
    cases b
    · have : t = gs "false" := by cases d <;> exact h
      subst this; exact ⟨_, _, gs_false, by decide, by decide, by decide⟩
    · have : t = gs "true" := by cases d <;> exact h
      subst this; exact ⟨_, _, gs_true, by decide, by decide, by decide⟩
  | num n =>
    have : t = n ∧ Number n := by cases d <;> exact h
    obtain ⟨rfl, hn⟩ := this
    obtain ⟨b, r, e, hb⟩ := number_head hn
    refine ⟨b, r, e, ?_, ?_, ?_⟩
    · rcases hb with rfl | hb
      · decide
      · revert hb; apply byte_all (fun b => isDigit b = true → isSpace b = false); decide +kernel
    · rintro rfl; rcases hb with hb | hb <;> exact absurd hb (by decide)
    · rintro rfl; rcases hb with hb | hb <;> exact absurd hb (by decide)
  | str s =>
    have : t = 0x22 :: (s ++ [0x22]) ∧ Quoted s := by cases d <;> exact h
    exact ⟨_, _, this.1, by decide, by decide, by decide⟩
  | arr l =>
    cases d with
    | zero => exact h.elim
    | succ d => obtain ⟨u, rfl, _⟩ := h; exact ⟨_, _, rfl, by decide, by decide, by decide⟩
  | obj l =>
    cases d with
    | zero => exact h.elim
    | succ d => obtain ⟨u, rfl, _⟩ := h; exact ⟨_, _, rfl, by decide, by decide, by decide⟩

/-- A value that is no array or object. -/
def Flat : Spec.JsonText.Json → Prop
  | .arr _ => False
  | .obj _ => False
  | _ => True

theorem scanScalar_grammar {d : Nat} {j : Spec.JsonText.Json} {t : Bytes} (h : Value d j t) (hs : Flat j) {r : Bytes} (hr : NumEnds r) :
    scanScalar (t ++ r) = some (toJ j, r) := by
  cases j with
  | null =>
    have : t = gs "null" := by cases d <;> exact h
    subst this
    exact scanScalar_text (d := 0) (v := .null) trivial trivial hr
  | bool b =>
    cases b
    · have : t = gs "false" := by cases d <;> exact h
      subst this
      exact scanScalar_text (d := 0) (v := .bool false) trivial trivial hr
    · have : t = gs "true" := by cases d <;> exact h
      subst this
      exact scanScalar_text (d := 0) (v := .bool true) trivial trivial hr
  | num n =>
    have : t = n ∧ Number n := by cases d <;> exact h
    obtain ⟨rfl, hn⟩ := this
    have := scanNum_grammar hn hr
    obtain ⟨b, u, e, hb⟩ := number_head hn
    rw [toJ]
    subst e
    simp only [List.cons_append] at this ⊢
    unfold scanScalar
    have hne : b ≠ 0x22 ∧ b ≠ 0x6E ∧ b ≠ 0x74 ∧ b ≠ 0x66 := by
      rcases hb with rfl | hb
      · decide
      · revert hb; apply byte_all (fun b => isDigit b = true → b ≠ 0x22 ∧ b ≠ 0x6E ∧ b ≠ 0x74 ∧ b ≠ 0x66); decide +kernel
    simp only []
    rw [if_neg hne.1, if_neg hne.2.1, if_neg hne.2.2.1, if_neg hne.2.2.2, if_pos hb, this]; rfl
  | str s =>
    have : t = 0x22 :: (s ++ [0x22]) ∧ Quoted s := by cases d <;> exact h
    obtain ⟨rfl, hq⟩ := this
    simp only [List.cons_append, List.append_assoc, List.nil_append]
    unfold scanScalar
    simp only []
    rw [if_pos trivial, scanStr_grammar hq]; rfl
  | arr l => exact hs.elim
  | obj l => exact hs.elim

section
variable {d : Nat} (ih : ∀ j t, Value d j t → ∀ a, Space a → ∀ r, NumEnds r → scanValue d (a ++ (t ++ r)) = some (toJ j, r))
include ih

theorem scanElems_grammar : ∀ (l : List Spec.JsonText.Json), l ≠ [] → ∀ (u : Bytes), Elems (Value d) l u → ∀ (f : Nat) (r : Bytes),
    (u ++ 0x5D :: r).length ≤ f → scanElems (scanValue d) f (u ++ 0x5D :: r) = some (toJs l, r) := by
  intro l
  induction l with
  | nil => intro h; exact absurd rfl h
  | cons v l ihl =>
    intro _ u hu f r hf
    obtain ⟨f, rfl⟩ : ∃ g, f = g + 1 := ⟨f - 1, by simp at hf; omega⟩
    cases l with
    | nil =>
      obtain ⟨a, x, b, rfl, ha, hx, hb⟩ := hu
      simp only [List.append_assoc]
      rw [scanElems, ih v x hx a ha _ (numEnds_space hb (numEnds_cons (by decide)))]
      simp only []
      rw [skipSpace_space hb, skipSpace_of (by decide)]
      simp only []
      rw [if_neg (by decide), if_pos trivial]
      rfl
    | cons w l =>
      obtain ⟨a, x, b, y, rfl, ha, hx, hb, hy⟩ := hu
      simp only [List.append_assoc, List.cons_append] at hf ⊢
      rw [scanElems, ih v x hx a ha _ (numEnds_space hb (numEnds_cons (by decide)))]
      simp only []
      rw [skipSpace_space hb, skipSpace_of (by decide)]
      simp only []
      rw [if_pos trivial, ihl (by simp) y hy f r (by
        simp only [List.length_append, List.length_cons] at hf ⊢; omega)]
      rfl

omit ih in
theorem scanKey_grammar {a k b r : Bytes} (ha : Space a) (hk : Quoted k) (hb : Space b) :
    scanKey (a ++ 0x22 :: (k ++ 0x22 :: (b ++ 0x3A :: r))) = some (k, r) := by
  unfold scanKey
  rw [skipSpace_space ha, skipSpace_of (by decide)]
  simp only []
  rw [scanStr_grammar hk]
  simp only []
  rw [skipSpace_space hb, skipSpace_of (by decide)]
  rfl

theorem scanMembers_grammar : ∀ (l : List (Bytes × Spec.JsonText.Json)), l ≠ [] → ∀ (u : Bytes), Members (Value d) l u → ∀ (f : Nat) (r : Bytes),
    (u ++ 0x7D :: r).length ≤ f → scanMembers (scanValue d) f (u ++ 0x7D :: r) = some (toJps l, r) := by
  intro l
  induction l with
  | nil => intro h; exact absurd rfl h
  | cons p l ihl =>
    intro _ u hu f r hf
    obtain ⟨k, v⟩ := p
    obtain ⟨f, rfl⟩ : ∃ g, f = g + 1 := ⟨f - 1, by simp at hf; omega⟩
    cases l with
    | nil =>
      obtain ⟨a, b, c, x, e, rfl, ha, hk, hb, hc, hx, he⟩ := hu
      simp only [List.append_assoc, List.cons_append]
      rw [scanMembers, scanKey_grammar ha hk hb]
      simp only []
      rw [ih v x hx c hc _ (numEnds_space he (numEnds_cons (by decide)))]
      simp only []
      rw [skipSpace_space he, skipSpace_of (by decide)]
      simp only []
      rw [if_neg (by decide), if_pos trivial]
      rfl
    | cons w l =>
      obtain ⟨u, y, rfl, ⟨a, b, c, x, e, rfl, ha, hk, hb, hc, hx, he⟩, hy⟩ := hu
      simp only [List.append_assoc, List.cons_append] at hf ⊢
      rw [scanMembers, scanKey_grammar ha hk hb]
      simp only []
      rw [ih v x hx c hc _ (numEnds_space he (numEnds_cons (by decide)))]
      simp only []
      rw [skipSpace_space he, skipSpace_of (by decide)]
      simp only []
      rw [if_pos trivial, ihl (by simp) y hy f r (by
        simp only [List.length_append, List.length_cons] at hf ⊢; omega)]
      rfl
end

theorem elems_head {P : Spec.JsonText.Json → Bytes → Prop} (hP : ∀ j t, P j t → ∃ b r, t = b :: r ∧ isSpace b = false ∧ b ≠ 0x5D)
    {v : Spec.JsonText.Json} {l u} (h : Elems P (v :: l) u) (r : Bytes) :
    ∃ b t, skipSpace (u ++ r) = b :: t ∧ b ≠ 0x5D := by
  have key : ∃ a x y, u = a ++ (x ++ y) ∧ Space a ∧ P v x := by
    cases l with
    | nil => obtain ⟨a, x, b, e, ha, hx, _⟩ := h; exact ⟨a, x, b, e, ha, hx⟩
    | cons w l => obtain ⟨a, x, b, y, e, ha, hx, _⟩ := h; exact ⟨a, x, _, e, ha, hx⟩
  obtain ⟨a, x, y, rfl, ha, hx⟩ := key
  obtain ⟨b, t, rfl, hb, hb2⟩ := hP v x hx
  rw [List.append_assoc, skipSpace_space ha]
  simp only [List.cons_append]
  rw [skipSpace_of hb]
  exact ⟨b, _, rfl, hb2⟩

theorem members_head {P : Spec.JsonText.Json → Bytes → Prop} {v} {l u} (h : Members P (v :: l) u) (r : Bytes) :
    ∃ t, skipSpace (u ++ r) = 0x22 :: t := by
  obtain ⟨k, v⟩ := v
  have key : ∃ a y, u = a ++ 0x22 :: y ∧ Space a := by
    cases l with
    | nil => obtain ⟨a, b, c, x, e, rfl, ha, _⟩ := h; exact ⟨a, _, rfl, ha⟩
    | cons w l =>
      obtain ⟨u, y, rfl, ⟨a, b, c, x, e, rfl, ha, _⟩, _⟩ := h
      exact ⟨a, _, by rw [List.append_assoc]; rfl, ha⟩
  obtain ⟨a, y, rfl, ha⟩ := key
  rw [List.append_assoc, skipSpace_space ha, List.cons_append, skipSpace_of (by decide)]
  exact ⟨_, rfl⟩

theorem scanValue_grammar : ∀ (d : Nat) (j : Spec.JsonText.Json) (t : Bytes), Value d j t → ∀ a, Space a → ∀ r, NumEnds r →
    scanValue d (a ++ (t ++ r)) = some (toJ j, r) := by
  intro d
  induction d with
  | zero =>
    intro j t h a ha r hr
    obtain ⟨b, u, e, hb, _⟩ := value_head h
    have hs : Flat j := by cases j <;> first | trivial | exact h
    have := scanScalar_grammar h hs hr
    rw [scanValue, skipSpace_space ha]
    rw [e] at this ⊢
    rw [List.cons_append, skipSpace_of hb]; exact this
  | succ d ih =>
    intro j t h a ha r hr
    rw [scanValue, skipSpace_space ha]
    by_cases hs : Flat j
    · obtain ⟨b, u, e, hb, _⟩ := value_head h
      have := scanScalar_grammar h hs hr
      have hne : b ≠ 0x5B ∧ b ≠ 0x7B := by
        constructor <;> rintro rfl <;> rw [e] at this <;> exact absurd this (by simp [scanScalar, isDigit])
      rw [e] at this ⊢
      rw [List.cons_append, skipSpace_of hb]
      simp only []
      rw [if_neg hne.1, if_neg hne.2]; exact this
    · cases j with
      | arr l =>
        obtain ⟨u, rfl, hu⟩ := h
        simp only [List.cons_append, List.append_assoc, List.nil_append]
        rw [skipSpace_of (by decide)]
        simp only []
        rw [if_pos trivial]
        cases l with
        | nil =>
          have hu : Space u := hu
          rw [skipSpace_space hu, skipSpace_of (by decide)]
          rfl
        | cons v l =>
          have hscan := scanElems_grammar ih (v :: l) (by simp) u hu ((u ++ 0x5D :: r).length + 1) r (by omega)
          obtain ⟨b, t', he, hb⟩ := elems_head (fun j t h => by
            obtain ⟨b, r, h1, h2, h3, _⟩ := value_head h; exact ⟨b, r, h1, h2, h3⟩) hu (0x5D :: r)
          rw [hscan, he]
          split
          · rename_i e'; injection e' with e' _; exact absurd e' hb
          · rfl
      | obj l =>
        obtain ⟨u, rfl, hu⟩ := h
        simp only [List.cons_append, List.append_assoc, List.nil_append]
        rw [skipSpace_of (by decide)]
        simp only []
        rw [if_neg (by decide), if_pos trivial]
        cases l with
        | nil =>
          have hu : Space u := hu
          rw [skipSpace_space hu, skipSpace_of (by decide)]
          rfl
        | cons v l =>
          have hscan := scanMembers_grammar ih (v :: l) (by simp) u hu ((u ++ 0x7D :: r).length + 1) r (by omega)
          obtain ⟨t', he⟩ := members_head hu (0x7D :: r)
          rw [hscan, he]
          split
          · rename_i e'; injection e' with e' _; exact absurd e' (by decide)
          · rfl
      | _ => exact absurd trivial hs

theorem parse_grammar {j : Spec.JsonText.Json} {s : Bytes} (h : Text maxDepth j s) : parse s = some (toJ j) := by
  obtain ⟨a, t, b, rfl, ha, ht, hb⟩ := h
  unfold parse
  rw [scanValue_grammar _ j t ht a ha b (by simpa using numEnds_space hb numEnds_nil)]
  simp only []
  rw [if_pos (space_skip hb)]

/-! ## Whatever the scanner accepts is a text of the grammar -/

theorem scanWord_spec {w s r : Bytes} (h : scanWord w s = some r) : s = w ++ r := by
  unfold scanWord at h
  split at h
  · rename_i hp
    obtain ⟨t, rfl⟩ := hp
    rw [List.drop_left] at h
    rw [Option.some.inj h]
  · cases h

theorem scanScalar_spec {s r : Bytes} {v : JVal} (h : scanScalar s = some (v, r)) (d : Nat) :
    ∃ j t, s = t ++ r ∧ Value d j t ∧ toJ j = v := by
  cases s with
  | nil => cases h
  | cons b s =>
    unfold scanScalar at h
    simp only [] at h
    split at h
    · rename_i hb
      rw [Option.map_eq_some_iff] at h
      obtain ⟨⟨p, q⟩, hp, e⟩ := h
      obtain ⟨rfl, rfl⟩ := Prod.mk.inj e
      obtain ⟨e1, e2⟩ := scanStr_spec _ _ _ _ (Nat.le_refl _) hp
      refine ⟨.str p, 0x22 :: (p ++ [0x22]), by rw [hb, e1]; simp, ?_, rfl⟩
      cases d <;> exact ⟨rfl, e2⟩
    split at h
    · rw [Option.map_eq_some_iff] at h
      obtain ⟨q, hp, e⟩ := h
      obtain ⟨rfl, rfl⟩ := Prod.mk.inj e
      exact ⟨.null, gs "null", scanWord_spec hp, by cases d <;> exact rfl, rfl⟩
    split at h
    · rw [Option.map_eq_some_iff] at h
      obtain ⟨q, hp, e⟩ := h
      obtain ⟨rfl, rfl⟩ := Prod.mk.inj e
      exact ⟨.bool true, gs "true", scanWord_spec hp, by cases d <;> exact rfl, rfl⟩
    split at h
    · rw [Option.map_eq_some_iff] at h
      obtain ⟨q, hp, e⟩ := h
      obtain ⟨rfl, rfl⟩ := Prod.mk.inj e
      exact ⟨.bool false, gs "false", scanWord_spec hp, by cases d <;> exact rfl, rfl⟩
    split at h
    · rw [Option.map_eq_some_iff] at h
      obtain ⟨⟨p, q⟩, hp, e⟩ := h
      obtain ⟨rfl, rfl⟩ := Prod.mk.inj e
      obtain ⟨e1, e2⟩ := scanNum_spec hp
      exact ⟨.num p, p, e1, by cases d <;> exact ⟨rfl, e2⟩, rfl⟩
    · cases h

theorem scanElems_spec {pv : Bytes → Option (JVal × Bytes)} {P : Spec.JsonText.Json → Bytes → Prop}
    (ih : ∀ s v r, pv s = some (v, r) → ∃ a j t, s = a ++ (t ++ r) ∧ Space a ∧ P j t ∧ toJ j = v) :
    ∀ (f : Nat) (s r : Bytes) (l : List JVal), scanElems pv f s = some (l, r) →
      ∃ l' u, l' ≠ [] ∧ s = u ++ 0x5D :: r ∧ Elems P l' u ∧ toJs l' = l := by
  intro f
  induction f with
  | zero => intro s r l h; cases h
  | succ f ihf =>
    intro s r l h
    rw [scanElems] at h
    split at h
    · cases h
    rename_i v s1 hv
    obtain ⟨a, j, t, rfl, ha, hj, rfl⟩ := ih _ _ _ hv
    obtain ⟨b, hb, eb⟩ := skipSpace_spec s1
    split at h
    · cases h
    rename_i c s2 hs
    rw [hs] at eb
    split at h
    · rename_i hc
      subst hc
      rw [Option.map_eq_some_iff] at h
      obtain ⟨⟨l1, r1⟩, hl, e⟩ := h
      obtain ⟨rfl, rfl⟩ := Prod.mk.inj e
      obtain ⟨l', u, hne, rfl, hu, rfl⟩ := ihf _ _ _ hl
      cases l' with
      | nil => exact absurd rfl hne
      | cons w l' =>
        exact ⟨j :: w :: l', a ++ (t ++ (b ++ 0x2C :: u)), by simp, by rw [eb]; simp, ⟨a, t, b, u, rfl, ha, hj, hb, hu⟩, rfl⟩
    split at h
    · rename_i hc
      subst hc
      obtain ⟨rfl, rfl⟩ := Prod.mk.inj (Option.some.inj h)
      exact ⟨[j], a ++ (t ++ b), by simp, by rw [eb]; simp, ⟨a, t, b, rfl, ha, hj, hb⟩, rfl⟩
    · cases h

theorem scanKey_spec {s k r : Bytes} (h : scanKey s = some (k, r)) :
    ∃ a b, s = a ++ 0x22 :: (k ++ 0x22 :: (b ++ 0x3A :: r)) ∧ Space a ∧ Quoted k ∧ Space b := by
  unfold scanKey at h
  obtain ⟨a, ha, ea⟩ := skipSpace_spec s
  split at h
  · rename_i s1 hs
    split at h
    · cases h
    rename_i k' s2 hk
    obtain ⟨b, hb, eb⟩ := skipSpace_spec s2
    split at h
    · rename_i s3 hs3
      obtain ⟨rfl, rfl⟩ := Prod.mk.inj (Option.some.inj h)
      obtain ⟨e1, e2⟩ := scanStr_spec _ _ _ _ (Nat.le_refl _) hk
      exact ⟨a, b, by rw [ea, hs, e1]; rw [hs3] at eb; rw [← eb], ha, e2, hb⟩
    · cases h
  · cases h

theorem scanMembers_spec {pv : Bytes → Option (JVal × Bytes)} {P : Spec.JsonText.Json → Bytes → Prop}
    (ih : ∀ s v r, pv s = some (v, r) → ∃ a j t, s = a ++ (t ++ r) ∧ Space a ∧ P j t ∧ toJ j = v) :
    ∀ (f : Nat) (s r : Bytes) (l : List (Bytes × JVal)), scanMembers pv f s = some (l, r) →
      ∃ l' u, l' ≠ [] ∧ s = u ++ 0x7D :: r ∧ Members P l' u ∧ toJps l' = l := by
  intro f
  induction f with
  | zero => intro s r l h; cases h
  | succ f ihf =>
    intro s r l h
    rw [scanMembers] at h
    split at h
    · cases h
    rename_i k s0 hk0
    obtain ⟨a, b, rfl, ha, hk, hb⟩ := scanKey_spec hk0
    split at h
    · cases h
    rename_i v s1 hv
    obtain ⟨c, j, t, rfl, hc, hj, rfl⟩ := ih _ _ _ hv
    obtain ⟨e, he, ee⟩ := skipSpace_spec s1
    split at h
    · cases h
    rename_i x s2 hs
    rw [hs] at ee
    split at h
    · rename_i hx
      subst hx
      rw [Option.map_eq_some_iff] at h
      obtain ⟨⟨l1, r1⟩, hl, e'⟩ := h
      obtain ⟨rfl, rfl⟩ := Prod.mk.inj e'
      obtain ⟨l', u, hne, rfl, hu, rfl⟩ := ihf _ _ _ hl
      cases l' with
      | nil => exact absurd rfl hne
      | cons w l' =>
        exact ⟨(k, j) :: w :: l', a ++ 0x22 :: (k ++ 0x22 :: (b ++ 0x3A :: (c ++ (t ++ e)))) ++ 0x2C :: u, by simp, by rw [ee]; simp,
          ⟨_, u, rfl, ⟨a, b, c, t, e, rfl, ha, hk, hb, hc, hj, he⟩, hu⟩, rfl⟩
    split at h
    · rename_i hx
      subst hx
      obtain ⟨rfl, rfl⟩ := Prod.mk.inj (Option.some.inj h)
      exact ⟨[(k, j)], a ++ 0x22 :: (k ++ 0x22 :: (b ++ 0x3A :: (c ++ (t ++ e)))), by simp, by rw [ee]; simp,
        ⟨a, b, c, t, e, rfl, ha, hk, hb, hc, hj, he⟩, rfl⟩
    · cases h

theorem scanValue_spec : ∀ (d : Nat) (s : Bytes) (v : JVal) (r : Bytes), scanValue d s = some (v, r) →
    ∃ a j t, s = a ++ (t ++ r) ∧ Space a ∧ Value d j t ∧ toJ j = v := by
  intro d
  induction d with
  | zero =>
    intro s v r h
    rw [scanValue] at h
    obtain ⟨a, ha, e⟩ := skipSpace_spec s
    obtain ⟨j, t, e1, h2, h3⟩ := scanScalar_spec h 0
    exact ⟨a, j, t, by rw [← e1]; exact e, ha, h2, h3⟩
  | succ d ih =>
    intro s v r h
    rw [scanValue] at h
    obtain ⟨a, ha, e⟩ := skipSpace_spec s
    split at h
    · cases h
    rename_i b s1 hs
    rw [hs] at e
    split at h
    · rename_i hb
      subst hb
      obtain ⟨c, hc, ec⟩ := skipSpace_spec s1
      split at h
      · rename_i r' hr
        obtain ⟨rfl, rfl⟩ := Prod.mk.inj (Option.some.inj h)
        rw [hr] at ec
        exact ⟨a, .arr [], 0x5B :: (c ++ [0x5D]), by rw [e, ec]; simp, ha, ⟨c, rfl, hc⟩, rfl⟩
      · rw [Option.map_eq_some_iff] at h
        obtain ⟨⟨l, r1⟩, hl, e'⟩ := h
        obtain ⟨rfl, rfl⟩ := Prod.mk.inj e'
        obtain ⟨l', u, _, e1, hu, rfl⟩ := scanElems_spec ih _ _ _ _ hl
        exact ⟨a, .arr l', 0x5B :: (u ++ [0x5D]), by rw [e, e1]; simp, ha, ⟨u, rfl, hu⟩, rfl⟩
    split at h
    · rename_i hb
      subst hb
      obtain ⟨c, hc, ec⟩ := skipSpace_spec s1
      split at h
      · rename_i r' hr
        obtain ⟨rfl, rfl⟩ := Prod.mk.inj (Option.some.inj h)
        rw [hr] at ec
        exact ⟨a, .obj [], 0x7B :: (c ++ [0x7D]), by rw [e, ec]; simp, ha, ⟨c, rfl, hc⟩, rfl⟩
      · rw [Option.map_eq_some_iff] at h
        obtain ⟨⟨l, r1⟩, hl, e'⟩ := h
        obtain ⟨rfl, rfl⟩ := Prod.mk.inj e'
        obtain ⟨l', u, _, e1, hu, rfl⟩ := scanMembers_spec ih _ _ _ _ hl
        exact ⟨a, .obj l', 0x7B :: (u ++ [0x7D]), by rw [e, e1]; simp, ha, ⟨u, rfl, hu⟩, rfl⟩
    · obtain ⟨j, t, e1, h2, h3⟩ := scanScalar_spec h (d + 1)
      exact ⟨a, j, t, by rw [e, e1], ha, h2, h3⟩

theorem parse_spec {s : Bytes} {v : JVal} (h : parse s = some v) : ∃ j, Text maxDepth j s ∧ toJ j = v := by
  unfold parse at h
  split at h
  · cases h
  rename_i w r hw
  split at h
  · rename_i hr
    obtain rfl := Option.some.inj h
    obtain ⟨a, j, t, rfl, ha, hj, e⟩ := scanValue_spec _ _ _ _ hw
    obtain ⟨b, hb, eb⟩ := skipSpace_spec r
    rw [hr, List.append_nil] at eb
    subst eb
    exact ⟨j, ⟨a, t, r, rfl, ha, hj, hb⟩, e⟩
  · cases h

end Uip.Json
