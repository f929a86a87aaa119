import Verif.Proof.Json.Members
/-!
# What is assigned from a JSON text
-/
namespace Uip.Json
open Uip Uip.Spec.AddrText Uip.Spec.JsonText

/-! ## Parts of a value -/

theorem elems_all {P : Spec.JsonText.Json → Bytes → Prop} : ∀ {l : List Spec.JsonText.Json} {u : Bytes}, Elems P l u → ∀ v ∈ l, ∃ t, P v t
  | [], _, _, v, hv => by cases hv
  | [w], u, h, v, hv => by
    obtain ⟨_, x, _, _, _, hx, _⟩ := h
    simp at hv; subst hv; exact ⟨x, hx⟩
  | w :: w' :: r, u, h, v, hv => by
    obtain ⟨_, x, _, y, _, _, hx, _, hy⟩ := h
    rcases List.mem_cons.mp hv with rfl | hv
    · exact ⟨x, hx⟩
    · exact elems_all hy v hv

theorem members_all {P : Spec.JsonText.Json → Bytes → Prop} : ∀ {l : List (Bytes × Spec.JsonText.Json)} {u : Bytes}, Members P l u →
    ∀ p ∈ l, Quoted p.1 ∧ ∃ t, P p.2 t
  | [], _, _, v, hv => by cases hv
  | [(k, w)], u, h, v, hv => by
    obtain ⟨_, _, _, x, _, _, _, hk, _, _, hx, _⟩ := h
    simp at hv; subst hv; exact ⟨hk, x, hx⟩
  | (k, w) :: w' :: r, u, h, v, hv => by
    obtain ⟨_, y, _, ⟨_, _, _, x, _, _, _, hk, _, _, hx, _⟩, hy⟩ := h
    rcases List.mem_cons.mp hv with rfl | hv
    · exact ⟨hk, x, hx⟩
    · exact members_all hy v hv

theorem value_obj {d : Nat} {l : List (Bytes × Spec.JsonText.Json)} {t : Bytes} (h : Value (d + 1) (.obj l) t) :
    ∀ p ∈ l, Quoted p.1 ∧ ∃ u, Value d p.2 u := by
  obtain ⟨u, _, hu⟩ := h
  exact members_all hu

theorem value_arr {d : Nat} {l : List Spec.JsonText.Json} {t : Bytes} (h : Value (d + 1) (.arr l) t) :
    ∀ v ∈ l, ∃ u, Value d v u := by
  obtain ⟨u, _, hu⟩ := h
  exact elems_all hu

theorem value_str {d : Nat} {s t : Bytes} (h : Value d (.str s) t) : Quoted s := by
  have : t = 0x22 :: (s ++ [0x22]) ∧ Quoted s := by cases d <;> exact h
  exact this.2

theorem toJs_eq (l : List Spec.JsonText.Json) : toJs l = l.map toJ := by
  induction l with
  | nil => rfl
  | cons v l ih => rw [toJs, ih]; rfl

theorem toJps_eq (l : List (Bytes × Spec.JsonText.Json)) : toJps l = l.map fun p => (p.1, toJ p.2) := by
  induction l with
  | nil => rfl
  | cons v l ih => obtain ⟨k, v⟩ := v; rw [toJps, ih]; rfl

/-! ## Numbers -/

theorem value_numOf (t : Bytes) (h : ∀ c ∈ t, digitOf c < 10) : ∀ n : Nat,
    t.foldl (fun n b => n * 10 + (b.toNat - 0x30)) n = t.foldl (fun n c => n * 10 + digitOf c) n := by
  induction t with
  | nil => intro n; rfl
  | cons c t ih =>
    intro n
    rw [List.foldl_cons, List.foldl_cons, (digitOf_dec c).2 (h c (List.mem_cons_self ..)), ih fun x hx => h x (List.mem_cons_of_mem _ hx)]

theorem all_digits {t : Bytes} : t.all isDigit = true ↔ ∀ c ∈ t, digitOf c < 10 := by
  rw [List.all_eq_true]
  exact ⟨fun h c hc => (isDigit_digitOf c).mp (h c hc), fun h c hc => (isDigit_digitOf c).mpr (h c hc)⟩

theorem rawInt_iff (t : Bytes) (n : Int) : rawInt t = some n ↔ Whole t n := by
  unfold rawInt
  simp only []
  split
  · rename_i d
    split
    · rename_i h
      have hd := all_digits.mp h.2
      rw [value_numOf _ hd]
      constructor
      · intro e
        exact .inr ⟨d, _, rfl, ⟨h.1, hd, rfl⟩, (Option.some.inj e).symm⟩
      · rintro (⟨k, hk, _⟩ | ⟨d', k, e, hk, rfl⟩)
        · exact absurd (hk.digit 0x2D (List.mem_cons_self ..)) (by decide)
        · obtain rfl := (List.cons.inj e).2
          rw [hk.value]
    · rename_i h
      constructor
      · intro e; cases e
      · rintro (⟨k, hk, _⟩ | ⟨d', k, e, hk, rfl⟩)
        · exact absurd (hk.digit 0x2D (List.mem_cons_self ..)) (by decide)
        · obtain rfl := (List.cons.inj e).2
          exact absurd ⟨hk.some, all_digits.mpr hk.digit⟩ h
  · rename_i hne
    split
    · rename_i h
      have hd := all_digits.mp h.2
      rw [value_numOf _ hd]
      constructor
      · intro e
        exact .inl ⟨_, ⟨h.1, hd, rfl⟩, (Option.some.inj e).symm⟩
      · rintro (⟨k, hk, rfl⟩ | ⟨d', k, e, hk, rfl⟩)
        · rw [hk.value]
        · exact absurd e (hne _)
    · rename_i h
      constructor
      · intro e; cases e
      · rintro (⟨k, hk, _⟩ | ⟨d', k, e, hk, rfl⟩)
        · exact absurd ⟨hk.some, all_digits.mpr hk.digit⟩ h
        · exact absurd e (hne _)

theorem putInt_iff (lo hi old n : Int) (j : Spec.JsonText.Json) : putInt lo hi old (toJ j) = some n ↔
    (∃ t, j = .num t ∧ Whole t n ∧ lo ≤ n ∧ n ≤ hi) ∨ j = .null ∧ n = old := by
  cases j with
  | null =>
    simp only [toJ, putInt]
    constructor
    · intro h; exact .inr ⟨trivial, (Option.some.inj h).symm⟩
    · rintro (⟨t, e, _⟩ | ⟨_, rfl⟩)
      · cases e
      · rfl
  | num t =>
    simp only [toJ, putInt]
    constructor
    · intro h
      split at h
      · rename_i m hm
        split at h
        · rename_i hb
          obtain rfl := Option.some.inj h
          exact .inl ⟨t, rfl, (rawInt_iff _ _).mp hm, hb⟩
        · cases h
      · cases h
    · rintro (⟨t', e, hw, hb⟩ | ⟨e, _⟩)
      · obtain rfl := Spec.JsonText.Json.num.inj e
        rw [(rawInt_iff _ _).mpr hw]
        simp only []
        rw [if_pos hb]
      · cases e
  | bool b | str t | arr l | obj l =>
    simp only [toJ, putInt]
    constructor
    · intro h; cases h
    · rintro (⟨t, e, _⟩ | ⟨e, _⟩) <;> cases e

theorem putUint_iff (hi : Nat) (old n : Int) (j : Spec.JsonText.Json) : putUint hi old (toJ j) = some n ↔
    (∃ t k, j = .num t ∧ Numeral 10 t k ∧ n = k ∧ k ≤ hi) ∨ j = .null ∧ n = old := by
  cases j with
  | null =>
    simp only [toJ, putUint]
    constructor
    · intro h; exact .inr ⟨trivial, (Option.some.inj h).symm⟩
    · rintro (⟨t, k, e, _⟩ | ⟨_, rfl⟩)
      · cases e
      · rfl
  | num t =>
    simp only [toJ, putUint]
    have hi' := putInt_iff 0 hi old n (.num t)
    rw [toJ] at hi'
    constructor
    · intro h
      split at h
      · cases h
      · rename_i hh
        rcases hi'.mp h with ⟨t', e, hw, h1, h2⟩ | ⟨e, _⟩
        · obtain rfl := Spec.JsonText.Json.num.inj e
          rcases hw with ⟨k, hk, rfl⟩ | ⟨d, k, e, _⟩
          · exact .inl ⟨t, k, rfl, hk, rfl, by omega⟩
          · rw [e] at hh; exact absurd rfl hh
        · cases e
    · rintro (⟨t', k, e, hk, rfl, hb⟩ | ⟨e, _⟩)
      · obtain rfl := Spec.JsonText.Json.num.inj e
        rw [if_neg, hi']
        · exact .inl ⟨t, rfl, .inl ⟨k, hk, rfl⟩, by omega, by omega⟩
        · intro hh
          cases t with
          | nil => cases hh
          | cons c t =>
            simp at hh
            subst hh
            exact absurd (hk.digit 0x2D (List.mem_cons_self ..)) (by decide)
      · cases e
  | bool b | str t | arr l | obj l =>
    simp only [toJ, putUint]
    constructor
    · intro h; cases h
    · rintro (⟨t, k, e, _⟩ | ⟨e, _⟩) <;> cases e

/-! ## Strings -/

theorem putStr_iff {d : Nat} {j : Spec.JsonText.Json} {u : Bytes} (hj : Value d j u) (old s : Str) : putStr old (toJ j) = some s ↔
    (∃ t, j = .str t ∧ Stands true t s) ∨ j = .null ∧ s = old := by
  cases j with
  | null =>
    simp only [toJ, putStr]
    constructor
    · intro h; exact .inr ⟨trivial, (Option.some.inj h).symm⟩
    · rintro (⟨t, e, _⟩ | ⟨_, rfl⟩)
      · cases e
      · rfl
  | str t =>
    have hq := value_str hj
    simp only [toJ, putStr]
    constructor
    · intro h
      exact .inl ⟨t, rfl, (stands_iff hq _).mpr (Option.some.inj h).symm⟩
    · rintro (⟨t', e, hs⟩ | ⟨e, _⟩)
      · obtain rfl := Spec.JsonText.Json.str.inj e
        rw [(stands_iff hq _).mp hs]
      · cases e
  | bool b | num t | arr l | obj l =>
    simp only [toJ, putStr]
    constructor
    · intro h; cases h
    · rintro (⟨t, e, _⟩ | ⟨e, _⟩) <;> cases e

theorem putElems_iff {d : Nat} : ∀ {vs : List Spec.JsonText.Json}, (∀ v ∈ vs, ∃ u, Value d v u) → ∀ es : List Str,
    (putElems [] (toJs vs) = some es ↔ Each StrElem vs es) := by
  intro vs
  induction vs with
  | nil =>
    intro _ es
    rw [toJs, putElems]
    constructor
    · intro h; obtain rfl := Option.some.inj h; exact .nil
    · intro h; cases h; rfl
  | cons v vs ih =>
    intro hv es
    obtain ⟨u, hu⟩ := hv v (List.mem_cons_self ..)
    have ih := ih (fun x hx => hv x (List.mem_cons_of_mem _ hx))
    rw [toJs, putElems]
    constructor
    · intro h
      split at h
      · cases h
      · rename_i s hs
        rw [Option.map_eq_some_iff] at h
        obtain ⟨es', h1, rfl⟩ := h
        exact .cons ((putStr_iff hu [] s).mp hs) ((ih es').mp h1)
    · intro h
      cases h with
      | cons h1 h2 =>
        rename_i s es
        have e : putStr (([] : List Str).headD []) (toJ v) = some s := (putStr_iff hu [] s).mpr h1
        rw [e]
        simp only [List.tail_nil]
        rw [(ih es).mpr h2]; rfl

theorem putStrings_iff {d : Nat} {j : Spec.JsonText.Json} {u : Bytes} (hj : Value (d + 1) j u) (ss : List Str) :
    (∃ sl, putStrings {} (toJ j) = some sl ∧ sl.elems = ss) ↔ (∃ vs, j = .arr vs ∧ Each StrElem vs ss) ∨ j = .null ∧ ss = [] := by
  cases j with
  | null =>
    simp only [toJ, putStrings]
    constructor
    · rintro ⟨sl, h, rfl⟩; obtain rfl := Option.some.inj h; exact .inr ⟨trivial, rfl⟩
    · rintro (⟨t, e, _⟩ | ⟨_, rfl⟩)
      · cases e
      · exact ⟨_, rfl, rfl⟩
  | arr vs =>
    have hv := value_arr hj
    have key := putElems_iff hv
    rw [toJ]
    cases vs with
    | nil =>
      simp only [toJs, putStrings]
      constructor
      · rintro ⟨sl, h, rfl⟩; obtain rfl := Option.some.inj h; exact .inl ⟨[], rfl, .nil⟩
      · rintro (⟨vs, e, h⟩ | ⟨e, _⟩)
        · obtain rfl := Spec.JsonText.Json.arr.inj e
          cases h
          exact ⟨_, rfl, rfl⟩
        · cases e
    | cons v vs =>
      have e : putStrings {} (.arr (toJs (v :: vs))) =
          (putElems [] (toJs (v :: vs))).map fun es => ⟨es, ([] : List Str).drop (toJs (v :: vs)).length⟩ := rfl
      rw [e]
      constructor
      · rintro ⟨sl, h, rfl⟩
        rw [Option.map_eq_some_iff] at h
        obtain ⟨es, h1, rfl⟩ := h
        exact .inl ⟨_, rfl, (key es).mp h1⟩
      · rintro (⟨vs', e, h⟩ | ⟨e, _⟩)
        · obtain rfl := Spec.JsonText.Json.arr.inj e
          rw [(key ss).mpr h]
          exact ⟨_, rfl, rfl⟩
        · cases e
  | bool b | num t | str l | obj l =>
    simp only [toJ, putStrings]
    constructor
    · rintro ⟨sl, h, _⟩; cases h
    · rintro (⟨t, e, _⟩ | ⟨e, _⟩) <;> cases e

/-! ## Maps -/

/-- Assigning pairs one after the other. -/
def setAll (m : GoMap Int) : List (Str × Int) → GoMap Int
  | [] => m
  | (k, n) :: r => setAll (mapSet (m.filter fun p => p.1 ≠ k) k n) r

theorem fits64_iff (n : Int) : Fits64 n ↔ minInt64 ≤ n ∧ n ≤ maxInt64 := by
  unfold Fits64 minInt64 maxInt64
  constructor <;> intro h <;> omega

theorem putPairs_iff {d : Nat} : ∀ {ps : List (Bytes × Spec.JsonText.Json)}, (∀ p ∈ ps, Quoted p.1 ∧ ∃ u, Value d p.2 u) →
    ∀ m m' : GoMap Int, (putPairs m (toJps ps) = some m' ↔ ∃ qs, Each IntPair ps qs ∧ m' = setAll m qs) := by
  intro ps
  induction ps with
  | nil =>
    intro _ m m'
    rw [toJps, putPairs]
    constructor
    · intro h; exact ⟨[], .nil, (Option.some.inj h).symm⟩
    · rintro ⟨qs, h, rfl⟩; cases h; rfl
  | cons p ps ih =>
    intro hp m m'
    obtain ⟨k, v⟩ := p
    obtain ⟨hk, u, hu⟩ := hp (k, v) (List.mem_cons_self ..)
    have ih := ih (fun x hx => hp x (List.mem_cons_of_mem _ hx))
    rw [toJps, putPairs]
    constructor
    · intro h
      split at h
      · cases h
      · rename_i n hn
        obtain ⟨qs, h1, h2⟩ := (ih _ _).mp h
        refine ⟨(unquote k, n) :: qs, .cons ⟨(stands_iff hk _).mpr rfl, ?_⟩ h1, h2⟩
        rcases (putInt_iff _ _ _ _ _).mp hn with ⟨t, e, hw, hb⟩ | h
        · exact .inl ⟨t, e, hw, (fits64_iff n).mpr hb⟩
        · exact .inr h
    · rintro ⟨qs, h, rfl⟩
      cases h with
      | cons h1 h2 =>
        rename_i q qs
        obtain ⟨k', n⟩ := q
        obtain ⟨h3, h4⟩ := h1
        have hk' : k' = unquote k := (stands_iff hk _).mp h3
        subst hk'
        have hn : putInt minInt64 maxInt64 0 (toJ v) = some n := by
          rw [putInt_iff]
          rcases h4 with ⟨t, e, hw, hb⟩ | h
          · exact .inl ⟨t, e, hw, (fits64_iff n).mp hb⟩
          · exact .inr h
        rw [hn]
        simp only []
        rw [ih]
        exact ⟨qs, h2, rfl⟩

theorem mapGet_setAll : ∀ (qs : List (Str × Int)) (m : GoMap Int) (k : Str),
    mapGet (setAll m qs) k = match ((qs.filter fun q => decide (q.1 = k)).getLast?).map (·.2) with
      | some n => some n
      | none => mapGet m k := by
  intro qs
  induction qs with
  | nil => intro m k; rfl
  | cons q qs ih =>
    intro m k
    obtain ⟨k0, n⟩ := q
    rw [setAll, ih]
    by_cases hk : k0 = k
    · subst hk
      rw [List.filter_cons_of_pos (by simp)]
      cases hq : (qs.filter fun q => decide (q.1 = k0)) with
      | nil => simp [mapGet, mapSet]
      | cons a l =>
        rw [List.getLast?_cons_cons]
        cases hl : (a :: l).getLast? with
        | none => simp at hl
        | some x => rfl
    · rw [List.filter_cons_of_neg (by simpa using hk)]
      have e : mapGet (mapSet (m.filter fun p => p.1 ≠ k0) k0 n) k = mapGet m k := by
        unfold mapSet
        rw [mapGet, if_neg (by first | exact hk | exact fun h => hk h.symm)]
        clear ih
        induction m with
        | nil => rfl
        | cons p m ih =>
          obtain ⟨a, b⟩ := p
          by_cases ha : a = k0
          · subst ha
            rw [List.filter_cons_of_neg (by simp), ih, mapGet, if_neg (by first | exact hk | exact fun h => hk h.symm)]
          · rw [List.filter_cons_of_pos (by simpa using ha), mapGet, mapGet, ih]
      rw [e]

end Uip.Json
