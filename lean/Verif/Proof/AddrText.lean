import Verif.Spec.AddrText
import Verif.Proof.Text
import Verif.Proof.Addr
/-!
# Parsing and printing addresses, against the grammar of `Spec/AddrText.lean`
-/
namespace Uip
open Spec Spec.AddrText

theorem digitOf_dec : ∀ c : UInt8, (0x30 ≤ c ∧ c ≤ 0x39 ↔ digitOf c < 10) ∧ (digitOf c < 10 → c.toNat - 0x30 = digitOf c) := by
  refine byte_all _ ?_
  decide +kernel

theorem digitOf_hex : ∀ c : UInt8, hexVal c = if digitOf c < 16 then some (digitOf c) else none := by
  refine byte_all _ ?_
  decide +kernel

theorem digitOf_zero : ∀ c : UInt8, digitOf c = 0 → c = 0x30 := by
  refine byte_all _ ?_
  decide +kernel

theorem digitOf_low : ∀ c : UInt8, digitOf c < 10 → ¬ ((0x41 : UInt8) ≤ c ∧ c ≤ 0x46) := by
  refine byte_all _ ?_
  decide +kernel

/-- The digits read so far. -/
def numOf (b n : Nat) (t : Str) : Nat := t.foldl (fun n c => n * b + digitOf c) n

theorem numOf_cons (b n : Nat) (c : UInt8) (t : Str) : numOf b n (c :: t) = numOf b (n * b + digitOf c) t := rfl

theorem le_numOf {b : Nat} (hb : 1 ≤ b) (t : Str) : ∀ n, n ≤ numOf b n t := by
  induction t with
  | nil => intro n; exact Nat.le_refl _
  | cons c t ih =>
    intro n
    rw [numOf_cons]
    exact Nat.le_trans (Nat.le_trans (Nat.le_mul_of_pos_right n hb) (Nat.le_add_right _ _)) (ih _)

theorem dtoiLoop_iff : ∀ (s : Str) (n i m j : Nat) (rest : Str), n < big →
    (dtoiLoop s n i = some (m, j, rest) ↔ ∃ t, s = t ++ rest ∧ (∀ c ∈ t, digitOf c < 10) ∧ numOf 10 n t = m ∧ m < big ∧
      j = i + t.length ∧ ∀ c, rest.head? = some c → ¬ digitOf c < 10) := by
  intro s
  induction s with
  | nil =>
    intro n i m j rest hn
    constructor
    · intro h
      cases h
      exact ⟨[], rfl, fun c h => (nomatch h), rfl, hn, rfl, fun c h => (nomatch h)⟩
    · rintro ⟨t, h1, _, h3, _, h5, _⟩
      obtain ⟨rfl, rfl⟩ := List.nil_eq_append_iff.mp h1
      subst h3 h5
      rfl
  | cons c s ih =>
    intro n i m j rest hn
    have hd := digitOf_dec c
    unfold dtoiLoop
    by_cases h : digitOf c < 10
    · rw [if_pos (hd.1.mpr h), hd.2 h]
      simp only []
      by_cases hb : big ≤ n * 10 + digitOf c
      · rw [if_pos hb]
        constructor
        · intro h; cases h
        · rintro ⟨t, h1, _, h3, h4, _, h6⟩
          cases t with
          | nil =>
            rw [List.nil_append] at h1
            exact absurd h (h6 c (by rw [← h1]; rfl))
          | cons c' t =>
            cases h1
            rw [numOf_cons] at h3
            have := le_numOf (b := 10) (by omega) t (n * 10 + digitOf c)
            omega
      · rw [if_neg hb, ih _ _ _ _ _ (by omega)]
        constructor
        · rintro ⟨t, rfl, h2, h3, h4, h5, h6⟩
          refine ⟨c :: t, rfl, ?_, h3, h4, by rw [List.length_cons]; omega, h6⟩
          intro x hx
          rcases List.mem_cons.mp hx with rfl | hx
          · exact h
          · exact h2 x hx
        · rintro ⟨t, h1, h2, h3, h4, h5, h6⟩
          cases t with
          | nil =>
            rw [List.nil_append] at h1
            exact absurd h (h6 c (by rw [← h1]; rfl))
          | cons c' t =>
            cases h1
            rw [List.length_cons] at h5
            exact ⟨t, rfl, fun x hx => h2 x (List.mem_cons_of_mem _ hx), h3, h4, by omega, h6⟩
    · rw [if_neg (fun h' => h (hd.1.mp h'))]
      constructor
      · intro h'
        cases h'
        refine ⟨[], rfl, fun c h => (nomatch h), rfl, hn, rfl, ?_⟩
        intro x hx
        cases hx
        exact h
      · rintro ⟨t, h1, h2, h3, h4, h5, h6⟩
        cases t with
        | nil =>
          rw [List.nil_append] at h1
          subst h1 h3 h5
          rfl
        | cons c' t =>
          cases h1
          exact absurd (h2 c (List.mem_cons_self ..)) h

theorem xtoiLoop_iff : ∀ (s : Str) (n i m j : Nat) (rest : Str), n < big →
    (xtoiLoop s n i = some (m, j, rest) ↔ ∃ t, s = t ++ rest ∧ (∀ c ∈ t, digitOf c < 16) ∧ numOf 16 n t = m ∧ m < big ∧
      j = i + t.length ∧ ∀ c, rest.head? = some c → ¬ digitOf c < 16) := by
  intro s
  induction s with
  | nil =>
    intro n i m j rest hn
    constructor
    · intro h
      cases h
      exact ⟨[], rfl, fun c h => (nomatch h), rfl, hn, rfl, fun c h => (nomatch h)⟩
    · rintro ⟨t, h1, _, h3, _, h5, _⟩
      obtain ⟨rfl, rfl⟩ := List.nil_eq_append_iff.mp h1
      subst h3 h5
      rfl
  | cons c s ih =>
    intro n i m j rest hn
    unfold xtoiLoop
    rw [digitOf_hex c]
    by_cases h : digitOf c < 16
    · rw [if_pos h]
      simp only []
      by_cases hb : big ≤ n * 16 + digitOf c
      · rw [if_pos hb]
        constructor
        · intro h; cases h
        · rintro ⟨t, h1, _, h3, h4, _, h6⟩
          cases t with
          | nil =>
            rw [List.nil_append] at h1
            exact absurd h (h6 c (by rw [← h1]; rfl))
          | cons c' t =>
            cases h1
            rw [numOf_cons] at h3
            have := le_numOf (b := 16) (by omega) t (n * 16 + digitOf c)
            omega
      · rw [if_neg hb, ih _ _ _ _ _ (by omega)]
        constructor
        · rintro ⟨t, rfl, h2, h3, h4, h5, h6⟩
          refine ⟨c :: t, rfl, ?_, h3, h4, by rw [List.length_cons]; omega, h6⟩
          intro x hx
          rcases List.mem_cons.mp hx with rfl | hx
          · exact h
          · exact h2 x hx
        · rintro ⟨t, h1, h2, h3, h4, h5, h6⟩
          cases t with
          | nil =>
            rw [List.nil_append] at h1
            exact absurd h (h6 c (by rw [← h1]; rfl))
          | cons c' t =>
            cases h1
            rw [List.length_cons] at h5
            exact ⟨t, rfl, fun x hx => h2 x (List.mem_cons_of_mem _ hx), h3, h4, by omega, h6⟩
    · rw [if_neg h]
      constructor
      · intro h'
        cases h'
        refine ⟨[], rfl, fun c h => (nomatch h), rfl, hn, rfl, ?_⟩
        intro x hx
        cases hx
        exact h
      · rintro ⟨t, h1, h2, h3, h4, h5, h6⟩
        cases t with
        | nil =>
          rw [List.nil_append] at h1
          subst h1 h3 h5
          rfl
        | cons c' t =>
          cases h1
          exact absurd (h2 c (List.mem_cons_self ..)) h

theorem dtoi_iff (s : Str) (m j : Nat) (rest : Str) :
    dtoi s = some (m, j, rest) ↔ ∃ t, s = t ++ rest ∧ Numeral 10 t m ∧ m < big ∧ j = t.length ∧
      ∀ c, rest.head? = some c → ¬ digitOf c < 10 := by
  unfold dtoi
  have key := dtoiLoop_iff s 0 0
  constructor
  · intro h
    split at h
    · rename_i n i r he
      split at h
      · cases h
      · cases h
        obtain ⟨t, h1, h2, h3, h4, h5, h6⟩ := (key m j rest (by decide)).mp he
        refine ⟨t, h1, ⟨?_, h2, h3⟩, h4, by omega, h6⟩
        rintro rfl
        rw [List.length_nil] at h5
        contradiction
    · cases h
  · rintro ⟨t, h1, h2, h3, h4, h5⟩
    rw [(key m j rest (by decide)).mpr ⟨t, h1, h2.digit, h2.value, h3, by omega, h5⟩]
    simp only []
    rw [if_neg]
    have := List.length_pos_iff.mpr h2.some
    omega

theorem xtoi_iff (s : Str) (m j : Nat) (rest : Str) :
    xtoi s = some (m, j, rest) ↔ ∃ t, s = t ++ rest ∧ Numeral 16 t m ∧ m < big ∧ j = t.length ∧
      ∀ c, rest.head? = some c → ¬ digitOf c < 16 := by
  unfold xtoi
  have key := xtoiLoop_iff s 0 0
  constructor
  · intro h
    split at h
    · rename_i n i r he
      split at h
      · cases h
      · cases h
        obtain ⟨t, h1, h2, h3, h4, h5, h6⟩ := (key m j rest (by decide)).mp he
        refine ⟨t, h1, ⟨?_, h2, h3⟩, h4, by omega, h6⟩
        rintro rfl
        rw [List.length_nil] at h5
        contradiction
    · cases h
  · rintro ⟨t, h1, h2, h3, h4, h5⟩
    rw [(key m j rest (by decide)).mpr ⟨t, h1, h2.digit, h2.value, h3, by omega, h5⟩]
    simp only []
    rw [if_neg]
    have := List.length_pos_iff.mpr h2.some
    omega

/-! ## Dotted quads -/

theorem octet_iff (s : Str) (x : Nat) (rest : Str) (c : Nat) (hd : dtoi s = some (x, c, rest)) (hx : x ≤ 0xFF)
    (hz : ¬ (1 < c ∧ s.head? = some 0x30)) :
    ∃ t, s = t ++ rest ∧ Octet t (UInt8.ofNat x) := by
  obtain ⟨t, rfl, h2, _, h4, _⟩ := (dtoi_iff s x c rest).mp hd
  refine ⟨t, rfl, ?_, ?_⟩
  · rw [UInt8.toNat_ofNat', Nat.mod_eq_of_lt (by omega)]
    exact h2
  · intro h0
    cases t with
    | nil => cases h0
    | cons a t =>
      cases h0
      cases t with
      | nil => rfl
      | cons b t => exact absurd ⟨by rw [h4, List.length_cons, List.length_cons]; omega, rfl⟩ hz

theorem octet_reads {t : Str} {x : UInt8} (h : Octet t x) {rest : Str} (hr : ∀ c, rest.head? = some c → ¬ digitOf c < 10) :
    dtoi (t ++ rest) = some (x.toNat, t.length, rest) ∧ ¬ (1 < t.length ∧ (t ++ rest).head? = some 0x30) := by
  constructor
  · exact (dtoi_iff _ _ _ _).mpr ⟨t, rfl, h.1, by have := x.toNat_lt; unfold big; omega, rfl, hr⟩
  · rintro ⟨h1, h2⟩
    cases t with
    | nil => exact h.1.some rfl
    | cons a t =>
      have := h.2 h2
      rw [this] at h1
      simp at h1

theorem dot_stop : ∀ c, (0x2E :: rest : Str).head? = some c → ¬ digitOf c < 10 := by
  intro c h; cases h; decide

theorem parseIPv4Loop_iff : ∀ (k : Nat) (s : Str) (ps : Bytes),
    parseIPv4Loop k false s = some (ps, []) ↔ ps.length = k ∧ ∃ ts : List Str, s = ts.flatMap (0x2E :: ·) ∧ Each Octet ts ps := by
  intro k
  induction k with
  | zero =>
    intro s ps
    unfold parseIPv4Loop
    constructor
    · intro h
      cases h
      exact ⟨rfl, [], rfl, .nil⟩
    · rintro ⟨h1, ts, rfl, h3⟩
      have := List.length_eq_zero_iff.mp h1
      subst this
      cases h3
      rfl
  | succ k ih =>
    intro s ps
    unfold parseIPv4Loop octetStart
    constructor
    · intro h
      simp only [Bool.false_eq_true, if_false] at h
      split at h
      · cases h
      · rename_i s' hs'
        split at hs'
        · rename_i t
          cases hs'
          split at h
          · cases h
          · rename_i n c rest hd
            split at h
            · cases h
            · split at h
              · cases h
              · split at h
                · cases h
                · rename_i qs t hq
                  cases h
                  obtain ⟨h1, ts, h2, h3⟩ := (ih rest qs).mp hq
                  obtain ⟨u, h4, h5⟩ := octet_iff _ n rest c hd (by omega) (by assumption)
                  refine ⟨by rw [List.length_cons, h1], u :: ts, ?_, .cons h5 h3⟩
                  rw [h4, h2]
                  rfl
        · cases hs'
    · rintro ⟨h1, ts, rfl, h3⟩
      cases h3 with
      | nil => cases h1
      | @cons u x ts ps hx h3 =>
        have hq := (ih (ts.flatMap (0x2E :: ·)) ps).mpr ⟨by simpa using h1, ts, rfl, h3⟩
        have e : (u :: ts).flatMap (0x2E :: ·) = 0x2E :: (u ++ ts.flatMap (0x2E :: ·)) := rfl
        have hr : ∀ c, (ts.flatMap (fun u : Str => (0x2E : UInt8) :: u)).head? = some c → ¬ digitOf c < 10 := by
          cases ts with
          | nil => intro c h; cases h
          | cons a ts => intro c h; cases h; decide
        obtain ⟨h4, h5⟩ := octet_reads hx hr
        rw [e]
        simp only [Bool.false_eq_true, if_false]
        rw [h4]
        simp only []
        have := x.toNat_lt
        rw [if_neg (by omega), if_neg h5, hq]
        simp

theorem joinByte_flatMap (c : UInt8) (t : Str) (ts : List Str) : joinByte c (t :: ts) = t ++ ts.flatMap (c :: ·) := by
  induction ts generalizing t with
  | nil => simp [joinByte]
  | cons u ts ih =>
    show t ++ c :: joinByte c (u :: ts) = _
    rw [ih]
    simp

theorem parseIPv4_iff (s : Str) (p : Bytes) : parseIPv4 s = some p ↔ Quad s p := by
  have key : parseIPv4 s = some p ↔ parseIPv4Loop 4 true s = some (p, []) := by
    unfold parseIPv4
    constructor
    · intro h
      split at h
      · rename_i ps he
        cases h
        exact he
      · cases h
    · intro h
      rw [h]
  rw [key]
  unfold parseIPv4Loop octetStart Quad
  simp only [if_true]
  constructor
  · intro h
    split at h
    · cases h
    · rename_i s' hs'
      split at hs'
      · cases hs'
      · cases hs'
        split at h
        · cases h
        · rename_i n c rest hd
          split at h
          · cases h
          · split at h
            · cases h
            · split at h
              · cases h
              · rename_i qs t hq
                cases h
                obtain ⟨h1, ts, h2, h3⟩ := (parseIPv4Loop_iff 3 rest qs).mp hq
                obtain ⟨u, h4, h5⟩ := octet_iff _ n rest c hd (by omega) (by assumption)
                refine ⟨by rw [List.length_cons, h1], u :: ts, ?_, .cons h5 h3⟩
                rw [joinByte_flatMap, ← h2, h4]
  · rintro ⟨h1, ts, rfl, h3⟩
    cases h3 with
    | nil => cases h1
    | @cons u x ts ps hx h3 =>
      have hq := (parseIPv4Loop_iff 3 (ts.flatMap (0x2E :: ·)) ps).mpr ⟨by simpa using h1, ts, rfl, h3⟩
      have hr : ∀ c, (ts.flatMap (fun u : Str => (0x2E : UInt8) :: u)).head? = some c → ¬ digitOf c < 10 := by
        cases ts with
        | nil => intro c h; cases h
        | cons a ts => intro c h; cases h; decide
      obtain ⟨h4, h5⟩ := octet_reads hx hr
      rw [joinByte_flatMap]
      have hne : u ++ ts.flatMap (0x2E :: ·) ≠ [] := by
        intro h
        exact hx.1.some (List.append_eq_nil_iff.mp h).1
      rw [if_neg hne]
      simp only []
      rw [h4]
      simp only []
      have := x.toNat_lt
      rw [if_neg (by omega), if_neg h5, hq]
      simp

/-! ## Groups -/

theorem big_le {w : Nat} (h : w < 65536) : w < big := by unfold big; omega

theorem group_reads {t : Str} {w : Nat} (h : Group t w) {rest : Str} (hr : ∀ c, rest.head? = some c → ¬ digitOf c < 16) :
    xtoi (t ++ rest) = some (w, t.length, rest) :=
  (xtoi_iff _ _ _ _).mpr ⟨t, rfl, h.1, big_le h.2, rfl, hr⟩

theorem group_head {t : Str} {w : Nat} (h : Group t w) (s : Str) : ∃ c u, t ++ s = c :: u ∧ c ≠ 0x3A := by
  cases t with
  | nil => exact absurd rfl h.1.some
  | cons c t =>
    refine ⟨c, t ++ s, rfl, ?_⟩
    rintro rfl
    have := h.1.digit 0x3A (List.mem_cons_self ..)
    revert this
    decide

theorem colon_stop {s : Str} : ∀ c, (0x3A :: s).head? = some c → ¬ digitOf c < 16 := by
  intro c h; cases h; decide

theorem loop_last {f : Nat} {acc : List Nat} {ell : Option Nat} {t : Str} {w : Nat} (h : Group t w) :
    parseIPv6Loop (f + 1) acc ell t = some (acc ++ [w], ell, []) := by
  have hx := group_reads h (rest := []) (fun c h => (nomatch h))
  rw [List.append_nil] at hx
  have := h.2
  unfold parseIPv6Loop
  rw [hx]
  simp only []
  rw [if_neg (by omega), if_neg (by simp)]

theorem loop_next {f : Nat} {acc : List Nat} {ell : Option Nat} {t : Str} {w : Nat} (h : Group t w) {s u : Str} {c : UInt8}
    (hs : s = c :: u) (hc : c ≠ 0x3A) :
    parseIPv6Loop (f + 1) acc ell (t ++ 0x3A :: s) = parseIPv6Loop f (acc ++ [w]) ell s := by
  have hx := group_reads h (rest := 0x3A :: s) colon_stop
  have := h.2
  subst hs
  conv => lhs; unfold parseIPv6Loop
  rw [hx]
  simp only []
  rw [if_neg (by omega), if_neg (by simp)]
  split
  · rename_i h; cases h
  · rename_i h; cases h; exact absurd rfl hc
  · rfl

theorem loop_ell {f : Nat} {acc : List Nat} {t : Str} {w : Nat} (h : Group t w) (s : Str) :
    parseIPv6Loop (f + 1) acc none (t ++ 0x3A :: 0x3A :: s) =
      if s = [] then some (acc ++ [w], some (acc.length + 1), []) else parseIPv6Loop f (acc ++ [w]) (some (acc.length + 1)) s := by
  have hx := group_reads h (rest := 0x3A :: 0x3A :: s) colon_stop
  have := h.2
  conv => lhs; unfold parseIPv6Loop
  rw [hx]
  simp only []
  rw [if_neg (by omega), if_neg (by simp)]
  simp

/-- The first number of a dotted quad, read as a hexadecimal number. -/
theorem quad_first {t : Str} {p : Bytes} (h : Quad t p) : ∃ w n u, xtoi t = some (w, n, 0x2E :: u) ∧ w < 65536 := by
  obtain ⟨h1, ts, rfl, h3⟩ := h
  cases h3 with
  | nil => cases h1
  | @cons a x ts p hx h3 =>
    cases h3 with
    | nil => cases h1
    | @cons b y ts p hy h3 =>
      have hw : numOf 16 0 a < 65536 := by
        have hd := hx.1.digit
        have hz := hx.2
        have hv : numOf 10 0 a = x.toNat := hx.1.value
        have hlt := x.toNat_lt
        match a, hd, hz, hv with
        | [], _, _, _ => exact (by decide : (0 : Nat) < 65536)
        | [c], hd, _, _ =>
          have h1 := hd c (by simp)
          show 0 * 16 + digitOf c < 65536
          omega
        | [c, d], hd, _, _ =>
          have h1 := hd c (by simp)
          have h2 := hd d (by simp)
          show (0 * 16 + digitOf c) * 16 + digitOf d < 65536
          omega
        | [c, d, e], hd, _, _ =>
          have h1 := hd c (by simp)
          have h2 := hd d (by simp)
          have h3 := hd e (by simp)
          show ((0 * 16 + digitOf c) * 16 + digitOf d) * 16 + digitOf e < 65536
          omega
        | c :: d :: e :: g :: t, hd, hz, hv =>
          exfalso
          have hc : digitOf c ≠ 0 := by
            intro h0
            have e0 : c = 0x30 := by
              exact digitOf_zero c h0
            have := hz (by rw [e0]; rfl)
            cases this
          have := le_numOf (b := 10) (by omega) t ((((0 * 10 + digitOf c) * 10 + digitOf d) * 10 + digitOf e) * 10 + digitOf g)
          have e1 : numOf 10 0 (c :: d :: e :: g :: t) = numOf 10 ((((0 * 10 + digitOf c) * 10 + digitOf d) * 10 + digitOf e) * 10 + digitOf g) t := rfl
          omega
      refine ⟨numOf 16 0 a, a.length, joinByte 0x2E (b :: ts), ?_, hw⟩
      exact (xtoi_iff _ _ _ _).mpr ⟨a, rfl, ⟨hx.1.some, fun c hc => Nat.lt_trans (hx.1.digit c hc) (by decide), rfl⟩, big_le hw, rfl,
        fun c h => by cases h; decide⟩

theorem loop_quad {f : Nat} {acc : List Nat} {ell : Option Nat} {t : Str} {a b c d : UInt8} (h : Quad t [a, b, c, d])
    (he : ell = none → acc.length = 6) (h8 : acc.length + 2 ≤ 8) :
    parseIPv6Loop (f + 1) acc ell t = some (acc ++ [a.toNat * 256 + b.toNat, c.toNat * 256 + d.toNat], ell, []) := by
  obtain ⟨w, n, u, hx, hw⟩ := quad_first h
  unfold parseIPv6Loop
  rw [hx]
  simp only []
  rw [if_neg (by omega), if_pos (by rfl), if_neg, if_neg (by omega), (parseIPv4_iff _ _).mpr h]
  rintro ⟨h1, h2⟩
  exact h2 (he h1)

theorem groups_head {s : Str} {ws : List Nat} (h : Groups4 s ws) (u : Str) : ∃ c v, s ++ u = c :: v ∧ c ≠ 0x3A := by
  cases h with
  | one h => exact group_head h u
  | quad h =>
    obtain ⟨w, n, v, hx, _⟩ := quad_first h
    obtain ⟨t, rfl, h2, _⟩ := (xtoi_iff _ _ _ _).mp hx
    cases t with
    | nil => exact absurd rfl h2.some
    | cons c t =>
      refine ⟨c, _, rfl, ?_⟩
      rintro rfl
      have := h2.digit 0x3A (List.mem_cons_self ..)
      revert this
      decide
  | cons h _ =>
    rw [List.append_assoc]
    exact group_head h _

theorem groups4_of {s : Str} {ws : List Nat} (h : Groups s ws) : Groups4 s ws := by
  induction h with
  | one h => exact .one h
  | cons h _ ih => exact .cons h ih

theorem groups4_length {s : Str} {ws : List Nat} (h : Groups4 s ws) : 1 ≤ ws.length := by
  cases h <;> simp

/-- After the ellipsis. -/
theorem loop_after {s : Str} {ws : List Nat} (h : Groups4 s ws) : ∀ (f : Nat) (acc : List Nat) (ell : Option Nat),
    acc.length + f = 8 → ws.length ≤ f → (ell = none → ws.length = f) → parseIPv6Loop f acc ell s = some (acc ++ ws, ell, []) := by
  induction h with
  | one h =>
    intro f acc ell _ h2 _
    cases f with
    | zero => simp at h2
    | succ f => exact loop_last h
  | quad h =>
    intro f acc ell h1 h2 h3
    cases f with
    | zero => simp at h2
    | succ f =>
      simp only [List.length_cons, List.length_nil] at h2 h3
      exact loop_quad h (fun he => by have := h3 he; omega) (by omega)
  | @cons t w s ws h hs ih =>
    intro f acc ell h1 h2 h3
    cases f with
    | zero => simp at h2
    | succ f =>
      simp only [List.length_cons] at h2 h3
      obtain ⟨c, v, e, hc⟩ := groups_head hs []
      rw [List.append_nil] at e
      rw [loop_next h e hc, ih f (acc ++ [w]) ell (by simp; omega) (by omega) (fun he => by have := h3 he; omega)]
      simp

/-- Before the ellipsis. -/
theorem loop_before {l : Str} {lw : List Nat} (h : Groups l lw) : ∀ (f : Nat) (acc : List Nat) (r : Str) (rw : List Nat),
    acc.length + f = 8 → lw.length + rw.length ≤ f → (r = [] ∧ rw = [] ∨ Groups4 r rw) →
    parseIPv6Loop f acc none (l ++ 0x3A :: 0x3A :: r) = some (acc ++ lw ++ rw, some (acc.length + lw.length), []) := by
  induction h with
  | @one t w h =>
    intro f acc r rw h1 h2 h3
    cases f with
    | zero => simp at h2
    | succ f =>
      rw [loop_ell h]
      rcases h3 with ⟨rfl, rfl⟩ | h3
      · rw [if_pos rfl]; simp
      · obtain ⟨c, v, e, _⟩ := groups_head h3 []
        rw [List.append_nil] at e
        rw [if_neg (by rw [e]; simp)]
        simp only [List.length_cons, List.length_nil] at h2
        rw [loop_after h3 f (acc ++ [w]) (some (acc.length + 1)) (by simp; omega) (by omega) (fun h => (nomatch h))]
        simp
  | @cons t w s ws h hs ih =>
    intro f acc r rw h1 h2 h3
    cases f with
    | zero => simp at h2
    | succ f =>
      obtain ⟨c, v, e, hc⟩ := groups_head (groups4_of hs) (0x3A :: 0x3A :: r)
      simp only [List.length_cons] at h2
      have e2 : (t ++ 0x3A :: s) ++ 0x3A :: 0x3A :: r = t ++ 0x3A :: (s ++ 0x3A :: 0x3A :: r) := by simp
      rw [e2, loop_next h e hc, ih f (acc ++ [w]) r rw (by simp; omega) (by omega) h3]
      simp
      omega

/-- What the loop has read. -/
theorem loop_read : ∀ (f : Nat) (acc : List Nat) (ell : Option Nat) (s : Str) (acc' : List Nat) (ell' : Option Nat),
    acc.length + f = 8 → s ≠ [] → parseIPv6Loop f acc ell s = some (acc', ell', []) →
    (ell' = ell ∧ ∃ ws, Groups4 s ws ∧ acc' = acc ++ ws ∧ ws.length ≤ f) ∨
    (ell = none ∧ ∃ l r lw rw, s = l ++ 0x3A :: 0x3A :: r ∧ Groups l lw ∧ (r = [] ∧ rw = [] ∨ Groups4 r rw) ∧
      acc' = acc ++ lw ++ rw ∧ ell' = some (acc.length + lw.length) ∧ lw.length + rw.length ≤ f) := by
  intro f
  induction f with
  | zero =>
    intro acc ell s acc' ell' _ hs h
    unfold parseIPv6Loop at h
    cases h
    exact absurd rfl hs
  | succ f ih =>
    intro acc ell s acc' ell' hf hs h
    unfold parseIPv6Loop at h
    split at h
    · cases h
    rename_i n c rest hx
    obtain ⟨t, h1, h2, _, _, h5⟩ := (xtoi_iff _ _ _ _).mp hx
    split at h
    · cases h
    rename_i hn
    have hg : Group t n := ⟨h2, by omega⟩
    split at h
    · split at h
      · cases h
      split at h
      · cases h
      split at h
      · rename_i x y z u hq
        cases h
        exact .inl ⟨rfl, _, .quad ((parseIPv4_iff _ _).mp hq), rfl, by simp; omega⟩
      · cases h
    · simp only [] at h
      split at h
      · cases h
        rw [List.append_nil] at h1
        subst h1
        exact .inl ⟨rfl, [n], .one hg, rfl, by simp⟩
      · rename_i u
        split at h
        · cases h
        · rename_i v
          split at h
          · cases h
          rename_i he
          have he : ell = none := by
            cases ell with
            | none => rfl
            | some e => simp at he
          split at h
          · rename_i hv
            cases h
            subst hv
            exact .inr ⟨he, t, [], [n], [], h1, .one hg, .inl ⟨rfl, rfl⟩, by simp, by simp, by simp⟩
          · rename_i hv
            rcases ih _ _ _ _ _ (by simp; omega) hv h with ⟨e1, ws, h6, h7, h8⟩ | ⟨e1, _⟩
            · refine .inr ⟨he, t, v, [n], ws, h1, .one hg, .inr h6, h7, ?_, by simp; omega⟩
              rw [e1]; simp
            · cases e1
        · rename_i hv1 hv2
          rcases ih _ _ _ _ _ (by simp; omega) (fun h => hv1 h) h with ⟨e1, ws, h6, h7, h8⟩ | ⟨e1, l, r, lw, rw, h6, h7, h8, h9, h10, h11⟩
          · refine .inl ⟨e1, n :: ws, ?_, by rw [h7]; simp, by simp; omega⟩
            rw [h1]
            exact .cons hg h6
          · refine .inr ⟨e1, t ++ 0x3A :: l, r, n :: lw, rw, ?_, .cons hg h7, h8, by rw [h9]; simp, by rw [h10]; simp; omega, by simp; omega⟩
            rw [h1, h6]
            simp
      · cases h

theorem groups4_lt {s : Str} {ws : List Nat} (h : Groups4 s ws) : ∀ w ∈ ws, w < 65536 := by
  induction h with
  | one h => intro w hw; rw [List.mem_singleton.mp hw]; exact h.2
  | @quad t a b c d h =>
    have := a.toNat_lt
    have := b.toNat_lt
    have := c.toNat_lt
    have := d.toNat_lt
    intro w hw
    rcases List.mem_cons.mp hw with rfl | hw
    · omega
    · rw [List.mem_singleton.mp hw]; omega
  | cons h _ ih =>
    intro w hw
    rcases List.mem_cons.mp hw with rfl | hw
    · exact h.2
    · exact ih w hw

theorem words_number : ∀ ws : List Nat, (∀ w ∈ ws, w < 65536) → ∀ b : Bytes,
    (wordsToBytes ws).length = 2 * ws.length ∧
    val (b ++ wordsToBytes ws) = ws.foldl (fun n w => n * 65536 + w) (val b) := by
  intro ws
  induction ws with
  | nil => intro _ b; exact ⟨rfl, by simp [wordsToBytes]⟩
  | cons w ws ih =>
    intro hw b
    have h := ih (fun x hx => hw x (List.mem_cons_of_mem _ hx)) (b ++ [UInt8.ofNat (w / 256), UInt8.ofNat w])
    have e : wordsToBytes (w :: ws) = [UInt8.ofNat (w / 256), UInt8.ofNat w] ++ wordsToBytes ws := rfl
    have hlt := hw w (List.mem_cons_self ..)
    refine ⟨by rw [e, List.length_append, h.1]; simp; omega, ?_⟩
    rw [e, ← List.append_assoc, h.2, List.foldl_cons]
    congr 1
    rw [val_append]
    have e2 : val [UInt8.ofNat (w / 256), UInt8.ofNat w] = w := by
      simp only [val, UInt8.toNat_ofNat', List.length_cons, List.length_nil, Nat.zero_add, Nat.pow_one, Nat.pow_zero]
      omega
    rw [e2, show [UInt8.ofNat (w / 256), UInt8.ofNat w].length = 2 from rfl]

theorem Eight_lt {s : Str} {ws : List Nat} (h : Eight s ws) : ∀ w ∈ ws, w < 65536 := by
  rcases h with ⟨_, h | ⟨l, r, lw, rw, n, _, hl, hr, _, rfl⟩⟩
  · exact groups4_lt h
  · intro w hw
    rcases List.mem_append.mp hw with hw | hw
    · rcases List.mem_append.mp hw with hw | hw
      · rcases hl with ⟨_, rfl⟩ | hl
        · cases hw
        · exact groups4_lt (groups4_of hl) w hw
      · rw [List.eq_of_mem_replicate hw]; omega
    · rcases hr with ⟨_, rfl⟩ | hr
      · cases hw
      · exact groups4_lt hr w hw

theorem lead_none {c : UInt8} {t : Str} (hc : c ≠ 0x3A) : leadEllipsis (c :: t) = (none, c :: t) := by
  unfold leadEllipsis
  split
  · rename_i h; cases h; exact absurd rfl hc
  · rfl

theorem parseIPv6_words (s : Str) (ip : IP) : parseIPv6 s = some ip ↔ ∃ ws, Eight s ws ∧ ip = wordsToBytes ws := by
  constructor
  · intro h
    unfold parseIPv6 at h
    split at h
    · rename_i hl
      cases h
      refine ⟨List.replicate 8 0, ⟨by simp, .inr ⟨[], [], [], [], 8, ?_, .inl ⟨rfl, rfl⟩, .inl ⟨rfl, rfl⟩, by omega, by simp⟩⟩, by decide⟩
      unfold leadEllipsis at hl
      split at hl
      · rename_i t
        have ht : t = [] := hl.2
        rw [ht]; rfl
      · simp at hl
    · rename_i hl
      split at h
      · rename_i acc ell he
        have hcase : (∃ t, s = 0x3A :: 0x3A :: t ∧ leadEllipsis s = (some 0, t)) ∨ leadEllipsis s = (none, s) := by
          unfold leadEllipsis
          split
          · exact .inl ⟨_, rfl, rfl⟩
          · exact .inr rfl
        rcases hcase with ⟨t, hs, e⟩ | e
        · rw [e] at he hl
          simp only [] at he
          have ht : t ≠ [] := by
            intro h0
            exact hl ⟨rfl, h0⟩
          rcases loop_read 8 [] (some 0) t acc ell rfl ht he with ⟨e1, ws, h1, h2, h3⟩ | ⟨e1, _⟩
          · subst e1
            rw [List.nil_append] at h2
            subst h2
            split at h
            · simp only [] at h
              cases h
              refine ⟨List.replicate (8 - acc.length) 0 ++ acc, ⟨by simp; omega, .inr ⟨[], t, [], acc, 8 - acc.length, hs, .inl ⟨rfl, rfl⟩, .inr h1, by omega, rfl⟩⟩, by simp⟩
            · simp at h
          · cases e1
        · rw [e] at he
          simp only [] at he
          have hs : s ≠ [] := by
            rintro rfl
            cases he
          rcases loop_read 8 [] none s acc ell rfl hs he with ⟨e1, ws, h1, h2, h3⟩ | ⟨_, l, r, lw, rw, h1, h2, h3, h4, h5, h6⟩
          · subst e1
            rw [List.nil_append] at h2
            subst h2
            split at h
            · simp at h
            · simp only [Option.isSome_none, Bool.false_eq_true, if_false] at h
              cases h
              exact ⟨acc, ⟨by omega, .inl h1⟩, rfl⟩
          · subst h5
            rw [List.nil_append] at h4
            subst h4
            split at h
            · simp only [List.length_nil, Nat.zero_add, List.take_left', List.drop_left'] at h
              cases h
              rename_i hlt
              rw [List.length_append] at hlt
              exact ⟨_, ⟨by simp; omega, .inr ⟨l, r, lw, rw, 8 - (lw ++ rw).length, h1, .inr h2, h3, by simp; omega, rfl⟩⟩, rfl⟩
            · simp at h
      · cases h
  · rintro ⟨ws, ⟨h8, h | ⟨l, r, lw, rw, n, rfl, hl, hr, hn, rfl⟩⟩, rfl⟩
    · obtain ⟨c, v, e, hc⟩ := groups_head h []
      rw [List.append_nil] at e
      unfold parseIPv6
      rw [show leadEllipsis s = (none, s) by rw [e]; exact lead_none hc, if_neg (by simp)]
      simp only []
      rw [loop_after h 8 [] none rfl (by omega) (fun _ => h8)]
      simp only [List.nil_append]
      rw [if_neg (by omega), if_neg (by simp)]
    · rcases hl with ⟨rfl, rfl⟩ | hl
      · unfold parseIPv6
        rw [show leadEllipsis ([] ++ 0x3A :: 0x3A :: r) = (some 0, r) from rfl]
        rcases hr with ⟨rfl, rfl⟩ | hr
        · rw [if_pos ⟨rfl, rfl⟩]
          simp at h8
          rw [h8]
          decide
        · obtain ⟨c, v, e, _⟩ := groups_head hr []
          rw [List.append_nil] at e
          rw [if_neg (by rw [e]; simp)]
          simp only [List.length_append, List.length_replicate, List.length_nil] at h8
          simp only []
          rw [loop_after hr 8 [] (some 0) rfl (by omega) (fun h => (nomatch h))]
          simp only [List.nil_append]
          rw [if_pos (by omega)]
          rw [show 8 - rw.length = n by omega]
          simp
      · obtain ⟨c, v, e, hc⟩ := groups_head (groups4_of hl) (0x3A :: 0x3A :: r)
        unfold parseIPv6
        rw [show leadEllipsis (l ++ 0x3A :: 0x3A :: r) = (none, l ++ 0x3A :: 0x3A :: r) by rw [e]; exact lead_none hc, if_neg (by simp)]
        simp only []
        simp only [List.length_append, List.length_replicate] at h8
        rw [loop_before hl 8 [] r rw rfl (by omega) hr]
        simp only [List.nil_append, List.length_nil, Nat.zero_add, List.length_append, List.take_left', List.drop_left']
        rw [if_pos (by omega), show 8 - (lw.length + rw.length) = n by omega]

theorem parseIPv6_iff (s : Str) (ip : IP) : parseIPv6 s = some ip ↔ ip.length = 16 ∧ ∃ ws, Eight s ws ∧ addrNum ip = number ws := by
  rw [parseIPv6_words]
  constructor
  · rintro ⟨ws, h, rfl⟩
    have hw := words_number ws (Eight_lt h) []
    have h16 : (wordsToBytes ws).length = 16 := by rw [hw.1, h.1]
    exact ⟨h16, ws, h, by rw [addrNum_16 h16, ← List.nil_append (wordsToBytes ws), hw.2]; rfl⟩
  · rintro ⟨h16, ws, h, e⟩
    have hw := words_number ws (Eight_lt h) []
    have h16' : (wordsToBytes ws).length = 16 := by rw [hw.1, h.1]
    refine ⟨ws, h, addrNum_inj (by omega) ?_⟩
    rw [e, addrNum_16 h16', ← List.nil_append (wordsToBytes ws), hw.2]
    rfl

/-! ## Printing -/

theorem digitOf_char : ∀ d < 16, digitOf (digitChar d) = d ∧ ¬ ((0x41 : UInt8) ≤ digitChar d ∧ digitChar d ≤ 0x46) := by decide
theorem char_digitOf : ∀ c : UInt8, digitOf c < 16 → ¬ ((0x41 : UInt8) ≤ c ∧ c ≤ 0x46) → digitChar (digitOf c) = c := by
  refine byte_all _ ?_
  decide +kernel

theorem numOf_map (b : Nat) (hb : b ≤ 16) (ds : List Nat) (h : ∀ d ∈ ds, d < b) : ∀ n, numOf b n (ds.map digitChar) = numFrom b n ds := by
  induction ds with
  | nil => intro n; rfl
  | cons d ds ih =>
    intro n
    rw [List.map_cons, numOf_cons, numFrom_cons, (digitOf_char d (by have := h d (List.mem_cons_self ..); omega)).1]
    exact ih (fun x hx => h x (List.mem_cons_of_mem _ hx)) _

theorem short_digits {b : Nat} (h2 : 2 ≤ b) (hb : b ≤ 16) (n : Nat) : Short b ((digits b n).map digitChar) n := by
  have hlt := digits_lt h2 n
  refine ⟨⟨by simpa using digits_ne_nil h2 n, ?_, ?_⟩, ?_, ?_⟩
  · intro c hc
    obtain ⟨d, hd, rfl⟩ := List.mem_map.mp hc
    have := hlt d hd
    rw [(digitOf_char d (by omega)).1]
    exact this
  · exact (numOf_map b hb _ hlt 0).trans (numFrom_digits h2 n)
  · intro h
    have h0 : n = 0 := by
      apply digits_head h2
      rw [List.head?_map] at h
      obtain ⟨d, hd, h⟩ := Option.map_eq_some_iff.mp h
      rw [hd]
      have hm : d ∈ digits b n := List.mem_of_mem_head? hd
      have := (digitOf_char d (by have := hlt d hm; omega)).1
      rw [h] at this
      rw [← this]
      rfl
    subst h0
    unfold digits digitsAux
    rw [if_pos (by omega)]
    rfl
  · intro c hc
    obtain ⟨d, hd, rfl⟩ := List.mem_map.mp hc
    exact (digitOf_char d (by have := hlt d hd; omega)).2

/-- The digits of a number are its only short numeral. -/
theorem digitsAux_unique {b : Nat} (h2 : 2 ≤ b) : ∀ (f n : Nat) (ds : List Nat), n < f → ds ≠ [] → (∀ d ∈ ds, d < b) → numFrom b 0 ds = n →
    (ds.head? = some 0 → ds = [0]) → ds = digitsAux b f n := by
  intro f
  induction f with
  | zero => intro n ds h; omega
  | succ f ih =>
    intro n ds hf hne hd hv hz
    have e : ds = ds.dropLast ++ [ds.getLast hne] := (List.dropLast_concat_getLast hne).symm
    generalize ds.getLast hne = x at e
    generalize hl : ds.dropLast = l at e
    subst e
    have hx : x < b := hd x (by simp)
    rw [numFrom_append] at hv
    have hv : numFrom b 0 l * b + x = n := hv
    unfold digitsAux
    cases l with
    | nil =>
      have hv : 0 * b + x = n := hv
      rw [if_pos (by omega)]
      have : x = n := by omega
      rw [this]; rfl
    | cons a l =>
      have ha : a ≠ 0 := by
        rintro rfl
        have := hz rfl
        simp at this
      have h1 := le_numFrom (b := b) (by omega) l (0 * b + a)
      rw [numFrom_cons] at hv
      have hdiv : n / b = numFrom b (0 * b + a) l := by
        rw [← hv, Nat.mul_comm, Nat.mul_add_div (by omega), Nat.div_eq_of_lt hx, Nat.add_zero]
      have hmod : n % b = x := by
        rw [← hv, Nat.mul_comm, Nat.mul_add_mod, Nat.mod_eq_of_lt hx]
      have hge : b ≤ n := by
        have h3 : 1 * b ≤ numFrom b (0 * b + a) l * b := Nat.mul_le_mul_right _ (by omega)
        omega
      rw [if_neg (by omega), hmod]
      congr 1
      apply ih
      · have := Nat.div_lt_self (n := n) (k := b) (by omega) (by omega)
        omega
      · simp
      · intro d hd'; exact hd d (List.mem_append_left _ hd')
      · rw [numFrom_cons, hdiv]
      · intro h0; exact absurd (Option.some.inj h0) ha

theorem short_iff {b : Nat} (h2 : 2 ≤ b) (hb : b ≤ 16) (t : Str) (n : Nat) : Short b t n ↔ t = (digits b n).map digitChar := by
  constructor
  · rintro ⟨⟨h1, h3, h4⟩, h5, h6⟩
    have e : t = (t.map digitOf).map digitChar := by
      rw [List.map_map]
      symm
      conv => rhs; rw [← List.map_id t]
      apply List.map_congr_left
      intro c hc
      exact char_digitOf c (by have := h3 c hc; omega) (h6 c hc)
    rw [e]
    congr 1
    unfold digits
    apply digitsAux_unique h2
    · omega
    · simpa using h1
    · intro d hd
      obtain ⟨c, hc, rfl⟩ := List.mem_map.mp hd
      exact h3 c hc
    · rw [← numOf_map b hb _ (by intro d hd; obtain ⟨c, hc, rfl⟩ := List.mem_map.mp hd; exact h3 c hc), ← e]
      exact h4
    · intro h
      have : t = [0x30] := by
        apply h5
        cases t with
        | nil => cases h
        | cons c t =>
          have : digitOf c = 0 := Option.some.inj h
          rw [digitOf_zero c this]
          rfl
      rw [this]
      rfl
  · rintro rfl
    exact short_digits h2 hb n

theorem shortGroups_iff (t : Str) (ws : List Nat) : ShortGroups t ws ↔ t = hexJoin ws := by
  have key : ∀ (ws : List Nat) (ts : List Str), Each (Short 16) ts ws ↔ ts = ws.map hexStr := by
    intro ws
    induction ws with
    | nil =>
      intro ts
      constructor
      · intro h; cases h; rfl
      · rintro rfl; exact .nil
    | cons w ws ih =>
      intro ts
      constructor
      · intro h
        cases h with
        | cons h1 h2 =>
          rw [(ih _).mp h2, (short_iff (by omega) (by omega) _ _).mp h1]
          rfl
      · rintro rfl
        exact .cons (short_digits (by omega) (by omega) w) ((ih _).mpr rfl)
  constructor
  · rintro ⟨ts, rfl, h⟩
    rw [(key ws ts).mp h]
    rfl
  · rintro rfl
    exact ⟨_, rfl, (key ws _).mpr rfl⟩

theorem quad_dotted (a b c d : UInt8) (t : Str) : Quad t [a, b, c, d] ↔ t = dotted [a, b, c, d] := by
  have key : ∀ (t : Str) (x : UInt8), Octet t x → t = decStr x.toNat := by
    intro t x h
    refine (short_iff (by omega) (by omega) t x.toNat).mp ⟨h.1, h.2, ?_⟩
    intro c hc
    exact digitOf_low c (h.1.digit c hc)
  constructor
  · rintro ⟨_, ts, rfl, h⟩
    cases h with
    | cons h1 h => cases h with
      | cons h2 h => cases h with
        | cons h3 h => cases h with
          | cons h4 h => cases h with
            | nil =>
              rw [key _ _ h1, key _ _ h2, key _ _ h3, key _ _ h4]
              rfl
  · rintro rfl
    exact (parseIPv4_iff _ _).mp (parseIPv4_dotted a b c d)

theorem zeroRunEnd_max (ws : List Nat) : ∀ (i m : Nat), Zeros ws 0 m → m ≤ zeroRunEnd ws i - i := by
  induction ws with
  | nil => intro i m h; have := h.1; simp at this; omega
  | cons w ws ih =>
    intro i m h
    cases m with
    | zero => omega
    | succ m =>
      have h0 := h.2 0 (by omega) (by omega)
      have h0 : w = 0 := Option.some.inj h0
      subst h0
      have := ih (i + 1) m ⟨by have := h.1; simp at this; omega, fun k _ hk => by
        have := h.2 (k + 1) (by omega) (by omega)
        simpa using this⟩
      have := (zeroRunEnd_spec ws (i + 1)).1
      show m + 1 ≤ zeroRunEnd ws (i + 1) - i
      omega

theorem zeros_drop {ws : List Nat} {i m : Nat} (h : Zeros ws i m) : Zeros (ws.drop i) 0 m := by
  refine ⟨by have := h.1; simp; omega, fun k _ hk => ?_⟩
  rw [List.getElem?_drop]
  exact h.2 _ (by omega) (by omega)

/-- The first of the longest runs that start before `i`. -/
structure Best (ws : List Nat) (i : Nat) (p : Nat × Nat) : Prop where
  run : Zeros ws p.1 p.2
  longest : ∀ j m, Zeros ws j m → j < i → m ≤ p.2
  first : ∀ j, Zeros ws j p.2 → 0 < p.2 → p.1 ≤ j

theorem zeros_tail {ws : List Nat} {i j m : Nat} (h : Zeros ws j m) (hi : j ≤ i) (hm : i ≤ j + m) : Zeros ws i (j + m - i) :=
  ⟨by have := h.1; omega, fun k h1 h2 => h.2 k (by omega) (by omega)⟩

theorem zeros_less {ws : List Nat} {j m n : Nat} (h : Zeros ws j m) (hn : n ≤ m) : Zeros ws j n :=
  ⟨by have := h.1; omega, fun k h1 h2 => h.2 k h1 (by omega)⟩

theorem longestZeros_best {ws : List Nat} (hl : ws.length = 8) : ∀ f i best, Best ws i best → 8 ≤ i + f →
    Best ws 8 (longestZeros ws f i best) := by
  intro f
  induction f with
  | zero =>
    intro i best h hf
    refine ⟨h.run, fun j m hj hlt => ?_, h.first⟩
    by_cases hji : j < i
    · exact h.longest j m hj hji
    · omega
  | succ f ih =>
    intro i best h hf
    unfold longestZeros
    by_cases h8 : 8 ≤ i
    · rw [if_pos h8]
      refine ⟨h.run, fun j m hj hlt => ?_, h.first⟩
      exact h.longest j m hj (by omega)
    · rw [if_neg h8]
      have hs := zeroRunEnd_spec (ws.drop i) i
      have hmax := zeroRunEnd_max (ws.drop i) i
      generalize zeroRunEnd (ws.drop i) i = e at hs hmax
      obtain ⟨h1, h2, h3⟩ := hs
      rw [List.length_drop] at h2
      have hrun : Zeros ws i (e - i) := by
        refine ⟨by omega, fun k hk1 hk2 => ?_⟩
        have := h3 (k - i) (by omega)
        rw [List.getElem?_drop, show i + (k - i) = k by omega] at this
        exact this
      have hmax : ∀ m, Zeros ws i m → m ≤ e - i := fun m hm => hmax m (zeros_drop hm)
      simp only []
      split
      · rename_i hc
        refine ih _ _ ⟨hrun, ?_, ?_⟩ (by omega)
        · intro j m hj hlt
          by_cases hji : j < i
          · have := h.longest j m hj hji
            show m ≤ e - i
            omega
          · show m ≤ e - i
            rcases Nat.eq_zero_or_pos m with rfl | hm
            · omega
            · by_cases hje : j < e
              · have : Zeros ws i (j + m - i) := by
                  refine ⟨by have := hj.1; omega, fun k hk1 hk2 => ?_⟩
                  by_cases hkj : k < j
                  · exact hrun.2 k hk1 (by omega)
                  · exact hj.2 k (by omega) (by omega)
                have := hmax _ this
                omega
              · have hje : j = e := by omega
                subst hje
                have : Zeros ws i (j + m - i) := by
                  refine ⟨by have := hj.1; omega, fun k hk1 hk2 => ?_⟩
                  by_cases hkj : k < j
                  · exact hrun.2 k hk1 (by omega)
                  · exact hj.2 k (by omega) (by omega)
                have := hmax _ this
                omega
        · intro j hj _
          show i ≤ j
          by_cases hji : j < i
          · have := h.longest j _ hj hji
            have hc2 := hc.2
            have : e - i ≤ best.2 := this
            omega
          · omega
      · rename_i hc
        refine ih _ _ ⟨h.run, ?_, h.first⟩ (by omega)
        intro j m hj hlt
        by_cases hji : j < i
        · exact h.longest j m hj hji
        · have hji : j = i := by omega
          subst hji
          have := hmax m hj
          omega

theorem rfc_iff (t : Str) (ip : IP) (hl : ip.length = 16) (h4 : To4 ip = none) : IPString ip = t ↔ Rfc5952 t (bytesToWords ip) := by
  obtain ⟨_, hwl, _⟩ := words_bytes 8 ip (by omega)
  have hs : IPString ip = v6Print (bytesToWords ip) (if (longestZeros (bytesToWords ip) 8 0 (0, 0)).2 ≤ 1 then none
      else some ((longestZeros (bytesToWords ip) 8 0 (0, 0)).1,
        (longestZeros (bytesToWords ip) 8 0 (0, 0)).1 + (longestZeros (bytesToWords ip) 8 0 (0, 0)).2)) 8 0 := by
    unfold IPString
    rw [if_neg (by omega), h4]
    simp only []
    rw [if_neg (by omega)]
  have hz := longestZeros_best hwl 8 0 (0, 0) ⟨⟨by simp, fun k h1 h2 => by simp at h2⟩, fun j m _ h => by omega, fun j _ h => by simp at h⟩ (by omega)
  generalize longestZeros (bytesToWords ip) 8 0 (0, 0) = p at hs hz
  rw [hs]
  generalize bytesToWords ip = ws at *
  have hlong : ∀ j m, Zeros ws j m → m ≤ p.2 := by
    intro j m hj
    by_cases h8 : j < 8
    · exact hz.longest j m hj h8
    · have := hj.1; omega
  unfold Rfc5952
  simp only [shortGroups_iff]
  by_cases h1 : p.2 ≤ 1
  · rw [if_pos h1, v6Print_none hwl 8 0 (by omega) (by omega)]
    simp only [Nat.lt_irrefl, if_false, List.nil_append, List.drop_zero]
    constructor
    · rintro rfl
      exact .inl ⟨fun i hi => by have := hlong i 2 hi; omega, rfl⟩
    · rintro (⟨_, rfl⟩ | ⟨i, n, l, r, hn, hi, _⟩)
      · rfl
      · have := hlong i n hi; omega
  · have hp := hz.run.1
    rw [if_neg h1, v6Print_some hwl (by omega) (by omega) 8 0 (by omega) (by omega)]
    simp only [Nat.lt_irrefl, false_and, if_false, List.nil_append, List.drop_zero]
    constructor
    · rintro rfl
      exact .inr ⟨p.1, p.2, _, _, by omega, hz.run, hlong, fun j hj => hz.first j hj (by omega), rfl, rfl, rfl⟩
    · rintro (⟨h, _⟩ | ⟨i, n, l, r, hn, hi, hlo, hfi, rfl, rfl, rfl⟩)
      · exact absurd (zeros_less hz.run (by omega)) (h p.1)
      · have e1 : n = p.2 := Nat.le_antisymm (hlong i n hi) (hlo p.1 p.2 hz.run)
        subst e1
        have e2 : i = p.1 := Nat.le_antisymm (hfi p.1 hz.run) (hz.first i hi (by omega))
        subst e2
        rfl

end Uip
