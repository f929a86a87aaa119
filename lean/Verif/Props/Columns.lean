import Verif.Props.Dump
import Verif.Props.Registry
/-!
# Property C81: the columns stored for a packed row
-/
namespace Uip.Ipdb
open Uip Uip.Spec

/-- The name a column has in the file: the common names are renamed, all others kept. -/
def columnName (f : Str) : Str :=
  if f = gs "country" then gs "country_name" else if f = gs "province" then gs "region_name"
  else if f = gs "city" then gs "city_name" else if f = gs "isp" then gs "isp_domain"
  else if f = gs "continent" then gs "continent_code" else if f = gs "utcOffset" then gs "utc_offset"
  else if f = gs "chinaAdminCode" then gs "china_admin_code" else f

/-- One form of each letter after the other. -/
def Spelt : List (List Str) → Str → Prop
  | [], s => s = []
  | forms :: rest, s => ∃ p ∈ forms, ∃ s', s = p ++ s' ∧ Spelt rest s'

/-- "continent" in any mixture of lower and upper case letters (İ, the Turkish capital, counts as a capital I). -/
def IsContinentWord (s : Str) : Prop :=
  Spelt [[gs "c", gs "C"], [gs "o", gs "O"], [gs "n", gs "N"], [gs "t", gs "T"], [gs "i", gs "I", gs "İ"],
    [gs "n", gs "N"], [gs "e", gs "E"], [gs "n", gs "N"], [gs "t", gs "T"]] s

/-- The two-letter code of a continent name; anything else is left alone. -/
def shortContinent (v : Str) : Str :=
  match continentTable.find? (fun p => decide (p.2 = v)) with
  | some p => p.1
  | none => v

/-- What looking up column `i` of a row gives: the continent is spelled out in the first continent column; in the last
column whose name is a capitalised spelling of "continent" it is abbreviated; every other value is kept. -/
def ColumnValue (fields : List Str) (i : Nat) (v out : Str) : Prop :=
  let isCode := fun j => (fields[j]?.map columnName) = some (gs "continent_code")
  let isWord := fun j => ∃ f, fields[j]? = some f ∧ IsContinentWord (columnName f)
  ((isCode i ∧ ∀ j < i, ¬ isCode j) → out = spellContinent v) ∧
  ((isWord i ∧ ∀ j > i, ¬ isWord j) → out = shortContinent v) ∧
  (¬ (isCode i ∧ ∀ j < i, ¬ isCode j) → ¬ (isWord i ∧ ∀ j > i, ¬ isWord j) → out = v)

theorem lower_byte {b c : UInt8} (h : (if 0x41 ≤ b ∧ b ≤ 0x5A then b + 0x20 else b) = c) : b = c ∨ b = c - 0x20 := by
  split at h
  · right; rw [← h]; exact (UInt8.add_sub_cancel ..).symm
  · exact .inl h

theorem asciiLower_cons {b : UInt8} {r : Str} (h : b < 0x80) :
    asciiLower (b :: r) = (if 0x41 ≤ b ∧ b ≤ 0x5A then b + 0x20 else b) :: asciiLower r := by
  rw [asciiLower]
  · rintro r' rfl _; exact absurd h (by decide)
  · rintro r' rfl _; exact absurd h (by decide)

theorem asciiLower_letter {b : UInt8} (h1 : b < 0x80) (hl : (if 0x41 ≤ b ∧ b ≤ 0x5A then b + 0x20 else b) = b)
    (hu : (if 0x41 ≤ b - 0x20 ∧ b - 0x20 ≤ 0x5A then b - 0x20 + 0x20 else b - 0x20) = b) (h2 : b - 0x20 < 0x80)
    (hi : b ≠ 0x69) (hk : b ≠ 0x6B) (s t : Str) :
    asciiLower s = b :: t ↔ ∃ p ∈ [[b], [b - 0x20]], ∃ s', s = p ++ s' ∧ asciiLower s' = t := by
  constructor
  · intro h
    unfold asciiLower at h
    split at h
    · cases h
    · injection h with h; exact absurd h.symm hi
    · injection h with h; exact absurd h.symm hk
    · rename_i b' r n1 n2
      injection h with h h'
      rcases lower_byte h with rfl | rfl
      · exact ⟨[b'], by simp, r, rfl, h'⟩
      · exact ⟨[b - 0x20], by simp, r, rfl, h'⟩
  · rintro ⟨p, hp, s', rfl, rfl⟩
    simp only [List.mem_cons, List.not_mem_nil, or_false] at hp
    rcases hp with rfl | rfl
    · rw [List.singleton_append, asciiLower_cons h1, hl]
    · rw [List.singleton_append, asciiLower_cons h2, hu]

theorem asciiLower_i (s t : Str) :
    asciiLower s = 0x69 :: t ↔ ∃ p ∈ [[0x69], [0x49], [0xC4, 0xB0]], ∃ s', s = p ++ s' ∧ asciiLower s' = t := by
  constructor
  · intro h
    unfold asciiLower at h
    split at h
    · cases h
    · injection h with _ h
      exact ⟨[0xC4, 0xB0], by simp, _, rfl, h⟩
    · injection h with h; exact absurd h (by decide)
    · rename_i b r n1 n2
      injection h with h h'
      rcases lower_byte h with rfl | rfl
      · exact ⟨[0x69], by simp, r, rfl, h'⟩
      · exact ⟨[0x49], by simp, r, rfl, h'⟩
  · rintro ⟨p, hp, s', rfl, rfl⟩
    simp only [List.mem_cons, List.not_mem_nil, or_false] at hp
    rcases hp with rfl | rfl | rfl
    · rw [List.singleton_append, asciiLower_cons (by decide)]; rfl
    · rw [List.singleton_append, asciiLower_cons (by decide)]; rfl
    · rfl

theorem asciiLower_nil (s : Str) : asciiLower s = [] ↔ s = [] := by
  unfold asciiLower
  split <;> simp

theorem spelt_cons {forms : List Str} {rest : List (List Str)} {b : UInt8} {t : Str}
    (h : ∀ s t, asciiLower s = b :: t ↔ ∃ p ∈ forms, ∃ s', s = p ++ s' ∧ asciiLower s' = t)
    (hr : ∀ s, Spelt rest s ↔ asciiLower s = t) (s : Str) : Spelt (forms :: rest) s ↔ asciiLower s = b :: t := by
  rw [h]; unfold Spelt
  simp only [hr]

theorem isContinentWord_iff (s : Str) : IsContinentWord s ↔ asciiLower s = fContinent := by
  have e : fContinent = [0x63, 0x6f, 0x6e, 0x74, 0x69, 0x6e, 0x65, 0x6e, 0x74] := by decide +kernel
  have f : ([[gs "c", gs "C"], [gs "o", gs "O"], [gs "n", gs "N"], [gs "t", gs "T"], [gs "i", gs "I", gs "İ"],
    [gs "n", gs "N"], [gs "e", gs "E"], [gs "n", gs "N"], [gs "t", gs "T"]] : List (List Str)) =
    [[[0x63], [0x63 - 0x20]], [[0x6f], [0x6f - 0x20]], [[0x6e], [0x6e - 0x20]], [[0x74], [0x74 - 0x20]], [[0x69], [0x49], [0xC4, 0xB0]],
     [[0x6e], [0x6e - 0x20]], [[0x65], [0x65 - 0x20]], [[0x6e], [0x6e - 0x20]], [[0x74], [0x74 - 0x20]]] := by decide +kernel
  unfold IsContinentWord
  rw [e, f]
  iterate 4
    refine spelt_cons (asciiLower_letter (by decide) (by decide) (by decide) (by decide) (by decide) (by decide)) ?_ s
    clear s; intro s
  refine spelt_cons asciiLower_i ?_ s
  clear s; intro s
  iterate 4
    refine spelt_cons (asciiLower_letter (by decide) (by decide) (by decide) (by decide) (by decide) (by decide)) ?_ s
    clear s; intro s
  rw [asciiLower_nil]; rfl

theorem columnName_eq (f : Str) : columnName f = (mapGet CommonFieldsMap f).getD f := by
  by_cases h : f ∈ CommonFieldsMap.map (·.1)
  · have key : ∀ f ∈ CommonFieldsMap.map (·.1), columnName f = (mapGet CommonFieldsMap f).getD f := by decide +kernel
    exact key f h
  · have hn : ∀ m : GoMap Str, f ∉ m.map (·.1) → mapGet m f = none := by
      intro m
      induction m with
      | nil => intro _; rfl
      | cons p m ih =>
        intro hp
        simp only [List.map_cons, List.mem_cons, not_or] at hp
        rw [mapGet, if_neg (fun e => hp.1 e.symm)]; exact ih hp.2
    rw [hn _ h]
    have : ∀ g ∈ [gs "country", gs "province", gs "city", gs "isp", gs "continent", gs "utcOffset", gs "chinaAdminCode"],
        g ∈ CommonFieldsMap.map (·.1) := by decide +kernel
    unfold columnName
    rw [if_neg, if_neg, if_neg, if_neg, if_neg, if_neg, if_neg]
    · rfl
    all_goals (rintro rfl; exact h (this _ (by simp)))

theorem covertFields_names (fields : List Str) : covertFields fields = fields.map columnName := by
  unfold covertFields
  refine List.map_congr_left fun f _ => ?_
  rw [columnName_eq]
  cases mapGet CommonFieldsMap f <;> rfl

/-- The first and the last position of a kind. -/
theorem Offset_iff (s : Str) (l : List Str) (i : Nat) :
    Offset s l = some i ↔ l[i]? = some s ∧ ∀ j < i, l[j]? ≠ some s := by
  induction l generalizing i with
  | nil => simp [Offset]
  | cons x l ih =>
    unfold Offset
    split
    · rename_i hx
      subst hx
      cases i with
      | zero => simp
      | succ i => simp only [Option.some.injEq]; exact ⟨fun h => by omega, fun h => absurd (h.2 0 (by omega)) (by simp)⟩
    · rename_i hx
      cases i with
      | zero => simp [hx]
      | succ i =>
        rw [Option.map_eq_some_iff]
        simp only [Nat.add_right_cancel_iff, exists_eq_right, ih, List.getElem?_cons_succ]
        refine and_congr_right fun _ => ⟨fun h j hj => ?_, fun h j hj => ?_⟩
        · cases j with
          | zero => simpa using hx
          | succ j => simpa using h j (by omega)
        · simpa using h (j + 1) (by omega)

def WordAt (l : List Str) (j : Nat) : Prop := ∃ f, l[j]? = some f ∧ asciiLower f = fContinent

theorem continentIdx_iff (l : List Str) (k : Nat) (acc : Option Nat) (i : Nat) :
    continentIdx l k acc = some i ↔
      (k ≤ i ∧ WordAt l (i - k) ∧ ∀ j > i - k, ¬ WordAt l j) ∨ ((∀ j, ¬ WordAt l j) ∧ acc = some i) := by
  induction l generalizing k acc with
  | nil => simp [continentIdx, WordAt]
  | cons x l ih =>
    unfold continentIdx
    rw [ih]
    have sh : ∀ j, WordAt (x :: l) (j + 1) ↔ WordAt l j := by intro j; simp [WordAt]
    have s0 : WordAt (x :: l) 0 ↔ asciiLower x = fContinent := by simp [WordAt]
    have c1 : (∀ j, ¬ WordAt (x :: l) j) ↔ asciiLower x ≠ fContinent ∧ ∀ j, ¬ WordAt l j := by
      constructor
      · intro h; exact ⟨fun e => h 0 (s0.mpr e), fun j hj => h (j + 1) ((sh j).mpr hj)⟩
      · rintro ⟨h, h'⟩ j
        cases j with
        | zero => rw [s0]; exact h
        | succ j => rw [sh]; exact h' j
    have c2 : ∀ m, (∀ j > m + 1, ¬ WordAt (x :: l) j) ↔ ∀ j > m, ¬ WordAt l j := by
      intro m
      constructor
      · intro h j hj; rw [← sh]; exact h _ (by omega)
      · intro h j hj
        obtain ⟨j, rfl⟩ : ∃ j', j = j' + 1 := ⟨j - 1, by omega⟩
        rw [sh]; exact h _ (by omega)
    have c3 : (∀ j > 0, ¬ WordAt (x :: l) j) ↔ ∀ j, ¬ WordAt l j := by
      constructor
      · intro h j; rw [← sh]; exact h _ (by omega)
      · intro h j hj
        obtain ⟨j, rfl⟩ : ∃ j', j = j' + 1 := ⟨j - 1, by omega⟩
        rw [sh]; exact h _
    rw [c1]
    by_cases hki : k + 1 ≤ i
    · obtain ⟨m, hm⟩ : ∃ m, i - k = m + 1 := ⟨i - k - 1, by omega⟩
      rw [hm, sh, c2, show i - (k + 1) = m by omega]
      split
      · rename_i hx
        simp only [Option.some.injEq, hx, ne_eq, not_true_eq_false, false_and, or_false]
        constructor
        · rintro (⟨_, h⟩ | ⟨_, h⟩)
          · exact ⟨by omega, h⟩
          · omega
        · rintro ⟨_, h⟩; exact .inl ⟨hki, h⟩
      · rename_i hx
        simp only [hx, ne_eq, not_false_eq_true, true_and]
        refine or_congr_left ⟨fun h => ⟨by omega, h.2⟩, fun h => ⟨hki, h.2⟩⟩
    · by_cases hik : i = k
      · subst hik
        rw [Nat.sub_self, s0, c3]
        split
        · rename_i hx
          simp only [hx, hki, false_and, false_or, true_and, ne_eq, not_true_eq_false, or_false, and_true, Nat.le_refl]
        · rename_i hx
          simp only [hx, hki, false_and, false_or, true_and, ne_eq, not_false_eq_true, and_false]
      · simp only [hki, false_and, false_or]
        split
        · rename_i hx
          simp only [Option.some.injEq]
          constructor
          · rintro ⟨_, h⟩; omega
          · rintro (⟨h, _⟩ | ⟨⟨h, _⟩, _⟩)
            · omega
            · exact absurd hx h
        · rename_i hx
          constructor
          · rintro ⟨h, h'⟩; exact .inr ⟨⟨hx, h⟩, h'⟩
          · rintro (⟨h, _⟩ | ⟨⟨_, h⟩, h'⟩)
            · omega
            · exact ⟨h, h'⟩

theorem shortContinent_eq (s : Str) : continentCode s = shortContinent s := by
  unfold shortContinent continentCode continentTable
  simp only [List.find?_cons, List.find?_nil]
  by_cases e1 : gs "亚洲" = s
  · subst e1; rfl
  by_cases e2 : gs "欧洲" = s
  · subst e2; rfl
  by_cases e3 : gs "北美洲" = s
  · subst e3; rfl
  by_cases e4 : gs "南美洲" = s
  · subst e4; rfl
  by_cases e5 : gs "非洲" = s
  · subst e5; rfl
  by_cases e6 : gs "大洋洲" = s
  · subst e6; rfl
  by_cases e7 : gs "南极洲" = s
  · subst e7; rfl
  simp [e1, e2, e3, e4, e5, e6, e7, Ne.symm e1, Ne.symm e2, Ne.symm e3, Ne.symm e4, Ne.symm e5, Ne.symm e6, Ne.symm e7]

theorem fillMap_cols {fs vs : List Str} {m0 m : GoMap Str} (hl : vs.length = fs.length) (h : fillMap fs vs m0 = .ok m) (c : Str) :
    (∀ (i : Nat) v, fs[i]? = some c → vs[i]? = some v → (∀ j > i, fs[j]? ≠ some c) → mapGet m c = some v) ∧
    (c ∉ fs → mapGet m c = mapGet m0 c) ∧ ((mapGet m c).isSome ↔ c ∈ fs ∨ (mapGet m0 c).isSome) := by
  induction fs generalizing vs m0 with
  | nil =>
    unfold fillMap at h; cases h
    simp
  | cons f fs ih =>
    cases vs with
    | nil => simp at hl
    | cons v vs =>
      unfold fillMap at h
      obtain ⟨h1, h2, h3⟩ := ih (by simpa using hl) h
      refine ⟨fun i w hi hw hj => ?_, fun hn => ?_, ?_⟩
      · cases i with
        | zero =>
          simp only [List.getElem?_cons_zero, Option.some.injEq] at hi hw
          subst hi; subst hw
          rw [h2, Program.mapGet_mapSet, if_pos rfl]
          intro hmem
          obtain ⟨k, hk, e⟩ := List.getElem_of_mem hmem
          exact hj (k + 1) (by omega) (by rw [List.getElem?_cons_succ, List.getElem?_eq_getElem hk, e])
        | succ i =>
          refine h1 i w (by simpa using hi) (by simpa using hw) fun j hgt => ?_
          have := hj (j + 1) (by omega)
          simpa using this
      · rw [List.mem_cons, not_or] at hn
        rw [h2 hn.2, Program.mapGet_mapSet, if_neg (fun e => hn.1 e.symm)]
      · rw [h3, Program.mapGet_mapSet, List.mem_cons]
        by_cases e : f = c
        · subst e; simp
        · rw [if_neg e]
          have : ¬ c = f := fun e' => e e'.symm
          simp [this]

theorem decoded_get {fields values : List Str} {i : Nat} {v : Str}
    (hv : values[i]? = some v) : ∃ out, (decoded fields values)[i]? = some out ∧ ColumnValue fields i v out := by
  have hcode : ∀ j : Nat, (fields[j]?.map columnName = some (gs "continent_code")) ↔ (covertFields fields)[j]? = some FieldContinentCode := by
    intro j; rw [covertFields_names, List.getElem?_map]; rfl
  have hword : ∀ j : Nat, (∃ f, fields[j]? = some f ∧ IsContinentWord (columnName f)) ↔ WordAt (covertFields fields) j := by
    intro j
    unfold WordAt
    rw [covertFields_names, List.getElem?_map]
    constructor
    · rintro ⟨f, h1, h2⟩; exact ⟨columnName f, by rw [h1]; rfl, (isContinentWord_iff _).mp h2⟩
    · rintro ⟨g, h1, h2⟩
      obtain ⟨f, h3, rfl⟩ := Option.map_eq_some_iff.mp h1
      exact ⟨f, h3, (isContinentWord_iff _).mpr h2⟩
  have hO := fun i => Offset_iff FieldContinentCode (covertFields fields) i
  have hI := fun i => continentIdx_iff (covertFields fields) 0 none i
  simp only [Nat.zero_le, true_and, Nat.sub_zero, reduceCtorEq, and_false, or_false] at hI
  unfold ColumnValue
  simp only [hcode, hword]
  simp only [← hI]
  have hO' : ((covertFields fields)[i]? = some FieldContinentCode ∧ ∀ j < i, ¬ (covertFields fields)[j]? = some FieldContinentCode) ↔
      Offset FieldContinentCode (covertFields fields) = some i := (hO i).symm
  simp only [hO']
  have disj : Offset FieldContinentCode (covertFields fields) = some i → continentIdx (covertFields fields) 0 none ≠ some i := by
    intro h1 h2
    obtain ⟨f, h3, h4⟩ := ((hI i).mp h2).1
    rw [((hO i).mp h1).1] at h3
    injection h3 with h3
    subst h3
    revert h4; decide +kernel
  have e1 : (convD (continentIdx (covertFields fields) 0 none) values)[i]? =
      some (if continentIdx (covertFields fields) 0 none = some i then continentCode v else v) := by
    unfold convD
    cases hc : continentIdx (covertFields fields) 0 none with
    | none => simp [hv]
    | some k =>
      simp only [List.getElem?_modify, hv, Option.some.injEq]
      split <;> simp_all
  have e2 : (decoded fields values)[i]? = some (if Offset FieldContinentCode (covertFields fields) = some i then continentName v
      else if continentIdx (covertFields fields) 0 none = some i then continentCode v else v) := by
    unfold decoded
    cases hc : Offset FieldContinentCode (covertFields fields) with
    | none => simpa using e1
    | some k =>
      simp only [List.getElem?_modify, e1, Option.some.injEq]
      by_cases hk : k = i
      · subst hk
        simp [disj hc]
      · simp [hk]
  refine ⟨_, e2, fun h => ?_, fun h => ?_, fun h h' => ?_⟩
  · rw [if_pos h, continentName_eq]
  · rw [if_neg (fun h' => disj h' h), if_pos h, shortContinent_eq]
  · rw [if_neg h, if_neg h']

/-- C81: opening a packed table and looking up an address of a row gives every column of the row under its name in the file
(the last one if several columns share the name), with the continent spelled out or abbreviated as described. -/
theorem C81_columns {enc : MetaData → Bytes} {dec : Bytes → Option MetaData} {now : Int} {ipd : IpData}
    (h : RowsOK ipd) (ht : ∀ r ∈ ipd.ips, ∀ v ∈ r.values, (0x09 : UInt8) ∉ v) (hd : DisjointRows (rowsOf ipd))
    (hj : MetaRoundTrip enc dec (buildMeta now ipd.version ipd.fields)) :
    ∃ bytes, pack enc now ipd = .ok bytes ∧ (bytes.length < 2 ^ 32 →
      ∃ r, newReaderFromBytes dec bytes = .ok r ∧ ∀ a row, ValidIP a → Supports ipd.version a → row ∈ ipd.ips →
        Covers row.cidr (addrNum a) → ∃ m, r.findMap a (gs "CN") = .ok (IpNet a (maskFor row.cidr a), m) ∧
          (∀ c, (mapGet m c).isSome ↔ ∃ f ∈ ipd.fields, columnName f = c) ∧
          ∀ i f v, ipd.fields[i]? = some f → row.values[i]? = some v →
            (∀ j > i, ∀ g, ipd.fields[j]? = some g → columnName g ≠ columnName f) →
            ∃ out, mapGet m (columnName f) = some out ∧ ColumnValue ipd.fields i v out) := by
  obtain ⟨bytes, h1, h2⟩ := opens h hj
  refine ⟨bytes, h1, fun hl => ?_⟩
  obtain ⟨r, h3, _, hw⟩ := h2 hl
  refine ⟨r, h3, fun a row hv hs hr hc => ?_⟩
  obtain ⟨n, _, hf⟩ := hw.covered h hv hs (rowOf_disjoint h hd hr hc)
  have hdec := decodeInfo_stored (values := row.values) hw.fields_eq hw.continent (h.len row hr) h.fields (ht row hr)
  have hlen : (decoded ipd.fields row.values).length = (covertFields ipd.fields).length := by
    rw [covertFields_length, ← h.len row hr]
    unfold decoded
    simp only []
    split
    · exact convD_length ..
    · rw [List.length_modify]; exact convD_length ..
  obtain ⟨m, hm⟩ := Dump.fillMap_total (fs := r.md.fields) (vs := decoded ipd.fields row.values) (by rw [hw.fields_eq]; exact hlen) []
  have hlang : mapGet r.md.languages (gs "CN") = some 0 := by
    obtain ⟨N, S, e⟩ := hw.md; rw [e]; rfl
  refine ⟨m, findMap_of hlang hf hdec hm, fun c => ?_, fun i f v hi hvi hlast => ?_⟩
  · rw [hw.fields_eq] at hm
    rw [(fillMap_cols hlen hm c).2.2, covertFields_names, List.mem_map]
    simp [mapGet]
  · obtain ⟨out, ho, hcv⟩ := decoded_get (fields := ipd.fields) hvi
    rw [hw.fields_eq] at hm
    refine ⟨out, (fillMap_cols hlen hm _).1 i out ?_ ho fun j hgt hj' => ?_, hcv⟩
    · rw [covertFields_names, List.getElem?_map, hi]; rfl
    · rw [covertFields_names, List.getElem?_map] at hj'
      obtain ⟨g, hg, e⟩ := Option.map_eq_some_iff.mp hj'
      exact hlast j hgt g hg e

/-- A table with a continent column and a column called `Continent`: the first is spelled out, the second abbreviated. -/
def columnsTable : IpData :=
  ⟨[gs "country", gs "continent", gs "Continent", gs "note"], ⟨IpAll, 1, 0, gs "v", [], []⟩,
   [⟨⟨[8, 8, 8, 0], [255, 255, 255, 0]⟩, [gs "巴西", gs "SA", gs "南美洲", gs "SA"]⟩]⟩

theorem columnsTable_size : packedSize columnsTable < 2 ^ 32 := by decide +kernel

example : ∃ bytes r m, pack encMeta 0 columnsTable = .ok bytes ∧ newReaderFromBytes decMeta bytes = .ok r ∧
    r.findMap [8, 8, 8, 8] (gs "CN") = .ok (⟨[8, 8, 8, 0], [255, 255, 255, 0]⟩, m) ∧
    mapGet m (gs "country_name") = some (gs "巴西") ∧ mapGet m (gs "continent_code") = some (gs "南美洲") ∧
    mapGet m (gs "Continent") = some (gs "SA") ∧ mapGet m (gs "note") = some (gs "SA") := by
  obtain ⟨bytes, h1, h2⟩ := C81_columns (enc := encMeta) (dec := decMeta) (now := 0) (ipd := columnsTable)
    (by decide +kernel) (by decide +kernel) (by decide +kernel) (fun _ _ _ _ => dec_encMeta _)
  obtain ⟨r, h3, h4⟩ := h2 (size_of_packed columnsTable_size h1)
  obtain ⟨m, e, _, h5⟩ := h4 [8, 8, 8, 8] _ (by decide) (by decide +kernel) (List.mem_cons_self ..) (by decide)
  have hcode : ∀ j : Nat, (columnsTable.fields[j]?.map columnName = some (gs "continent_code")) ↔ j = 1 := by
    intro j
    have : ∀ j < 4, (columnsTable.fields[j]?.map columnName = some (gs "continent_code")) ↔ j = 1 := by decide +kernel
    by_cases hj : j < 4
    · exact this j hj
    · rw [List.getElem?_eq_none (by show 4 ≤ j; omega)]; simp; omega
  have hword : ∀ j : Nat, (∃ f, columnsTable.fields[j]? = some f ∧ IsContinentWord (columnName f)) ↔ j = 2 := by
    intro j
    simp only [isContinentWord_iff]
    have : ∀ j < 4, (columnsTable.fields[j]?.any fun f => decide (asciiLower (columnName f) = fContinent)) ↔ j = 2 := by decide +kernel
    by_cases hj : j < 4
    · rw [← this j hj]
      cases columnsTable.fields[j]? <;> simp
    · rw [List.getElem?_eq_none (by show 4 ≤ j; omega)]; simp; omega
  have cv : ∀ i v out, ColumnValue columnsTable.fields i v out →
      out = if i = 1 then spellContinent v else if i = 2 then shortContinent v else v := by
    intro i v out ⟨a, b, c⟩
    simp only [hcode, hword] at a b c
    by_cases h1 : i = 1
    · rw [if_pos h1]; exact a ⟨h1, fun j hj e => by omega⟩
    · by_cases h2 : i = 2
      · rw [if_neg h1, if_pos h2]; exact b ⟨h2, fun j hj e => by omega⟩
      · rw [if_neg h1, if_neg h2]; exact c (fun h => h1 h.1) (fun h => h2 h.1)
  have hl : ∀ i < 4, ∀ j > i, ∀ g, columnsTable.fields[j]? = some g → columnName g ≠ columnName (columnsTable.fields[i]?.getD []) := by
    intro i hi j hj g hg
    have hj4 : j < 4 := (List.getElem?_eq_some_iff.mp hg).1
    have : ∀ j < 4, ∀ i < j, columnName (columnsTable.fields[j]?.getD []) ≠ columnName (columnsTable.fields[i]?.getD []) := by decide +kernel
    have k := this j hj4 i hj
    rw [hg] at k; exact k
  refine ⟨bytes, r, m, h1, h3, by rw [e]; rfl, ?_, ?_, ?_, ?_⟩
  · obtain ⟨o, e1, e2⟩ := h5 0 _ _ rfl rfl (hl 0 (by omega))
    rw [show gs "country_name" = columnName (gs "country") by decide +kernel, e1, cv _ _ _ e2]; decide +kernel
  · obtain ⟨o, e1, e2⟩ := h5 1 _ _ rfl rfl (hl 1 (by omega))
    rw [show gs "continent_code" = columnName (gs "continent") by decide +kernel, e1, cv _ _ _ e2]; decide +kernel
  · obtain ⟨o, e1, e2⟩ := h5 2 _ _ rfl rfl (hl 2 (by omega))
    rw [show gs "Continent" = columnName (gs "Continent") by decide +kernel, e1, cv _ _ _ e2]; decide +kernel
  · obtain ⟨o, e1, e2⟩ := h5 3 _ _ rfl rfl (hl 3 (by omega))
    rw [show gs "note" = columnName (gs "note") by decide +kernel, e1, cv _ _ _ e2]; decide +kernel

end Uip.Ipdb
