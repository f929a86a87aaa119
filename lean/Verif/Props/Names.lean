import Verif.Props.Registry
import Verif.Props.Operate
import Verif.Proof.Names
/-!
# Property C97: loading a table of names
-/
namespace Uip
open Uip.Spec

namespace Spec

/-- The line (with or without a carriage return at its end) says that `k` is to be written `v`. -/
def NameLine (l k v : Str) : Prop :=
  (0x09 : UInt8) ∉ k ∧ (l = k ++ 0x09 :: v ∧ v.getLast? ≠ some 0x0D ∨ l = k ++ 0x09 :: v ++ [0x0D])

end Spec

theorem cutByte_spec (c : UInt8) : ∀ (s k v : Str), cutByte c s = some (k, v) ↔ c ∉ k ∧ s = k ++ c :: v
  | [], k, v => by simp [cutByte]
  | b :: bs, k, v => by
    unfold cutByte
    split
    · rename_i h; subst h
      constructor
      · intro h; cases h; simp
      · rintro ⟨h1, h2⟩
        cases k with
        | nil => simp only [List.nil_append, List.cons.injEq] at h2; rw [h2.2]
        | cons x k => simp only [List.cons_append, List.cons.injEq] at h2; simp [h2.1] at h1
    · rename_i hne
      rw [Option.map_eq_some_iff]
      constructor
      · rintro ⟨⟨k', v'⟩, h1, h2⟩
        cases h2
        obtain ⟨h3, h4⟩ := (cutByte_spec c bs k' v').mp h1
        exact ⟨by simp only [List.mem_cons, not_or]; exact ⟨fun e => hne e.symm, h3⟩, by rw [h4]; rfl⟩
      · rintro ⟨h1, h2⟩
        cases k with
        | nil => simp only [List.nil_append, List.cons.injEq] at h2; exact absurd h2.1 hne
        | cons x k =>
          simp only [List.cons_append, List.cons.injEq] at h2
          simp only [List.mem_cons, not_or] at h1
          exact ⟨(k, v), (cutByte_spec c bs k v).mpr ⟨h1.2, h2.2⟩, by rw [h2.1]⟩

theorem cut_dropCR (l k v : Str) : cutByte 0x09 (dropCR l) = some (k, v) ↔ NameLine l k v := by
  rw [cutByte_spec]
  unfold NameLine dropCR
  refine and_congr_right fun _ => ?_
  split
  · rename_i h
    obtain ⟨xs, rfl⟩ := List.getLast?_eq_some_iff.mp h
    rw [List.dropLast_concat]
    constructor
    · rintro rfl; right; rfl
    · rintro (⟨h1, h2⟩ | h1)
      · exfalso
        have : (k ++ 0x09 :: v).getLast? = some 0x0D := by rw [← h1]; exact h
        rw [List.getLast?_append, List.getLast?_cons] at this
        cases hv : v.getLast? with
        | none => rw [hv] at this; simp at this
        | some x => rw [hv] at this; simp at this; exact h2 (by rw [hv, this])
      · exact (List.append_inj' h1 rfl).1
  · rename_i h
    constructor
    · rintro rfl
      refine .inl ⟨rfl, fun hv => h ?_⟩
      rw [List.getLast?_append, List.getLast?_cons, hv]; rfl
    · rintro (⟨h1, _⟩ | h1)
      · exact h1
      · exact absurd (by rw [h1, List.getLast?_concat]) h

theorem step_dropCR (m : GoMap Str) (l : Str) (k : Str) :
    (∀ v, NameLine l k v → mapGet (parseStep m (dropCR l)) k = some v) ∧
    ((∀ v, ¬ NameLine l k v) → mapGet (parseStep m (dropCR l)) k = mapGet m k) := by
  have hnil : dropCR l = [] → ∀ v, ¬ NameLine l k v := by
    intro h v hn
    have := (cut_dropCR l k v).mpr hn
    rw [h] at this; cases this
  unfold parseStep
  refine ⟨fun v hv => ?_, fun hn => ?_⟩
  · rw [if_neg (fun h => hnil h v hv), (cut_dropCR l k v).mpr hv]
    simp only []
    rw [Program.mapGet_mapSet, if_pos rfl]
  · split
    · rfl
    · cases e : cutByte 0x09 (dropCR l) with
      | none => rfl
      | some p =>
        obtain ⟨k', v'⟩ := p
        simp only []
        rw [Program.mapGet_mapSet, if_neg]
        rintro rfl
        exact hn v' ((cut_dropCR l k' v').mp e)

theorem scan_short : ∀ (ps : List Str), (∀ l ∈ ps, l.length < 65536) →
    (scanPieces ps).2 = false ∧ ∀ m, (scanPieces ps).1.foldl parseStep m = (ps.map dropCR).foldl parseStep m
  | [], _ => ⟨rfl, fun _ => rfl⟩
  | [p], h => by
    have := h p (by simp)
    unfold scanPieces
    rw [if_neg (by unfold maxToken; omega)]
    split
    · rename_i e; subst e; exact ⟨rfl, fun _ => rfl⟩
    · exact ⟨rfl, fun _ => rfl⟩
  | p :: q :: ps, h => by
    have := h p (by simp)
    obtain ⟨h1, h2⟩ := scan_short (q :: ps) (fun l hl => h l (by simp [hl]))
    unfold scanPieces
    rw [if_neg (by unfold maxToken; omega)]
    refine ⟨h1, fun m => ?_⟩
    show ((scanPieces (q :: ps)).1).foldl parseStep _ = _
    rw [h2]; rfl

theorem fold_none (k : Str) : ∀ (ls : List Str) (m : GoMap Str), (∀ l ∈ ls, ∀ v, ¬ NameLine l k v) →
    mapGet ((ls.map dropCR).foldl parseStep m) k = mapGet m k
  | [], _, _ => rfl
  | l :: ls, m, h => by
    show mapGet ((ls.map dropCR).foldl parseStep (parseStep m (dropCR l))) k = _
    rw [fold_none k ls _ (fun l hl => h l (by simp [hl])), (step_dropCR m l k).2 (h l (by simp))]

theorem parse_lines {ls : List Str} (hne : ls ≠ []) (h : ∀ l ∈ ls, (0x0A : UInt8) ∉ l ∧ l.length < 65536) :
    parseData (joinByte 0x0A ls) = (ls.map dropCR).foldl parseStep [] := by
  unfold parseData scanLines
  rw [splitByte_joinByte hne (fun l hl => (h l hl).1)]
  obtain ⟨h1, h2⟩ := scan_short ls (fun l hl => (h l hl).2)
  rw [h1, h2]; rfl

/-- **C97.** Load a table of names for the attribute `key` from a text of lines shorter than 64 KiB (the last one may or may
not have a newline).  A name is then written as the last line for it says, and stays as it is if there is none; the tables
of other attributes do not change. -/
theorem C97_load (nm : GoMap (GoMap Str)) (key : Str) (ls : List Str) (hne : ls ≠ [])
    (hls : ∀ l ∈ ls, (0x0A : UInt8) ∉ l ∧ l.length < 65536) :
    (∀ pre l post k v, ls = pre ++ l :: post → NameLine l k v → (∀ l' ∈ post, ∀ v', ¬ NameLine l' k v') →
      normValue (Load nm key (joinByte 0x0A ls)) (some key) k = v) ∧
    (∀ k, (∀ l ∈ ls, ∀ v, ¬ NameLine l k v) → normValue (Load nm key (joinByte 0x0A ls)) (some key) k = k) ∧
    ∀ f, f ≠ some key → ∀ k, normValue (Load nm key (joinByte 0x0A ls)) f k = normValue nm f k := by
  unfold Load
  rw [parse_lines hne hls]
  refine ⟨?_, fun k hk => ?_, fun f hf k => ?_⟩
  · rintro pre l post k v rfl hl hpost
    unfold normValue
    rw [Option.bind_some, Program.mapGet_mapSet, if_pos rfl]
    simp only []
    have : mapGet (((pre ++ l :: post).map dropCR).foldl parseStep []) k = some v := by
      rw [List.map_append, List.foldl_append, List.map_cons, List.foldl_cons, fold_none k post _ hpost]
      exact (step_dropCR _ l k).1 v hl
    rw [this]
  · unfold normValue
    rw [Option.bind_some, Program.mapGet_mapSet, if_pos rfl]
    simp only []
    rw [fold_none k ls [] hk]; rfl
  · unfold normValue
    cases f with
    | none => rfl
    | some f =>
      rw [Option.bind_some, Option.bind_some, Program.mapGet_mapSet, if_neg (fun e => hf (by rw [e]))]

/-- **C97 (long lines).** One line of 64 KiB or more empties the table: no name of the attribute is changed any more. -/
theorem C97_too_long (nm : GoMap (GoMap Str)) (key : Str) (ls : List Str) (hls : ∀ l ∈ ls, (0x0A : UInt8) ∉ l)
    (hlong : ∃ l ∈ ls, 65536 ≤ l.length) (k : Str) : normValue (Load nm key (joinByte 0x0A ls)) (some key) k = k := by
  have key' : ∀ ps : List Str, (∃ l ∈ ps, 65536 ≤ l.length) → (scanPieces ps).2 = true := by
    intro ps
    induction ps with
    | nil => rintro ⟨_, h, _⟩; cases h
    | cons p ps ih =>
      rintro ⟨l, hl, h⟩
      cases ps with
      | nil =>
        rw [List.mem_singleton.mp hl] at h
        unfold scanPieces
        rw [if_pos (by unfold maxToken; omega)]
      | cons q ps =>
        unfold scanPieces
        split
        · rfl
        · rename_i hs
          rcases List.mem_cons.mp hl with rfl | hl
          · unfold maxToken at hs; omega
          · exact ih ⟨l, hl, h⟩
  have hne : ls ≠ [] := by rintro rfl; obtain ⟨_, h, _⟩ := hlong; cases h
  unfold normValue Load
  rw [Option.bind_some, Program.mapGet_mapSet, if_pos rfl]
  simp only []
  unfold parseData scanLines
  rw [splitByte_joinByte hne hls, key' ls hlong]
  rfl

/-- The lines of a table that is a list of lines. -/
def shipped (key : Str) : List Str :=
  if key = fCity then splitByte 0x0A CityList else if key = fProvince then splitByte 0x0A ProvinceList
  else if key = fISP then splitByte 0x0A ISPList else []

set_option maxRecDepth 100000 in
theorem shipped_short : ∀ t ∈ [CityList, ProvinceList, ISPList], ∀ l ∈ splitByte 0x0A t, (0x0A : UInt8) ∉ l ∧ l.length < 65536 := by
  decide +kernel

theorem join_split (c : UInt8) (s : Str) : joinByte c (splitByte c s) = s := by
  induction s with
  | nil => rfl
  | cons b bs ih =>
    unfold splitByte
    split
    · rename_i h; subst h
      cases e : splitByte b bs with
      | nil => exact absurd e (splitByte_ne_nil _ _)
      | cons x r => rw [← ih, e]; rfl
    · cases e : splitByte c bs with
      | nil => exact absurd e (splitByte_ne_nil _ _)
      | cons x r =>
        rw [e] at ih
        rw [← ih]
        cases r <;> rfl

/-- **C97 (the shipped tables).** For cities, provinces and carriers the program starts with what the lines of the shipped
lists say, for every other attribute with nothing. -/
theorem C97_shipped (key : Str) :
    (∀ pre l post k v, shipped key = pre ++ l :: post → NameLine l k v → (∀ l' ∈ post, ∀ v', ¬ NameLine l' k v') →
      normValue NormalizedMap (some key) k = v) ∧
    ∀ k, (∀ l ∈ shipped key, ∀ v, ¬ NameLine l k v) → normValue NormalizedMap (some key) k = k := by
  have gen : ∀ t, (∀ l ∈ splitByte 0x0A t, (0x0A : UInt8) ∉ l ∧ l.length < 65536) → ∀ nm key,
      (∀ pre l post k v, splitByte 0x0A t = pre ++ l :: post → NameLine l k v → (∀ l' ∈ post, ∀ v', ¬ NameLine l' k v') →
        normValue (Load nm key t) (some key) k = v) ∧
      (∀ k, (∀ l ∈ splitByte 0x0A t, ∀ v, ¬ NameLine l k v) → normValue (Load nm key t) (some key) k = k) ∧
      ∀ f, f ≠ some key → ∀ k, normValue (Load nm key t) f k = normValue nm f k := by
    intro t ht nm key
    have := C97_load nm key (splitByte 0x0A t) (splitByte_ne_nil _ _) ht
    rw [join_split] at this
    exact this
  have g1 := gen CityList (shipped_short _ (by simp)) [] fCity
  have g2 := gen ProvinceList (shipped_short _ (by simp)) (Load [] fCity CityList) fProvince
  have g3 := gen ISPList (shipped_short _ (by simp)) (Load (Load [] fCity CityList) fProvince ProvinceList) fISP
  have d1 : fProvince ≠ fCity := by decide +kernel
  have d2 : fISP ≠ fCity := by decide +kernel
  have d3 : fISP ≠ fProvince := by decide +kernel
  clear gen
  revert g1 g2 g3
  unfold NormalizedMap shipped
  generalize CityList = C
  generalize ProvinceList = P
  generalize ISPList = I
  intro g1 g2 g3
  by_cases h1 : key = fCity
  · subst h1
    rw [if_pos rfl]
    refine ⟨fun pre l post k v e hl hp => ?_, fun k hk => ?_⟩
    · rw [g3.2.2 _ (fun h => d2 (Option.some.inj h).symm), g2.2.2 _ (fun h => d1 (Option.some.inj h).symm)]
      exact g1.1 pre l post k v e hl hp
    · rw [g3.2.2 _ (fun h => d2 (Option.some.inj h).symm), g2.2.2 _ (fun h => d1 (Option.some.inj h).symm)]
      exact g1.2.1 k hk
  · rw [if_neg h1]
    by_cases h2 : key = fProvince
    · subst h2
      rw [if_pos rfl]
      refine ⟨fun pre l post k v e hl hp => ?_, fun k hk => ?_⟩
      · rw [g3.2.2 _ (fun h => d3 (Option.some.inj h).symm)]
        exact g2.1 pre l post k v e hl hp
      · rw [g3.2.2 _ (fun h => d3 (Option.some.inj h).symm)]
        exact g2.2.1 k hk
    · rw [if_neg h2]
      by_cases h3 : key = fISP
      · subst h3
        rw [if_pos rfl]
        exact ⟨g3.1, g3.2.1⟩
      · rw [if_neg h3]
        refine ⟨fun pre l post k v e => ?_, fun k _ => ?_⟩
        · cases pre <;> cases e
        · rw [g3.2.2 _ (fun h => h3 (Option.some.inj h)), g2.2.2 _ (fun h => h2 (Option.some.inj h)),
            g1.2.2 _ (fun h => h1 (Option.some.inj h))]
          rfl

/-- A text of three lines, one of them with a carriage return and one overridden; and the lines of the province 上海. -/
example : let ls := [gs "a\tb", gs "no tab", gs "c d\te\tf\r", gs "a\tg", []]
    (∀ l ∈ ls, (0x0A : UInt8) ∉ l ∧ l.length < 65536) ∧ NameLine (gs "a\tg") (gs "a") (gs "g") ∧
      NameLine (gs "c d\te\tf\r") (gs "c d") (gs "e\tf") ∧ ∀ v, ¬ NameLine (gs "no tab") (gs "a") v := by
  refine ⟨by decide +kernel, ⟨by decide +kernel, by decide +kernel⟩, ⟨by decide +kernel, by decide +kernel⟩, fun v hv => ?_⟩
  have := (cut_dropCR _ _ v).mpr hv
  revert this
  rw [show cutByte 0x09 (dropCR (gs "no tab")) = none by decide +kernel]
  intro h; cases h

set_option maxRecDepth 100000 in
example : normValue NormalizedMap (some (gs "province")) (gs "上海市") = gs "上海" ∧ (gs "上海市\t上海") ∈ shipped (gs "province") ∧
    NameLine (gs "上海市\t上海") (gs "上海市") (gs "上海") := by
  refine ⟨by decide +kernel, by decide +kernel, by decide +kernel, by decide +kernel⟩

end Uip
