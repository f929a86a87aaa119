import Verif.Model.Export
import Verif.Spec.Rule
/-!
# Export rules
-/
namespace Uip.Export
open Uip Uip.Spec

theorem InArray_iff (s : Str) (l : List Str) : InArray s l = true ↔ s ∈ l := by
  induction l with
  | nil => simp [InArray]
  | cons a l ih =>
    simp only [InArray]
    split
    · rename_i h; simp [h]
    · rename_i h; rw [ih]; simp [Ne.symm h]

theorem joinByte_avoids {c : UInt8} {l : List UInt8} {parts : List Str} (hc : c ∉ l) (h : ∀ s ∈ parts, Avoids l s) :
    Avoids l (joinByte c parts) := by
  induction parts with
  | nil => simp [joinByte, Avoids]
  | cons x r ih =>
    cases r with
    | nil => exact h x (by simp)
    | cons y r =>
      simp only [joinByte]
      intro b hb
      rw [List.mem_append, List.mem_cons] at hb
      rcases hb with hb | hb | hb
      · exact h x (by simp) b hb
      · rw [hb]; exact hc
      · exact ih (fun s hs => h s (by simp [hs])) b hb

theorem _root_.Uip.Spec.Avoids.append {l : List UInt8} {s t : Str} (h1 : Avoids l s) (h2 : Avoids l t) : Avoids l (s ++ t) := by
  intro b hb
  rw [List.mem_append] at hb
  exact hb.elim (h1 b) (h2 b)

theorem _root_.Uip.Spec.Avoids.mono {l l' : List UInt8} {s : Str} (h : Avoids l s) (hs : ∀ b ∈ l', b ∈ l) : Avoids l' s :=
  fun b hb hb' => h b hb (hs b hb')

theorem _root_.Uip.Spec.Avoids.not_mem {l : List UInt8} {s : Str} (h : Avoids l s) {c : UInt8} (hc : c ∈ l) : c ∉ s :=
  fun hs => h c hs hc

theorem gs_eq : gs "=" = [0x3D] := by decide
theorem gs_colon : gs ":" = [0x3A] := by decide
theorem gs_bang : gs "!" = [0x21] := by decide

theorem joinByte_cons_head (c : UInt8) (h : Str) (x : Str) (r : List Str) :
    h ++ joinByte c (x :: r) = joinByte c ((h ++ x) :: r) := by
  cases r with
  | nil => rfl
  | cons y r => simp [joinByte]

/-- The condition part of a group as written. -/
def condText (g : Group) : Str := g.key ++ 0x3D :: ((if g.neg then [0x21] else []) ++ joinByte 0x2F g.alts)

theorem condText_avoids {g : Group} (h : g.WF) : Avoids [0x7C, 0x2C, 0x3A] (condText g) := by
  unfold condText
  refine Avoids.append (h.key.mono (by decide)) ?_
  show Avoids _ ([0x3D] ++ _)
  refine Avoids.append (by decide) (Avoids.append (by split <;> decide) ?_)
  exact joinByte_avoids (by decide) (fun s hs => (h.alts s hs).mono (by decide))

theorem text_eq (g : Group) : g.text = condText g ++ 0x3A :: joinByte 0x2C g.only := by
  unfold Group.text condText
  rw [gs_eq, gs_colon, gs_bang]
  simp

theorem text_avoids {g : Group} (h : g.WF) : (0x7C : UInt8) ∉ g.text := by
  rw [text_eq]
  have h1 := (condText_avoids h).not_mem (c := 0x7C) (by decide)
  have h2 := (joinByte_avoids (c := 0x2C) (l := [0x7C]) (by decide)
    (fun s hs => (h.only s hs).mono (by decide))).not_mem (c := 0x7C) (by decide)
  intro hm
  rw [List.mem_append, List.mem_cons] at hm
  rcases hm with hm | hm | hm
  · exact h1 hm
  · exact absurd hm (by decide)
  · exact h2 hm

theorem split_cond {g : Group} (h : g.WF) :
    splitByte 0x3D (condText g) = [g.key, (if g.neg then [0x21] else []) ++ joinByte 0x2F g.alts] := by
  unfold condText
  rw [splitByte_append (h.key.not_mem (by decide)), splitByte_noSep]
  intro hm
  rw [List.mem_append] at hm
  rcases hm with hm | hm
  · split at hm
    · exact absurd hm (by decide)
    · simp at hm
  · exact (joinByte_avoids (c := 0x2F) (l := [0x3D]) (by decide)
      (fun s hs => (h.alts s hs).mono (by decide))).not_mem (by decide) hm

theorem buildFilter_group {efields : List Str} {g : Group} (h : g.WF) :
    buildFilter efields (condText g) g.only =
      (Offset g.key efields).map fun ko => ⟨ko, g.neg, g.alts, offsets efields g.only⟩ := by
  unfold buildFilter
  rw [split_cond h]
  simp only []
  cases Offset g.key efields with
  | none => rfl
  | some ko =>
    simp only [Option.map_some]
    have hsp : splitByte 0x2F (joinByte 0x2F g.alts) = g.alts :=
      splitByte_joinByte h.alts_ne (fun s hs => (h.alts s hs).not_mem (by decide))
    cases hn : g.neg with
    | true =>
      simp only [if_true, List.cons_append, List.nil_append]
      rw [hsp]
    | false =>
      simp only [Bool.false_eq_true, if_false, List.nil_append]
      have hb := h.bang hn
      have : ∀ r, joinByte 0x2F g.alts ≠ 0x21 :: r := by
        intro r hr
        cases ha : g.alts with
        | nil => exact h.alts_ne ha
        | cons x l =>
          rw [ha] at hr hb
          have hx := hb x rfl
          cases l with
          | nil => simp only [joinByte] at hr; rw [hr] at hx; exact hx rfl
          | cons y l =>
            simp only [joinByte] at hr
            cases x with
            | nil => simp at hr
            | cons c x => simp at hr; rw [hr.1] at hx; exact hx rfl
      cases hv : joinByte 0x2F g.alts with
      | nil => rw [hv] at hsp; simp only [hsp]
      | cons c r =>
        rw [hv] at hsp
        have hc : c ≠ 0x21 := fun e => this r (by rw [hv, e])
        split
        · rename_i rest heq
          simp only [List.cons.injEq] at heq
          exact absurd heq.1 hc
        · rw [hsp]

theorem parseGroup_text {efields : List Str} {g : Group} (h : g.WF) :
    parseGroup efields g.text = if g.only.all (fun f => InArray f efields) then
      (Offset g.key efields).map fun ko => ⟨ko, g.neg, g.alts, offsets efields g.only⟩ else none := by
  obtain ⟨o, os, ho⟩ := List.exists_cons_of_ne_nil h.only_ne
  have htext : g.text = joinByte 0x2C ((condText g ++ 0x3A :: o) :: os) := by
    rw [text_eq, ho]
    have := joinByte_cons_head 0x2C (condText g ++ [0x3A]) o os
    simpa using this
  unfold parseGroup
  have hsplit : splitByte 0x2C g.text = (condText g ++ 0x3A :: o) :: os := by
    rw [htext]
    apply splitByte_joinByte (by simp)
    intro s hs
    rw [List.mem_cons] at hs
    rcases hs with rfl | hs
    · intro hm
      rw [List.mem_append, List.mem_cons] at hm
      rcases hm with hm | hm | hm
      · exact (condText_avoids h).not_mem (by decide) hm
      · exact absurd hm (by decide)
      · exact (h.only o (by rw [ho]; simp)).not_mem (by decide) hm
    · exact (h.only s (by rw [ho]; simp [hs])).not_mem (by decide)
  rw [hsplit]
  simp only []
  rw [splitByte_append ((condText_avoids h).not_mem (by decide)),
    splitByte_noSep ((h.colon o (by rw [ho]; rfl)).not_mem (by decide))]
  simp only []
  rw [← ho, buildFilter_group h]

/-! ## Positions -/

theorem Offset_getElem {s : Str} {l : List Str} {i : Nat} (h : Offset s l = some i) :
    l[i]? = some s ∧ ∀ j, j < i → l[j]? ≠ some s := by
  induction l generalizing i with
  | nil => cases h
  | cons a l ih =>
    simp only [Offset] at h
    split at h
    · rename_i ha; cases h; subst ha; simp
    · rename_i ha
      cases ho : Offset s l with
      | none => rw [ho] at h; cases h
      | some j =>
        rw [ho] at h
        simp only [Option.map_some, Option.some.injEq] at h
        subst h
        obtain ⟨h1, h2⟩ := ih ho
        refine ⟨by simpa using h1, ?_⟩
        intro k hk
        cases k with
        | zero => simpa using ha
        | succ k => simpa using h2 k (by omega)

theorem Offset_isSome {s : Str} {l : List Str} : (Offset s l).isSome ↔ s ∈ l := by
  induction l with
  | nil => simp [Offset]
  | cons a l ih =>
    simp only [Offset]
    split
    · rename_i h; simp [h]
    · rename_i h; simp [ih, Ne.symm h]

theorem valueOf_Offset {fields values : List Str} {key : Str} {i : Nat} (h : Offset key fields = some i)
    (hl : values.length = fields.length) : valueOf fields values key = values[i]? := by
  induction fields generalizing values i with
  | nil => cases h
  | cons a l ih =>
    cases values with
    | nil => simp at hl
    | cons v vs =>
      simp only [Offset] at h
      unfold valueOf
      simp only [List.zip_cons_cons, List.find?_cons]
      split at h
      · rename_i ha; cases h; simp [ha]
      · rename_i ha
        simp only [ha, decide_false]
        cases ho : Offset key l with
        | none => rw [ho] at h; cases h
        | some j =>
          rw [ho] at h
          simp only [Option.map_some, Option.some.injEq] at h
          subst h
          have := ih ho (by simpa using hl)
          unfold valueOf at this
          simpa using this

theorem mem_offsets {fields ks : List Str} {i : Nat} :
    i ∈ offsets fields ks ↔ ∃ k ∈ ks, Offset k fields = some i := by
  induction ks with
  | nil => simp [offsets]
  | cons k ks ih =>
    simp only [offsets]
    cases h : Offset k fields with
    | none => simp [ih, h]
    | some j => simp [ih, h, eq_comm]

theorem copyOffsets_get (data : List Str) : ∀ (os : List Nat) (ret : List Str), ret.length = data.length →
    (copyOffsets data os ret).length = data.length ∧
    ∀ i : Nat, (copyOffsets data os ret)[i]? = if i ∈ os then data[i]? else ret[i]? := by
  intro os
  induction os with
  | nil => intro ret h; exact ⟨h, by simp [copyOffsets]⟩
  | cons o os ih =>
    intro ret h
    simp only [copyOffsets]
    cases ho : data[o]? with
    | none =>
      obtain ⟨h1, h2⟩ := ih ret h
      refine ⟨h1, fun i => ?_⟩
      simp only []
      rw [h2 i]
      by_cases hi : i ∈ os
      · rw [if_pos hi, if_pos (by simp [hi])]
      · rw [if_neg hi]
        by_cases hio : i = o
        · subst hio
          rw [if_pos (by simp), ho]
          have : ret.length ≤ i := by rw [h]; exact List.getElem?_eq_none_iff.mp ho
          exact List.getElem?_eq_none this
        · rw [if_neg (by simp [hi, hio])]
    | some v =>
      obtain ⟨h1, h2⟩ := ih (ret.set o v) (by simpa using h)
      refine ⟨h1, fun i => ?_⟩
      simp only []
      rw [h2 i]
      by_cases hi : i ∈ os
      · rw [if_pos hi, if_pos (by simp [hi])]
      · rw [if_neg hi]
        by_cases hio : i = o
        · subst hio
          rw [if_pos (by simp), ho]
          have : i < ret.length := by rw [h]; exact (List.getElem?_eq_some_iff.mp ho).1
          simp [this]
        · rw [if_neg (by simp [hi, hio]), List.getElem?_set_ne (Ne.symm hio)]

theorem extract_length (f : Filter) (data : List Str) : (f.extract data).length = data.length := by
  unfold Filter.extract
  split
  · rfl
  · split
    · exact (copyOffsets_get data _ _ (by simp)).1
    · rfl

theorem extract_value (f : Filter) (data : List Str) (i : Nat) (v : Str) (h : (f.extract data)[i]? = some v) :
    v = [] ∨ data[i]? = some v := by
  unfold Filter.extract at h
  split at h
  · exact .inr h
  · split at h
    · rw [(copyOffsets_get data _ _ (by simp)).2 i] at h
      split at h
      · exact .inr h
      · rw [List.getElem?_replicate] at h
        split at h
        · cases h; exact .inl rfl
        · cases h
    · exact .inr h

theorem filters_length (fs : List Filter) (data : List Str) :
    (fs.foldl (fun r f => f.extract r) data).length = data.length := by
  induction fs generalizing data with
  | nil => rfl
  | cons f fs ih => rw [List.foldl_cons, ih, extract_length]

theorem filters_value (fs : List Filter) (data : List Str) (i : Nat) (v : Str)
    (h : (fs.foldl (fun r f => f.extract r) data)[i]? = some v) : v = [] ∨ data[i]? = some v := by
  induction fs generalizing data with
  | nil => exact .inr h
  | cons f fs ih =>
    rw [List.foldl_cons] at h
    rcases ih _ h with h | h
    · exact .inl h
    · exact extract_value f data i v h

/-! ## remapKey -/

theorem remapLoop_spec (data : GoMap Str) : ∀ (ps : List (Str × Str)) (k : Nat) (done : List Str),
    done.length = k →
    remapLoop data ps k (done ++ List.replicate ps.length []) =
      .ok (done ++ ps.map (fun p => (mapGet data p.2).getD [])) := by
  intro ps
  induction ps with
  | nil => intro k done _; simp [remapLoop]
  | cons p ps ih =>
    intro k done hk
    unfold remapLoop
    cases hg : mapGet data p.2 with
    | none =>
      simp only []
      have := ih (k + 1) (done ++ [[]]) (by simp [hk])
      simp only [List.length_cons, List.replicate_succ, List.map_cons, hg, Option.getD_none]
      simpa using this
    | some f =>
      simp only []
      rw [if_pos (by simp [hk])]
      have := ih (k + 1) (done ++ [f]) (by simp [hk])
      simp only [List.length_cons, List.replicate_succ, List.map_cons, hg, Option.getD_some]
      subst hk
      rw [List.set_append_right _ _ (Nat.le_refl _), Nat.sub_self, List.set_cons_zero]
      simpa using this

theorem remapKey_spec (e : Exporter) (fieldMap : GoMap Str) (data : GoMap Str) :
    e.remapKey (Select fieldMap e.fields) data =
      .ok (e.fields.map (fun f => match mapGet fieldMap f with
        | some v => (mapGet data v).getD []
        | none => (mapGet data []).getD [])) := by
  unfold Exporter.remapKey
  have := remapLoop_spec data (Select fieldMap e.fields) 0 [] rfl
  have hl : (Select fieldMap e.fields).length = e.fields.length := by simp [Select]
  rw [hl] at this
  simp only [List.nil_append] at this
  rw [this]
  unfold Select
  rw [List.map_map]
  congr 1
  apply List.map_congr_left
  intro f _
  simp only [Function.comp]
  cases mapGet fieldMap f <;> rfl

theorem remapKey_fieldValue (e : Exporter) (fieldMap : GoMap Str) (data : GoMap Str) (h : mapGet data [] = none) :
    e.remapKey (Select fieldMap e.fields) data = .ok (e.fields.map (fieldValue fieldMap data)) := by
  rw [remapKey_spec]
  congr 1
  apply List.map_congr_left
  intro f _
  unfold fieldValue
  cases mapGet fieldMap f with
  | none => simp [h]
  | some v => rfl

/-! ## One restriction -/

theorem Offset_nodup {fields : List Str} (hn : fields.Nodup) {i : Nat} {f : Str} (h : fields[i]? = some f) :
    Offset f fields = some i := by
  have hs : (Offset f fields).isSome := Offset_isSome.mpr (List.mem_of_getElem? h)
  obtain ⟨j, hj⟩ := Option.isSome_iff_exists.mp hs
  rw [hj]
  have h1 := (Offset_getElem hj).1
  obtain ⟨hi, hie⟩ := List.getElem?_eq_some_iff.mp h
  obtain ⟨hj', hje⟩ := List.getElem?_eq_some_iff.mp h1
  congr 1
  rcases Nat.lt_trichotomy i j with hlt | heq | hgt
  · exact absurd (hie.trans hje.symm) (List.pairwise_iff_getElem.mp hn i j hi hj' hlt)
  · exact heq.symm
  · exact absurd (hje.trans hie.symm) (List.pairwise_iff_getElem.mp hn j i hj' hi hgt)

theorem apply_length (fields values : List Str) (g : Group) (hl : values.length = fields.length) :
    (Group.apply fields values g).length = fields.length := by
  unfold Group.apply
  split
  · simp [hl]
  · exact hl

theorem extract_apply {fields : List Str} (hn : fields.Nodup) {g : Group} (values : List Str)
    (hl : values.length = fields.length) :
    (match (if g.only.all (fun f => InArray f fields) then
        (Offset g.key fields).map fun ko => (⟨ko, g.neg, g.alts, offsets fields g.only⟩ : Filter) else none) with
      | some f => f.extract values
      | none => values) = Group.apply fields values g := by
  unfold Group.apply Group.holds
  have hall : g.only.all (fun f => InArray f fields) = g.only.all (fun f => decide (f ∈ fields)) := by
    congr 1
    funext f
    rw [Bool.eq_iff_iff, InArray_iff, decide_eq_true_eq]
  rw [hall]
  by_cases ho : g.only.all (fun f => decide (f ∈ fields)) = true
  · rw [if_pos ho]
    cases hk : Offset g.key fields with
    | none =>
      have : g.key ∉ fields := fun hm => by
        have := Offset_isSome.mpr hm; rw [hk] at this; cases this
      simp [this]
    | some ko =>
      have hmem : g.key ∈ fields := Offset_isSome.mp (by rw [hk]; rfl)
      simp only [Option.map_some, ho, hmem, decide_true, Bool.true_and]
      rw [valueOf_Offset hk hl]
      have hko : ko < values.length := by
        rw [hl]; exact (List.getElem?_eq_some_iff.mp (Offset_getElem hk).1).1
      unfold Filter.extract
      simp only [List.getElem?_eq_getElem hko]
      have hmatch : Filter.match_ ⟨ko, g.neg, g.alts, offsets fields g.only⟩ values[ko] =
          (if g.neg = true then decide (values[ko] ∉ g.alts) else decide (values[ko] ∈ g.alts)) := by
        unfold Filter.match_
        simp only []
        have : InArray values[ko] g.alts = decide (values[ko] ∈ g.alts) := by
          rw [Bool.eq_iff_iff, InArray_iff, decide_eq_true_eq]
        rw [this]
        cases g.neg <;> simp
      rw [hmatch]
      generalize (if g.neg = true then decide (values[ko] ∉ g.alts) else decide (values[ko] ∈ g.alts)) = cnd
      cases cnd with
      | true =>
        simp only [if_true]
        apply List.ext_getElem?
        intro i
        rw [(copyOffsets_get values _ _ (by simp)).2 i]
        rw [List.getElem?_map, List.getElem?_zip_eq_some' fields values hl i]
        cases hv : values[i]? with
        | none =>
          have : values.length ≤ i := List.getElem?_eq_none_iff.mp hv
          rw [List.getElem?_eq_none (l := List.replicate values.length []) (by simpa using this)]
          have hf : fields[i]? = none := List.getElem?_eq_none (by omega)
          rw [hf]
          split <;> rfl
        | some v =>
          have hi : i < values.length := (List.getElem?_eq_some_iff.mp hv).1
          obtain ⟨f, hf⟩ : ∃ f, fields[i]? = some f := ⟨_, List.getElem?_eq_getElem (by omega)⟩
          rw [hf]
          simp only [Option.bind_some, Option.map_some]
          have hiff : i ∈ offsets fields g.only ↔ f ∈ g.only := by
            rw [mem_offsets]
            constructor
            · rintro ⟨k, hk1, hk2⟩
              have := (Offset_getElem hk2).1
              rw [hf] at this; cases this; exact hk1
            · intro hfm; exact ⟨f, hfm, Offset_nodup hn hf⟩
          have hrep : (List.replicate values.length ([] : Str))[i]? = some [] := by
            rw [List.getElem?_replicate, if_pos hi]
          rw [hrep]
          by_cases hfm : f ∈ g.only
          · rw [if_pos (hiff.mpr hfm), if_pos hfm]
          · rw [if_neg (fun h => hfm (hiff.mp h)), if_neg hfm]
      | false => rfl
  · rw [if_neg ho]
    simp only [Bool.not_eq_true] at ho
    simp [ho]
where
  List.getElem?_zip_eq_some' (a b : List Str) (hl : b.length = a.length) (i : Nat) :
      (a.zip b)[i]? = a[i]?.bind fun x => b[i]?.map fun y => (x, y) := by
    induction a generalizing b i with
    | nil => simp
    | cons x a ih =>
      cases b with
      | nil => simp at hl
      | cons y b =>
        cases i with
        | zero => simp
        | succ i => simpa using ih b (by simpa using hl) i

theorem foldl_groups {fields : List Str} (hn : fields.Nodup) : ∀ (groups : List Group) (values : List Str),
    (∀ g ∈ groups, g.WF) → values.length = fields.length →
    (groups.filterMap (fun g => parseGroup fields g.text)).foldl (fun r f => f.extract r) values =
      groups.foldl (Group.apply fields) values := by
  intro groups
  induction groups with
  | nil => intro values _ _; rfl
  | cons g groups ih =>
    intro values hw hl
    have h1 := extract_apply hn (g := g) values hl
    rw [← parseGroup_text (hw g (by simp))] at h1
    have hw' : ∀ g ∈ groups, g.WF := fun g hg => hw g (by simp [hg])
    rw [List.foldl_cons, ← h1, List.filterMap_cons]
    cases hp : parseGroup fields g.text with
    | none => simp only []; exact ih values hw' hl
    | some f =>
      simp only [List.foldl_cons]
      exact ih _ hw' (by rw [extract_length]; exact hl)

end Uip.Export
