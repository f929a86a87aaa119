import Verif.Props.Export
import Verif.Spec.RuleAny
/-!
# C29 for every rule text
-/
namespace Uip.Export
open Uip Uip.Spec

theorem splitByte_not_mem (c : UInt8) (s : Str) : ∀ p ∈ splitByte c s, c ∉ p := by
  induction s with
  | nil => intro p hp; simp [splitByte] at hp; subst hp; simp
  | cons b bs ih =>
    intro p hp
    rw [splitByte] at hp
    split at hp
    · rw [List.mem_cons] at hp
      rcases hp with rfl | hp
      · simp
      · exact ih p hp
    · rename_i hb
      cases hs : splitByte c bs with
      | nil => exact absurd hs (splitByte_ne_nil c bs)
      | cons x xs =>
        rw [hs] at hp ih
        simp only [List.mem_cons] at hp
        rcases hp with rfl | hp
        · simp only [List.mem_cons, not_or]
          exact ⟨fun e => hb e.symm, ih x (by simp)⟩
        · exact ih p (by simp [hp])

theorem joinByte_splitByte (c : UInt8) (s : Str) : joinByte c (splitByte c s) = s := by
  induction s with
  | nil => rfl
  | cons b bs ih =>
    rw [splitByte]
    split
    · rename_i hb
      cases hs : splitByte c bs with
      | nil => exact absurd hs (splitByte_ne_nil c bs)
      | cons x xs => rw [hs] at ih; simp only [joinByte, ih, hb, List.nil_append]
    · cases hs : splitByte c bs with
      | nil => exact absurd hs (splitByte_ne_nil c bs)
      | cons x xs =>
        rw [hs] at ih
        simp only []
        cases xs with
        | nil => simp only [joinByte] at ih ⊢; rw [ih]
        | cons y ys => simp only [joinByte, List.cons_append] at ih ⊢; rw [ih]

theorem avoids_of {s : Str} : ∀ {l : List UInt8}, (∀ c ∈ l, c ∉ s) → Avoids l s := fun h b hb hl => h b hl hb

/-- A part that names a condition and a list of fields is the text of a restriction. -/
theorem part_group {part kc v k w : Str} {rest : List Str} (hbar : (0x7C : UInt8) ∉ part)
    (h1 : splitByte 0x2C part = (kc ++ 0x3A :: v) :: rest) (h2 : splitByte 0x3A (kc ++ 0x3A :: v) = [kc, v])
    (h3 : splitByte 0x3D kc = [k, w]) : ∃ g : Group, g.WF ∧ g.text = part ∧ condText g = kc ∧ g.only = v :: rest := by
  have hpart := joinByte_splitByte 0x2C part
  rw [h1] at hpart
  have hc : ∀ s ∈ (kc ++ 0x3A :: v) :: rest, (0x2C : UInt8) ∉ s := by rw [← h1]; exact splitByte_not_mem _ _
  have hcol : ∀ s ∈ [kc, v], (0x3A : UInt8) ∉ s := by rw [← h2]; exact splitByte_not_mem _ _
  have heq : ∀ s ∈ [k, w], (0x3D : UInt8) ∉ s := by rw [← h3]; exact splitByte_not_mem _ _
  have hkc := joinByte_splitByte 0x3D kc
  rw [h3] at hkc
  simp only [joinByte] at hkc
  have hbars : ∀ s ∈ (kc ++ 0x3A :: v) :: rest, (0x7C : UInt8) ∉ s := by
    intro s hs hm
    apply hbar
    rw [← hpart]
    clear hpart hc h1 h2
    generalize (kc ++ 0x3A :: v) :: rest = l at hs
    induction l with
    | nil => cases hs
    | cons x r ih =>
      cases r with
      | nil => simp only [joinByte]; simp at hs; rw [← hs]; exact hm
      | cons y r =>
        simp only [joinByte, List.mem_append, List.mem_cons]
        rw [List.mem_cons] at hs
        rcases hs with rfl | hs
        · exact .inl hm
        · exact .inr (.inr (ih hs))
  have hk0 : ∀ c : UInt8, c ∉ kc ++ 0x3A :: v → c ∉ k ∧ c ∉ w ∧ c ∉ v := by
    intro c hcn
    rw [← hkc] at hcn
    simp only [List.mem_append, List.mem_cons, not_or] at hcn
    exact ⟨hcn.1.1, hcn.1.2.2, hcn.2.2⟩
  have hkcol : (0x3A : UInt8) ∉ k ∧ (0x3A : UInt8) ∉ w := by
    have := hcol kc (by simp)
    rw [← hkc] at this
    simp only [List.mem_append, List.mem_cons, not_or] at this
    exact ⟨this.1, this.2.2⟩
  have hb0 := hk0 _ (hbars _ (by simp))
  have hc0 := hk0 _ (hc _ (by simp))
  have hkey : Avoids [0x7C, 0x2C, 0x3A, 0x3D] k := by
    apply avoids_of; intro c hcm
    simp only [List.mem_cons, List.not_mem_nil, or_false] at hcm
    rcases hcm with rfl | rfl | rfl | rfl
    · exact hb0.1
    · exact hc0.1
    · exact hkcol.1
    · exact heq k (by simp)
  have hw4 : ∀ c ∈ ([0x7C, 0x2C, 0x3A, 0x3D] : List UInt8), c ∉ w := by
    intro c hcm
    simp only [List.mem_cons, List.not_mem_nil, or_false] at hcm
    rcases hcm with rfl | rfl | rfl | rfl
    · exact hb0.2.1
    · exact hc0.2.1
    · exact hkcol.2
    · exact heq w (by simp)
  have halts : ∀ u : Str, (∀ c ∈ ([0x7C, 0x2C, 0x3A, 0x3D] : List UInt8), c ∉ u) →
      ∀ a ∈ splitByte 0x2F u, Avoids [0x7C, 0x2C, 0x3A, 0x3D, 0x2F] a := by
    intro u hu a ha
    apply avoids_of; intro c hcm
    by_cases hcs : c = 0x2F
    · rw [hcs]; exact splitByte_not_mem _ _ a ha
    · intro hm
      refine hu c (by
        simp only [List.mem_cons, List.not_mem_nil, or_false] at hcm ⊢
        rcases hcm with h | h | h | h | h
        · exact .inl h
        · exact .inr (.inl h)
        · exact .inr (.inr (.inl h))
        · exact .inr (.inr (.inr h))
        · exact absurd h hcs) ?_
      rw [← joinByte_splitByte 0x2F u]
      generalize splitByte 0x2F u = l at ha
      induction l with
      | nil => cases ha
      | cons x r ih =>
        cases r with
        | nil => simp only [joinByte]; simp at ha; rw [← ha]; exact hm
        | cons y r =>
          simp only [joinByte, List.mem_append, List.mem_cons]
          rw [List.mem_cons] at ha
          rcases ha with rfl | ha
          · exact .inl hm
          · exact .inr (.inr (ih ha))
  have honly : ∀ f ∈ v :: rest, Avoids [0x7C, 0x2C] f := by
    intro f hf
    apply avoids_of; intro c hcm
    simp only [List.mem_cons, List.not_mem_nil, or_false] at hcm
    rw [List.mem_cons] at hf
    rcases hf with rfl | hf
    · rcases hcm with rfl | rfl
      · exact hb0.2.2
      · exact hc0.2.2
    · rcases hcm with rfl | rfl
      · exact hbars f (by simp [hf])
      · exact hc f (by simp [hf])
  have hcolon : ∀ f, (v :: rest).head? = some f → Avoids [0x3A] f := by
    intro f hf
    simp only [List.head?_cons, Option.some.injEq] at hf
    subst hf
    apply avoids_of; intro c hcm
    simp only [List.mem_cons, List.not_mem_nil, or_false] at hcm
    subst hcm
    exact hcol v (by simp)
  have htext : ∀ g : Group, condText g = kc → g.only = v :: rest → g.text = part := by
    intro g hg1 hg2
    rw [text_eq, hg1, hg2, ← hpart]
    have := joinByte_cons_head 0x2C (kc ++ [0x3A]) v rest
    simpa using this
  by_cases hneg : ∃ u, w = 0x21 :: u
  · obtain ⟨u, rfl⟩ := hneg
    have hcond : condText ⟨k, true, splitByte 0x2F u, v :: rest⟩ = kc := by
      rw [← hkc]; simp [condText, joinByte_splitByte]
    refine ⟨⟨k, true, splitByte 0x2F u, v :: rest⟩, ⟨hkey, splitByte_ne_nil _ _, halts u fun c hcm hm => hw4 c hcm (by simp [hm]), by simp,
      by simp, honly, hcolon⟩, htext _ hcond rfl, hcond, rfl⟩
  · have hcond : condText ⟨k, false, splitByte 0x2F w, v :: rest⟩ = kc := by
      rw [← hkc]; simp [condText, joinByte_splitByte]
    refine ⟨⟨k, false, splitByte 0x2F w, v :: rest⟩, ⟨hkey, splitByte_ne_nil _ _, halts w hw4, ?_,
      by simp, honly, hcolon⟩, htext _ hcond rfl, hcond, rfl⟩
    intro _ a ha hb
    simp only [] at ha
    apply hneg
    rw [← joinByte_splitByte 0x2F w]
    cases hs : splitByte 0x2F w with
    | nil => exact absurd hs (splitByte_ne_nil _ _)
    | cons x xs =>
      rw [hs] at ha
      cases ha
      cases a with
      | nil => cases hb
      | cons c cs =>
        cases hb
        cases xs with
        | nil => exact ⟨cs, rfl⟩
        | cons y ys => exact ⟨_, rfl⟩

/-- A part that is not the text of a well-formed restriction gives no filter. -/
theorem parse_other {efields : List Str} {part : Str} (hbar : (0x7C : UInt8) ∉ part)
    (h : ∀ g : Group, g.WF → part ≠ g.text) : parseGroup efields part = none := by
  unfold parseGroup
  cases h1 : splitByte 0x2C part with
  | nil => rfl
  | cons f0 rest =>
    simp only []
    split
    · rename_i kc v h2
      split
      · unfold buildFilter
        split
        · rename_i k w h3
          have hj := joinByte_splitByte 0x3A f0
          rw [h2] at hj
          simp only [joinByte] at hj
          subst hj
          obtain ⟨g, hg, ht, _, _⟩ := part_group hbar h1 h2 h3
          exact absurd ht.symm (h g hg)
        · rfl
      · rfl
    · rfl

theorem Offset_firstAt {fields : List Str} {f : Str} {i : Nat} : Offset f fields = some i ↔ FirstAt fields f i := by
  constructor
  · exact Offset_getElem
  · rintro ⟨h1, h2⟩
    have hs : (Offset f fields).isSome := Offset_isSome.mpr (List.mem_of_getElem? h1)
    obtain ⟨j, hj⟩ := Option.isSome_iff_exists.mp hs
    rw [hj]
    have h3 := Offset_getElem hj
    congr 1
    rcases Nat.lt_trichotomy i j with hlt | heq | hgt
    · exact absurd h1 (h3.2 i hlt)
    · exact heq.symm
    · exact absurd h3.1 (h2 j hgt)

/-- What the filter of a restriction does. -/
theorem extract_does {fields : List Str} {g : Group} (values : List Str) (hl : values.length = fields.length) :
    g.Does fields values (match (if g.only.all (fun f => InArray f fields) then
        (Offset g.key fields).map fun ko => (⟨ko, g.neg, g.alts, offsets fields g.only⟩ : Filter) else none) with
      | some f => f.extract values
      | none => values) := by
  unfold Group.Does Group.holds
  have hall : g.only.all (fun f => InArray f fields) = g.only.all (fun f => decide (f ∈ fields)) := by
    congr 1
    funext f
    rw [Bool.eq_iff_iff, InArray_iff, decide_eq_true_eq]
  rw [hall]
  by_cases ho : g.only.all (fun f => decide (f ∈ fields)) = true
  · rw [if_pos ho]
    cases hk : Offset g.key fields with
    | none =>
      have : g.key ∉ fields := fun hm => by
        have := Offset_isSome.mpr hm; rw [hk] at this; cases this
      simp [this]
    | some ko =>
      have hmem : g.key ∈ fields := Offset_isSome.mp (by rw [hk]; rfl)
      simp only [Option.map_some, ho, hmem, decide_true, Bool.true_and]
      rw [valueOf_Offset hk hl]
      have hko : ko < values.length := by
        rw [hl]; exact (List.getElem?_eq_some_iff.mp (Offset_getElem hk).1).1
      unfold Filter.extract
      simp only [List.getElem?_eq_getElem hko]
      have hmatch : Filter.match_ ⟨ko, g.neg, g.alts, offsets fields g.only⟩ values[ko] =
          (if g.neg = true then decide (values[ko] ∉ g.alts) else decide (values[ko] ∈ g.alts)) := by
        unfold Filter.match_
        simp only []
        have : InArray values[ko] g.alts = decide (values[ko] ∈ g.alts) := by
          rw [Bool.eq_iff_iff, InArray_iff, decide_eq_true_eq]
        rw [this]
        cases g.neg <;> simp
      rw [hmatch]
      generalize (if g.neg = true then decide (values[ko] ∉ g.alts) else decide (values[ko] ∈ g.alts)) = cnd
      cases cnd with
      | true =>
        simp only [if_true]
        obtain ⟨hlen, hget⟩ := copyOffsets_get values (offsets fields g.only) (List.replicate values.length []) (by simp)
        refine ⟨hlen, fun i v hv => ?_⟩
        rw [hget i]
        have hiff : i ∈ offsets fields g.only ↔ ∃ f ∈ g.only, FirstAt fields f i := by
          rw [mem_offsets]
          constructor
          · rintro ⟨k, hk1, hk2⟩; exact ⟨k, hk1, Offset_firstAt.mp hk2⟩
          · rintro ⟨k, hk1, hk2⟩; exact ⟨k, hk1, Offset_firstAt.mpr hk2⟩
        have hi : i < values.length := (List.getElem?_eq_some_iff.mp hv).1
        refine ⟨fun hf => by rw [if_pos (hiff.mpr hf), hv], fun hf => ?_⟩
        rw [if_neg fun h => hf (hiff.mp h), List.getElem?_replicate, if_pos hi]
      | false => simp
  · rw [if_neg ho]
    have : g.only.all (fun f => decide (f ∈ fields)) = false := by simpa using ho
    rw [this]; simp

theorem parts_do {fields : List Str} : ∀ (parts : List Str) (values : List Str), values.length = fields.length →
    (∀ p ∈ parts, (0x7C : UInt8) ∉ p) →
    PartsDo fields parts values ((parts.filterMap (parseGroup fields)).foldl (fun r f => f.extract r) values)
  | [], _, _, _ => .nil _
  | p :: ps, values, hl, hb => by
    have key : ∃ mid, PartDoes fields p values mid ∧ mid.length = fields.length ∧
        ((p :: ps).filterMap (parseGroup fields)).foldl (fun r f => f.extract r) values =
          (ps.filterMap (parseGroup fields)).foldl (fun r f => f.extract r) mid := by
      by_cases hg : ∃ g : Group, g.WF ∧ p = g.text
      · obtain ⟨g, hg, rfl⟩ := hg
        refine ⟨_, .group g hg rfl (extract_does values hl), ?_, ?_⟩
        · split
          · rw [extract_length]; exact hl
          · exact hl
        · rw [List.filterMap_cons, parseGroup_text hg]
          generalize (if g.only.all (fun f => InArray f fields) then
            (Offset g.key fields).map fun ko => (⟨ko, g.neg, g.alts, offsets fields g.only⟩ : Filter) else none) = o
          cases o <;> rfl
      · have hno : ∀ g : Group, g.WF → p ≠ g.text := fun g h e => hg ⟨g, h, e⟩
        refine ⟨values, .other hno rfl, hl, ?_⟩
        rw [List.filterMap_cons, parse_other (hb p (by simp)) hno]
    obtain ⟨mid, h1, h2, h3⟩ := key
    rw [h3]
    exact .cons h1 (parts_do ps mid h2 fun q hq => hb q (by simp [hq]))

/-- C29 for every text: any non-empty text is read as a rule.  Its first part (up to the first `|`) lists the exported fields,
between commas; every further part that is the text of a well-formed restriction is applied to the values left so far, and every
other part changes nothing. -/
theorem C29_every_rule (rule : Str) (hne : rule ≠ []) (fieldMap data : GoMap Str) (hdata : mapGet data [] = none) :
    ∃ e d parts out, ParseRule rule = some e ∧ e.fields = d ∧
      rule = joinByte 0x7C (joinByte 0x2C d :: parts) ∧ (∀ f ∈ d, Avoids [0x7C, 0x2C] f) ∧ (∀ p ∈ parts, Avoids [0x7C] p) ∧
      e.Export (Select fieldMap e.fields) data = .ok out ∧
      PartsDo d parts (d.map (fieldValue fieldMap data)) out := by
  cases hs : splitByte 0x7C rule with
  | nil => exact absurd hs (splitByte_ne_nil _ _)
  | cons g0 parts =>
    have hj := joinByte_splitByte 0x7C rule
    have hb := splitByte_not_mem 0x7C rule
    rw [hs] at hj hb
    have hj0 := joinByte_splitByte 0x2C g0
    have hc := splitByte_not_mem 0x2C g0
    refine ⟨⟨splitByte 0x2C g0, parts.filterMap (parseGroup (splitByte 0x2C g0))⟩, splitByte 0x2C g0, parts,
      (parts.filterMap (parseGroup (splitByte 0x2C g0))).foldl (fun r f => f.extract r) ((splitByte 0x2C g0).map (fieldValue fieldMap data)),
      ?_, rfl, ?_, ?_, ?_, ?_, parts_do parts _ (by simp) fun p hp => hb p (by simp [hp])⟩
    · unfold ParseRule
      rw [if_neg hne, hs]
    · rw [hj0, hj]
    · intro f hf
      apply avoids_of; intro c hcm
      simp only [List.mem_cons, List.not_mem_nil, or_false] at hcm
      rcases hcm with rfl | rfl
      · intro hm
        refine hb g0 (by simp) ?_
        rw [← hj0]
        generalize splitByte 0x2C g0 = l at hf
        induction l with
        | nil => cases hf
        | cons x r ih =>
          cases r with
          | nil => simp only [joinByte]; simp at hf; rw [← hf]; exact hm
          | cons y r =>
            simp only [joinByte, List.mem_append, List.mem_cons]
            rw [List.mem_cons] at hf
            rcases hf with rfl | hf
            · exact .inl hm
            · exact .inr (.inr (ih hf))
      · exact hc f hf
    · intro p hp
      apply avoids_of; intro c hcm
      simp only [List.mem_cons, List.not_mem_nil, or_false] at hcm
      subst hcm; exact hb p (by simp [hp])
    · unfold Exporter.Export
      rw [remapKey_fieldValue _ _ _ hdata]
      rfl

/-- The reading is the only one: the parts of a text are unique, and so is the restriction a part is the text of. -/
theorem C29_one_reading (g g' : Group) (h : g.WF) (h' : g'.WF) (ht : g.text = g'.text) : g = g' := by
  have hsp : ∀ g : Group, g.WF → splitByte 0x2C g.text = (condText g ++ 0x3A :: (g.only.head?.getD [])) :: g.only.tail := by
    intro g h
    obtain ⟨o, os, ho⟩ := List.exists_cons_of_ne_nil h.only_ne
    have htext : g.text = joinByte 0x2C ((condText g ++ 0x3A :: o) :: os) := by
      rw [text_eq, ho]
      have := joinByte_cons_head 0x2C (condText g ++ [0x3A]) o os
      simpa using this
    rw [htext, ho]
    apply splitByte_joinByte (by simp)
    intro s hs
    rw [List.mem_cons] at hs
    rcases hs with rfl | hs
    · intro hm
      rw [List.mem_append, List.mem_cons] at hm
      rcases hm with hm | hm | hm
      · exact (condText_avoids h).not_mem (by decide) hm
      · exact absurd hm (by decide)
      · exact (h.only o (by rw [ho]; simp)).not_mem (by decide) hm
    · exact (h.only s (by rw [ho]; simp [hs])).not_mem (by decide)
  have h1 := hsp g h
  have h2 := hsp g' h'
  rw [ht, h2] at h1
  simp only [List.cons.injEq] at h1
  have hcol : ∀ g : Group, g.WF → splitByte 0x3A (condText g ++ 0x3A :: (g.only.head?.getD [])) = [condText g, g.only.head?.getD []] := by
    intro g h
    rw [splitByte_append ((condText_avoids h).not_mem (by decide)), splitByte_noSep]
    obtain ⟨o, os, ho⟩ := List.exists_cons_of_ne_nil h.only_ne
    rw [ho]
    exact (h.colon o (by rw [ho]; rfl)).not_mem (by decide)
  have h3 := hcol g h
  rw [← h1.1, hcol g' h'] at h3
  simp only [List.cons.injEq, and_true] at h3
  have h4 := split_cond h
  rw [← h3.1, split_cond h'] at h4
  simp only [List.cons.injEq, and_true] at h4
  have honly : g.only = g'.only := by
    obtain ⟨o, os, ho⟩ := List.exists_cons_of_ne_nil h.only_ne
    obtain ⟨o', os', ho'⟩ := List.exists_cons_of_ne_nil h'.only_ne
    rw [ho, ho'] at h1 h3 ⊢
    simp only [List.head?_cons, Option.getD_some, List.tail_cons] at h1 h3
    rw [h3.2, h1.2]
  have hbuild := buildFilter_group (efields := [g.key]) h
  have hbuild' := buildFilter_group (efields := [g.key]) h'
  rw [h3.1, ← honly, hbuild, ← h4.1] at hbuild'
  simp only [Offset, if_true, Option.map_some, Option.some.injEq, Filter.mk.injEq] at hbuild'
  obtain ⟨k, n, a, o⟩ := g
  obtain ⟨k', n', a', o'⟩ := g'
  simp only [Group.mk.injEq]
  exact ⟨h4.1.symm, hbuild'.2.1, hbuild'.2.2.1, honly⟩

/-- A rule with a good restriction, a part without a colon, one with an unknown shape and a repeated field. -/
def oddRule : Str := gs "country,city,country|country=CN:country|nonsense|a=b=c:city|city=!x/y/:city"

example : oddRule ≠ [] := by decide +kernel
example : ∃ e, ParseRule oddRule = some e ∧
    e.Export (Select [(gs "country", gs "c"), (gs "city", gs "t")] e.fields) [(gs "c", gs "CN"), (gs "t", gs "x")] = .ok [gs "CN", [], []] := by
  decide +kernel

end Uip.Export
