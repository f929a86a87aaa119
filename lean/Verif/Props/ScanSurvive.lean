import Verif.Spec.Survive
import Verif.Props.ScanExact
import Verif.Props.Plain
/-!
# Property C126: exactly which tables survive a `.scan` text
-/
namespace Uip.Plain
open Uip Spec Spec.Survive Uip.Export

/-! ## The lines of the text -/

/-- Lines without newlines, as the scanner delivers them: those before the first that is too long, without a carriage return at the end. -/
theorem scan_unlines_any : ∀ (ls : List Str), (∀ l ∈ ls, (0x0A : UInt8) ∉ l) →
    (scanLines (unlines ls)).1 = (ls.takeWhile fun l => decide (l.length < 65536)).map dropCR := by
  intro ls
  induction ls with
  | nil => intro _; rfl
  | cons l ls ih =>
    intro h
    have h1 := h l (by simp)
    have ih := ih (fun x hx => h x (by simp [hx]))
    unfold scanLines at ih ⊢
    have e : unlines (l :: ls) = l ++ 0x0A :: unlines ls := by simp [unlines]
    rw [e, splitByte_append h1]
    obtain ⟨q, ps, hq⟩ : ∃ q ps, splitByte 0x0A (unlines ls) = q :: ps := by
      cases e : splitByte 0x0A (unlines ls) with
      | nil => exact absurd e (splitByte_ne_nil _ _)
      | cons q ps => exact ⟨q, ps, rfl⟩
    rw [hq] at ih ⊢
    by_cases hs : l.length < 65536
    · rw [scanPieces, if_neg (by unfold maxToken; omega), List.takeWhile_cons_of_pos (by simpa using hs), ih]
      rfl
    · rw [scanPieces, if_pos (by unfold maxToken; omega), List.takeWhile_cons_of_neg (by simpa using hs)]
      rfl

theorem dropCR_sub (l : Str) : ∀ b ∈ dropCR l, b ∈ l := by
  intro b hb
  unfold dropCR at hb
  split at hb
  · exact (List.dropLast_sublist l).subset hb
  · exact hb

/-- No line has a newline. -/
theorem scan_no_newline (s : Str) : ∀ l ∈ (scanLines s).1, (0x0A : UInt8) ∉ l := by
  unfold scanLines
  have key : ∀ (ps : List Str), (∀ p ∈ ps, (0x0A : UInt8) ∉ p) → ∀ l ∈ (scanPieces ps).1, (0x0A : UInt8) ∉ l := by
    intro ps
    induction ps with
    | nil => intro _ l hl; cases hl
    | cons p ps ih =>
      intro h l hl
      cases ps with
      | nil =>
        unfold scanPieces at hl
        split at hl
        · cases hl
        · split at hl
          · cases hl
          · simp only [List.mem_singleton] at hl
            subst hl
            exact fun hb => h p (by simp) (dropCR_sub p _ hb)
      | cons q ps =>
        unfold scanPieces at hl
        split at hl
        · cases hl
        · rcases List.mem_cons.mp hl with rfl | hl
          · exact fun hb => h p (by simp) (dropCR_sub p _ hb)
          · exact ih (fun x hx => h x (by simp [hx])) l hl
  exact key _ (splitByte_not_mem 0x0A s)

/-- Good lines before anything are delivered. -/
theorem scan_before : ∀ (ls : List Str) (t : Str), (∀ l ∈ ls, (0x0A : UInt8) ∉ l ∧ l.getLast? ≠ some 0x0D ∧ l.length < 65536) →
    (scanLines (unlines ls ++ t)).1 = ls ++ (scanLines t).1 := by
  intro ls t
  induction ls with
  | nil => intro _; rfl
  | cons l ls ih =>
    intro h
    obtain ⟨h1, h2, h3⟩ := h l (by simp)
    have ih := ih (fun x hx => h x (by simp [hx]))
    unfold scanLines at ih ⊢
    have e : unlines (l :: ls) ++ t = l ++ 0x0A :: (unlines ls ++ t) := by simp [unlines]
    rw [e, splitByte_append h1]
    obtain ⟨q, ps, hq⟩ : ∃ q ps, splitByte 0x0A (unlines ls ++ t) = q :: ps := by
      cases e : splitByte 0x0A (unlines ls ++ t) with
      | nil => exact absurd e (splitByte_ne_nil _ _)
      | cons q ps => exact ⟨q, ps, rfl⟩
    rw [hq] at ih ⊢
    rw [scanPieces, if_neg (by unfold maxToken; omega), dropCR_of h2]
    simp only [ih, List.cons_append]

/-! ## A line -/

theorem reads_join {b : Str} {vals : List Str} (h : splitByte 0x2C b = vals) : b = joinByte 0x2C vals := by
  rw [← h, joinByte_splitByte]

theorem noCommas_plain (v : Str) : (0x2C : UInt8) ∉ noCommas v := by
  intro h
  rcases mem_noCommas h with h | h
  · revert h; decide
  · exact h.1 rfl

theorem noCommas_mem {v : Str} {b : UInt8} (hb : b ≠ 0x2C) (h : b ∈ v) : b ∈ noCommas v :=
  List.mem_map.mpr ⟨b, h, by rw [if_neg hb]⟩

theorem noCommas_last (v : Str) : (noCommas v).getLast? = some 0x0D ↔ v.getLast? = some 0x0D := by
  unfold noCommas
  rw [List.getLast?_map]
  cases v.getLast? with
  | none => simp
  | some x =>
    simp only [Option.map_some, Option.some.injEq]
    split
    · rename_i h; subst h; decide
    · rfl

theorem join_last : ∀ (vals : List Str) (x : Str), vals.getLast? = some x →
    ((joinByte 0x2C vals).getLast? = some 0x0D ↔ x.getLast? = some 0x0D)
  | [], _, h => by cases h
  | [a], x, h => by
    simp at h; subst h; rfl
  | a :: b :: l, x, h => by
    have h' : (b :: l).getLast? = some x := by rw [← h, List.getLast?_cons_cons]
    have ih := join_last (b :: l) x h'
    simp only [joinByte]
    rw [getLast?_append_ne (List.cons_ne_nil _ _), ← ih]
    cases hj : joinByte 0x2C (b :: l) with
    | nil => constructor <;> · intro h; revert h; decide
    | cons y ys => rw [List.getLast?_cons_cons]

variable {fields : List Str}

/-- The line of a row ends with a carriage return exactly if its last value does. -/
theorem rowLine_last {r : IpRaw} {x : Str} (h : r.values.getLast? = some x) :
    (rowLine r).getLast? = some 0x0D ↔ x.getLast? = some 0x0D := by
  unfold rowLine
  rw [getLast?_append_ne (List.cons_ne_nil _ _), ← noCommas_last x]
  have h' : (r.values.map noCommas).getLast? = some (noCommas x) := by rw [List.getLast?_map, h]; rfl
  rw [← join_last _ _ h']
  cases hj : joinByte 0x2C (r.values.map noCommas) with
  | nil => constructor <;> · intro h; revert h; decide
  | cons y ys => rw [List.getLast?_cons_cons]

/-- What was read in a line. -/
def LineGives (count : Nat) (l : Str) (o : IpRaw) : Prop :=
  ∃ a, splitByte 0x09 l = [a, joinByte 0x2C o.values] ∧ ParseCIDR a = some o.cidr ∧ o.values.length = count ∧
    ∀ v ∈ o.values, (0x2C : UInt8) ∉ v

/-- The rows delivered are those of the first lines. -/
theorem loop_gives (hn : fields.Nodup) {t : Traversal} (ht : t.fields = fields) : ∀ (ls : List Str) (out : List IpRaw),
    dumpLoop t (some ⟨fields, []⟩) (Select (fieldToMap fields) fields) ls = .ok out →
    ∃ pre post, ls = pre ++ post ∧ Rel2 (LineGives fields.length) pre out := by
  intro ls
  induction ls with
  | nil => intro out h; cases h; exact ⟨[], [], rfl, .nil⟩
  | cons l ls ih =>
    intro out h
    unfold dumpLoop at h
    obtain ⟨⟨n, info⟩, h1, h⟩ := Res.bind_eq_ok.mp h
    simp only at h
    obtain ⟨vals, h2, h⟩ := Res.bind_eq_ok.mp h
    obtain ⟨last, _, h⟩ := Res.bind_eq_ok.mp h
    have hg : LineGives fields.length l ⟨n, vals⟩ := by
      unfold parseLine at h1
      split at h1
      · rename_i a b hs
        split at h1
        · cases h1
        · rename_i c hc
          split at h1
          · cases h1
          · rename_i hl
            rw [Decidable.not_not, ht] at hl
            have h1 := Res.ok.inj h1
            rw [Prod.mk.injEq] at h1
            obtain ⟨rfl, rfl⟩ := h1
            rw [ht] at h2
            have h2' := export_all hn hl
            unfold record at h2'
            simp only [rowValues] at h2
            rw [h2'] at h2
            have h2 := Res.ok.inj h2
            subst h2
            exact ⟨a, by rw [hs, joinByte_splitByte], hc, hl, splitByte_not_mem 0x2C b⟩
      · cases h1
    split at h
    · have h := Res.ok.inj h
      subst h
      exact ⟨[l], ls, rfl, .cons hg .nil⟩
    · obtain ⟨rs, h3, h⟩ := Res.bind_eq_ok.mp h
      have h := Res.ok.inj h
      subst h
      obtain ⟨pre, post, e, h4⟩ := ih rs h3
      exact ⟨l :: pre, post, by rw [e]; rfl, .cons hg h4⟩

/-- A row that fits has a line that is read as it. -/
theorem fits_parse (hne : fields ≠ []) {r : IpRaw} (h : Fits fields.length r) {t : Traversal} (ht : t.fields = fields) :
    parseLine t (rowLine r) = .ok (r.cidr, record fields (r.values.map noCommas)) := by
  have hp := C62_network_same r.cidr h.net h.form
  have hne' : r.values.map noCommas ≠ [] := by
    intro e
    have := congrArg List.length e
    rw [List.length_map, h.len, List.length_nil] at this
    exact hne (List.length_eq_zero_iff.mp this)
  have hcv : ∀ s ∈ r.values.map noCommas, (0x2C : UInt8) ∉ s := by
    intro s hs
    obtain ⟨v, _, rfl⟩ := List.mem_map.mp hs
    exact noCommas_plain v
  have htab : (0x09 : UInt8) ∉ joinByte 0x2C (r.values.map noCommas) := by
    intro hb
    rcases mem_joinByte hb with hb | ⟨s, hs, hb⟩
    · revert hb; decide
    · obtain ⟨v, hv, rfl⟩ := List.mem_map.mp hs
      rcases mem_noCommas hb with hb | hb
      · revert hb; decide
      · exact h.plain v hv _ hb.2 (by simp)
  unfold parseLine rowLine
  rw [splitByte_append (netString_plain h.net (.inl rfl)), splitByte_noSep htab]
  simp only [hp]
  rw [splitByte_joinByte hne' hcv, if_neg (by rw [List.length_map, h.len, ht]; simp), ht]
  rfl

/-- Rows that fit are delivered up to the first that reaches the end of its family. -/
theorem fits_loop (hne : fields ≠ []) (hn : fields.Nodup) {t : Traversal} (ht : t.fields = fields) : ∀ (rs : List IpRaw),
    (∀ r ∈ rs, Fits fields.length r) →
    dumpLoop t (some ⟨fields, []⟩) (Select (fieldToMap fields) fields) (rs.map rowLine) =
      .ok ((untilEnd rs).map fun r => ⟨r.cidr, r.values.map noCommas⟩) := by
  intro rs
  induction rs with
  | nil => intro _; rfl
  | cons r rs ih =>
    intro h
    have hr := h r (by simp)
    have ih := ih (fun x hx => h x (by simp [hx]))
    have hrb := readBack hr.net (C62_network_same r.cidr hr.net hr.form)
    obtain ⟨last, hlast, _⟩ := LastIP_spec hrb.wf.1
    have hiff := endsFamily_iff hrb.wf hrb.same hrb.v4.mpr hrb.v4.mp hr.net.1.1 hlast
    have hv := export_all hn (values := r.values.map noCommas) (by rw [List.length_map]; exact hr.len)
    simp only [List.map_cons, dumpLoop, fits_parse hne hr ht, Res.ok_bind, rowValues, hv, hlast, untilEnd]
    by_cases hend : EndsFamily r.cidr
    · rw [if_pos (hiff.mpr hend), if_pos hend]; rfl
    · rw [if_neg (fun h => hend (hiff.mp h)), if_neg hend, ih]; rfl

theorem fits_line {count : Nat} (h0 : count ≠ 0) {r : IpRaw} (h : Fits count r) :
    (0x0A : UInt8) ∉ rowLine r ∧ (rowLine r).getLast? ≠ some 0x0D ∧ (rowLine r).length < 65536 := by
  refine ⟨?_, ?_, ?_⟩
  · intro hb
    unfold rowLine at hb
    rcases List.mem_append.mp hb with hb | hb
    · exact netString_plain h.net (by simp) hb
    · rcases List.mem_cons.mp hb with hb | hb
      · exact absurd hb (by decide)
      · rcases mem_joinByte hb with hb | ⟨s, hs, hb⟩
        · exact absurd hb (by decide)
        · obtain ⟨v, hv, rfl⟩ := List.mem_map.mp hs
          rcases mem_noCommas hb with hb | hb
          · exact absurd hb (by decide)
          · exact h.plain v hv _ hb.2 (by decide)
  · cases e : r.values.getLast? with
    | none => rw [List.getLast?_eq_none_iff] at e; exact absurd (by rw [← h.len, e]; rfl) h0
    | some x => rw [Ne, rowLine_last e]; exact h.ending x e
  · have := h.short
    unfold rowLine
    rw [List.length_append, List.length_cons, joinByte_length_noCommas]
    omega

/-! ## All lines -/

theorem rel2_get {α β : Type} {R : α → β → Prop} {as : List α} {bs : List β} (h : Rel2 R as bs) :
    ∀ (i : Nat) a b, as[i]? = some a → bs[i]? = some b → R a b := by
  induction h with
  | nil => intro i a b h; simp at h
  | cons h _ ih =>
    intro i a b ha hb
    cases i with
    | zero => simp at ha hb; subst ha; subst hb; exact h
    | succ i => exact ih i a b (by simpa using ha) (by simpa using hb)

theorem gives_wf {count : Nat} {l : Str} {o : IpRaw} (h : LineGives count l o) : WFNet o.cidr := by
  obtain ⟨_, _, h, _⟩ := h
  obtain ⟨_, _, _, _, _, h, _⟩ := (C111_cidr _ _).mp h
  exact h

/-- If the rows come back, each of them fits. -/
theorem fits_of {rs : List IpRaw} (hne : fields ≠ []) (hn : fields.Nodup) {t : Traversal} (ht : t.fields = fields)
    (h : dumpLoop t (some ⟨fields, []⟩) (Select (fieldToMap fields) fields) (scanLines (unlines (rs.map rowLine))).1 =
      .ok (rs.map fun r => ⟨r.cidr, r.values.map noCommas⟩)) : ∀ r ∈ rs, Fits fields.length r := by
  obtain ⟨pre, post, e, hg⟩ := loop_gives hn ht _ _ h
  have hlen : pre.length = rs.length := by rw [← hg.length, List.length_map]
  have hnl := scan_no_newline (unlines (rs.map rowLine))
  -- what each row gives
  have hrow : ∀ r ∈ rs, WFNet r.cidr ∧ r.values.length = fields.length ∧ (∀ v ∈ r.values, Avoids [0x09, 0x0A] v) := by
    intro r hr
    obtain ⟨i, hi⟩ := List.mem_iff_getElem?.mp hr
    have hil : i < pre.length := by rw [hlen]; exact (List.getElem?_eq_some_iff.mp hi).1
    have hgi := rel2_get hg i pre[i] ⟨r.cidr, r.values.map noCommas⟩ (List.getElem?_eq_getElem hil) (by rw [List.getElem?_map, hi]; rfl)
    have hl : (0x0A : UInt8) ∉ pre[i] := hnl _ (by rw [e]; exact List.mem_append_left _ (List.getElem_mem hil))
    have hwf := gives_wf hgi
    obtain ⟨a, h1, h2, h3, h4⟩ := hgi
    refine ⟨hwf, by simpa using h3, ?_⟩
    intro v hv b hb hbad
    have hj : b ∈ joinByte 0x2C (r.values.map noCommas) := by
      have hb' : b ∈ noCommas v := noCommas_mem (by rintro rfl; revert hbad; decide) hb
      have hm : noCommas v ∈ r.values.map noCommas := List.mem_map_of_mem hv
      revert hm
      generalize r.values.map noCommas = l
      intro hm
      induction l with
      | nil => cases hm
      | cons x l ih =>
        cases l with
        | nil => simp at hm; subst hm; exact hb'
        | cons y l =>
          simp only [joinByte]
          rcases List.mem_cons.mp hm with rfl | hm
          · exact List.mem_append_left _ hb'
          · exact List.mem_append_right _ (List.mem_cons_of_mem _ (ih hm))
    simp only [List.mem_cons, List.not_mem_nil, or_false] at hbad
    rcases hbad with rfl | rfl
    · exact splitByte_not_mem 0x09 pre[i] _ (by rw [h1]; simp) hj
    · have hs := splitByte_mem (c := 0x09) (s := pre[i]) (p := joinByte 0x2C (r.values.map noCommas)) (by rw [h1]; simp)
      exact hl (hs.subset hj)
  -- the lines are those of the rows
  have hclean : ∀ l ∈ rs.map rowLine, (0x0A : UInt8) ∉ l := by
    intro l hl hb
    obtain ⟨r, hr, rfl⟩ := List.mem_map.mp hl
    obtain ⟨k1, _, k3⟩ := hrow r hr
    unfold rowLine at hb
    rcases List.mem_append.mp hb with hb | hb
    · exact netString_plain k1 (by simp) hb
    · rcases List.mem_cons.mp hb with hb | hb
      · exact absurd hb (by decide)
      · rcases mem_joinByte hb with hb | ⟨s, hs, hb⟩
        · exact absurd hb (by decide)
        · obtain ⟨v, hv, rfl⟩ := List.mem_map.mp hs
          rcases mem_noCommas hb with hb | hb
          · exact absurd hb (by decide)
          · exact k3 v hv _ hb.2 (by decide)
  rw [scan_unlines_any _ hclean] at e
  have hall : (rs.map rowLine).takeWhile (fun l => decide (l.length < 65536)) = rs.map rowLine := by
    apply (List.takeWhile_prefix _).eq_of_length
    have h1 := (List.takeWhile_prefix (fun l : Str => decide (l.length < 65536)) (l := rs.map rowLine)).length_le
    have h2 := congrArg List.length e
    rw [List.length_map, List.length_append] at h2
    rw [List.length_map] at h1 ⊢
    omega
  have hshort : ∀ r ∈ rs, (rowLine r).length < 65536 := by
    intro r hr
    have := List.all_takeWhile (p := fun l : Str => decide (l.length < 65536)) (l := rs.map rowLine)
    rw [hall, List.all_eq_true] at this
    simpa using this _ (List.mem_map_of_mem hr)
  rw [hall] at e
  have hpost : post = [] := by
    have h2 := congrArg List.length e
    rw [List.length_map, List.length_append, List.length_map] at h2
    exact List.length_eq_zero_iff.mp (by omega)
  rw [hpost, List.append_nil] at e
  intro r hr
  obtain ⟨k1, k2, k3⟩ := hrow r hr
  obtain ⟨i, hi⟩ := List.mem_iff_getElem?.mp hr
  have hgi := rel2_get hg i (dropCR (rowLine r)) ⟨r.cidr, r.values.map noCommas⟩ (by rw [← e, List.getElem?_map, List.getElem?_map, hi]; rfl)
    (by rw [List.getElem?_map, hi]; rfl)
  obtain ⟨a, h1, h2, h3, h4⟩ := hgi
  simp only at h1
  have hd : dropCR (rowLine r) = rowLine r := by
    have hs := (joinByte_splitByte 0x09 (dropCR (rowLine r))).symm
    rw [h1] at hs
    simp only [joinByte] at hs
    unfold dropCR at hs ⊢
    split
    · rename_i hlast
      rw [if_pos hlast] at hs
      exfalso
      -- the line without its last byte is what was written up to the tab, and all of the values
      have htab : (0x09 : UInt8) ∉ joinByte 0x2C (r.values.map noCommas) :=
        splitByte_not_mem 0x09 _ _ (by rw [h1]; simp)
      have hsplit : ∀ (A B : Str), (0x09 : UInt8) ∉ A → (0x09 : UInt8) ∉ B → A ++ 0x09 :: B = a ++ 0x09 :: joinByte 0x2C (r.values.map noCommas) →
          B = joinByte 0x2C (r.values.map noCommas) := by
        intro A B hA hB he
        have ha : (0x09 : UInt8) ∉ a := splitByte_not_mem 0x09 _ _ (by rw [h1]; simp)
        have := congrArg (splitByte 0x09) he
        rw [splitByte_append hA, splitByte_append ha, splitByte_noSep hB, splitByte_noSep htab] at this
        simpa using (List.cons.inj this).2
      have hdl : (rowLine r).dropLast = IPNetString r.cidr ++ 0x09 :: (joinByte 0x2C (r.values.map noCommas)).dropLast := by
        unfold rowLine
        rw [List.dropLast_append_of_ne_nil (List.cons_ne_nil _ _)]
        cases hj : joinByte 0x2C (r.values.map noCommas) with
        | nil =>
          exfalso
          unfold rowLine at hlast
          rw [hj, getLast?_append_ne (List.cons_ne_nil _ _)] at hlast
          revert hlast; decide
        | cons y ys => rfl
      have := hsplit _ _ (netString_plain k1 (.inl rfl)) (fun hb => htab ((List.dropLast_sublist _).subset hb)) (hdl ▸ hs)
      have hl := congrArg List.length this
      rw [List.length_dropLast] at hl
      have h0 : joinByte 0x2C (r.values.map noCommas) = [] := List.length_eq_zero_iff.mp (by omega)
      unfold rowLine at hlast
      rw [h0, getLast?_append_ne (List.cons_ne_nil _ _)] at hlast
      revert hlast; decide
    · rfl
  refine ⟨k1, ?_, k2, k3, ?_, ?_⟩
  · cases h4' : To4 r.cidr.ip with
    | none => exact .inr rfl
    | some p =>
      left
      rw [hd] at h1
      unfold rowLine at h1
      have htab : (0x09 : UInt8) ∉ joinByte 0x2C (r.values.map noCommas) :=
        splitByte_not_mem 0x09 (dropCR (rowLine r)) _ (by rw [hd]; unfold rowLine; rw [h1]; simp)
      rw [splitByte_append (netString_plain k1 (.inl rfl)), splitByte_noSep htab] at h1
      have ha := (List.cons.inj h1).1
      rw [← ha] at h2
      exact (readBack k1 h2).v4.mpr (by rw [h4']; rfl)
  · intro x hx hlast
    have := (rowLine_last hx).mpr hlast
    have hl := congrArg List.length hd
    unfold dropCR at hl
    rw [if_pos this, List.length_dropLast] at hl
    have : rowLine r ≠ [] := by unfold rowLine; simp
    have := List.length_pos_iff.mpr this
    omega
  · have := hshort r hr
    unfold rowLine at this
    rw [List.length_append, List.length_cons, joinByte_length_noCommas] at this
    omega

theorem untilEnd_length : ∀ (rs : List IpRaw), (untilEnd rs).length = rs.length ↔ EndsLast rs := by
  intro rs
  induction rs with
  | nil => exact ⟨fun _ i r h => by simp at h, fun _ => rfl⟩
  | cons r rs ih =>
    unfold untilEnd
    by_cases he : EndsFamily r.cidr
    · rw [if_pos he]
      constructor
      · intro h i x hx hex
        simp only [List.length_cons, List.length_nil] at h
        have : rs = [] := List.length_eq_zero_iff.mp (by omega)
        subst this
        have := (List.getElem?_eq_some_iff.mp hx).1
        simp only [List.length_singleton] at this ⊢
        omega
      · intro h
        have := h 0 r rfl he
        simpa using this
    · rw [if_neg he]
      constructor
      · intro h i x hx hex
        have h' := ih.mp (by simpa using h)
        cases i with
        | zero => simp at hx; subst hx; exact absurd hex he
        | succ i => have := h' i x (by simpa using hx) hex; simp only [List.length_cons]; omega
      · intro h
        simp only [List.length_cons, Nat.add_right_cancel_iff]
        refine ih.mpr fun i x hx hex => ?_
        have := h (i + 1) x (by simpa using hx) hex
        simpa using this

theorem untilEnd_same {rs : List IpRaw} (h : EndsLast rs) : untilEnd rs = rs := by
  have key : ∀ rs : List IpRaw, (untilEnd rs).length = rs.length → untilEnd rs = rs := by
    intro rs
    induction rs with
    | nil => intro _; rfl
    | cons r rs ih =>
      unfold untilEnd
      split
      · intro h
        simp only [List.length_cons, List.length_nil] at h
        have : rs = [] := List.length_eq_zero_iff.mp (by omega)
        rw [this]
      · intro h; rw [ih (by simpa using h)]
  exact key rs ((untilEnd_length rs).mpr h)

/-- The first three lines of a packed text are good lines. -/
theorem titles_lines {ver now : Str} (hf : Titles fields) (hver : LineOK ver) (hnow : LineOK now) :
    ∀ l ∈ [gs "#### scan dump " ++ now ++ gs " ####", gs "#### " ++ ver, gs "#### " ++ joinByte 0x2C fields],
      (0x0A : UInt8) ∉ l ∧ l.getLast? ≠ some 0x0D ∧ l.length < 65536 := by
  have h := header_ok (ver := ver) (now := now) (d := ⟨fields, ⟨0, 0, 0, [], [], []⟩, []⟩) (rs := [])
    ⟨hf.some, hf.nodup, hf.plain, hf.short, fun _ h => (nomatch h), fun _ h => (nomatch h), fun _ h => (nomatch h), fun _ h => (nomatch h)⟩
    hver hnow (fun _ h => (nomatch h))
  exact h

/-- Dumping a packed text is reading the lines of its rows. -/
theorem dump_of_packed {dec : Str → Option (Option VersionInfo)} {ver now : Str} {v : VersionInfo} (hf : Titles fields)
    (hver : LineOK ver) (hnow : LineOK now) (hdec : dec ver = some (some v)) (t : Str) :
    dump dec (header ver now fields ++ t) (some ⟨fields, []⟩) = (do
      let ips ← dumpLoop ⟨(scanLines t).1, fields, some v⟩ (some ⟨fields, []⟩) (Select (fieldToMap fields) fields) (scanLines t).1
      return ⟨fields, v, ips⟩) := by
  have hs5 : ∀ s : Str, skip5 (gs "#### " ++ s) = .ok s := by
    intro s
    rw [gs_mark]; unfold skip5; rw [if_neg (by simp)]; rfl
  unfold dump newDumper
  rw [header_lines, scan_before _ _ (titles_lines hf hver hnow)]
  simp only [List.cons_append, List.nil_append, readHeader, hs5, Res.ok_bind, hdec]
  rw [splitByte_joinByte hf.some (fun s hs h => hf.plain s hs _ h (by simp))]
  rfl

section
variable {enc : VersionInfo → Str} {dec : Str → Option (Option VersionInfo)} {now : Str} {v : VersionInfo} {d : HData}

/-- **C126.** The text of a table, dumped under the rule listing its fields, gives back all rows, with commas replaced, exactly if
each of them fits a line and only the last of them reaches the last address of its family. -/
theorem C126_survives_iff (hw : d.WF) (hf : Titles d.fields) (hr : DefaultsOK d.fields) (hver : LineOK (enc d.version))
    (hnow : LineOK now) (hdec : dec (enc d.version) = some (some v)) :
    ∃ text d', pack enc now d = .ok (text, d') ∧
      (dump dec text (ParseRule (ruleText d.fields [])) = .ok ⟨d.fields, v, d.view.ips.map fun r => ⟨r.cidr, r.values.map noCommas⟩⟩ ↔
        (∀ r ∈ d.view.ips, Fits d.fields.length r) ∧ EndsLast d.view.ips) := by
  obtain ⟨d', hp, _⟩ := pack_text (enc := enc) (now := now) hw
  have hparse : ParseRule (ruleText d.fields []) = some ⟨d.fields, []⟩ := parse_ruleText hr (by intro g hg; cases hg)
  refine ⟨_, d', hp, ?_⟩
  rw [hparse, dump_of_packed hf hver hnow hdec]
  generalize d.view.ips = rs
  have good : (∀ r ∈ rs, Fits d.fields.length r) → (scanLines (unlines (rs.map rowLine))).1 = rs.map rowLine := by
    intro h
    rw [scan_unlines _ (by
      intro l hl
      obtain ⟨r, hr, rfl⟩ := List.mem_map.mp hl
      exact fits_line (fun e => hf.some (List.length_eq_zero_iff.mp e)) (h r hr))]
  constructor
  · intro h
    obtain ⟨ips, h1, h⟩ := Res.bind_eq_ok.mp h
    have h := Res.ok.inj h
    injection h with _ _ h
    subst h
    have hfit := fits_of hf.some hf.nodup rfl h1
    refine ⟨hfit, ?_⟩
    rw [good hfit, fits_loop hf.some hf.nodup rfl rs hfit] at h1
    have := congrArg List.length (Res.ok.inj h1)
    rw [List.length_map, List.length_map] at this
    exact (untilEnd_length rs).mp this
  · rintro ⟨h1, h2⟩
    rw [good h1, fits_loop hf.some hf.nodup rfl rs h1, untilEnd_same h2]
    rfl

/-- **C126 (unchanged).** The table comes back unchanged exactly if, besides, no value has a comma. -/
theorem C126_unchanged_iff (hw : d.WF) (hf : Titles d.fields) (hr : DefaultsOK d.fields) (hver : LineOK (enc d.version))
    (hnow : LineOK now) (hdec : dec (enc d.version) = some (some v)) :
    ∃ text d', pack enc now d = .ok (text, d') ∧
      (dump dec text (ParseRule (ruleText d.fields [])) = .ok ⟨d.fields, v, d.view.ips⟩ ↔
        (∀ r ∈ d.view.ips, Fits d.fields.length r ∧ ∀ v ∈ r.values, (0x2C : UInt8) ∉ v) ∧ EndsLast d.view.ips) := by
  obtain ⟨text, d', hp, h⟩ := C126_survives_iff hw hf hr hver hnow hdec
  refine ⟨text, d', hp, ?_⟩
  have same : (∀ r ∈ d.view.ips, ∀ v ∈ r.values, (0x2C : UInt8) ∉ v) →
      d.view.ips.map (fun r => (⟨r.cidr, r.values.map noCommas⟩ : IpRaw)) = d.view.ips := by
    intro hc
    conv => rhs; rw [← List.map_id d.view.ips]
    refine List.map_congr_left fun r hr => ?_
    have : r.values.map noCommas = r.values := by
      conv => rhs; rw [← List.map_id r.values]
      refine List.map_congr_left fun v hv => ?_
      unfold noCommas
      conv => rhs; rw [id, ← List.map_id v]
      refine List.map_congr_left fun b hb => ?_
      have hb' : b ≠ 0x2C := fun e => hc r hr v hv (by rw [← e]; exact hb)
      rw [if_neg hb']
      rfl
    rw [this]
    rfl
  constructor
  · intro hd
    have hc : ∀ r ∈ d.view.ips, ∀ v ∈ r.values, (0x2C : UInt8) ∉ v := by
      obtain ⟨d'', hp', _⟩ := pack_text (enc := enc) (now := now) hw
      have hparse : ParseRule (ruleText d.fields []) = some ⟨d.fields, []⟩ := parse_ruleText hr (by intro g hg; cases hg)
      rw [hp] at hp'
      have e := Res.ok.inj hp'
      injection e with e _
      rw [e, hparse, dump_of_packed hf hver hnow hdec] at hd
      obtain ⟨ips, h1, h2⟩ := Res.bind_eq_ok.mp hd
      have h2 := Res.ok.inj h2
      injection h2 with _ _ h2
      obtain ⟨pre, post, _, hg⟩ := loop_gives hf.nodup (by rfl) _ _ h1
      subst h2
      intro r hr
      obtain ⟨i, hi⟩ := List.mem_iff_getElem?.mp hr
      have hl : i < pre.length := by rw [← hg.length]; exact (List.getElem?_eq_some_iff.mp hi).1
      obtain ⟨_, _, _, _, h4⟩ := rel2_get hg i pre[i] r (List.getElem?_eq_getElem hl) hi
      exact h4
    have := h.mp (by rw [same hc]; exact hd)
    exact ⟨fun r hr => ⟨this.1 r hr, hc r hr⟩, this.2⟩
  · rintro ⟨h1, h2⟩
    have := h.mpr ⟨fun r hr => (h1 r hr).1, h2⟩
    rwa [same (fun r hr => (h1 r hr).2)] at this

end

/-! ## Examples -/

/-- `demoH` meets the hypotheses and the right-hand side of `C126_survives_iff`; it has a comma, so it does not come back unchanged. -/
example : demoH.WF ∧ Titles demoH.fields ∧ DefaultsOK demoH.fields ∧ LineOK (demoEnc demoH.version) ∧ LineOK demoNow ∧
    demoDec (demoEnc demoH.version) = some (some demoV) := by decide +kernel

theorem demo_ends : EndsLast demoH.view.ips := by
  intro i r hr he
  match i, hr with
  | 0, hr => exact absurd (by rw [← Option.some.inj hr] at he; exact he) (by decide +kernel)
  | 1, hr => exact absurd (by rw [← Option.some.inj hr] at he; exact he) (by decide +kernel)
  | 2, _ => rfl
  | n + 3, hr => exact absurd hr (by rw [List.getElem?_eq_none (by show 3 ≤ n + 3; omega)]; exact fun h => nomatch h)

theorem demo_fits : ∀ r ∈ demoH.view.ips, Fits demoH.fields.length r := by decide +kernel

example : ∃ text d', pack demoEnc demoNow demoH = .ok (text, d') ∧
    dump demoDec text (ParseRule (ruleText demoH.fields [])) =
      .ok ⟨demoH.fields, demoV, demoH.view.ips.map fun r => ⟨r.cidr, r.values.map noCommas⟩⟩ ∧
    dump demoDec text (ParseRule (ruleText demoH.fields [])) ≠ .ok ⟨demoH.fields, demoV, demoH.view.ips⟩ := by
  have hyp : demoH.WF ∧ Titles demoH.fields ∧ DefaultsOK demoH.fields ∧ LineOK (demoEnc demoH.version) ∧ LineOK demoNow ∧
    demoDec (demoEnc demoH.version) = some (some demoV) := by decide +kernel
  obtain ⟨h1, h2, h3, h4, h5, h6⟩ := hyp
  obtain ⟨text, d', hp, h⟩ := C126_survives_iff h1 h2 h3 h4 h5 h6
  obtain ⟨text', d'', hp', h'⟩ := C126_unchanged_iff h1 h2 h3 h4 h5 h6
  rw [hp] at hp'
  have e := Res.ok.inj hp'
  injection e with e _
  subst e
  refine ⟨text, d', hp, h.mpr ⟨demo_fits, demo_ends⟩, fun hd => ?_⟩
  exact absurd (fun r hr => ((h'.mp hd).1 r hr).2 : ∀ r ∈ demoH.view.ips, ∀ v ∈ r.values, (0x2C : UInt8) ∉ v) (by decide +kernel)

/-- A carriage return inside a value, or at the end of a value that is not the last, does no harm; one at the end of the last does. -/
example : Fits 2 ⟨⟨[10, 0, 0, 0], [255, 0, 0, 0]⟩, [gs "a\r", gs "b\rc"]⟩ ∧
    ¬ Fits 2 ⟨⟨[10, 0, 0, 0], [255, 0, 0, 0]⟩, [gs "a", gs "b\r"]⟩ ∧
    ¬ Fits 2 ⟨⟨[10, 0, 0, 0], [255, 0, 0, 0]⟩, [gs "a\n", gs "b"]⟩ ∧
    ¬ Fits 2 ⟨⟨[10, 0, 0, 0], [255, 0, 0, 0]⟩, [gs "a"]⟩ := by decide +kernel

end Uip.Plain
