import Verif.Model.Plain
import Verif.Spec.Scan
import Verif.Proof.Heap
import Verif.Proof.Export
import Verif.Props.Text
import Verif.Base.Rel2
/-!
# The `.scan` text: lemmas
-/
namespace Uip.Plain
open Uip Uip.Spec Uip.Export

/-! ## Replacing commas in place -/

theorem replaceByte_eq (v : Str) : replaceByte 0x2C 0x5F v = noCommas v := rfl

theorem noCommas_idem (v : Str) : noCommas (noCommas v) = noCommas v := by
  unfold noCommas
  rw [List.map_map]
  apply List.map_congr_left
  intro b _
  simp only [Function.comp_def]
  split
  · rw [if_neg (by decide)]
  · rfl

/-- One heap is another with commas replaced in some cells. -/
def Partly (h0 h : Heap) : Prop := ∀ a i, h.cell a i = h0.cell a i ∨ h.cell a i = (h0.cell a i).map noCommas

theorem Partly.refl (h : Heap) : Partly h h := fun _ _ => .inl rfl

theorem Partly.isSome {h0 h : Heap} (hp : Partly h0 h) (a i : Nat) : (h.cell a i).isSome = (h0.cell a i).isSome := by
  rcases hp a i with e | e <;> rw [e]
  cases h0.cell a i <;> rfl

theorem Partly.trans {h0 h1 h2 : Heap} (hp : Partly h0 h1) (hq : Partly h1 h2) : Partly h0 h2 := by
  intro a i
  rcases hp a i with e | e <;> rcases hq a i with e' | e' <;> rw [e', e]
  · exact .inl rfl
  · exact .inr rfl
  · exact .inr rfl
  · right
    cases h0.cell a i with
    | none => rfl
    | some v => simp [noCommas_idem]

theorem In_of_partly {h0 h : Heap} (hp : Partly h0 h) {s : Slice} (hs : s.In h0) : s.In h :=
  hs.mono fun j _ hj => by rw [hp.isSome]; exact hj

theorem replaceLoop_spec (s : Slice) : ∀ (n i : Nat) (h : Heap), s.In h → i + n = s.len →
    ∃ h', replaceLoop s n i h = .ok h' ∧ h'.length = h.length ∧
      ∀ a j, h'.cell a j = if a = s.arr ∧ i ≤ j ∧ j < s.len then (h.cell a j).map noCommas else h.cell a j := by
  intro n
  induction n with
  | zero =>
    intro i h hs hi
    refine ⟨h, rfl, rfl, fun a j => ?_⟩
    rw [if_neg (by omega)]
  | succ n ih =>
    intro i h hs hi
    obtain ⟨v, hg, hc⟩ := Heap.get_ok hs (show i < s.len by omega)
    obtain ⟨h1, hp, hcell⟩ := Heap.put_ok hs (show i < s.len by omega) (noCommas v)
    have hs1 : s.In h1 := hs.mono fun j _ hj => by
      rw [hcell]
      split
      · rfl
      · exact hj
    obtain ⟨h2, he, hl2, hc2⟩ := ih (i + 1) h1 hs1 (by omega)
    refine ⟨h2, ?_, ?_, fun a j => ?_⟩
    · simp only [replaceLoop, hg, Res.ok_bind, replaceByte_eq, hp, he]
    · rw [hl2, Heap.put_length hp]
    · rw [hc2 a j, hcell a j]
      by_cases ha : a = s.arr
      · subst ha
        by_cases hj : j = i
        · subst hj
          rw [if_neg (by omega), if_pos ⟨rfl, rfl⟩, if_pos (by omega), hc]; rfl
        · rw [if_neg (show ¬ (s.arr = s.arr ∧ j = i) by simp [hj])]
          by_cases hk : i ≤ j ∧ j < s.len
          · rw [if_pos ⟨rfl, by omega, hk.2⟩, if_pos ⟨rfl, hk⟩]
          · rw [if_neg (by omega), if_neg (by omega)]
      · rw [if_neg (by simp [ha]), if_neg (by simp [ha]), if_neg (by simp [ha])]

theorem replaceComma_spec {h : Heap} {s : Slice} (hs : s.In h) :
    ∃ h', replaceComma h s = .ok h' ∧ Partly h h' ∧ h'.length = h.length ∧ h'.read s = (h.read s).map noCommas ∧
      ∀ j < s.len, h'.cell s.arr j = (h.cell s.arr j).map noCommas := by
  obtain ⟨h', he, hl, hc⟩ := replaceLoop_spec s s.len 0 h hs (by omega)
  refine ⟨h', he, ?_, hl, ?_, ?_⟩
  · intro a i
    rw [hc]
    split
    · exact .inr rfl
    · exact .inl rfl
  · apply List.ext_getElem?
    intro j
    rw [List.getElem?_map, Heap.read_get?, Heap.read_get?]
    split
    · rename_i hj
      rw [hc, if_pos ⟨rfl, by omega, hj⟩]
    · rfl
  · intro j hj
    rw [hc, if_pos ⟨rfl, by omega, hj⟩]

/-- Whatever has been rewritten before, the row is written with its own values. -/
theorem read_partly {h0 h : Heap} {s : Slice} (hp : Partly h0 h) : (h.read s).map noCommas = (h0.read s).map noCommas := by
  apply List.ext_getElem?
  intro j
  rw [List.getElem?_map, List.getElem?_map, Heap.read_get?, Heap.read_get?]
  split
  · rcases hp s.arr j with e | e
    · rw [e]
    · rw [e]
      cases h0.cell s.arr j with
      | none => rfl
      | some v => simp [noCommas_idem]
  · rfl

/-- One line of the text. -/
def rowLine (r : IpRaw) : Str := IPNetString r.cidr ++ 0x09 :: joinByte 0x2C (r.values.map noCommas)

/-- Lines, each with its newline. -/
def unlines (l : List Str) : Str := l.flatMap (· ++ [0x0A])

/-- Commas are replaced in the cells of the rows written so far. -/
theorem packRows_spec (h0 : Heap) (rs : List HRow) : ∀ h, Partly h0 h → (∀ r ∈ rs, r.vals.In h0) →
    ∃ h', packRows rs h = .ok (unlines (rs.map fun r => rowLine ⟨r.cidr, h0.read r.vals⟩), h') ∧ Partly h h' ∧ h'.length = h.length ∧
      ∀ r ∈ rs, h'.read r.vals = (h0.read r.vals).map noCommas := by
  induction rs with
  | nil => intro h _ _; exact ⟨h, rfl, Partly.refl h, rfl, fun r hr => by cases hr⟩
  | cons r rs ih =>
    intro h hp hs
    have hr := In_of_partly hp (hs r (by simp))
    obtain ⟨h1, e1, p1, l1, v1, c1⟩ := replaceComma_spec hr
    obtain ⟨h2, e2, p2, l2, v2⟩ := ih h1 (hp.trans p1) (fun x hx => hs x (by simp [hx]))
    refine ⟨h2, ?_, p1.trans p2, by rw [l2, l1], ?_⟩
    · simp only [packRows, e1, Res.ok_bind, e2, Res.pure_eq]
      rw [v1, read_partly hp]
      simp [unlines, rowLine]
    · intro x hx
      rcases List.mem_cons.mp hx with rfl | hx
      · have : (h2.read x.vals).map noCommas = (h0.read x.vals).map noCommas := read_partly (hp.trans (p1.trans p2))
        rw [← this]
        apply List.ext_getElem?
        intro j
        rw [List.getElem?_map, Heap.read_get?]
        split
        · rename_i hj
          obtain ⟨v, hv⟩ := hr.cell hj
          rcases p2 x.vals.arr j with e | e
          · rw [e, c1 j hj, hv]; simp [noCommas_idem]
          · rw [e, c1 j hj, hv]; simp [noCommas_idem]
        · rfl
      · exact v2 x hx

/-! ## Reading lines back -/

theorem dropCR_of {l : Str} (h : l.getLast? ≠ some 0x0D) : dropCR l = l := by unfold dropCR; rw [if_neg h]

/-- The scanner delivers the lines that were written. -/
theorem scan_unlines : ∀ (ls : List Str), (∀ l ∈ ls, (0x0A : UInt8) ∉ l ∧ l.getLast? ≠ some 0x0D ∧ l.length < 65536) →
    scanLines (unlines ls) = (ls, false) := by
  intro ls
  induction ls with
  | nil => intro _; rfl
  | cons l ls ih =>
    intro h
    obtain ⟨h1, h2, h3⟩ := h l (by simp)
    have ih := ih (fun x hx => h x (by simp [hx]))
    unfold scanLines at ih ⊢
    have e : unlines (l :: ls) = l ++ 0x0A :: unlines ls := by simp [unlines]
    rw [e, splitByte_append h1]
    obtain ⟨q, ps, hq⟩ : ∃ q ps, splitByte 0x0A (unlines ls) = q :: ps := by
      cases e : splitByte 0x0A (unlines ls) with
      | nil => exact absurd e (splitByte_ne_nil _ _)
      | cons q ps => exact ⟨q, ps, rfl⟩
    rw [hq] at ih ⊢
    rw [scanPieces, if_neg (by unfold maxToken; omega), ih, dropCR_of h2]

/-! ## One line -/

/-- The record of a row, as a map. -/
def record (fields values : List Str) : GoMap Str := (fields.zip values).foldl (fun m p => mapSet m p.1 p.2) []

theorem foldl_mapSet_get (ps : List (Str × Str)) : ∀ (m : GoMap Str) (f : Str), f ∉ ps.map (·.1) →
    mapGet (ps.foldl (fun m p => mapSet m p.1 p.2) m) f = mapGet m f := by
  induction ps with
  | nil => intro m f _; rfl
  | cons p ps ih =>
    intro m f hf
    simp only [List.map_cons, List.mem_cons, not_or] at hf
    rw [List.foldl_cons, ih _ f hf.2]
    simp only [mapSet, mapGet]
    rw [if_neg (fun e => hf.1 e.symm)]

theorem foldl_mapSet_getElem : ∀ (ps : List (Str × Str)) (m : GoMap Str), (ps.map (·.1)).Nodup → ∀ p ∈ ps,
    mapGet (ps.foldl (fun m p => mapSet m p.1 p.2) m) p.1 = some p.2 := by
  intro ps
  induction ps with
  | nil => intro m _ p hp; cases hp
  | cons q ps ih =>
    intro m hn p hp
    simp only [List.map_cons, List.nodup_cons] at hn
    rw [List.foldl_cons]
    rcases List.mem_cons.mp hp with rfl | hp
    · rw [foldl_mapSet_get _ _ _ hn.1]
      simp [mapSet, mapGet]
    · exact ih _ hn.2 p hp

theorem zip_keys {fields values : List Str} (hl : values.length = fields.length) : (fields.zip values).map (·.1) = fields := by
  rw [List.map_fst_zip]; omega

theorem record_get {fields values : List Str} (hn : fields.Nodup) (hl : values.length = fields.length) {i : Nat} {f v : Str}
    (hf : fields[i]? = some f) (hv : values[i]? = some v) : mapGet (record fields values) f = some v := by
  apply foldl_mapSet_getElem _ _ (by rw [zip_keys hl]; exact hn) (f, v)
  apply List.mem_of_getElem? (i := i)
  rw [List.getElem?_zip_eq_some]
  exact ⟨hf, hv⟩

theorem record_none {fields values : List Str} (hl : values.length = fields.length) {f : Str} (hf : f ∉ fields) :
    mapGet (record fields values) f = none := by
  unfold record
  rw [foldl_mapSet_get _ _ _ (by rw [zip_keys hl]; exact hf)]
  rfl

theorem fieldToMap_get (fields : List Str) (f : Str) : mapGet (fieldToMap fields) f = if f ∈ fields then some f else none := by
  have key : ∀ (l : List Str) (m : GoMap Str), mapGet (l.foldl (fun m f => mapSet m f f) m) f =
      if f ∈ l then some f else mapGet m f := by
    intro l
    induction l with
    | nil => intro m; simp
    | cons x l ih =>
      intro m
      rw [List.foldl_cons, ih]
      by_cases h : f ∈ l
      · simp [h]
      · by_cases hx : x = f
        · subst hx; simp [mapSet, mapGet]
        · have : f ≠ x := fun e => hx e.symm
          simp [h, mapSet, mapGet, hx, this]
  exact key fields []

/-- Exporting all the fields of a record gives its values. -/
theorem export_all {fields values : List Str} (hn : fields.Nodup) (hl : values.length = fields.length) :
    (⟨fields, []⟩ : Exporter).Export (Select (fieldToMap fields) fields) (record fields values) = .ok values := by
  unfold Exporter.Export
  have := remapKey_spec ⟨fields, []⟩ (fieldToMap fields) (record fields values)
  simp only at this
  rw [this]
  simp only [Res.ok_bind, Res.pure_eq, List.foldl_nil]
  congr 1
  apply List.ext_getElem?
  intro i
  rw [List.getElem?_map]
  cases hf : fields[i]? with
  | none =>
    have : values[i]? = none := by rw [List.getElem?_eq_none_iff] at hf ⊢; omega
    rw [this]; rfl
  | some f =>
    obtain ⟨v, hv⟩ : ∃ v, values[i]? = some v := by
      have : i < fields.length := (List.getElem?_eq_some_iff.mp hf).1
      exact ⟨values[i], List.getElem?_eq_getElem (by omega)⟩
    simp only [Option.map_some, fieldToMap_get, List.mem_of_getElem? hf, if_true]
    rw [record_get hn hl hf hv, hv]; rfl

theorem mem_joinByte {c b : UInt8} : ∀ {l : List Str}, b ∈ joinByte c l → b = c ∨ ∃ s ∈ l, b ∈ s
  | [], h => by cases h
  | [x], h => .inr ⟨x, by simp, h⟩
  | x :: y :: r, h => by
    simp only [joinByte] at h
    rcases List.mem_append.mp h with h | h
    · exact .inr ⟨x, by simp, h⟩
    · rcases List.mem_cons.mp h with h | h
      · exact .inl h
      · rcases mem_joinByte h with h | ⟨s, hs, hb⟩
        · exact .inl h
        · exact .inr ⟨s, by simp at hs ⊢; right; exact hs, hb⟩

theorem mem_noCommas {b : UInt8} {v : Str} (h : b ∈ noCommas v) : b = 0x5F ∨ (b ≠ 0x2C ∧ b ∈ v) := by
  obtain ⟨c, hc, rfl⟩ := List.mem_map.mp h
  split
  · exact .inl rfl
  · rename_i hne; exact .inr ⟨hne, hc⟩

theorem joinByte_length_noCommas : ∀ (l : List Str), (joinByte 0x2C (l.map noCommas)).length = (joinByte 0x2C l).length
  | [] => rfl
  | [x] => by simp [joinByte, noCommas]
  | x :: y :: r => by
    have := joinByte_length_noCommas (y :: r)
    simp only [List.map_cons] at this
    simp only [List.map_cons, joinByte, List.length_append, List.length_cons, this]
    simp [noCommas]

/-- The characters of a printed network. -/
theorem netString_chars {n : IPNet} (h : WFNet n) : ∀ c ∈ IPNetString n,
    (0x30 ≤ c ∧ c ≤ 0x39) ∨ c = 0x2E ∨ c = 0x2F ∨ c = 0x3A ∨ (hexVal c).isSome := by
  obtain ⟨n', hp, _, _⟩ := C62_network n h
  obtain ⟨⟨hv, hl, hm⟩, ha⟩ := h
  have hip : ∀ ip : IP, ValidIP ip → ∀ c ∈ IPString ip, (0x30 ≤ c ∧ c ≤ 0x39) ∨ c = 0x2E ∨ c = 0x3A ∨ (hexVal c).isSome := by
    intro ip hv c hc
    have h0 : ip.length ≠ 0 := by rcases hv with h | h <;> omega
    cases h4 : To4 ip with
    | some p =>
      unfold IPString at hc
      rw [if_neg h0, h4] at hc
      rcases dotted_chars hc with h | h
      · exact .inl h
      · exact .inr (.inl h)
    | none =>
      have h16 : ip.length = 16 := by
        rcases hv with h | h
        · unfold To4 at h4; rw [if_pos h] at h4; cases h4
        · exact h
      rcases (parse6_print ip h16 h4).2.2 c hc with h | h
      · exact .inr (.inr (.inl h))
      · exact .inr (.inr (.inr h))
  intro c hc
  unfold IPNetString at hc
  cases hnm : networkNumberAndMask n with
  | none =>
    exfalso
    unfold IPNetString at hp
    rw [hnm] at hp
    revert hp
    simp only []
    rw [show ParseCIDR (gs "<nil>") = none by decide +kernel]
    intro h; cases h
  | some q =>
    obtain ⟨ip, m⟩ := q
    rw [hnm] at hc
    simp only [] at hc
    have hvip : ValidIP ip := by
      unfold networkNumberAndMask at hnm
      split at hnm
      · cases hnm
      · rename_i ip' hm'
        have hip' : ValidIP ip' := by
          split at hm'
          · rename_i p h4; injection hm' with hm'; subst hm'; exact .inl (To4_eq_some h4).2.1
          · split at hm'
            · rename_i hh; injection hm' with hm'; subst hm'; exact .inr hh
            · cases hm'
        split at hnm
        · split at hnm
          · injection hnm with hnm; rw [Prod.mk.injEq] at hnm; rw [← hnm.1]; exact hip'
          · cases hnm
        · split at hnm
          · injection hnm with hnm; rw [Prod.mk.injEq] at hnm; rw [← hnm.1]; exact hip'
          · cases hnm
    have hc' : c ∈ IPString ip ∨ c = 0x2F ∨ (0x30 ≤ c ∧ c ≤ 0x39) ∨ (hexVal c).isSome := by
      split at hc
      · rcases List.mem_append.mp hc with h | h
        · exact .inl h
        · rcases List.mem_cons.mp h with h | h
          · exact .inr (.inl h)
          · obtain ⟨x, hx, hc⟩ := List.mem_flatMap.mp h
            have hxl := x.toNat_lt
            simp only [List.mem_cons, List.not_mem_nil, or_false] at hc
            rcases hc with rfl | rfl
            · exact .inr (.inr (.inr (by rw [digitChar_hex _ (by omega)]; rfl)))
            · exact .inr (.inr (.inr (by rw [digitChar_hex _ (by omega)]; rfl)))
      · rcases List.mem_append.mp hc with h | h
        · exact .inl h
        · rcases List.mem_cons.mp h with h | h
          · exact .inr (.inl h)
          · exact .inr (.inr (.inl (digitChar_dec_mem h)))
    rcases hc' with h | h | h | h
    · rcases hip ip hvip c h with h | h | h | h
      · exact .inl h
      · exact .inr (.inl h)
      · exact .inr (.inr (.inr (.inl h)))
      · exact .inr (.inr (.inr (.inr h)))
    · exact .inr (.inr (.inl h))
    · exact .inl h
    · exact .inr (.inr (.inr (.inr h)))

theorem netString_plain {n : IPNet} (h : WFNet n) {c : UInt8} (hc : c = 0x09 ∨ c = 0x0A ∨ c = 0x0D ∨ c = 0x2C ∨ c = 0x20) : c ∉ IPNetString n := by
  intro hm
  have := netString_chars h c hm
  revert this
  rcases hc with rfl | rfl | rfl | rfl | rfl <;> decide

theorem parseLine_rowLine {d : IpData} (hd : ScanOK d) {r : IpRaw} (hr : r ∈ d.ips) {t : Traversal} (ht : t.fields = d.fields) :
    ∃ n', ParseCIDR (IPNetString r.cidr) = some n' ∧
      parseLine t (rowLine r) = .ok (n', record d.fields (r.values.map noCommas)) := by
  obtain ⟨n', hp, _⟩ := C62_network r.cidr (hd.wf r hr)
  refine ⟨n', hp, ?_⟩
  have hlen := hd.len r hr
  have hne : r.values.map noCommas ≠ [] := by
    intro h
    have := congrArg List.length h
    rw [List.length_map, hlen, List.length_nil] at this
    exact hd.fields_ne (List.length_eq_zero_iff.mp this)
  have hcv : ∀ s ∈ r.values.map noCommas, (0x2C : UInt8) ∉ s := by
    intro s hs h
    obtain ⟨v, _, rfl⟩ := List.mem_map.mp hs
    rcases mem_noCommas h with h | h
    · revert h; decide
    · exact h.1 rfl
  have htab : (0x09 : UInt8) ∉ joinByte 0x2C (r.values.map noCommas) := by
    intro h
    rcases mem_joinByte h with h | ⟨s, hs, hb⟩
    · revert h; decide
    · obtain ⟨v, hv, rfl⟩ := List.mem_map.mp hs
      rcases mem_noCommas hb with h | h
      · revert h; decide
      · exact hd.values r hr v hv _ h.2 (by simp)
  unfold parseLine rowLine
  rw [splitByte_append (netString_plain (hd.wf r hr) (.inl rfl)), splitByte_noSep htab]
  simp only [hp]
  rw [splitByte_joinByte hne hcv, if_neg (by rw [List.length_map, hlen, ht]; simp)]
  rw [ht]; rfl

theorem rowLine_ok {d : IpData} (hd : ScanOK d) {r : IpRaw} (hr : r ∈ d.ips) :
    (0x0A : UInt8) ∉ rowLine r ∧ (rowLine r).getLast? ≠ some 0x0D ∧ (rowLine r).length < 65536 := by
  have hb : ∀ b, b = 0x0A ∨ b = 0x0D → b ∉ rowLine r := by
    intro b hb h
    unfold rowLine at h
    rcases List.mem_append.mp h with h | h
    · exact netString_plain (hd.wf r hr) (by rcases hb with h | h <;> simp [h]) h
    · rcases List.mem_cons.mp h with h | h
      · rcases hb with rfl | rfl <;> exact absurd h (by decide)
      · rcases mem_joinByte h with h | ⟨s, hs, h⟩
        · rcases hb with rfl | rfl <;> exact absurd h (by decide)
        · obtain ⟨v, hv, rfl⟩ := List.mem_map.mp hs
          rcases mem_noCommas h with h | h
          · rcases hb with rfl | rfl <;> exact absurd h (by decide)
          · refine hd.values r hr v hv _ h.2 ?_
            rcases hb with rfl | rfl <;> decide
  refine ⟨hb _ (.inl rfl), fun h => hb _ (.inr rfl) (List.mem_of_getLast? h), ?_⟩
  have := hd.short r hr
  unfold rowLine
  rw [List.length_append, List.length_cons, joinByte_length_noCommas]
  omega

/-! ## The header -/

theorem gs_title : gs "#### scan dump " = [0x23, 0x23, 0x23, 0x23, 0x20, 0x73, 0x63, 0x61, 0x6e, 0x20, 0x64, 0x75, 0x6d, 0x70, 0x20] := by decide +kernel
theorem gs_title_end : gs " ####" = [0x20, 0x23, 0x23, 0x23, 0x23] := by decide +kernel
theorem gs_mark : gs "#### " = [0x23, 0x23, 0x23, 0x23, 0x20] := by decide +kernel

theorem header_lines (ver now : Str) (fields : List Str) : header ver now fields =
    unlines [gs "#### scan dump " ++ now ++ gs " ####", gs "#### " ++ ver, gs "#### " ++ joinByte 0x2C fields] := by
  unfold header unlines
  simp

theorem getLast?_append_ne {a b : Str} (h : b ≠ []) : (a ++ b).getLast? = b.getLast? := by
  rw [List.getLast?_append]
  cases e : b.getLast? with
  | none => exact absurd (List.getLast?_eq_none_iff.mp e) h
  | some x => rfl

/-- The lines of a packed text are lines. -/
theorem header_ok {ver now : Str} {d : IpData} (hd : ScanOK d) (hver : LineOK ver) (hnow : LineOK now) {rs : List IpRaw}
    (hrs : ∀ r ∈ rs, r ∈ d.ips) :
    ∀ l ∈ (gs "#### scan dump " ++ now ++ gs " ####") :: (gs "#### " ++ ver) :: (gs "#### " ++ joinByte 0x2C d.fields) :: rs.map rowLine,
      (0x0A : UInt8) ∉ l ∧ l.getLast? ≠ some 0x0D ∧ l.length < 65536 := by
  have hfchars : ∀ b, b = 0x0A ∨ b = 0x0D → b ∉ gs "#### " ++ joinByte 0x2C d.fields := by
    intro b hb h
    rcases List.mem_append.mp h with h | h
    · rw [gs_mark] at h; revert h; rcases hb with rfl | rfl <;> decide
    · rcases mem_joinByte h with h | ⟨s, hs, h⟩
      · rcases hb with rfl | rfl <;> exact absurd h (by decide)
      · refine hd.fields s hs _ h ?_
        rcases hb with rfl | rfl <;> decide
  intro l hl
  simp only [List.mem_cons] at hl
  rcases hl with rfl | rfl | rfl | hl
  · refine ⟨?_, ?_, ?_⟩
    · rw [gs_title, gs_title_end]
      intro h
      rcases List.mem_append.mp h with h | h
      · rcases List.mem_append.mp h with h | h
        · revert h; decide
        · exact hnow.1 h
      · revert h; decide
    · rw [gs_title_end, getLast?_append_ne (by simp)]; decide
    · rw [gs_title, gs_title_end]; have := hnow.2.2; simp; omega
  · refine ⟨?_, ?_, ?_⟩
    · rw [gs_mark]
      intro h
      rcases List.mem_append.mp h with h | h
      · revert h; decide
      · exact hver.1 h
    · by_cases hv0 : ver = []
      · subst hv0; rw [List.append_nil, gs_mark]; decide
      · rw [getLast?_append_ne hv0]; exact hver.2.1
    · rw [gs_mark]; have := hver.2.2; simp; omega
  · refine ⟨hfchars _ (.inl rfl), fun h => hfchars _ (.inr rfl) (List.mem_of_getLast? h), ?_⟩
    rw [gs_mark]; have := hd.fieldsLine; simp; omega
  · obtain ⟨r, hr, rfl⟩ := List.mem_map.mp hl
    exact rowLine_ok hd (hrs r hr)

/-- Reading back the lines of a packed text, or of a text with only some of its rows. -/
theorem newDumper_packed {dec : Str → Option (Option VersionInfo)} {ver now : Str} {v : VersionInfo} {d : IpData} (hd : ScanOK d)
    (hver : LineOK ver) (hnow : LineOK now) (hdec : dec ver = some (some v)) {rs : List IpRaw} (hrs : ∀ r ∈ rs, r ∈ d.ips) :
    newDumper dec (header ver now d.fields ++ unlines (rs.map rowLine)) = .ok ⟨rs.map rowLine, d.fields, some v⟩ := by
  have e : header ver now d.fields ++ unlines (rs.map rowLine) =
      unlines ((gs "#### scan dump " ++ now ++ gs " ####") :: (gs "#### " ++ ver) :: (gs "#### " ++ joinByte 0x2C d.fields) :: rs.map rowLine) := by
    rw [header_lines]; simp [unlines]
  have hl := header_ok hd hver hnow hrs
  have hs5 : ∀ s : Str, skip5 (gs "#### " ++ s) = .ok s := by
    intro s
    rw [gs_mark]; unfold skip5; rw [if_neg (by simp)]; rfl
  unfold newDumper
  rw [e, scan_unlines _ hl]
  simp only [readHeader, hs5, Res.ok_bind, hdec]
  rw [splitByte_joinByte hd.fields_ne (fun s hs h => hd.fields s hs _ h (by simp))]

/-! ## The rows -/

theorem endsFamily_iff {n n' : IPNet} (hw : WFNet n') (hs : SameNet n n') (h4 : (To4 n.ip).isSome → n'.ip.length = 4)
    (hf : n'.ip.length = 4 → (To4 n.ip).isSome) (hv : ValidIP n.ip) {last : IP} (hl : LastIP n' = .ok last) : IsAllMask last = true ↔ EndsFamily n := by
  obtain ⟨last', h1, h2, h3, h5⟩ := LastIP_spec hw.1
  rw [hl] at h1; injection h1 with h1; subst h1
  have hal := Aligned_iff.mp hw.2
  have hal := Nat.dvd_of_mod_eq_zero hal
  rw [Nat.div_mul_cancel hal] at h5
  have hp := Nat.two_pow_pos (8 * n'.ip.length - pfx n')
  rw [IsAllMask_iff, h5, h2]
  unfold EndsFamily
  have hend : netEnd n = netEnd n' := hs.2
  have hlo : netLo n = netLo n' := hs.1
  rw [hend]
  have hb := WFNet_bounds hw
  have h256 : (256 : Nat) ^ 4 = 2 ^ 32 := by decide
  have h256' : (256 : Nat) ^ 16 = 2 ^ 128 := by decide
  have hlt := val_lt n'.ip
  rcases hw.1.1 with h | h
  · have hn : netEnd n' = 0xffff * 2 ^ 32 + val n'.ip + 2 ^ (8 * n'.ip.length - pfx n') := by
      unfold netEnd hostBits; rw [addrNum_4 h]
    have hlo' : netLo n' = 0xffff * 2 ^ 32 + val n'.ip := by unfold netLo; rw [addrNum_4 h]
    rw [hlo, hn, hlo', h, h256]
    have h7 : 8 * 4 - pfx n' ≤ 32 := by omega
    have h8 := Nat.pow_le_pow_right (show 1 ≤ 2 by omega) h7
    rw [h] at hp hlt
    rw [h256] at hlt
    omega
  · have hn : netEnd n' = val n'.ip + 2 ^ (8 * n'.ip.length - pfx n') := by
      unfold netEnd hostBits; rw [addrNum_16 h]
    rw [hn, h, h256']
    rw [h] at hp
    constructor
    · intro h; left; omega
    · intro hh
      rcases hh with hh | ⟨hh, hge⟩
      · omega
      · exfalso
        have h4n : ¬ (To4 n.ip).isSome := fun hh => by have := h4 hh; omega
        rw [To4_isSome_iff hv] at h4n
        rw [hlo] at hge
        have : netLo n = addrNum n.ip := rfl
        rw [← this, hlo] at h4n
        have : netEnd n' = netLo n' + 2 ^ hostBits n' := rfl
        have hpos := Nat.two_pow_pos (hostBits n')
        rw [h] at hn
        omega

/-- Facts about a network read back from its text. -/
structure ReadBack (n n' : IPNet) : Prop where
  parsed : ParseCIDR (IPNetString n) = some n'
  wf : WFNet n'
  same : SameNet n n'
  v4 : n'.ip.length = 4 ↔ (To4 n.ip).isSome
  eq : n.ip.length = 4 ∨ To4 n.ip = none → n' = n

theorem readBack {n : IPNet} (h : WFNet n) {n' : IPNet} (hp : ParseCIDR (IPNetString n) = some n') : ReadBack n n' := by
  obtain ⟨m, h1, h2, h3, h4, h5⟩ := C62_network n h
  rw [hp] at h1; injection h1 with h1; subst h1
  refine ⟨hp, h2, ⟨h3.symm, h4.symm⟩, ⟨fun hl => ?_, h5⟩, fun hf => ?_⟩
  · rw [To4_isSome_iff h.1.1]
    have hlt := val_lt n'.ip
    rw [hl] at hlt
    have : addrNum n.ip = netLo n' := h3.symm
    rw [this]
    unfold netLo
    rw [addrNum_4 hl]
    have : (256 : Nat) ^ 4 = 2 ^ 32 := by decide
    omega
  · have := C62_network_same n h hf
    rw [hp] at this; injection this

/-- The rows delivered by a dump of the text of `rs`. -/
theorem dumpLoop_packed {d : IpData} (hd : ScanOK d) {t : Traversal} (ht : t.fields = d.fields) {e : Option Exporter} {fm : List (Str × Str)}
    (hval : ∀ r ∈ d.ips, ∃ vs, rowValues e fm (record d.fields (r.values.map noCommas)) = .ok vs) :
    ∀ rs : List IpRaw, (∀ r ∈ rs, r ∈ d.ips) → ∃ out, dumpLoop t e fm (rs.map rowLine) = .ok out ∧
      Rel2 (fun r o => ReadBack r.cidr o.cidr ∧ rowValues e fm (record d.fields (r.values.map noCommas)) = .ok o.values) (untilEnd rs) out := by
  intro rs
  induction rs with
  | nil => intro _; exact ⟨[], rfl, .nil⟩
  | cons r rs ih =>
    intro h
    have hr := h r (by simp)
    obtain ⟨n', hp, he⟩ := parseLine_rowLine hd hr ht
    have hrb := readBack (hd.wf r hr) hp
    obtain ⟨vs, hvs⟩ := hval r hr
    obtain ⟨last, hlast, _⟩ := LastIP_spec hrb.wf.1
    have hiff := endsFamily_iff hrb.wf hrb.same hrb.v4.mpr hrb.v4.mp (hd.wf r hr).1.1 hlast
    simp only [List.map_cons, dumpLoop, he, Res.ok_bind, hvs, hlast, untilEnd]
    by_cases hend : EndsFamily r.cidr
    · rw [if_pos (hiff.mpr hend), if_pos hend]
      exact ⟨_, rfl, .cons ⟨hrb, hvs⟩ .nil⟩
    · rw [if_neg (fun h => hend (hiff.mp h)), if_neg hend]
      obtain ⟨out, h1, h2⟩ := ih (fun x hx => h x (by simp [hx]))
      rw [h1]
      exact ⟨_, rfl, .cons ⟨hrb, hvs⟩ h2⟩

/-- Dumping the text of some of the rows. -/
theorem dump_packed {dec : Str → Option (Option VersionInfo)} {ver now : Str} {v : VersionInfo} {d : IpData} (hd : ScanOK d)
    (hver : LineOK ver) (hnow : LineOK now) (hdec : dec ver = some (some v)) {rs : List IpRaw} (hrs : ∀ r ∈ rs, r ∈ d.ips)
    (e : Option Exporter) :
    ∃ out, dump dec (header ver now d.fields ++ unlines (rs.map rowLine)) e = .ok ⟨(e.map (·.fields)).getD d.fields, v, out⟩ ∧
      Rel2 (fun r o => ReadBack r.cidr o.cidr ∧ rowValues e (Select (fieldToMap d.fields) ((e.map (·.fields)).getD d.fields))
        (record d.fields (r.values.map noCommas)) = .ok o.values) (untilEnd rs) out := by
  have hval : ∀ r ∈ d.ips, ∃ vs, rowValues e (Select (fieldToMap d.fields) ((e.map (·.fields)).getD d.fields))
      (record d.fields (r.values.map noCommas)) = .ok vs := by
    intro r _
    cases e with
    | none => exact ⟨[], rfl⟩
    | some e =>
      simp only [rowValues, Option.map_some, Option.getD_some, Exporter.Export, remapKey_spec, Res.ok_bind, Res.pure_eq]
      exact ⟨_, rfl⟩
  obtain ⟨out, h1, h2⟩ := dumpLoop_packed hd (t := ⟨rs.map rowLine, d.fields, some v⟩) rfl hval rs hrs
  refine ⟨out, ?_, h2⟩
  unfold dump
  rw [newDumper_packed hd hver hnow hdec hrs]
  simp only [Res.ok_bind, Traversal.Dump]
  cases e with
  | none =>
    simp only [Option.map_none, Option.getD_none] at h1 ⊢
    rw [h1]; rfl
  | some e =>
    simp only [Option.map_some, Option.getD_some] at h1 ⊢
    rw [h1]; rfl

/-- The text a data set is packed to, and what packing does to the values in memory. -/
theorem pack_text {enc : VersionInfo → Str} {now : Str} {d : HData} (hw : d.WF) :
    ∃ d', pack enc now d = .ok (header (enc d.version) now d.fields ++ unlines (d.view.ips.map rowLine), d') ∧
      d'.rows = d.rows ∧ d'.fields = d.fields ∧ d'.version = d.version ∧ Partly d.heap d'.heap ∧
      ∀ r ∈ d.rows, d'.heap.read r.vals = (d.heap.read r.vals).map noCommas := by
  obtain ⟨h', h1, h2, h3, h4⟩ := packRows_spec d.heap d.rows d.heap (Partly.refl _) hw
  refine ⟨{ d with heap := h' }, ?_, rfl, rfl, rfl, h2, h4⟩
  unfold pack
  rw [h1]
  simp only [Res.ok_bind, Res.pure_eq]
  congr 4
  simp [HData.view, HData.rowView]

end Uip.Plain
