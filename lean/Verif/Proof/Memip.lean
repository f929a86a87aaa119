import Verif.Model.Memip
import Verif.Spec.Memip
import Verif.Proof.Merge
import Verif.Proof.Plain
import Verif.Proof.Export
import Verif.Props.Text
/-!
# The `.memip` text
-/
namespace Uip.Memip
open Uip Uip.Spec Uip.Operate Uip.Export Uip.Plain

/-! ## The view -/

theorem findFrom_eq (f : Str) (fs : List Str) : ∀ j, findFrom f j fs = (Offset f fs).map (· + j) := by
  induction fs with
  | nil => intro j; rfl
  | cons a fs ih =>
    intro j
    simp only [findFrom, Offset]
    by_cases h : f = a
    · rw [if_pos h, if_pos h.symm]; simp
    · rw [if_neg h, if_neg (Ne.symm h), ih]
      cases Offset f fs with
      | none => rfl
      | some k => simp only [Option.map_some]; congr 1; omega

theorem findFrom_zero (f : Str) (fs : List Str) : findFrom f 0 fs = Offset f fs := by
  rw [findFrom_eq]; cases Offset f fs <;> rfl

theorem valueOf_none {fs vs : List Str} {f : Str} (h : Offset f fs = none) : valueOf fs vs f = none := by
  unfold valueOf
  rw [Option.map_eq_none_iff, List.find?_eq_none]
  intro p hp
  have h1 := (List.of_mem_zip hp).1
  have : f ∉ fs := by
    intro hh
    have := Offset_isSome.mpr hh
    rw [h] at this; cases this
  simp only [decide_eq_true_eq]
  rintro rfl
  exact this h1

theorem continentName_eq (v : Str) : continentName v = spellContinent v := by
  unfold continentName spellContinent continentTable
  simp only [List.find?_cons, eq_comm (b := v)]
  by_cases h1 : v = gs "AS"
  · simp only [eq_true h1, if_true, if_false, decide_true, decide_false]
  by_cases h2 : v = gs "EU"
  · simp only [eq_false h1, eq_true h2, if_true, if_false, decide_true, decide_false]
  by_cases h3 : v = gs "NA"
  · simp only [eq_false h1, eq_false h2, eq_true h3, if_true, if_false, decide_true, decide_false]
  by_cases h4 : v = gs "SA"
  · simp only [eq_false h1, eq_false h2, eq_false h3, eq_true h4, if_true, if_false, decide_true, decide_false]
  by_cases h5 : v = gs "AF"
  · simp only [eq_false h1, eq_false h2, eq_false h3, eq_false h4, eq_true h5, if_true, if_false, decide_true, decide_false]
  by_cases h6 : v = gs "OC"
  · simp only [eq_false h1, eq_false h2, eq_false h3, eq_false h4, eq_false h5, eq_true h6, if_true, if_false, decide_true, decide_false]
  by_cases h7 : v = gs "AN"
  · simp only [eq_false h1, eq_false h2, eq_false h3, eq_false h4, eq_false h5, eq_false h6, eq_true h7, if_true, if_false, decide_true, decide_false]
  simp only [eq_false h1, eq_false h2, eq_false h3, eq_false h4, eq_false h5, eq_false h6, eq_false h7, if_false, decide_false, List.find?_nil]

theorem newValue_plain {fs vs : List Str} (hl : vs.length = fs.length) (f : Str) (i : Nat) (h3 : i ≠ 3) (h5 : i ≠ 5) :
    newValue vs i (Offset f fs) = .ok (shown fs vs f) := by
  unfold shown
  cases ho : Offset f fs with
  | none => rw [valueOf_none ho]; rfl
  | some k =>
    rw [valueOf_Offset ho hl]
    have hk : k < vs.length := by
      have := (Offset_getElem ho).1
      rw [hl]; exact (List.getElem?_eq_some_iff.mp this).1
    rw [List.getElem?_eq_getElem hk]
    simp only [newValue, List.getElem?_eq_getElem hk, if_neg h3, if_neg h5, List.isPrefixOf_iff_prefix, unknown]

theorem newValue_isp {fs vs : List Str} (hl : vs.length = fs.length) (f : Str) :
    newValue vs 3 (Offset f fs) = .ok (if shown fs vs f ∈ [gs "电信", gs "联通", gs "移动", unknown] then shown fs vs f else gs "其他") := by
  unfold shown
  cases ho : Offset f fs with
  | none => rw [valueOf_none ho]; simp [newValue, unknown]
  | some k =>
    rw [valueOf_Offset ho hl]
    have hk : k < vs.length := by
      have := (Offset_getElem ho).1
      rw [hl]; exact (List.getElem?_eq_some_iff.mp this).1
    rw [List.getElem?_eq_getElem hk]
    simp only [newValue, List.getElem?_eq_getElem hk, List.isPrefixOf_iff_prefix, unknown, if_true]
    rw [if_neg (by decide : ¬ (3 : Nat) = 5)]
    generalize vs[k] = u
    obtain ⟨w, hw⟩ : ∃ w, (if u = [] ∨ gs "保留" <+: u then gs "默认" else u) = w := ⟨_, rfl⟩
    simp only [hw]
    simp only [List.mem_cons, List.not_mem_nil, or_false]
    by_cases h : w = gs "电信" ∨ w = gs "联通" ∨ w = gs "移动" ∨ w = gs "默认"
    · rw [if_pos h, if_neg (by rintro ⟨h1, h2, h3, h4⟩; exact h.elim h1 (Or.elim · h2 (Or.elim · h3 h4)))]
    · rw [if_neg h, if_pos (by
        refine ⟨fun e => h (.inl e), fun e => h (.inr (.inl e)), fun e => h (.inr (.inr (.inl e))), fun e => h (.inr (.inr (.inr e)))⟩)]

theorem spell_unknown : spellContinent unknown = unknown := by decide +kernel

theorem newValue_continent {fs vs : List Str} (hl : vs.length = fs.length) (f : Str) :
    newValue vs 5 (Offset f fs) = .ok (spellContinent (shown fs vs f)) := by
  unfold shown
  cases ho : Offset f fs with
  | none => rw [valueOf_none ho]; simp only [spell_unknown]; rfl
  | some k =>
    rw [valueOf_Offset ho hl]
    have hk : k < vs.length := by
      have := (Offset_getElem ho).1
      rw [hl]; exact (List.getElem?_eq_some_iff.mp this).1
    rw [List.getElem?_eq_getElem hk]
    simp only [newValue, List.getElem?_eq_getElem hk, List.isPrefixOf_iff_prefix, unknown, if_true, continentName_eq]
    rw [if_neg (by decide : ¬ (5 : Nat) = 3)]

theorem hk_ne : ([] : Str) ≠ gs "香港" ∧ ([] : Str) ≠ gs "澳门" ∧ ([] : Str) ≠ gs "台湾" := by decide +kernel

theorem covert_spec {fs vs : List Str} (hl : vs.length = fs.length) :
    covertValues (fieldOffsets fs) vs = .ok (viewOf fs vs) := by
  unfold covertValues fieldOffsets fields
  simp only [List.map_cons, List.map_nil, findFrom_zero]
  simp only [covertLoop, newValue_plain hl _ 0 (by decide) (by decide), newValue_plain hl _ 1 (by decide) (by decide),
    newValue_plain hl _ 2 (by decide) (by decide), newValue_plain hl _ 4 (by decide) (by decide), Res.ok_bind, Nat.zero_add,
    Nat.reduceAdd, newValue_isp hl, newValue_continent hl]
  unfold viewOf
  simp only [show fCity = gs "city" from rfl, show fProvince = gs "province" from rfl, show fDistrict = gs "district" from rfl,
    show fISP = gs "isp" from rfl, show fCountry = gs "country" from rfl, show fContinent = gs "continent" from rfl]
  generalize shown fs vs (gs "city") = a
  generalize shown fs vs (gs "province") = b
  generalize shown fs vs (gs "district") = c
  generalize (if shown fs vs (gs "isp") ∈ [gs "电信", gs "联通", gs "移动", unknown] then shown fs vs (gs "isp") else gs "其他") = d
  generalize shown fs vs (gs "country") = e
  generalize spellContinent (shown fs vs (gs "continent")) = f
  obtain ⟨n1, n2, n3⟩ := hk_ne
  simp only [List.replicate, List.set, dropDistrict, List.getD_cons_succ, List.getD_cons_zero, n1, n2, n3, or_self, if_false,
    List.mem_cons, List.not_mem_nil, or_false, unknown]
  by_cases hb : b = gs "香港" ∨ b = gs "澳门" ∨ b = gs "台湾"
  · simp only [if_pos hb, List.set, List.getD_cons_succ, List.getD_cons_zero]
  · simp only [if_neg hb, List.set, List.getD_cons_succ, List.getD_cons_zero]

/-! ## Ranges and runs -/

/-- A range of the code and a run of the specification. -/
def IsRun (g : Range × List Str) (r : Run) : Prop :=
  R16 g.1 ∧ addrNum g.1.start = r.lo ∧ addrNum g.1.end_ + 1 = r.hi ∧ g.2 = r.view

theorem wrapSucc_16 {ip : IP} (h : ip.length = 16) : wrapSucc ip = (addrNum ip + 1) % 2 ^ 128 := by
  have hlt := addrNum_lt (ip := ip) (.inr h)
  unfold wrapSucc
  rw [addrNum_16 h] at hlt ⊢
  rw [h]
  by_cases hh : val ip + 1 < 256 ^ 16
  · rw [if_pos hh, Nat.mod_eq_of_lt (by have : (256 : Nat) ^ 16 = 2 ^ 128 := by decide
                                        omega)]
  · rw [if_neg hh, if_neg (by decide)]
    have : (256 : Nat) ^ 16 = 2 ^ 128 := by decide
    have : val ip + 1 = 2 ^ 128 := by omega
    rw [this, Nat.mod_self]

theorem rowRun_new {fs : List Str} {x : IpRaw} (hx : WFNet x.cidr) : ∃ nr, NewRange x.cidr = .ok nr ∧
    IsRun (nr, viewOf fs x.values) (rowRun fs x) := by
  obtain ⟨nr, h1, h2, h3, h4⟩ := newRange_spec hx
  exact ⟨nr, h1, h2, h3, h4, rfl⟩

theorem packLoop_runs {fs : List Str} : ∀ (ips : List IpRaw) (prev : Range × List Str) (cur : Run), IsRun prev cur →
    (∀ r ∈ ips, WFNet r.cidr) → (∀ r ∈ ips, r.values.length = fs.length) →
    ∃ gs, packLoop (fieldOffsets fs) prev ips = .ok gs ∧ Rel2 IsRun gs (joinRuns cur (ips.map (rowRun fs))) := by
  intro ips
  induction ips with
  | nil => intro prev cur h _ _; exact ⟨[prev], rfl, .cons h .nil⟩
  | cons ip ips ih =>
    intro prev cur h hw hl
    have hip := hw ip (by simp)
    have hw' : ∀ r ∈ ips, WFNet r.cidr := fun r hr => hw r (by simp [hr])
    have hl' : ∀ r ∈ ips, r.values.length = fs.length := fun r hr => hl r (by simp [hr])
    obtain ⟨nr, hnr, hrun⟩ := rowRun_new (fs := fs) hip
    obtain ⟨gs1, e1, k1⟩ := ih _ _ hrun hw' hl'
    obtain ⟨h16, hlo, hhi, hv⟩ := h
    have htk : cur.takes (rowRun fs ip) ↔ prev.2.drop 1 = (viewOf fs ip.values).drop 1 ∧ Joins prev.1 (netLo ip.cidr) := by
      unfold Run.takes Joins rowRun
      simp only [hv, wrapSucc_16 h16.2.1, hlo, hhi, List.drop_one]
    simp only [packLoop, covert_spec (hl ip (by simp)), Res.ok_bind, List.map_cons, joinRuns]
    by_cases ht : prev.2.drop 1 = (viewOf fs ip.values).drop 1
    · rw [if_pos ht]
      rcases join_spec h16 hip with ⟨hj, r', e, hr16, hs, he, _⟩ | ⟨hnj, e⟩
      · rw [if_pos (htk.mpr ⟨ht, hj⟩)]
        simp only [e, Res.ok_bind, if_true]
        refine ih (r', prev.2) _ ⟨hr16, by rw [hs]; exact hlo, ?_, hv⟩ hw' hl'
        simp only [he, hhi, rowRun]
      · rw [if_neg (fun hh => hnj (htk.mp hh).2)]
        simp only [e, Res.ok_bind, hnr, e1, Res.pure_eq]
        exact ⟨prev :: gs1, by simp, .cons ⟨h16, hlo, hhi, hv⟩ k1⟩
    · rw [if_neg ht, if_neg (fun hh => ht (htk.mp hh).1)]
      simp only [hnr, e1, Res.ok_bind, Res.pure_eq]
      exact ⟨prev :: gs1, rfl, .cons ⟨h16, hlo, hhi, hv⟩ k1⟩

/-- What every run has of its rows. -/
theorem joinRuns_mem : ∀ (rs : List Run) (cur : Run), ∀ r ∈ joinRuns cur rs,
    (∃ a ∈ cur :: rs, r.lo = a.lo ∧ r.view = a.view) ∧ (∃ b ∈ cur :: rs, r.hi = b.hi) := by
  intro rs
  induction rs with
  | nil => intro cur r hr; simp only [joinRuns, List.mem_singleton] at hr; subst hr; exact ⟨⟨r, by simp, rfl, rfl⟩, ⟨r, by simp, rfl⟩⟩
  | cons x rs ih =>
    intro cur r hr
    simp only [joinRuns] at hr
    split at hr
    · obtain ⟨⟨a, ha, h1, h2⟩, b, hb, h3⟩ := ih _ r hr
      constructor
      · rcases List.mem_cons.mp ha with rfl | ha
        · exact ⟨cur, by simp, h1, h2⟩
        · exact ⟨a, by simp [ha], h1, h2⟩
      · rcases List.mem_cons.mp hb with rfl | hb
        · simp only [] at h3
          by_cases hm : cur.hi ≤ x.hi
          · exact ⟨x, by simp, by rw [h3]; omega⟩
          · exact ⟨cur, by simp, by rw [h3]; omega⟩
        · exact ⟨b, by simp [hb], h3⟩
    · rcases List.mem_cons.mp hr with rfl | hr
      · exact ⟨⟨r, by simp, rfl, rfl⟩, ⟨r, by simp, rfl⟩⟩
      · obtain ⟨⟨a, ha, h1⟩, b, hb, h3⟩ := ih _ r hr
        exact ⟨⟨a, List.mem_cons_of_mem _ ha, h1⟩, b, List.mem_cons_of_mem _ hb, h3⟩

theorem runsOf_mem {d : IpData} {r : Run} (hr : r ∈ runsOf d) :
    (∃ x ∈ d.ips, r.lo = netLo x.cidr ∧ r.view = viewOf d.fields x.values) ∧ (∃ y ∈ d.ips, r.hi = netEnd y.cidr) := by
  unfold runsOf at hr
  cases hd : d.ips with
  | nil => rw [hd] at hr; cases hr
  | cons x xs =>
    rw [hd] at hr
    obtain ⟨⟨a, ha, h1, h2⟩, b, hb, h3⟩ := joinRuns_mem _ _ r hr
    rw [← List.map_cons (f := rowRun d.fields)] at ha hb
    obtain ⟨a', ha', rfl⟩ := List.mem_map.mp ha
    obtain ⟨b', hb', rfl⟩ := List.mem_map.mp hb
    exact ⟨⟨a', ha', h1, h2⟩, b', hb', h3⟩

theorem pack_runs {d : IpData} (hd : MemOK d) : ∃ gs, Rel2 IsRun gs (runsOf d) ∧
    pack d = rangeLines d.version.IsIpV4 gs := by
  unfold pack packRanges runsOf
  cases hi : d.ips with
  | nil => exact absurd hi hd.ne
  | cons x xs =>
    have hw : ∀ r ∈ x :: xs, WFNet r.cidr := by rw [← hi]; exact hd.wf
    have hl : ∀ r ∈ x :: xs, r.values.length = d.fields.length := by rw [← hi]; exact hd.len
    obtain ⟨nr, hnr, hrun⟩ := rowRun_new (fs := d.fields) (hw x (by simp))
    obtain ⟨gs, e, k⟩ := packLoop_runs xs _ _ hrun (fun r hr => hw r (by simp [hr])) (fun r hr => hl r (by simp [hr]))
    refine ⟨gs, k, ?_⟩
    simp only [covert_spec (hl x (by simp)), hnr, Res.ok_bind, e]

/-! ## The values of a view -/

theorem avoid_lits : Avoids [0x20, 0x2D, 0x0A, 0x0D] unknown ∧ Avoids [0x20, 0x2D, 0x0A, 0x0D] (gs "其他") ∧
    ∀ p ∈ continentTable, Avoids [0x20, 0x2D, 0x0A, 0x0D] p.2 := by decide +kernel

/-- The carrier is only shown when it is one of the listed ones, the other fields as they are. -/
theorem viewOf_avoids {fs vs : List Str}
    (h : ∀ p ∈ fs.zip vs, p.1 ∈ [gs "city", gs "province", gs "district", gs "country", gs "continent"] →
      Avoids [0x20, 0x2D, 0x0A, 0x0D] p.2) :
    ∀ v ∈ viewOf fs vs, Avoids [0x20, 0x2D, 0x0A, 0x0D] v := by
  obtain ⟨l1, l2, l3⟩ := avoid_lits
  have hs : ∀ f, f ∈ [gs "city", gs "province", gs "district", gs "country", gs "continent"] →
      Avoids [0x20, 0x2D, 0x0A, 0x0D] (shown fs vs f) := by
    intro f hf
    unfold shown
    cases hv : valueOf fs vs f with
    | none => exact l1
    | some v =>
      simp only []
      split
      · exact l1
      · unfold valueOf at hv
        rw [Option.map_eq_some_iff] at hv
        obtain ⟨p, hp, rfl⟩ := hv
        have hk := List.find?_some hp
        simp only [decide_eq_true_eq] at hk
        exact h _ (List.mem_of_find?_eq_some hp) (by rw [hk]; exact hf)
  have hcarrier : ∀ v ∈ [gs "电信", gs "联通", gs "移动", unknown], Avoids [0x20, 0x2D, 0x0A, 0x0D] v := by decide +kernel
  have hc : ∀ v, Avoids [0x20, 0x2D, 0x0A, 0x0D] v → Avoids [0x20, 0x2D, 0x0A, 0x0D] (spellContinent v) := by
    intro v hv
    unfold spellContinent
    cases hf : continentTable.find? (fun p => decide (p.1 = v)) with
    | none => exact hv
    | some p => exact l3 p (List.mem_of_find?_eq_some hf)
  intro v hv
  unfold viewOf at hv
  simp only [List.mem_cons, List.not_mem_nil, or_false] at hv
  rcases hv with rfl | rfl | rfl | rfl | rfl | rfl
  · exact hs _ (by simp)
  · exact hs _ (by simp)
  · split
    · exact l1
    · exact hs _ (by simp)
  · split
    · rename_i hm; exact hcarrier _ (by simp only [List.mem_cons, List.not_mem_nil, or_false]; exact hm)
    · exact l2
  · exact hs _ (by simp)
  · exact hc _ (hs _ (by simp))

theorem viewOf_length (fs vs : List Str) : (viewOf fs vs).length = 6 := rfl

/-! ## Lengths of numbers -/

theorem digitsAux_length {b : Nat} (hb : 2 ≤ b) : ∀ (k f n : Nat), n < b ^ (k + 1) → (digitsAux b f n).length ≤ k + 1 := by
  intro k
  induction k with
  | zero =>
    intro f n h
    cases f with
    | zero => simp [digitsAux]
    | succ f => rw [digitsAux, if_pos (by simpa using h)]; simp
  | succ k ih =>
    intro f n h
    cases f with
    | zero => simp [digitsAux]
    | succ f =>
      rw [digitsAux]
      split
      · simp
      · have : n / b < b ^ (k + 1) := by
          rw [Nat.div_lt_iff_lt_mul (by omega)]
          rw [Nat.pow_succ] at h; exact h
        have := ih f (n / b) this
        simp; omega

theorem decStr_short {n : Nat} (h : n < 2 ^ 32) : (decStr n).length ≤ 10 := by
  unfold decStr digits
  rw [List.length_map]
  exact digitsAux_length (by omega) 9 _ _ (by omega)

theorem hexStr_short {n : Nat} (h : n < 65536) : (hexStr n).length ≤ 4 := by
  unfold hexStr digits
  rw [List.length_map]
  exact digitsAux_length (by omega) 3 _ _ (by omega)

theorem v6Print_short {ws : List Nat} (hw : ∀ w ∈ ws, w < 65536) (e : Option (Nat × Nat)) : ∀ f i, (v6Print ws e f i).length ≤ 6 * f := by
  have hx : ∀ j, (hexStr (ws.getD j 0)).length ≤ 4 := by
    intro j
    apply hexStr_short
    rw [List.getD_eq_getElem?_getD]
    cases h : ws[j]? with
    | none => simp
    | some w => exact hw w (List.mem_of_getElem? h)
  intro f
  induction f with
  | zero => intro i; simp [v6Print]
  | succ f ih =>
    intro i
    by_cases h8 : 8 ≤ i
    · cases e with
      | none => rw [v6Print, if_pos h8]; simp
      | some p => rw [v6Print, if_pos h8]; simp
    · cases e with
      | none =>
        have h1 := hx i; have h2 := ih (i + 1)
        rw [v6Print, if_neg h8]
        simp only [List.length_append]
        split <;> simp only [List.length_cons, List.length_nil] <;> omega
      | some p =>
        obtain ⟨e0, e1⟩ := p
        have h1 := hx i; have h2 := ih (i + 1); have h3 := hx e1; have h4 := ih (e1 + 1)
        rw [v6Print, if_neg h8]
        split
        · split
          · simp only [List.length_cons, List.length_nil]; omega
          · simp only [List.length_cons, List.length_append]; omega
        · simp only [List.length_append]
          split <;> simp only [List.length_cons, List.length_nil] <;> omega

theorem IPString_short {ip : IP} (h : ip.length = 16) (h4 : To4 ip = none) : (IPString ip).length ≤ 48 := by
  unfold IPString
  rw [if_neg (by omega), h4]
  simp only []
  rw [if_neg (by omega)]
  exact v6Print_short (words_bytes 8 ip (by omega)).2.2 _ 8 0

/-! ## One line -/

/-- The line of a run (without newline) and what is read from it. -/
structure LineOf (v4 : Bool) (g : Range × List Str) (l : Str) : Prop where
  written : rangeLine v4 g = .ok (l ++ [0x0A])
  read : parseLine l = .ok (some g.1, g.2)
  nl : (0x0A : UInt8) ∉ l
  cr : l.getLast? ≠ some 0x0D
  short : l.length < 65536
  v6 : v4 = false → (0x3A : UInt8) ∈ l
  v4 : v4 = true → (∀ v ∈ g.2, (0x3A : UInt8) ∉ v) → (0x3A : UInt8) ∉ l

theorem line_parts {a b : Str} {view : List Str} (ha : (0x20 : UInt8) ∉ a) (hb : (0x20 : UInt8) ∉ b)
    (hv : ∀ v ∈ view, Avoids [0x20, 0x2D, 0x0A, 0x0D] v) (hne : view ≠ []) :
    splitByte 0x20 (a ++ 0x20 :: (b ++ 0x20 :: joinByte 0x2D view)) = [a, b, joinByte 0x2D view] ∧
    splitByte 0x2D (joinByte 0x2D view) = view := by
  constructor
  · rw [splitByte_append ha, splitByte_append hb, splitByte_noSep]
    intro h
    rcases mem_joinByte h with h | ⟨s, hs, h⟩
    · exact absurd h (by decide)
    · exact hv s hs _ h (by decide)
  · exact splitByte_joinByte hne (fun s hs h => hv s hs _ h (by decide))

theorem line_clean {a b : Str} {view : List Str} {c : UInt8} (ha : c ∉ a) (hb : c ∉ b) (hc : c ≠ 0x20) (hc2 : c ≠ 0x2D)
    (hv : ∀ v ∈ view, c ∉ v) : c ∉ a ++ 0x20 :: (b ++ 0x20 :: joinByte 0x2D view) := by
  intro h
  simp only [List.mem_append, List.mem_cons] at h
  rcases h with h | h | h | h | h
  · exact ha h
  · exact hc h
  · exact hb h
  · exact hc h
  · rcases mem_joinByte h with h | ⟨s, hs, h⟩
    · exact hc2 h
    · exact hv s hs h

theorem line_length {a b : Str} {view : List Str} (ha : a.length ≤ 48) (hb : b.length ≤ 48)
    (hv : (joinByte 0x2D view).length + 100 < 65536) : (a ++ 0x20 :: (b ++ 0x20 :: joinByte 0x2D view)).length < 65536 := by
  simp only [List.length_append, List.length_cons]; omega

theorem mem_ne_last {l : Str} {c : UInt8} (h : c ∉ l) : l.getLast? ≠ some c := fun hh => h (List.mem_of_getLast? hh)

/-- IPv4 lines. -/
theorem line_v4 {g : Range × List Str} {r : Run} (h : IsRun g r) (hlo : v4Lo ≤ r.lo) (hhi : r.hi ≤ v4End)
    (hv : ∀ v ∈ g.2, Avoids [0x20, 0x2D, 0x0A, 0x0D] v) (hne : g.2 ≠ [])
    (hs : (joinByte 0x2D g.2).length + 100 < 65536) : ∃ l, LineOf true g l := by
  obtain ⟨⟨l1, l2, hle⟩, h1, h2, h3⟩ := h
  have four : ∀ ip : IP, ip.length = 16 → v4Lo ≤ addrNum ip → addrNum ip < v4End →
      ∃ x, IPv4ToUint32 ip = .ok x ∧ Uint32ToIPv4 x = ip := by
    intro ip hl ha hb
    have : (To4 ip).isSome := (To4_isSome_iff (.inr hl)).mpr (by unfold v4Lo at ha; unfold v4End at hb; omega)
    obtain ⟨p, hp⟩ := Option.isSome_iff_exists.mp this
    obtain ⟨x, e1, _, _, e2⟩ := C01_ipv4_roundtrip ip p hp
    rw [To16_16 hl] at e2
    injection e2 with e2
    exact ⟨x, e1, e2.symm⟩
  obtain ⟨x, ex, hx⟩ := four g.1.start l1 (by omega) (by omega)
  obtain ⟨y, ey, hy⟩ := four g.1.end_ l2 (by omega) (by omega)
  have nochar : ∀ (n : Nat) (c : UInt8), ¬ (0x30 ≤ c ∧ c ≤ 0x39) → c ∉ decStr n := fun n c hc h => hc (digitChar_dec_mem h)
  obtain ⟨hp1, hp2⟩ := line_parts (nochar x.toNat 0x20 (by decide)) (nochar y.toNat 0x20 (by decide)) hv hne
  have hxl := x.toNat_lt
  have hyl := y.toNat_lt
  have hcr := line_clean (nochar x.toNat 0x0D (by decide)) (nochar y.toNat 0x0D (by decide)) (by decide) (by decide)
    (fun v h hh => hv v h _ hh (by decide))
  refine ⟨_, ?_, ?_, ?_, mem_ne_last hcr, ?_, (by intro h; cases h), fun _ hcol => ?_⟩
  · simp only [rangeLine, if_true, ex, ey, Res.ok_bind, Res.pure_eq]
  · unfold parseLine
    rw [hp1]
    simp only [hp2]
    rw [if_neg (by
      rw [List.contains_iff_mem]
      exact nochar x.toNat 0x3A (by decide))]
    unfold parseV4Range
    rw [ParseUint32_decStr (by omega), ParseUint32_decStr (by omega)]
    simp only [UInt32.ofNat_toNat, hx, hy]
  · exact line_clean (nochar x.toNat 0x0A (by decide)) (nochar y.toNat 0x0A (by decide)) (by decide) (by decide)
      (fun v h hh => hv v h _ hh (by decide))
  · refine line_length ?_ ?_ hs
    · have := decStr_short (n := x.toNat) (by omega); omega
    · have := decStr_short (n := y.toNat) (by omega); omega
  · exact line_clean (nochar x.toNat 0x3A (by decide)) (nochar y.toNat 0x3A (by decide)) (by decide) (by decide) hcol

/-- IPv6 lines. -/
theorem line_v6 {g : Range × List Str} {r : Run} (h : IsRun g r) (hlo : r.lo < v4Lo ∨ v4End ≤ r.lo) (hhi : r.hi ≤ v4Lo ∨ v4End < r.hi)
    (hv : ∀ v ∈ g.2, Avoids [0x20, 0x2D, 0x0A, 0x0D] v) (hne : g.2 ≠ [])
    (hs : (joinByte 0x2D g.2).length + 100 < 65536) : ∃ l, LineOf false g l := by
  obtain ⟨⟨l1, l2, hle⟩, h1, h2, h3⟩ := h
  have six : ∀ ip : IP, ip.length = 16 → (addrNum ip < v4Lo ∨ v4End ≤ addrNum ip) → To4 ip = none := by
    intro ip hl ha
    rw [← Option.not_isSome_iff_eq_none, To4_isSome_iff (.inr hl)]
    unfold v4Lo v4End at ha; omega
  have s1 := six g.1.start l1 (by omega)
  have s2 := six g.1.end_ l2 (by omega)
  obtain ⟨p1, c1, k1⟩ := parse6_print g.1.start l1 s1
  obtain ⟨p2, c2, k2⟩ := parse6_print g.1.end_ l2 s2
  have a1 := C62_address g.1.start (.inr l1)
  have a2 := C62_address g.1.end_ (.inr l2)
  rw [To16_16 l1] at a1
  rw [To16_16 l2] at a2
  have n1 : ∀ c : UInt8, c ≠ 0x3A → hexVal c = none → c ∉ IPString g.1.start := by
    intro c hc hh hm
    rcases k1 c hm with h | h
    · exact hc h
    · rw [hh] at h; cases h
  have n2 : ∀ c : UInt8, c ≠ 0x3A → hexVal c = none → c ∉ IPString g.1.end_ := by
    intro c hc hh hm
    rcases k2 c hm with h | h
    · exact hc h
    · rw [hh] at h; cases h
  obtain ⟨hp1, hp2⟩ := line_parts (n1 0x20 (by decide) (by decide)) (n2 0x20 (by decide) (by decide)) hv hne
  have hcr := line_clean (n1 0x0D (by decide) (by decide)) (n2 0x0D (by decide) (by decide)) (by decide) (by decide)
    (fun v h hh => hv v h _ hh (by decide))
  refine ⟨_, ?_, ?_, ?_, mem_ne_last hcr, ?_, fun _ => ?_, (by intro h; cases h)⟩
  · simp only [rangeLine, Bool.false_eq_true, if_false]
  · unfold parseLine
    rw [hp1]
    simp only [hp2]
    rw [if_pos (by rw [List.contains_iff_mem]; exact c1)]
    unfold parseV6Range
    rw [a1, a2]
  · exact line_clean (n1 0x0A (by decide) (by decide)) (n2 0x0A (by decide) (by decide)) (by decide) (by decide)
      (fun v h hh => hv v h _ hh (by decide))
  · exact line_length (IPString_short l1 s1) (IPString_short l2 s2) hs
  · rw [List.mem_append]; exact .inl c1

/-! ## The whole text -/

theorem rangeLines_spec {v4 : Bool} : ∀ {gs : List (Range × List Str)} {ls : List Str}, Rel2 (LineOf v4) gs ls →
    rangeLines v4 gs = .ok (unlines ls) := by
  intro gs ls h
  induction h with
  | nil => rfl
  | cons hl _ ih =>
    simp only [rangeLines, hl.written, ih, Res.ok_bind, Res.pure_eq]
    simp [unlines]

theorem readRows_spec {v4 : Bool} : ∀ {gs : List (Range × List Str)} {ls : List Str}, Rel2 (LineOf v4) gs ls →
    (∀ i g, gs[i]? = some g → i + 1 < gs.length → IsAllMask g.1.end_ = false) → readRows ls = .ok gs := by
  intro gs ls h
  induction h with
  | nil => intro _; rfl
  | @cons g l gs ls hl hr ih =>
    intro hend
    have hrest := ih (fun i x hx hlt => hend (i + 1) x (by simpa using hx) (by simpa using hlt))
    simp only [readRows, hl.read, Res.ok_bind]
    split
    · rename_i hm
      cases gs with
      | nil => rfl
      | cons g' gs =>
        rw [hend 0 g rfl (by simp)] at hm; cases hm
    · rw [hrest]; rfl

theorem firstRun_cons (r : Run) (rs : List Run) (x : Nat) :
    firstRun (r :: rs) x = if r.lo ≤ x ∧ x < r.hi then some r.view else firstRun rs x := by
  unfold firstRun
  rw [List.find?_cons]
  by_cases h : r.lo ≤ x ∧ x < r.hi <;> simp [h]

theorem firstRun_append (l1 l2 : List Run) (x : Nat) : firstRun (l1 ++ l2) x = (firstRun l1 x).or (firstRun l2 x) := by
  induction l1 with
  | nil => simp [firstRun]
  | cons r l ih =>
    rw [List.cons_append, firstRun_cons, firstRun_cons, ih]
    split <;> simp

theorem lastRun_cons (r : Run) (rs : List Run) (x : Nat) :
    lastRun (r :: rs) x = (lastRun rs x).or (if r.lo ≤ x ∧ x < r.hi then some r.view else none) := by
  unfold lastRun
  rw [List.reverse_cons, firstRun_append, firstRun_cons]
  rfl

theorem splitRows_spec : ∀ {gs : List (Range × List Str)} {rs : List Run}, Rel2 IsRun gs rs →
    ∃ out, splitRows gs = .ok out ∧ (∀ o ∈ out, WFNet o.cidr ∧ o.cidr.ip.length = 16) ∧
      (∀ o ∈ out, ∃ r ∈ rs, o.values = r.view ∧ r.lo ≤ netLo o.cidr ∧ netEnd o.cidr ≤ r.hi) ∧
      (∀ x, firstMatch out x = firstRun rs x) ∧ (∀ x, lastMatch out x = lastRun rs x) := by
  intro gs rs h
  induction h with
  | nil => exact ⟨[], rfl, by simp, by simp, fun _ => rfl, fun _ => rfl⟩
  | @cons g r gs rs hg _ ih =>
    obtain ⟨out, e, k1, k2, k3, k4⟩ := ih
    obtain ⟨h16, h1, h2, h3⟩ := hg
    obtain ⟨blocks, e1, hb, ht⟩ := ipNets_blocks h16
    rw [h1, h2] at ht
    refine ⟨blocks.map (fun sub => ⟨sub, g.2⟩) ++ out, by simp [splitRows, e1, e], ?_, ?_, fun x => ?_, fun x => ?_⟩
    · intro o ho
      rcases List.mem_append.mp ho with ho | ho
      · obtain ⟨n, hn, rfl⟩ := List.mem_map.mp ho; exact hb n hn
      · exact k1 o ho
    · intro o ho
      rcases List.mem_append.mp ho with ho | ho
      · obtain ⟨n, hn, rfl⟩ := List.mem_map.mp ho
        refine ⟨r, by simp, h3, ?_⟩
        have hc := (tiles_covers ht).2
        have hlt := netLo_lt (n := n)
        have c1 := (hc (netLo n)).mp ⟨n, hn, Nat.le_refl _, hlt⟩
        have c2 := (hc (netEnd n - 1)).mp ⟨n, hn, by omega, by omega⟩
        simp only []
        omega
      · obtain ⟨r', hr', hh⟩ := k2 o ho; exact ⟨r', by simp [hr'], hh⟩
    · rw [firstMatch_append, firstMatch_blocks ht, k3, firstRun_cons, h3]
      split <;> simp
    · rw [lastMatch_append, lastMatch_blocks ht, k4, lastRun_cons, h3]

theorem unlines_ne {l : Str} {ls : List Str} : unlines (l :: ls) ≠ [] := by simp [unlines]

/-- Writing and reading back. -/
theorem roundtrip {d : IpData} (hd : MemOK d) {v4 : Bool} (hver : d.version.IsIpV4 = v4)
    (hline : ∀ (g : Range × List Str) (r : Run), r ∈ runsOf d → IsRun g r → ∃ l, LineOf v4 g l)
    (hend : ∀ (i : Nat) (r : Run), (runsOf d)[i]? = some r → i + 1 < (runsOf d).length → r.hi ≠ 2 ^ 128) (build : Int) (day : Str) :
    ∃ text out t, pack d = .ok text ∧
      dump build day text = .ok ⟨fields, ⟨t, UInt32.ofNat out.length, build, day, [], []⟩, out⟩ ∧
      (v4 = false → t = IpV6) ∧
      (v4 = true → (∀ r, (runsOf d).head? = some r → ∀ v ∈ r.view, (0x3A : UInt8) ∉ v) → t = IpV4) ∧
      (∀ o ∈ out, WFNet o.cidr ∧ o.cidr.ip.length = 16) ∧
      (∀ o ∈ out, ∃ r ∈ runsOf d, o.values = r.view ∧ r.lo ≤ netLo o.cidr ∧ netEnd o.cidr ≤ r.hi) ∧
      (∀ x, firstMatch out x = firstRun (runsOf d) x) ∧ (∀ x, lastMatch out x = lastRun (runsOf d) x) := by
  obtain ⟨gs, hrel, hp⟩ := pack_runs hd
  have hls : ∃ ls, Rel2 (LineOf v4) gs ls := by
    have : ∀ {gs : List (Range × List Str)} {rs : List Run}, Rel2 IsRun gs rs → (∀ r ∈ rs, r ∈ runsOf d) → ∃ ls, Rel2 (LineOf v4) gs ls := by
      intro gs rs h
      induction h with
      | nil => intro _; exact ⟨[], .nil⟩
      | cons hg _ ih =>
        intro hm
        obtain ⟨l, hl⟩ := hline _ _ (hm _ (by simp)) hg
        obtain ⟨ls, hls⟩ := ih (fun r hr => hm r (by simp [hr]))
        exact ⟨l :: ls, .cons hl hls⟩
    exact this hrel (fun r hr => hr)
  obtain ⟨ls, hls⟩ := hls
  obtain ⟨out, e, k1, k2, k3, k4⟩ := splitRows_spec hrel
  have hread : readRows ls = .ok gs := by
    apply readRows_spec hls
    intro i g hg hlt
    have hlen := hrel.length
    obtain ⟨r, hr⟩ : ∃ r, (runsOf d)[i]? = some r :=
      ⟨_, List.getElem?_eq_getElem (by omega)⟩
    have hrun := hrel.get hg hr
    have := hend i r hr (by omega)
    obtain ⟨⟨_, l2, _⟩, _, h2, _⟩ := hrun
    cases hm : IsAllMask g.1.end_ with
    | false => rfl
    | true =>
      exfalso
      rw [IsAllMask_iff, l2] at hm
      rw [addrNum_16 l2] at h2
      apply this
      rw [← h2, hm]
  have hscan : scanLines (unlines ls) = (ls, false) := by
    apply scan_unlines
    intro l hl
    obtain ⟨g, _, hg⟩ := hls.exists_of_mem hl
    exact ⟨hg.nl, hg.cr, hg.short⟩
  cases gs with
  | nil =>
    exfalso
    cases hi : runsOf d with
    | nil =>
      unfold runsOf at hi
      cases hx : d.ips with
      | nil => exact hd.ne hx
      | cons x xs =>
        rw [hx] at hi
        simp only [] at hi
        have : ∀ (rs : List Run) cur, joinRuns cur rs ≠ [] := by
          intro rs
          induction rs with
          | nil => intro cur; simp [joinRuns]
          | cons r rs ih => intro cur; rw [joinRuns]; split; exact ih _; simp
        exact this _ _ hi
    | cons r rs => have := hrel.length; rw [hi] at this; simp at this
  | cons g gs =>
    cases hls with
    | @cons _ l _ ls hl hrest =>
      refine ⟨unlines (l :: ls), out, if l.contains 0x3A then IpV6 else IpV4, ?_, ?_, ?_, ?_, k1, k2, k3, k4⟩
      · rw [hp, hver]
        exact rangeLines_spec (.cons hl hrest)
      · unfold dump
        simp only [hscan, hread, e, Res.ok_bind, ipVer, Res.pure_eq]
      · intro h
        rw [if_pos (by rw [List.contains_iff_mem]; exact hl.v6 h)]
      · intro h hh
        rw [if_neg]
        rw [List.contains_iff_mem]
        apply hl.v4 h
        cases hi : runsOf d with
        | nil => have := hrel.length; rw [hi] at this; simp at this
        | cons r rs =>
          rw [hi] at hrel hh
          cases hrel with
          | cons hg _ =>
            rw [hg.2.2.2]
            exact hh r rfl

/-! ## Runs and rows -/

theorem takes_union {cur r : Run} (h : cur.takes r) (x : Nat) :
    (cur.lo ≤ x ∧ x < max cur.hi r.hi) ↔ (cur.lo ≤ x ∧ x < cur.hi) ∨ (r.lo ≤ x ∧ x < r.hi) := by
  obtain ⟨_, h2, h3⟩ := h
  have : cur.hi % 2 ^ 128 ≤ cur.hi := Nat.mod_le _ _
  omega

theorem firstRun_join (f : List Str → List Str) (hf : ∀ a b : List Str, a.tail = b.tail → f a = f b) (x : Nat) :
    ∀ (rs : List Run) (cur : Run), (firstRun (joinRuns cur rs) x).map f = (firstRun (cur :: rs) x).map f := by
  intro rs
  induction rs with
  | nil => intro cur; rfl
  | cons r rs ih =>
    intro cur
    rw [joinRuns]
    split
    · rename_i ht
      rw [ih, firstRun_cons, firstRun_cons, firstRun_cons]
      simp only [takes_union ht]
      by_cases h1 : cur.lo ≤ x ∧ x < cur.hi
      · simp [h1]
      · by_cases h2 : r.lo ≤ x ∧ x < r.hi
        · simp only [h1, h2, or_true, and_self, if_true, if_false, Option.map_some]
          rw [hf _ _ ht.1]
        · simp only [h1, h2, or_self, if_false]
    · rw [firstRun_cons, firstRun_cons]
      by_cases h1 : cur.lo ≤ x ∧ x < cur.hi
      · simp [h1]
      · simp only [h1, if_false, ih]

theorem lastRun_join (f : List Str → List Str) (hf : ∀ a b : List Str, a.tail = b.tail → f a = f b) (x : Nat) :
    ∀ (rs : List Run) (cur : Run), (lastRun (joinRuns cur rs) x).map f = (lastRun (cur :: rs) x).map f := by
  intro rs
  induction rs with
  | nil => intro cur; rfl
  | cons r rs ih =>
    intro cur
    rw [joinRuns]
    split
    · rename_i ht
      rw [ih, lastRun_cons, lastRun_cons, lastRun_cons]
      simp only [takes_union ht]
      cases lastRun rs x with
      | some v => simp
      | none =>
        simp only [Option.none_or]
        by_cases h1 : cur.lo ≤ x ∧ x < cur.hi
        · by_cases h2 : r.lo ≤ x ∧ x < r.hi
          · simp only [h1, h2, or_true, and_self, if_true, Option.map_some, Option.some_or]
            rw [hf _ _ ht.1]
          · simp only [h1, h2, or_false, and_self, if_true, if_false, Option.none_or]
        · by_cases h2 : r.lo ≤ x ∧ x < r.hi
          · simp only [h1, h2, or_true, and_self, if_true, if_false, Option.map_some, Option.some_or]
            rw [hf _ _ ht.1]
          · simp only [h1, h2, or_self, if_false, Option.none_or]
    · rw [lastRun_cons, lastRun_cons, Option.map_or, ih, ← Option.map_or]

/-- The runs of rows that are not joined. -/
theorem firstRun_rows (fs : List Str) (x : Nat) (ips : List IpRaw) : firstRun (ips.map (rowRun fs)) x =
    (firstMatch ips x).map (viewOf fs) := by
  induction ips with
  | nil => rfl
  | cons r rs ih =>
    rw [List.map_cons, firstRun_cons, firstMatch_cons, ih]
    by_cases h : Covers r.cidr x
    · rw [if_pos h, if_pos (show (rowRun fs r).lo ≤ x ∧ x < (rowRun fs r).hi from h)]; rfl
    · rw [if_neg h, if_neg (show ¬ ((rowRun fs r).lo ≤ x ∧ x < (rowRun fs r).hi) from h)]

theorem lastRun_rows (fs : List Str) (x : Nat) (ips : List IpRaw) : lastRun (ips.map (rowRun fs)) x =
    (lastMatch ips x).map (viewOf fs) := by
  unfold lastRun lastMatch
  rw [← List.map_reverse, firstRun_rows]

theorem runs_first (d : IpData) (f : List Str → List Str) (hf : ∀ a b : List Str, a.tail = b.tail → f a = f b) (x : Nat) :
    (firstRun (runsOf d) x).map f = ((firstMatch d.ips x).map (viewOf d.fields)).map f := by
  rw [← firstRun_rows]
  unfold runsOf
  cases d.ips with
  | nil => rfl
  | cons r rs => exact firstRun_join f hf x _ _

theorem runs_last (d : IpData) (f : List Str → List Str) (hf : ∀ a b : List Str, a.tail = b.tail → f a = f b) (x : Nat) :
    (lastRun (runsOf d) x).map f = ((lastMatch d.ips x).map (viewOf d.fields)).map f := by
  rw [← lastRun_rows]
  unfold runsOf
  cases d.ips with
  | nil => rfl
  | cons r rs => exact lastRun_join f hf x _ _

theorem joinRuns_ne : ∀ (rs : List Run) (cur : Run), joinRuns cur rs ≠ [] := by
  intro rs
  induction rs with
  | nil => intro cur; simp [joinRuns]
  | cons r rs ih =>
    intro cur; rw [joinRuns]; split
    · exact ih _
    · simp

theorem joinRuns_top (T : Nat) : ∀ (rs : List Run) (cur : Run), (∀ r ∈ (cur :: rs).dropLast, r.hi ≠ T) →
    ∀ r ∈ (joinRuns cur rs).dropLast, r.hi ≠ T := by
  intro rs
  induction rs with
  | nil => intro cur _ r hr; simp [joinRuns] at hr
  | cons a rs ih =>
    intro cur h
    rw [joinRuns]
    have hc : cur.hi ≠ T := h cur (by simp)
    split
    · apply ih
      cases rs with
      | nil => intro r hr; simp at hr
      | cons b rs =>
        have ha : a.hi ≠ T := h a (by simp)
        intro r hr
        rw [List.dropLast_cons_of_ne_nil (by simp)] at hr
        rcases List.mem_cons.mp hr with rfl | hr
        · simp only []; omega
        · exact h r (by rw [List.dropLast_cons_of_ne_nil (by simp), List.dropLast_cons_of_ne_nil (by simp)]; simp [hr])
    · intro r hr
      rw [List.dropLast_cons_of_ne_nil (joinRuns_ne _ _)] at hr
      rcases List.mem_cons.mp hr with rfl | hr
      · exact hc
      · exact ih a (fun r hr => h r (by rw [List.dropLast_cons_of_ne_nil (by simp)]; simp [hr])) r hr

theorem runsOf_top {d : IpData} (h : ∀ r ∈ d.ips.dropLast, netEnd r.cidr ≠ 2 ^ 128) :
    ∀ (i : Nat) (r : Run), (runsOf d)[i]? = some r → i + 1 < (runsOf d).length → r.hi ≠ 2 ^ 128 := by
  have key : ∀ r ∈ (runsOf d).dropLast, r.hi ≠ 2 ^ 128 := by
    unfold runsOf
    cases hi : d.ips with
    | nil => intro r hr; cases hr
    | cons x xs =>
      rw [hi] at h
      apply joinRuns_top
      rw [← List.map_cons (f := rowRun d.fields), ← List.map_dropLast]
      intro r hr
      obtain ⟨y, hy, rfl⟩ := List.mem_map.mp hr
      exact h y hy
  intro i r hr hl
  apply key
  apply List.mem_of_getElem? (i := i)
  rw [List.dropLast_eq_take, List.getElem?_take, if_pos (by omega)]
  exact hr

end Uip.Memip
