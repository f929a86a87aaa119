import Verif.Spec.MapOrder
import Verif.Proof.Awdb.Record
/-!
# The iteration order of maps does not show
-/
namespace Uip.MapOrder
open Uip Uip.Spec Uip.Awdb Uip.Export

theorem nodup_of_keys {α β : Type} : ∀ {o : List (α × β)}, (o.map (·.1)).Nodup → o.Nodup := by
  intro o h
  induction o with
  | nil => exact List.nodup_nil
  | cons p o ih =>
    rw [List.map_cons, List.nodup_cons] at h
    rw [List.nodup_cons]
    exact ⟨fun hm => h.1 (List.mem_map.mpr ⟨p, hm, rfl⟩), ih h.2⟩

theorem mapGet_of_mem {α : Type} : ∀ {o : GoMap α} {k : Str} {v : α}, (o.map (·.1)).Nodup → (k, v) ∈ o → mapGet o k = some v := by
  intro o
  induction o with
  | nil => intro k v _ h; cases h
  | cons p o ih =>
    intro k v hn h
    obtain ⟨k', v'⟩ := p
    rw [List.map_cons, List.nodup_cons] at hn
    rcases List.mem_cons.mp h with h | h
    · cases h; simp [mapGet]
    · unfold mapGet
      have : k' ≠ k := by
        intro he
        subst he
        exact hn.1 (List.mem_map.mpr ⟨(k', v), h, rfl⟩)
      rw [if_neg this]
      exact ih hn.2 h

theorem mem_of_mapGet {α : Type} : ∀ {o : GoMap α} {k : Str} {v : α}, mapGet o k = some v → (k, v) ∈ o := by
  intro o
  induction o with
  | nil => intro k v h; cases h
  | cons p o ih =>
    intro k v h
    obtain ⟨k', v'⟩ := p
    unfold mapGet at h
    split at h
    · rename_i he; subst he; cases h; exact List.mem_cons_self
    · exact List.mem_cons_of_mem _ (ih h)

theorem visits_get {α : Type} {o : List (Str × α)} {m : GoMap α} (h : Visits o m) (k : Str) : mapGet o k = mapGet m k := by
  cases hm : mapGet m k with
  | some v => exact mapGet_of_mem h.1 ((h.2 k v).mpr hm)
  | none =>
    cases ho : mapGet o k with
    | none => rfl
    | some v =>
      have := (h.2 k v).mp (mem_of_mapGet ho)
      rw [hm] at this
      cases this

theorem visits_self {α : Type} {m : GoMap α} (h : (m.map (·.1)).Nodup) : Visits m m :=
  ⟨h, fun _ _ => ⟨mapGet_of_mem h, mem_of_mapGet⟩⟩

theorem visits_perm {α : Type} {o o' : List (Str × α)} {m : GoMap α} (h : Visits o m) (h' : Visits o' m) : o.Perm o' := by
  classical
  rw [List.perm_ext_iff_of_nodup (nodup_of_keys h.1) (nodup_of_keys h'.1)]
  intro ⟨k, v⟩
  rw [h.2, h'.2]

theorem mapRange_visits {α : Type} (m : GoMap α) : Visits (mapRange m) m := by
  have hn : ((mapRange m).map (·.1)).Nodup := by
    induction m with
    | nil => exact List.nodup_nil
    | cons p m ih =>
      obtain ⟨k, v⟩ := p
      rw [mapRange, List.map_cons, List.nodup_cons]
      refine ⟨?_, ?_⟩
      · intro h
        obtain ⟨q, hq, he⟩ := List.mem_map.mp h
        have := List.mem_filter.mp hq
        simp at this
        exact this.2 he
      · exact List.Nodup.sublist (List.Sublist.map _ List.filter_sublist) ih
  refine ⟨hn, fun k v => ?_⟩
  rw [← mapGet_mapRange]
  exact ⟨mapGet_of_mem hn, mem_of_mapGet⟩

/-! ## The field map -/

/-- Distinct keys and distinct values. -/
structure OneToOne (f : GoMap Str) : Prop where
  keys : (f.map (·.1)).Nodup
  values : (f.map (·.2)).Nodup

theorem filter_le_one {f : List (Str × Str)} (h : (f.map (·.2)).Nodup) (v : Str) : (f.filter (fun p => v == p.2)).length ≤ 1 := by
  induction f with
  | nil => simp
  | cons p f ih =>
    rw [List.map_cons, List.nodup_cons] at h
    rw [List.filter_cons]
    split
    · rename_i he
      have he : v = p.2 := by simpa using he
      have : f.filter (fun p => v == p.2) = [] := by
        rw [List.filter_eq_nil_iff]
        intro q hq hv
        have hv : v = q.2 := by simpa using hv
        exact h.1 (List.mem_map.mpr ⟨q, hq, by rw [← hv, he]⟩)
      rw [this]; simp
    · exact ih h.2

theorem perm_le_one {α : Type} {l l' : List α} (h : l.Perm l') (hl : l'.length ≤ 1) : l = l' := by
  match l', hl with
  | [], _ => exact List.Perm.eq_nil h
  | [a], _ => exact List.Perm.eq_singleton h

theorem extKeys_eq {f : GoMap Str} (hf : OneToOne f) {os : Nat → List (Str × Str)} (ho : ∀ k, Visits (os k) f) :
    ∀ (vs : List Str) (k : Nat), MapOrder.ExtKeys os k vs = Export.ExtKeys f vs := by
  intro vs
  induction vs with
  | nil => intro k; rfl
  | cons v vs ih =>
    intro k
    have hp : (os k).Perm f := visits_perm (ho k) (visits_self hf.keys)
    have := perm_le_one (hp.filter (fun p => v == p.2)) (filter_le_one hf.values v)
    show ((os k).filter (fun p => v == p.2)).map (·.1) ++ _ = _
    rw [this, ih (k + 1)]
    rfl

theorem selectLoop_eq (f : Str) : ∀ o : List (Str × Str), selectLoop f o = match mapGet o f with
    | some v => (f, v)
    | none => ([], []) := by
  intro o
  induction o with
  | nil => rfl
  | cons p o ih =>
    obtain ⟨k, v⟩ := p
    unfold selectLoop mapGet
    by_cases h : k = f
    · rw [if_pos h, if_pos h]
    · rw [if_neg h, if_neg h]; exact ih

theorem select_eq {f : GoMap Str} {os : Nat → List (Str × Str)} (ho : ∀ k, Visits (os k) f) :
    ∀ (fs : List Str) (k : Nat), MapOrder.Select os k fs = Export.Select f fs := by
  intro fs
  induction fs with
  | nil => intro k; rfl
  | cons x fs ih =>
    intro k
    show selectLoop x (os k) :: _ = _
    rw [selectLoop_eq, visits_get (ho k), ih (k + 1)]
    rfl

/-! ## Rows depend on what is found under each name -/

/-- Two maps with the same entries. -/
def SameMap (m m' : GoMap Str) : Prop := ∀ k, mapGet m k = mapGet m' k

theorem remapLoop_same {m m' : GoMap Str} (h : SameMap m m') : ∀ (ps : List (Str × Str)) (k : Nat) (ret : List Str),
    remapLoop m ps k ret = remapLoop m' ps k ret := by
  intro ps
  induction ps with
  | nil => intros; rfl
  | cons p ps ih =>
    intro k ret
    unfold remapLoop
    rw [h p.2]
    cases mapGet m' p.2 with
    | none => exact ih _ _
    | some f =>
      simp only []
      split
      · exact ih _ _
      · rfl

theorem rowValues_same {f : GoMap Str} {os : Nat → List (Str × Str)} (ho : ∀ k, Visits (os k) f) (fs : List Str)
    (ept : Option Exporter) {m m' : GoMap Str} (h : SameMap m m') :
    MapOrder.rowValues os f fs ept m = Export.rowValues f fs ept m' := by
  unfold MapOrder.rowValues Export.rowValues
  cases ept with
  | none =>
    simp only []
    refine congrArg Res.ok (List.map_congr_left fun v _ => ?_)
    cases mapGet f v with
    | none => rfl
    | some k =>
      simp only [h k]
      cases mapGet m' k <;> rfl
  | some e =>
    simp only []
    rw [select_eq ho]
    unfold Exporter.Export Exporter.remapKey
    rw [remapLoop_same h]

/-! ## Records -/

theorem stringsLoop_eq : ∀ (o : List (Str × Val)) (data : GoMap Str),
    stringsLoop o data = (Res.mapM (fun p => do let b ← asBytes p.2; return (p.1, b)) o >>= fun l => .ok (l.reverse ++ data)) := by
  intro o
  induction o with
  | nil => intro data; rfl
  | cons p o ih =>
    intro data
    obtain ⟨k, v⟩ := p
    unfold stringsLoop
    rw [Res.mapM]
    cases hb : asBytes v with
    | panic => simp
    | err e => simp
    | ok b =>
      simp only [Res.ok_bind, Res.pure_eq, ih]
      cases Res.mapM (fun p => do let b ← asBytes p.2; return (p.1, b)) o with
      | panic => rfl
      | err e => rfl
      | ok l => simp [mapSet]

/-- The strings of the entries, if all are byte strings. -/
theorem strings_cases (o : List (Str × Val)) :
    ((∃ p ∈ o, ∀ b, p.2 ≠ .bytes b) ∧ Res.mapM (fun p => do let b ← asBytes p.2; return (p.1, b)) o = (.panic : Res (List (Str × Str)))) ∨
    ((∀ p ∈ o, ∃ b, p.2 = .bytes b) ∧ ∃ l : List (Str × Str),
      Res.mapM (fun p => do let b ← asBytes p.2; return (p.1, b)) o = .ok l ∧ o = l.map fun p => (p.1, Val.bytes p.2)) := by
  induction o with
  | nil => right; exact ⟨by simp, [], rfl, rfl⟩
  | cons p o ih =>
    obtain ⟨k, v⟩ := p
    by_cases hv : ∃ b, v = .bytes b
    · obtain ⟨b, rfl⟩ := hv
      rcases ih with ⟨⟨q, hq, hn⟩, hp⟩ | ⟨hall, l, hl, he⟩
      · left
        refine ⟨⟨q, List.mem_cons_of_mem _ hq, hn⟩, ?_⟩
        rw [Res.mapM, hp]; rfl
      · right
        refine ⟨?_, (k, b) :: l, ?_, ?_⟩
        · intro q hq
          rcases List.mem_cons.mp hq with rfl | hq
          · exact ⟨b, rfl⟩
          · exact hall q hq
        · rw [Res.mapM, hl]; rfl
        · rw [List.map_cons, ← he]
    · left
      refine ⟨⟨(k, v), List.mem_cons_self, fun b hb => hv ⟨b, hb⟩⟩, ?_⟩
      rw [Res.mapM]
      have : asBytes v = .panic := by
        cases v <;> first | rfl | exact absurd ⟨_, rfl⟩ hv
      rw [this]; rfl

theorem keys_of_bytes {o : List (Str × Val)} {l : List (Str × Str)} (h : o = l.map fun p => (p.1, Val.bytes p.2)) :
    o.map (·.1) = l.map (·.1) := by
  rw [h, List.map_map]; rfl

theorem toStrings_same {order : GoMap Val → List (Str × Val)} (ho : ∀ m, Visits (order m) m) (record : Option Val) :
    (MapOrder.toStrings order record = .panic ∧ Awdb.toStrings record = .panic) ∨
    ∃ d d', MapOrder.toStrings order record = .ok d ∧ Awdb.toStrings record = .ok d' ∧ SameMap d d' := by
  cases record with
  | none => exact .inl ⟨rfl, rfl⟩
  | some v =>
    cases v with
    | map m =>
      unfold MapOrder.toStrings Awdb.toStrings
      simp only []
      rw [stringsLoop_eq]
      have hvo := ho m
      have hvm := mapRange_visits m
      have hperm := visits_perm hvo hvm
      rcases strings_cases (order m) with ⟨⟨p, hp, hn⟩, h1⟩ | ⟨hall, l, h1, he⟩
      · rcases strings_cases (mapRange m) with ⟨_, h2⟩ | ⟨hall, l, h2, he⟩
        · left; rw [h1, h2]; exact ⟨rfl, rfl⟩
        · obtain ⟨b, hb⟩ := hall p (hperm.mem_iff.mp hp)
          exact absurd hb (hn b)
      · rcases strings_cases (mapRange m) with ⟨⟨p, hp, hn⟩, h2⟩ | ⟨_, l', h2, he'⟩
        · obtain ⟨b, hb⟩ := hall p (hperm.mem_iff.mpr hp)
          exact absurd hb (hn b)
        · right
          refine ⟨l.reverse ++ [], l', by rw [h1]; rfl, h2, fun k => ?_⟩
          rw [List.append_nil]
          have hk : (l.map (·.1)).Nodup := by rw [← keys_of_bytes he]; exact hvo.1
          have hk' : (l'.map (·.1)).Nodup := by rw [← keys_of_bytes he']; exact hvm.1
          have hkr : (l.reverse.map (·.1)).Nodup := by
            rw [List.map_reverse]; exact (List.Perm.nodup_iff (List.reverse_perm _)).mpr hk
          have hmem : ∀ v, (k, v) ∈ l ↔ (k, v) ∈ l' := by
            intro v
            have e1 : (k, v) ∈ l ↔ (k, Val.bytes v) ∈ order m := by
              rw [he, List.mem_map]
              constructor
              · intro h; exact ⟨_, h, rfl⟩
              · rintro ⟨⟨a, b⟩, hq, heq⟩
                injection heq with h1 h2
                injection h2 with h2
                rw [← h1, ← h2]; exact hq
            have e2 : (k, v) ∈ l' ↔ (k, Val.bytes v) ∈ mapRange m := by
              rw [he', List.mem_map]
              constructor
              · intro h; exact ⟨_, h, rfl⟩
              · rintro ⟨⟨a, b⟩, hq, heq⟩
                injection heq with h1 h2
                injection h2 with h2
                rw [← h1, ← h2]; exact hq
            rw [e1, e2, hperm.mem_iff]
          cases h' : mapGet l' k with
          | some v => exact mapGet_of_mem hkr (List.mem_reverse.mpr ((hmem v).mpr (mem_of_mapGet h')))
          | none =>
            cases hx : mapGet l.reverse k with
            | none => rfl
            | some v =>
              have := mapGet_of_mem hk' ((hmem v).mp (List.mem_reverse.mp (mem_of_mapGet hx)))
              rw [h'] at this
              cases this
    | _ => exact .inl ⟨rfl, rfl⟩

/-- Two searches with the same outcome. -/
def SameFound (x y : Res (IPNet × GoMap Str)) : Prop :=
  (∃ e, x = .err e ∧ y = .err e) ∨ (x = .panic ∧ y = .panic) ∨
    ∃ n d d', x = .ok (n, d) ∧ y = .ok (n, d') ∧ SameMap d d'

theorem SameFound.refl (x : Res (IPNet × GoMap Str)) : SameFound x x := by
  cases x with
  | err e => exact .inl ⟨e, rfl, rfl⟩
  | panic => exact .inr (.inl ⟨rfl, rfl⟩)
  | ok p => exact .inr (.inr ⟨p.1, p.2, p.2, rfl, rfl, fun _ => rfl⟩)

theorem find_same {order : GoMap Val → List (Str × Val)} (ho : ∀ m, Visits (order m) m) (r : Awdb.Reader) (ip : IP) :
    SameFound (MapOrder.Find order r ip) (r.Find ip) := by
  unfold MapOrder.Find Awdb.Reader.Find
  cases r.LookupNetwork ip with
  | err e => exact .inl ⟨e, rfl, rfl⟩
  | panic => exact .inr (.inl ⟨rfl, rfl⟩)
  | ok p =>
    obtain ⟨n, record⟩ := p
    simp only [Res.ok_bind]
    rcases toStrings_same ho record with ⟨h1, h2⟩ | ⟨d, d', h1, h2, h⟩
    · rw [h1, h2]; exact .inr (.inl ⟨rfl, rfl⟩)
    · rw [h1, h2]; exact .inr (.inr ⟨n, d, d', rfl, rfl, h⟩)

/-! ## The loop over the networks -/

theorem buildLoop_same {find : Nat → Export.Find} {find' : Export.Find} {row : Nat → GoMap Str → Res (List Str)}
    {row' : GoMap Str → Res (List Str)} (hf : ∀ n ip, SameFound (find n ip) (find' ip))
    (hr : ∀ n d d', SameMap d d' → row n d = row' d') : ∀ (fuel n : Nat) (marker : IP) (acc : List IpRaw),
    MapOrder.buildLoop find row fuel n marker acc = Export.buildLoop find' row' fuel marker acc := by
  intro fuel
  induction fuel with
  | zero => intros; rfl
  | succ fuel ih =>
    intro n marker acc
    unfold MapOrder.buildLoop Export.buildLoop
    rcases hf n marker with ⟨e, h1, h2⟩ | ⟨h1, h2⟩ | ⟨c, d, d', h1, h2, hs⟩
    · rw [h1, h2]
    · rw [h1, h2]
    · rw [h1, h2]
      simp only []
      rw [hr n d d' hs]
      cases row' d' with
      | err e => rfl
      | panic => rfl
      | ok values =>
        simp only []
        cases LastIP c with
        | err e => rfl
        | panic => rfl
        | ok last =>
          simp only []
          split
          · rfl
          · cases NextStart c with
            | err e => rfl
            | panic => rfl
            | ok marker => exact ih _ _ _

theorem build_same {f : GoMap Str} (hf : OneToOne f) {o : Orders} (ho : Possible f o) (fuel : Nat) (fields : List Str)
    (ept : Option Exporter) (version : VersionInfo) {find : Nat → Export.Find} {find' : Export.Find}
    (h : ∀ n ip, SameFound (find n ip) (find' ip)) :
    MapOrder.BuildIPData o fuel f fields ept version find = Export.BuildIPData fuel f fields ept version find' := by
  unfold MapOrder.BuildIPData Export.BuildIPData dumpFields
  have e : (match ept with
      | none => ExtKeys o.ext 0 fields
      | some e => e.fields) = (match ept with
      | none => Export.ExtKeys f fields
      | some e => e.fields) := by
    cases ept with
    | none => exact extKeys_eq hf ho.ext fields 0
    | some e => rfl
  simp only []
  rw [buildLoop_same (find' := find') (row' := Export.rowValues f _ ept) h
    (fun n d d' hs => rowValues_same (ho.sel n) _ ept hs)]
  cases ept with
  | none => simp only []; rw [extKeys_eq hf ho.ext fields 0]
  | some e => rfl

theorem ipdb_oneToOne : OneToOne Ipdb.CommonFieldsMap := ⟨by decide +kernel, by decide +kernel⟩
theorem awdb_oneToOne : OneToOne Awdb.CommonFieldsMap := ⟨by decide +kernel, by decide +kernel⟩

end Uip.MapOrder
