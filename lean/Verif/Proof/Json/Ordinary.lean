import Verif.Props.JsonText
/-!
# The metadata Go writes is ordinary
-/
namespace Uip.Json
open Uip Uip.Spec Uip.Spec.JsonText

theorem elems_mono {P Q : Spec.JsonText.Json → Bytes → Prop} : ∀ {l : List Spec.JsonText.Json} {u : Bytes},
    (∀ v ∈ l, ∀ t, P v t → Q v t) → Elems P l u → Elems Q l u
  | [], _, _, h => h
  | [v], _, hpq, ⟨a, x, b, e, h1, h2, h3⟩ => ⟨a, x, b, e, h1, hpq v (List.mem_cons_self ..) _ h2, h3⟩
  | v :: w :: r, _, hpq, ⟨a, x, b, y, e, h1, h2, h3, h4⟩ =>
    ⟨a, x, b, y, e, h1, hpq v (List.mem_cons_self ..) _ h2, h3, elems_mono (fun v hv => hpq v (List.mem_cons_of_mem _ hv)) h4⟩

theorem pair_mono {P Q : Spec.JsonText.Json → Bytes → Prop} {k : Bytes} {v : Spec.JsonText.Json} {u : Bytes}
    (hpq : ∀ t, P v t → Q v t) (h : Pair P k v u) : Pair Q k v u := by
  obtain ⟨a, b, c, x, d, e, h1, h2, h3, h4, h5, h6⟩ := h
  exact ⟨a, b, c, x, d, e, h1, h2, h3, h4, hpq _ h5, h6⟩

theorem members_mono {P Q : Spec.JsonText.Json → Bytes → Prop} : ∀ {l : List (Bytes × Spec.JsonText.Json)} {u : Bytes},
    (∀ p ∈ l, ∀ t, P p.2 t → Q p.2 t) → Members P l u → Members Q l u
  | [], _, _, h => h
  | [(k, v)], _, hpq, h => pair_mono (hpq (k, v) (List.mem_cons_self ..)) h
  | (k, v) :: w :: r, _, hpq, ⟨x, y, e, h1, h2⟩ =>
    ⟨x, y, e, pair_mono (hpq (k, v) (List.mem_cons_self ..)) h1, members_mono (fun p hp => hpq p (List.mem_cons_of_mem _ hp)) h2⟩

/-- The depth of a value that fits is enough for its text. -/
theorem value_fits : ∀ (d D : Nat) (j : Spec.JsonText.Json) (t : Bytes), Fits d (toJ j) → Value D j t → Value d j t := by
  intro d
  induction d with
  | zero =>
    intro D j t hf hv
    cases j with
    | null => cases D <;> exact hv
    | bool b => cases D <;> cases b <;> exact hv
    | num n => cases D <;> exact hv
    | str n => cases D <;> exact hv
    | arr l => exact hf.elim
    | obj l => exact hf.elim
  | succ d ih =>
    intro D j t hf hv
    cases j with
    | null => cases D <;> exact hv
    | bool b => cases D <;> cases b <;> exact hv
    | num n => cases D <;> exact hv
    | str n => cases D <;> exact hv
    | arr l =>
      rw [toJ, toJs_eq] at hf
      cases D with
      | zero => exact hv.elim
      | succ D =>
        obtain ⟨u, e, h⟩ := hv
        exact ⟨u, e, elems_mono (fun v hv t => ih D v t (hf _ (List.mem_map_of_mem hv))) h⟩
    | obj l =>
      rw [toJ, toJps_eq] at hf
      cases D with
      | zero => exact hv.elim
      | succ D =>
        obtain ⟨u, e, h⟩ := hv
        exact ⟨u, e, members_mono (fun p hp t => ih D p.2 t (hf _ (List.mem_map_of_mem hp)).2) h⟩

theorem text_fits {d D : Nat} {j : Spec.JsonText.Json} {s : Bytes} (hf : Fits d (toJ j)) (h : Text D j s) : Text d j s := by
  obtain ⟨a, t, b, e, h1, h2, h3⟩ := h
  exact ⟨a, t, b, e, h1, value_fits _ _ _ _ hf h2, h3⟩

theorem text_mono : ∀ {d : Nat} {j : Spec.JsonText.Json} {t : Bytes}, Value d j t → Value (d + 1) j t := by
  intro d
  induction d with
  | zero =>
    intro j t h
    cases j with
    | bool b => cases b <;> exact h
    | arr l => exact h.elim
    | obj l => exact h.elim
    | _ => exact h
  | succ d ih =>
    intro j t h
    cases j with
    | bool b => cases b <;> exact h
    | arr l => obtain ⟨u, e, h⟩ := h; exact ⟨u, e, elems_mono (fun v _ t => ih) h⟩
    | obj l => obtain ⟨u, e, h⟩ := h; exact ⟨u, e, members_mono (fun v _ t => ih) h⟩
    | _ => exact h

theorem value_le {j : Spec.JsonText.Json} {t : Bytes} (n d : Nat) (h : Value d j t) : Value (d + n) j t := by
  induction n with
  | zero => exact h
  | succ n ih => exact text_mono ih

/-- The array written for texts. -/
def strsJ (isNil : Bool) (l : List Str) : Spec.JsonText.Json := if l = [] ∧ isNil = true then .null else .arr (l.map fun s => .str (escape s))

/-- The object written for metadata of one language. -/
def writtenObj (nilFields nilExtra : Bool) (m : Ipdb.MetaData) (lang : Str) (n : Int) : List (Bytes × Spec.JsonText.Json) :=
  [(gs "build", .num (intText m.build)), (gs "ip_version", .num (intText m.ipVersion)),
    (gs "languages", .obj [(escape lang, .num (intText n))]),
    (gs "node_count", .num (intText m.nodeCount)), (gs "total_size", .num (intText m.totalSize)),
    (gs "fields", strsJ nilFields m.fields), (gs "version", .str (escape m.version)), (gs "extra", strsJ nilExtra m.extra)]

theorem toJ_strsJ (b : Bool) (l : List Str) : toJ (strsJ b l) = .ofStrings b l := by
  unfold strsJ JVal.ofStrings
  split
  · rfl
  · rw [toJ, toJs_eq, List.map_map]; rfl

theorem toJ_written {nilFields nilExtra : Bool} {m : Ipdb.MetaData} {lang : Str} {n : Int} (hl : m.languages = [(lang, n)]) :
    toJ (.obj (writtenObj nilFields nilExtra m lang n)) = metaVal nilFields nilExtra m := by
  unfold writtenObj metaVal JVal.ofFields
  rw [toJ, toJps_eq, hl]
  simp only [List.map_cons, List.map_nil, toJ_strsJ]
  rfl

theorem filled_strsJ {b : Bool} {l : List Str} : strsJ b l = .null ∨ Filled (strsJ b l) := by
  unfold strsJ
  split
  · exact .inl rfl
  · refine .inr ?_
    intro v hv
    obtain ⟨s, _, rfl⟩ := List.mem_map.mp hv
    exact fun h => by cases h

theorem fits2_meta (a b : Bool) (m : Ipdb.MetaData) : Fits 2 (metaVal a b m) := by
  apply fits_ofFields
  · have : ∀ n ∈ metaNames, Plain n := by decide +kernel
    intro p hp
    apply this
    have := List.mem_map_of_mem (f := Prod.fst) hp
    simpa [metaNames] using this
  · intro p hp
    simp only [List.mem_cons, List.not_mem_nil, or_false] at hp
    rcases hp with rfl | rfl | rfl | rfl | rfl | rfl | rfl | rfl
    · exact fits_ofInt _ _
    · exact fits_ofInt _ _
    · exact fits_ofMap _ _
    · exact fits_ofInt _ _
    · exact fits_ofInt _ _
    · exact fits_ofStrings _ _ _
    · exact fits_ofStr _ _
    · exact fits_ofStrings _ _ _

theorem plain_member : ∀ n ∈ metaMembers, Plain n := by decide +kernel
theorem fold_member : ∀ n ∈ metaMembers, foldEq (gs n) (gs n) = true := by decide +kernel

theorem stands_member {n : String} (hn : n ∈ metaMembers) : Stands false (gs n) (gs n) := by
  have pl := plain_member n hn
  have := stands_escape (gs n)
  rw [pl.1, (repair_eq_iff _).mpr (isText_gs _)] at this
  exact this

theorem named_member {n : String} (hn : n ∈ metaMembers) (hq : Quoted (gs n)) : Named (gs n) n := by
  rw [named_iff hq (metaNames_ok.ascii n hn), (plain_member n hn).2]
  exact fold_member n hn

/-- What Go writes for metadata of one language and 32-bit numbers is ordinary, unless there are no fields and their slice is nil. -/
theorem ordinary_written (nilFields nilExtra : Bool) {m : Ipdb.MetaData} {lang : Str} {n : Int} (hf : nilFields = false ∨ m.fields ≠ [])
    (hl : m.languages = [(lang, n)]) (hn : Fits32 n) (hb : Fits32 m.build) (hc : Fits32 m.nodeCount) (hs : Fits32 m.totalSize)
    (hv : m.ipVersion < 65536) :
    Ordinary (marshalMeta nilFields nilExtra m) (writtenObj nilFields nilExtra m lang n) (repairMeta m) := by
  have i64 : ∀ {x : Int}, Fits32 x → IsInt64 x := by
    intro x hx; unfold Fits32 at hx; unfold IsInt64; omega
  have hfits := fits2_meta nilFields nilExtra m
  rw [← toJ_written hl] at hfits
  have ht : Text 10000 (.obj (writtenObj nilFields nilExtra m lang n)) (marshalMeta nilFields nilExtra m) := by
    rw [text_iff, toJ_written hl]
    exact parse_text (fits_meta nilFields nilExtra m)
  have hq := text_members ht
  have hnames : (writtenObj nilFields nilExtra m lang n).map (·.1) = metaMembers.map gs := by
    simp only [writtenObj, List.map_cons, List.map_nil, metaMembers]
  have ho : Once metaMembers (writtenObj nilFields nilExtra m lang n) :=
    once_of metaNames_ok (fun p hp => (hq p hp).1) (by rw [hnames]; exact pairwise_meta)
  have has : ∀ k ∈ metaMembers, ∀ v, (gs k, v) ∈ writtenObj nilFields nilExtra m lang n → Has (writtenObj nilFields nilExtra m lang n) k v :=
    fun k hk v hm => ⟨gs k, hm, named_member hk (hq _ hm).1⟩
  exact
    { text := text_fits hfits ht
      sound := sound_fits _ _ hfits
      names := by
        intro p hp
        have := List.mem_map_of_mem (f := (·.1)) hp
        rw [hnames] at this
        obtain ⟨k, hk, e⟩ := List.mem_map.mp this
        exact ⟨k, hk, by rw [← e]; exact stands_member hk⟩
      once := ho
      filled := by
        intro k hk he
        have hk' := hk
        simp only [metaMembers, List.mem_cons, List.not_mem_nil, or_false] at hk'
        rcases hk' with rfl | rfl | rfl | rfl | rfl | rfl | rfl | rfl
        · exact ⟨.num (intText m.build), has _ hk _ (by simp [writtenObj]), trivial⟩
        · exact ⟨.num (intText m.ipVersion), has _ hk _ (by simp [writtenObj]), trivial⟩
        · refine ⟨.obj [(escape lang, .num (intText n))], has _ hk _ (by simp [writtenObj]), ?_⟩
          intro p hp
          rw [List.mem_singleton.mp hp]
          exact fun h => by cases h
        · exact ⟨.num (intText m.nodeCount), has _ hk _ (by simp [writtenObj]), trivial⟩
        · exact ⟨.num (intText m.totalSize), has _ hk _ (by simp [writtenObj]), trivial⟩
        · refine ⟨strsJ nilFields m.fields, has _ hk _ (by simp [writtenObj]), ?_⟩
          rcases filled_strsJ (b := nilFields) (l := m.fields) with e | h
          · unfold strsJ at e
            split at e
            · rename_i hh
              rcases hf with hf | hf
              · rw [hf] at hh; exact absurd hh.2 (by decide)
              · exact absurd hh.1 hf
            · cases e
          · exact h
        · exact ⟨.str (escape m.version), has _ hk _ (by simp [writtenObj]), trivial⟩
        · exact absurd rfl he
      extra := ⟨strsJ nilExtra m.extra, has _ (by decide) _ (by simp [writtenObj]), filled_strsJ⟩
      language := ⟨⟨(escape lang, .num (intText n)), has _ (by decide) _ (by simp [writtenObj])⟩,
        repair lang, n, by unfold repairMeta; rw [hl]; rfl, hn⟩
      numbers := ⟨hb, hc, hs⟩
      says := (C112_meta ht ho).1 _ (by
        have := C101_decoded nilFields nilExtra m (i64 hb) hv (i64 hc) (i64 hs) hl (i64 hn)
        unfold repairMeta
        rw [hl]
        exact this) }

/-- Go's decoder reads ordinary metadata as it says. -/
theorem reads_go : ReadsOrdinary unmarshalMeta := by
  intro s l m h
  have ht : Text 10000 (.obj l) s := by
    obtain ⟨a, t, b, e, h1, h2, h3⟩ := h.text
    exact ⟨a, t, b, e, h1, value_le 9998 2 h2, h3⟩
  obtain ⟨m', h1, h2, h3⟩ := (C112_meta ht h.once).2 m h.says
  obtain ⟨d, hd, rfl⟩ := (meta_obj ht).mp h1
  obtain ⟨⟨p, hp⟩, k, n, hk, _⟩ := h.language
  rw [h1, Option.some.injEq]
  have hq := text_members ht
  have := comp_has metaNames_ok mcomp_languages (fun p hp => (hq p hp).1) h.once hd _ hp
  have hone : ∃ x y, d.languages = [(x, y)] := by
    obtain ⟨k, v⟩ := p
    rw [toJ, toJps, toJps] at this
    simp only [putMap, putPairs] at this
    cases hv : putInt minInt64 maxInt64 0 (toJ v) with
    | none => rw [hv] at this; cases this
    | some y =>
      rw [hv] at this
      exact ⟨_, _, (Option.some.inj this).symm⟩
  obtain ⟨x, y, e⟩ := hone
  have hlang : d.languages = m.languages := by
    have h4 := h3 k
    simp only [] at h4
    rw [e, hk] at h4
    rw [e, hk]
    simp only [mapGet] at h4
    split at h4
    · rename_i hx
      rw [if_pos trivial] at h4
      rw [hx, Option.some.inj h4]
    · rw [if_pos trivial] at h4; cases h4
  rw [← h2]
  simp only [hlang]

end Uip.Json
