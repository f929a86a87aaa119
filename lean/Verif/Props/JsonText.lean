import Verif.Proof.Json.TextIff
import Verif.Props.Json
/-!
# Property C112: which JSON texts are metadata and versions, and what they say

Against the grammar of RFC 8259 and the meaning of the members in `Spec/JsonText.lean`.
-/
namespace Uip.Json
open Uip Uip.Spec Uip.Spec.JsonText

variable {s : Bytes} {l : List (Bytes × Spec.JsonText.Json)}

/-- Metadata that says nothing. -/
def emptyMeta : Ipdb.MetaData :=
  { build := 0, ipVersion := 0, languages := [], nodeCount := 0, totalSize := 0, fields := [], version := [], extra := [] }

/-- **C112.** Only JSON objects, and `null`, are read as metadata. -/
theorem C112_meta_texts {m : Ipdb.MetaData} (h : unmarshalMeta s = some m) :
    (∃ l, Text 10000 (.obj l) s) ∨ Text 10000 .null s ∧ m = emptyMeta := by
  unfold unmarshalMeta at h
  split at h
  · rename_i l hp
    obtain ⟨j, h1, h2⟩ := parse_spec hp
    cases j with
    | obj l => exact .inl ⟨l, h1⟩
    | _ => simp only [toJ] at h2; cases h2
  · rename_i hp
    obtain ⟨j, h1, h2⟩ := parse_spec hp
    cases j with
    | null => exact .inr ⟨h1, (Option.some.inj h).symm⟩
    | _ => simp only [toJ] at h2; cases h2
  · cases h

theorem C112_meta_null (h : Text 10000 .null s) : unmarshalMeta s = some emptyMeta := by
  rw [text_iff] at h
  unfold unmarshalMeta
  rw [h]; rfl

theorem meta_obj (h : Text 10000 (.obj l) s) {m : Ipdb.MetaData} : unmarshalMeta s = some m ↔ ∃ d, putAll putMetaField {} (toJps l) = some d ∧
    { build := d.build, ipVersion := d.ipVersion.toNat, languages := d.languages, nodeCount := d.nodeCount,
      totalSize := d.totalSize, fields := d.fields.elems, version := d.version, extra := d.extra.elems } = m := by
  rw [text_iff] at h
  unfold unmarshalMeta
  rw [h, ← putMeta_all]
  simp only [toJ, Option.map_eq_some_iff]

/-- **C112.** A JSON object without repeated members is metadata exactly when its members say so; then it is read as they say. -/
theorem C112_meta (h : Text 10000 (.obj l) s) (ho : Once metaMembers l) :
    (∀ m, unmarshalMeta s = some m → Describes l m) ∧
      ∀ m, Describes l m → ∃ m', unmarshalMeta s = some m' ∧ SameMeta m m' := by
  have hq := text_members h
  have hq' : ∀ p ∈ l, Quoted p.1 := fun p hp => (hq p hp).1
  constructor
  · intro m hm
    obtain ⟨d, hd, rfl⟩ := (meta_obj h).mp hm
    exact
      { build := int_member (m' := d) metaNames_ok mcomp_build hq' ho rfl hd
        ipVersion := (nat_member metaNames_ok mcomp_ipVersion hq' ho rfl hd).1
        languages := counts_member (m' := d) metaNames_ok mcomp_languages hq ho rfl hd
        nodeCount := int_member (m' := d) metaNames_ok mcomp_nodeCount hq' ho rfl hd
        totalSize := int_member (m' := d) metaNames_ok mcomp_totalSize hq' ho rfl hd
        fields := strs_member (m' := d) metaNames_ok mcomp_fields hq ho rfl hd
        version := str_member (m' := d) metaNames_ok mcomp_version hq ho rfl hd
        extra := strs_member (m' := d) metaNames_ok mcomp_extra hq ho rfl hd }
  · intro m hm
    obtain ⟨d, hd⟩ := all_exists putMetaField_isSome {} (meta_accepts hq ho hm) {}
    refine ⟨_, (meta_obj h).mpr ⟨d, hd, rfl⟩, ?_, counts_unique metaNames_ok mcomp_languages hq ho rfl hd hm.languages⟩
    simp only []
    rw [int_unique metaNames_ok mcomp_build hq' ho rfl hd hm.build,
      nat_unique metaNames_ok mcomp_ipVersion hq' ho rfl hd hm.ipVersion,
      int_unique metaNames_ok mcomp_nodeCount hq' ho rfl hd hm.nodeCount,
      int_unique metaNames_ok mcomp_totalSize hq' ho rfl hd hm.totalSize,
      strs_unique metaNames_ok mcomp_fields hq ho rfl hd hm.fields,
      str_unique metaNames_ok mcomp_version hq ho rfl hd hm.version,
      strs_unique metaNames_ok mcomp_extra hq ho rfl hd hm.extra]
    rfl

/-- **C112.** The same for the version at the head of a `.scan` text; here the answer is determined. -/
theorem C112_version (h : Text 10000 (.obj l) s) (ho : Once versionMembers l) (v : VersionInfo) :
    unmarshalVersion s = some (some v) ↔ DescribesVersion l v := by
  have hq := text_members h
  have hq' : ∀ p ∈ l, Quoted p.1 := fun p hp => (hq p hp).1
  have key : ∀ o, unmarshalVersion s = some o ↔ ∃ d, putAll putVersionField {} (toJps l) = some d ∧
      some ⟨d.ipType, UInt32.ofNat d.count.toNat, d.build, d.version, d.languages.elems, d.extraInfo.elems⟩ = o := by
    intro o
    have h := text_iff.mp h
    unfold unmarshalVersion
    rw [h, ← putVersion_all]
    simp only [toJ, Option.map_eq_some_iff]
  constructor
  · intro hm
    obtain ⟨d, hd, e⟩ := (key _).mp hm
    obtain rfl := Option.some.inj e
    obtain ⟨c1, c2, c3⟩ := nat_member versionNames_ok vcomp_count hq' ho rfl hd
    exact
      { ipType := int_member (m' := d) versionNames_ok vcomp_ipType hq' ho rfl hd
        count := by
          simp only [UInt32.toNat_ofNat']
          rw [Nat.mod_eq_of_lt (by omega)]
          exact c1
        build := int_member (m' := d) versionNames_ok vcomp_build hq' ho rfl hd
        version := str_member (m' := d) versionNames_ok vcomp_version hq ho rfl hd
        languages := strs_member (m' := d) versionNames_ok vcomp_languages hq ho rfl hd
        extraInfo := strs_member (m' := d) versionNames_ok vcomp_extraInfo hq ho rfl hd }
  · intro hm
    obtain ⟨d, hd⟩ := all_exists putVersionField_isSome {} (version_accepts hq ho hm) {}
    rw [key]
    refine ⟨d, hd, ?_⟩
    rw [int_unique versionNames_ok vcomp_ipType hq' ho rfl hd hm.ipType,
      nat_unique versionNames_ok vcomp_count hq' ho rfl hd hm.count,
      int_unique versionNames_ok vcomp_build hq' ho rfl hd hm.build,
      str_unique versionNames_ok vcomp_version hq ho rfl hd hm.version,
      strs_unique versionNames_ok vcomp_languages hq ho rfl hd hm.languages,
      strs_unique versionNames_ok vcomp_extraInfo hq ho rfl hd hm.extraInfo]
    simp

/-- **C112.** Only JSON objects, and `null` for no version, are read as a version. -/
theorem C112_version_texts {o : Option VersionInfo} (h : unmarshalVersion s = some o) :
    (∃ l v, Text 10000 (.obj l) s ∧ o = some v) ∨ Text 10000 .null s ∧ o = none := by
  unfold unmarshalVersion at h
  split at h
  · rename_i l hp
    obtain ⟨d, _, e⟩ := Option.map_eq_some_iff.mp h
    obtain ⟨j, h1, h2⟩ := parse_spec hp
    cases j with
    | obj l => exact .inl ⟨l, _, h1, e.symm⟩
    | _ => simp only [toJ] at h2; cases h2
  · rename_i hp
    obtain ⟨j, h1, h2⟩ := parse_spec hp
    cases j with
    | null => exact .inr ⟨h1, (Option.some.inj h).symm⟩
    | _ => simp only [toJ] at h2; cases h2
  · cases h

theorem C112_version_null (h : Text 10000 .null s) : unmarshalVersion s = some none := by
  rw [text_iff] at h
  unfold unmarshalVersion
  rw [h]; rfl

/-- The metadata with U+FFFD for what is not UTF-8. -/
def repairMeta (m : Ipdb.MetaData) : Ipdb.MetaData :=
  { m with languages := m.languages.map fun p => (repair p.1, p.2), fields := m.fields.map repair, version := repair m.version,
           extra := m.extra.map repair }

theorem pairwise_meta : (metaMembers.map gs).Pairwise fun a b => ∀ n ∈ metaMembers, ¬ (foldEq (gs n) (unquote a) = true ∧ foldEq (gs n) (unquote b) = true) := by
  decide +kernel
theorem pairwise_version : (versionMembers.map gs).Pairwise fun a b => ∀ n ∈ versionMembers, ¬ (foldEq (gs n) (unquote a) = true ∧ foldEq (gs n) (unquote b) = true) := by
  decide +kernel

theorem obj_of {j : Spec.JsonText.Json} {r : List (Bytes × JVal)} (h : toJ j = .obj r) : ∃ l, j = .obj l ∧ l.map (·.1) = r.map (·.1) := by
  cases j with
  | obj l =>
    rw [toJ, toJps_eq] at h
    injection h with h
    subst h
    exact ⟨l, rfl, by rw [List.map_map]; rfl⟩
  | _ => simp only [toJ] at h; cases h

/-- **C112.** The metadata a packed file holds is a sound JSON object: every string stands for a text without repair, the eight
members have the names of the format, in its order, and say what was written. -/
theorem C112_meta_written (nilFields nilExtra : Bool) (m : Ipdb.MetaData) {lang : Str} {n : Int} (hb : IsInt64 m.build)
    (hv : m.ipVersion < 65536) (hn : IsInt64 m.nodeCount) (hs : IsInt64 m.totalSize) (hl : m.languages = [(lang, n)])
    (hi : IsInt64 n) : ∃ l, Text 10000 (.obj l) (marshalMeta nilFields nilExtra m) ∧ Sound (.obj l) ∧
      l.map (·.1) = metaMembers.map gs ∧ Once metaMembers l ∧ Describes l (repairMeta m) := by
  obtain ⟨j, h1, h2, h3⟩ := written_sound (fits_meta nilFields nilExtra m)
  obtain ⟨l, rfl, h4⟩ := obj_of h3
  have h4 : l.map (·.1) = metaMembers.map gs := h4.trans (by simp only [List.map_cons, List.map_nil, metaMembers])
  have ho : Once metaMembers l := once_of metaNames_ok (fun p hp => (text_members h1 p hp).1) (by rw [h4]; exact pairwise_meta)
  refine ⟨l, h1, h2, h4, ho, (C112_meta h1 ho).1 _ ?_⟩
  have := C101_decoded nilFields nilExtra m hb hv hn hs hl hi
  unfold repairMeta
  rw [hl]
  exact this

/-- **C112.** The version at the head of a `.scan` text and in a reply of the server is a sound JSON object of six members. -/
theorem C112_version_written (nilLangs nilExtra : Bool) (v : VersionInfo) (h1 : IsInt64 v.ipType) (h2 : IsInt64 v.build) :
    ∃ l, Text 10000 (.obj l) (marshalVersion nilLangs nilExtra v) ∧ Sound (.obj l) ∧
      l.map (·.1) = versionMembers.map gs ∧ Once versionMembers l ∧
      DescribesVersion l { v with version := repair v.version, languages := v.languages.map repair, extraInfo := v.extraInfo.map repair } := by
  obtain ⟨j, g1, g2, g3⟩ := written_sound (fits_version nilLangs nilExtra v)
  obtain ⟨l, rfl, g4⟩ := obj_of g3
  have g4 : l.map (·.1) = versionMembers.map gs := g4.trans (by simp only [List.map_cons, List.map_nil, versionMembers])
  have ho : Once versionMembers l := once_of versionNames_ok (fun p hp => (text_members g1 p hp).1) (by rw [g4]; exact pairwise_version)
  exact ⟨l, g1, g2, g4, ho, (C112_version g1 ho _).mp (C102_decoded nilLangs nilExtra v h1 h2)⟩

/-- A member of a reply: its name and the string it stands for. -/
def ReplyMember (p : Bytes × Spec.JsonText.Json) (q : Str × Str) : Prop :=
  Stands false p.1 q.1 ∧ ∃ t, p.2 = .str t ∧ Stands false t (repair q.2)

/-- **C112.** The body of a reply is a sound JSON object: a string for every field that is not empty, in the order of the struct,
and nothing else. -/
theorem C112_reply (i : IpInfo) : ∃ l, Text 10000 (.obj l) (marshalInfo i) ∧ AddrText.Each ReplyMember l (replyMembers i) := by
  obtain ⟨j, h1, h2, h3⟩ := written_sound (fits_info i)
  rw [infoVal_eq] at h3
  have hr : replyMembers i = ((infoPairs i).filter fun p => decide (p.2 ≠ [])).map fun p => (gs p.1, p.2) := by
    show ((infoPairs i).map fun p => (gs p.1, p.2)).filter (fun p => decide (p.2 ≠ [])) = _
    rw [List.filter_map]; rfl
  cases j with
  | obj l =>
    refine ⟨l, h1, ?_⟩
    rw [hr]
    rw [toJ, toJps_eq] at h3
    unfold JVal.ofFields at h3
    injection h3 with h3
    have hp : ∀ p ∈ (infoPairs i).filter fun p => decide (p.2 ≠ []), Plain p.1 := fun p hp => infoPairs_name (List.mem_filter.mp hp).1
    clear h1 h2 hr
    generalize (infoPairs i).filter (fun p => decide (p.2 ≠ [])) = ps at h3 hp
    induction ps generalizing l with
    | nil => cases l with
      | nil => exact .nil
      | cons a l => cases h3
    | cons p ps ih =>
      cases l with
      | nil => cases h3
      | cons a l =>
        obtain ⟨k, v⟩ := a
        simp only [List.map_cons, List.cons.injEq, Prod.mk.injEq] at h3
        obtain ⟨⟨hk, hv⟩, hr⟩ := h3
        refine .cons ⟨?_, ?_⟩ (ih l hr fun q hq => hp q (List.mem_cons_of_mem _ hq))
        · have pl := hp p (List.mem_cons_self ..)
          have := stands_escape (gs p.1)
          rw [pl.1, (repair_eq_iff _).mpr (isText_gs _)] at this
          rw [hk]; exact this
        · cases v with
          | str t =>
            simp only [toJ, JVal.ofStr] at hv
            injection hv with hv
            exact ⟨t, rfl, by rw [hv]; exact stands_escape p.2⟩
          | _ => simp only [toJ, JVal.ofStr] at hv; cases hv
  | _ => simp only [toJ, JVal.ofFields] at h3; cases h3

/-! ## Not vacuous -/

/-- Metadata another program could have written: spaces, another order, escapes, other case, an unknown member, `null`. -/
def sampleText : Bytes := gs "{ \"Fields\" : [\"a\\u0062\",\tnull], \"BUILD\":-7,\n\"extra\":null, \"x\": [1.5e3,{}],\"languages\":{\"CN\":0,\"EN\":1,\"CN\":2} } "
def sampleObj : List (Bytes × Spec.JsonText.Json) :=
  [(gs "Fields", .arr [.str (gs "a\\u0062"), .null]), (gs "BUILD", .num (gs "-7")), (gs "extra", .null),
    (gs "x", .arr [.num (gs "1.5e3"), .obj []]), (gs "languages", .obj [(gs "CN", .num (gs "0")), (gs "EN", .num (gs "1")), (gs "CN", .num (gs "2"))])]

theorem sample_text : Text 10000 (.obj sampleObj) sampleText := text_of (by decide +kernel)
theorem sample_once : Once metaMembers sampleObj :=
  once_of metaNames_ok (fun p hp => (text_members sample_text p hp).1) (by decide +kernel)
example : unmarshalMeta sampleText = some { emptyMeta with build := -7, fields := [gs "ab", []], languages := [(gs "CN", 2), (gs "EN", 1)] } := by
  decide +kernel
example : Describes sampleObj { emptyMeta with build := -7, fields := [gs "ab", []], languages := [(gs "CN", 2), (gs "EN", 1)] } :=
  (C112_meta sample_text sample_once).1 _ (by decide +kernel)
/-- A number that is not whole, a number of more than 64 bits, a text that is not JSON. -/
example : unmarshalMeta (gs "{\"build\":1.0}") = none ∧ unmarshalMeta (gs "{\"build\":9223372036854775808}") = none ∧
    unmarshalMeta (gs "{\"build\":01}") = none ∧ unmarshalMeta (gs "[]") = none ∧ unmarshalMeta (gs " null") = some emptyMeta := by decide +kernel

def sampleVersionText : Bytes := gs "{\"count\": 12 ,\"\\u0056ersion\":\"\\ud83d\\ude00\",\"Languages\":[]}"
def sampleVersionObj : List (Bytes × Spec.JsonText.Json) :=
  [(gs "count", .num (gs "12")), (gs "\\u0056ersion", .str (gs "\\ud83d\\ude00")), (gs "Languages", .arr [])]
theorem sampleVersion_text : Text 10000 (.obj sampleVersionObj) sampleVersionText := text_of (by decide +kernel)
theorem sampleVersion_once : Once versionMembers sampleVersionObj :=
  once_of versionNames_ok (fun p hp => (text_members sampleVersion_text p hp).1) (by decide +kernel)
example : DescribesVersion sampleVersionObj ⟨0, 12, 0, gs "😀", [], []⟩ :=
  (C112_version sampleVersion_text sampleVersion_once _).mp (by decide +kernel)

example : ∃ l, Text 10000 (.obj l) (marshalMeta false true demoMeta) ∧ Sound (.obj l) ∧ l.map (·.1) = metaMembers.map gs ∧
    Once metaMembers l ∧ Describes l (repairMeta demoMeta) :=
  C112_meta_written false true demoMeta (by decide) (by decide) (by decide) (by decide) rfl (by decide)
example : replyMembers demoInfo ≠ [] := by decide +kernel

end Uip.Json
