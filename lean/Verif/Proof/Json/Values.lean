import Verif.Proof.Json.Scan
/-!
# Members of the structs: written and assigned again
-/
namespace Uip.Json
open Uip

theorem putInt_ofInt {lo hi old n : Int} (h1 : lo ≤ n) (h2 : n ≤ hi) : putInt lo hi old (.ofInt n) = some n := by
  simp only [JVal.ofInt, putInt, rawInt_intText]
  rw [if_pos ⟨h1, h2⟩]

theorem putUint_ofInt {hi old n : Int} (h1 : 0 ≤ n) (h2 : n ≤ hi) : putUint hi old (.ofInt n) = some n := by
  have := putInt_ofInt (old := old) h1 h2
  simp only [JVal.ofInt, putUint] at this ⊢
  obtain ⟨b, t, e, _, hb⟩ := intText_head n
  rw [if_neg (by rw [e]; simpa using hb h1)]
  exact this

theorem putStr_ofStr (old s : Str) : putStr old (.ofStr s) = some (repair s) := by
  simp only [JVal.ofStr, putStr, unquote_escape]

theorem putElems_ofStr : ∀ (l : List Str), putElems [] (l.map .ofStr) = some (l.map repair)
  | [] => rfl
  | s :: l => by
    simp only [List.map_cons, putElems, putStr_ofStr]
    rw [List.tail_nil, putElems_ofStr l]; rfl

theorem putStrings_ofStrings (isNil : Bool) (l : List Str) : putStrings {} (.ofStrings isNil l) = some ⟨l.map repair, []⟩ := by
  unfold JVal.ofStrings
  cases l with
  | nil => cases isNil <;> rfl
  | cons s l =>
    rw [if_neg (by simp)]
    simp only [List.map_cons, putStrings, List.append_nil]
    have := putElems_ofStr (s :: l)
    rw [List.map_cons] at this
    rw [this]
    simp

theorem putMap_single (k : Str) {n : Int} (h1 : minInt64 ≤ n) (h2 : n ≤ maxInt64) :
    putMap [] (.ofMap [(k, n)]) = some [(repair k, n)] := by
  simp only [JVal.ofMap, sortedPairs, insertKey, List.map_cons, List.map_nil, putMap, putPairs, putInt_ofInt h1 h2, unquote_escape,
    mapSet, List.filter_nil]

/-- A name that needs no escape. -/
def Plain (s : String) : Prop := escape (gs s) = gs s ∧ unquote (gs s) = gs s

instance (s : String) : Decidable (Plain s) := by unfold Plain; exact inferInstance

theorem fits_ofFields {d : Nat} {l : List (String × JVal)} (hn : ∀ p ∈ l, Plain p.1) (hv : ∀ p ∈ l, Fits d p.2) :
    Fits (d + 1) (.ofFields l) := by
  intro p hp
  obtain ⟨q, hq, rfl⟩ := List.mem_map.mp hp
  exact ⟨⟨gs q.1, (hn q hq).1.symm⟩, hv q hq⟩

theorem fits_ofInt (d : Nat) (n : Int) : Fits d (.ofInt n) := by cases d <;> exact ⟨n, rfl⟩
theorem fits_ofStr (d : Nat) (s : Str) : Fits d (.ofStr s) := by cases d <;> exact ⟨s, rfl⟩
theorem fits_ofStrings (d : Nat) (isNil : Bool) (l : List Str) : Fits (d + 1) (.ofStrings isNil l) := by
  unfold JVal.ofStrings
  split
  · trivial
  · intro v hv
    obtain ⟨s, _, rfl⟩ := List.mem_map.mp hv
    exact fits_ofStr d s
theorem fits_ofMap (d : Nat) (m : GoMap Int) : Fits (d + 1) (.ofMap m) := by
  intro p hp
  obtain ⟨q, _, rfl⟩ := List.mem_map.mp hp
  exact ⟨⟨q.1, rfl⟩, fits_ofInt d _⟩

/-! ## The metadata -/

theorem fits_meta (a b : Bool) (m : Ipdb.MetaData) : Fits maxDepth (metaVal a b m) := by
  refine Fits.mono (d := 2) (by decide) ?_
  apply fits_ofFields
  · have : ∀ n ∈ metaNames, Plain n := by decide +kernel
    intro p hp
    apply this
    have := List.mem_map_of_mem (f := Prod.fst) hp
    exact this
  · intro p hp
    simp only [List.mem_cons, List.not_mem_nil, or_false] at hp
    rcases hp with rfl | rfl | rfl | rfl | rfl | rfl | rfl | rfl
    · exact fits_ofInt _ _
    · exact fits_ofInt _ _
    · exact fits_ofMap _ _
    · exact fits_ofInt _ _
    · exact fits_ofInt _ _
    · exact fits_ofStrings _ _ _
    · exact fits_ofStr _ _
    · exact fits_ofStrings _ _ _

/-- Members under their own names. -/
theorem meta_name : ∀ n ∈ metaNames, fieldFor metaNames (unquote (gs n)) = some n := by decide +kernel

theorem putMeta_eq (a b : Bool) (m : Ipdb.MetaData) (h1 : minInt64 ≤ m.build ∧ m.build ≤ maxInt64) (h2 : m.ipVersion ≤ 65535)
    (h3 : minInt64 ≤ m.nodeCount ∧ m.nodeCount ≤ maxInt64) (h4 : minInt64 ≤ m.totalSize ∧ m.totalSize ≤ maxInt64)
    {k : Str} {n : Int} (h5 : m.languages = [(k, n)]) (h6 : minInt64 ≤ n ∧ n ≤ maxInt64) :
    ∃ l, metaVal a b m = .obj l ∧ putMeta {} l = some
      { build := m.build, ipVersion := m.ipVersion, languages := [(repair k, n)], nodeCount := m.nodeCount, totalSize := m.totalSize,
        fields := ⟨m.fields.map repair, []⟩, version := repair m.version, extra := ⟨m.extra.map repair, []⟩ } := by
  refine ⟨_, rfl, ?_⟩
  have hn := meta_name
  have e1 := hn "build" (by decide)
  have e2 := hn "ip_version" (by decide)
  have e3 := hn "languages" (by decide)
  have e4 := hn "node_count" (by decide)
  have e5 := hn "total_size" (by decide)
  have e6 := hn "fields" (by decide)
  have e7 := hn "version" (by decide)
  have e8 := hn "extra" (by decide)
  rw [h5]
  simp only [List.map_cons, List.map_nil, putMeta, putMetaField, e1, e2, e3, e4, e5, e6, e7, e8]
  rw [if_pos trivial, putInt_ofInt h1.1 h1.2]
  simp only [Option.map_some]
  rw [if_neg (by decide), if_pos trivial, putUint_ofInt (by omega) (by omega)]
  simp only [Option.map_some]
  rw [if_neg (by decide), if_neg (by decide), if_pos trivial, putMap_single k h6.1 h6.2]
  simp only [Option.map_some]
  rw [if_neg (by decide), if_neg (by decide), if_neg (by decide), if_pos trivial, putInt_ofInt h3.1 h3.2]
  simp only [Option.map_some]
  rw [if_neg (by decide), if_neg (by decide), if_neg (by decide), if_neg (by decide), if_pos trivial, putInt_ofInt h4.1 h4.2]
  simp only [Option.map_some]
  rw [if_neg (by decide), if_neg (by decide), if_neg (by decide), if_neg (by decide), if_neg (by decide), if_pos trivial,
    putStrings_ofStrings]
  simp only [Option.map_some]
  rw [if_neg (by decide), if_neg (by decide), if_neg (by decide), if_neg (by decide), if_neg (by decide), if_neg (by decide),
    if_pos trivial, putStr_ofStr]
  simp only [Option.map_some]
  rw [if_neg (by decide), if_neg (by decide), if_neg (by decide), if_neg (by decide), if_neg (by decide), if_neg (by decide),
    if_neg (by decide), putStrings_ofStrings]
  rfl

/-! ## The version -/

theorem fits_version (a b : Bool) (v : VersionInfo) : Fits maxDepth (versionVal a b v) := by
  refine Fits.mono (d := 2) (by decide) ?_
  apply fits_ofFields
  · have : ∀ n ∈ versionNames, Plain n := by decide +kernel
    intro p hp
    apply this
    have := List.mem_map_of_mem (f := Prod.fst) hp
    exact this
  · intro p hp
    simp only [List.mem_cons, List.not_mem_nil, or_false] at hp
    rcases hp with rfl | rfl | rfl | rfl | rfl | rfl
    · exact fits_ofInt _ _
    · exact fits_ofInt _ _
    · exact fits_ofInt _ _
    · exact fits_ofStr _ _
    · exact fits_ofStrings _ _ _
    · exact fits_ofStrings _ _ _

theorem version_name : ∀ n ∈ versionNames, fieldFor versionNames (unquote (gs n)) = some n := by decide +kernel

theorem putVersion_eq (a b : Bool) (v : VersionInfo) (h1 : minInt64 ≤ v.ipType ∧ v.ipType ≤ maxInt64)
    (h2 : minInt64 ≤ v.build ∧ v.build ≤ maxInt64) :
    ∃ l, versionVal a b v = .obj l ∧ putVersion {} l = some
      { ipType := v.ipType, count := v.count.toNat, build := v.build, version := repair v.version,
        languages := ⟨v.languages.map repair, []⟩, extraInfo := ⟨v.extraInfo.map repair, []⟩ } := by
  refine ⟨_, rfl, ?_⟩
  have hn := version_name
  have e1 := hn "IpType" (by decide)
  have e2 := hn "Count" (by decide)
  have e3 := hn "Build" (by decide)
  have e4 := hn "Version" (by decide)
  have e5 := hn "Languages" (by decide)
  have e6 := hn "ExtraInfo" (by decide)
  have hc : (v.count.toNat : Int) ≤ 4294967295 := by have := v.count.toNat_lt; omega
  simp only [List.map_cons, List.map_nil, putVersion, putVersionField, e1, e2, e3, e4, e5, e6]
  rw [if_pos trivial, putInt_ofInt h1.1 h1.2]
  simp only [Option.map_some]
  rw [if_neg (by decide), if_pos trivial, putUint_ofInt (by omega) hc]
  simp only [Option.map_some]
  rw [if_neg (by decide), if_neg (by decide), if_pos trivial, putInt_ofInt h2.1 h2.2]
  simp only [Option.map_some]
  rw [if_neg (by decide), if_neg (by decide), if_neg (by decide), if_pos trivial, putStr_ofStr]
  simp only [Option.map_some]
  rw [if_neg (by decide), if_neg (by decide), if_neg (by decide), if_neg (by decide), if_pos trivial, putStrings_ofStrings]
  simp only [Option.map_some]
  rw [if_neg (by decide), if_neg (by decide), if_neg (by decide), if_neg (by decide), if_neg (by decide), putStrings_ofStrings]
  rfl

/-! ## No control characters in what is written -/

theorem escape_plain (s : Str) : ∀ b ∈ escape s, 0x20 ≤ b := by
  have hi : ∀ b : UInt8, ¬ b < 0x80 → 0x20 ≤ b := by
    apply byte_all (fun b => ¬ b < 0x80 → 0x20 ≤ b); decide +kernel
  have hb : ∀ a : UInt8, ∀ b ∈ escapeByte a, a < 0x80 → 0x20 ≤ b := by
    apply byte_all (fun a => ∀ b ∈ escapeByte a, a < 0x80 → 0x20 ≤ b); decide +kernel
  induction s using text_ind' with
  | h0 => intro b hb; cases hb
  | h1 a r ha ih =>
    rw [escape_ascii ha]
    intro b hm0
    rcases List.mem_append.mp hm0 with hm | hm
    · exact hb a b hm ha
    · exact ih b hm
  | h2 a r h ih =>
    rw [escape_bad h]
    intro b hm0
    rcases List.mem_append.mp hm0 with hm | hm
    · clear hm0; revert b; decide
    · exact ih b hm
  | h3 s n h ha ih =>
    rw [escape_good h ha]
    intro b hm0
    rcases List.mem_append.mp hm0 with hm | hm
    · unfold escapeChar at hm
      split at hm
      · clear hm0; revert b; decide
      · split at hm
        · clear hm0; revert b; decide
        · exact hi b (high_bytes h ha b hm)
    · exact ih b hm

theorem intText_plain (n : Int) : ∀ b ∈ intText n, 0x20 ≤ b := by
  have hd : ∀ b : UInt8, isDigit b = true → 0x20 ≤ b := by
    apply byte_all (fun b => isDigit b = true → 0x20 ≤ b); decide +kernel
  intro b hb
  unfold intText at hb
  split at hb
  · rcases List.mem_cons.mp hb with rfl | hb
    · decide
    · exact hd b (decStr_digit hb)
  · exact hd b (decStr_digit hb)

theorem text_plain : ∀ (d : Nat) (v : JVal), Fits d v → ∀ b ∈ v.text, 0x20 ≤ b := by
  have hscalar : ∀ (d : Nat) (v : JVal), Fits d v → IsScalar v → ∀ b ∈ v.text, 0x20 ≤ b := by
    intro d v h hs b hb
    cases v with
    | null => rw [JVal.text, gs_null] at hb; revert b; decide
    | bool x =>
      cases x
      · rw [JVal.text, gs_false] at hb; revert b; decide
      · rw [JVal.text, gs_true] at hb; revert b; decide
    | num raw =>
      obtain ⟨n, rfl⟩ : ∃ n : Int, raw = intText n := by cases d <;> exact h
      rw [JVal.text] at hb; exact intText_plain n b hb
    | str raw =>
      obtain ⟨s, rfl⟩ : ∃ s : Str, raw = escape s := by cases d <;> exact h
      rw [JVal.text] at hb
      rcases List.mem_append.mp hb with hb | hb
      · rcases List.mem_cons.mp hb with rfl | hb
        · decide
        · exact escape_plain s b hb
      · simp at hb; subst hb; decide
    | arr l => exact hs.elim
    | obj l => exact hs.elim
  intro d
  induction d with
  | zero => intro v h; exact hscalar 0 v h (by cases v <;> first | trivial | exact h)
  | succ d ih =>
    intro v h
    cases v with
    | arr l =>
      have hl : ∀ x ∈ l, Fits d x := h
      have he : ∀ b ∈ elemsText l, 0x20 ≤ b := by
        clear h
        induction l with
        | nil => intro b hb; rw [elemsText] at hb; cases hb
        | cons v l ihl =>
          cases l with
          | nil => intro b hb; rw [elemsText] at hb; exact ih v (hl v (by simp)) b hb
          | cons w l =>
            intro b hb
            rw [elemsText] at hb
            rcases List.mem_append.mp hb with hb | hb
            · exact ih v (hl v (by simp)) b hb
            · rcases List.mem_cons.mp hb with rfl | hb
              · decide
              · exact ihl (fun x hx => hl x (List.mem_cons_of_mem _ hx)) b hb
      intro b hb
      rw [JVal.text] at hb
      rcases List.mem_cons.mp hb with rfl | hb
      · decide
      · rcases List.mem_append.mp hb with hb | hb
        · exact he b hb
        · simp at hb; subst hb; decide
    | obj l =>
      have hl : ∀ p ∈ l, (∃ s : Str, p.1 = escape s) ∧ Fits d p.2 := h
      have he : ∀ b ∈ membersText l, 0x20 ≤ b := by
        clear h
        induction l with
        | nil => intro b hb; rw [membersText] at hb; cases hb
        | cons p l ihl =>
          obtain ⟨k, v⟩ := p
          obtain ⟨⟨s, hk⟩, hv⟩ := hl (k, v) (by simp)
          simp only [] at hk hv
          subst hk
          have hone : ∀ b ∈ 0x22 :: escape s ++ 0x22 :: 0x3A :: v.text, 0x20 ≤ b := by
            intro b hb
            rcases List.mem_append.mp hb with hb | hb
            · rcases List.mem_cons.mp hb with rfl | hb
              · decide
              · exact escape_plain s b hb
            · rcases List.mem_cons.mp hb with rfl | hb
              · decide
              rcases List.mem_cons.mp hb with rfl | hb
              · decide
              · exact ih v hv b hb
          cases l with
          | nil => intro b hb; rw [membersText] at hb; exact hone b hb
          | cons w l =>
            intro b hb
            rw [membersText] at hb
            rcases List.mem_append.mp hb with hb | hb
            · exact hone b hb
            · rcases List.mem_cons.mp hb with rfl | hb
              · decide
              · exact ihl (fun x hx => hl x (List.mem_cons_of_mem _ hx)) b hb
      intro b hb
      rw [JVal.text] at hb
      rcases List.mem_cons.mp hb with rfl | hb
      · decide
      · rcases List.mem_append.mp hb with hb | hb
        · exact he b hb
        · simp at hb; subst hb; decide
    | _ => exact hscalar _ _ h trivial

end Uip.Json
