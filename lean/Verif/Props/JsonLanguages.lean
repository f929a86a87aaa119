import Verif.Props.Json
/-!
# C101 with any number of languages

`ipdb.NewWriter` takes any language map; the packer of the repository passes one language.
-/
namespace Uip.Json
open Uip Uip.Spec

theorem strLt_iff : ∀ a b : Str, strLt a b = true ↔ a < b
  | [], [] => by simp [strLt]
  | [], _ :: _ => by simp [strLt]
  | _ :: _, [] => by simp [strLt]
  | a :: s, b :: t => by
    rw [strLt, List.cons_lt_cons_iff]
    by_cases h1 : a < b
    · simp [h1]
    · by_cases h2 : b < a
      · rw [if_neg h1, if_pos h2]
        refine iff_of_false (by simp) ?_
        rintro (h | ⟨rfl, _⟩)
        · exact h1 h
        · exact absurd h2 (UInt8.lt_irrefl a)
      · have : a = b := UInt8.le_antisymm (UInt8.not_lt.mp h2) (UInt8.not_lt.mp h1)
        subst this
        rw [if_neg h1, if_neg h1, strLt_iff s t]
        simp

theorem str_trichotomy {a b : Str} (h : a ≠ b) (h' : ¬ a < b) : b < a := by
  rw [List.not_lt] at h'
  rcases List.le_iff_lt_or_eq.mp h' with h1 | h1
  · exact h1
  · exact absurd h1.symm h

theorem mapGet_insertKey (k : Str) (v : Int) : ∀ (l : List (Str × Int)) (k' : Str),
    mapGet (insertKey k v l) k' = if k = k' then some v else mapGet l k'
  | [], k' => by simp only [insertKey, mapGet]
  | (a, b) :: r, k' => by
    rw [insertKey]
    by_cases h1 : k = a
    · subst h1
      simp only [if_pos, mapGet]
      split <;> simp_all
    · rw [if_neg h1]
      split
      · simp only [mapGet]
      · simp only [mapGet, mapGet_insertKey k v r k']
        by_cases h2 : k = k'
        · subst h2
          rw [if_neg fun e => h1 e.symm, if_pos rfl, if_pos rfl]
        · rw [if_neg h2, if_neg h2]

theorem mem_insertKey {k : Str} {v : Int} : ∀ {l : List (Str × Int)} {p : Str × Int}, p ∈ insertKey k v l → p = (k, v) ∨ p ∈ l
  | [], p, h => .inl (List.mem_singleton.mp h)
  | (a, b) :: r, p, h => by
    rw [insertKey] at h
    split at h
    · rcases List.mem_cons.mp h with h | h
      · exact .inl h
      · exact .inr (List.mem_cons_of_mem _ h)
    · split at h
      · exact List.mem_cons.mp h
      · rcases List.mem_cons.mp h with h | h
        · exact .inr (by rw [h]; exact List.mem_cons_self)
        · rcases mem_insertKey h with h | h
          · exact .inl h
          · exact .inr (List.mem_cons_of_mem _ h)

theorem insertKey_ascending (k : Str) (v : Int) : ∀ (l : List (Str × Int)), l.Pairwise (fun p q => p.1 < q.1) →
    (insertKey k v l).Pairwise (fun p q => p.1 < q.1)
  | [], _ => List.pairwise_singleton _ _
  | (a, b) :: r, h => by
    obtain ⟨h1, h2⟩ := List.pairwise_cons.mp h
    rw [insertKey]
    split
    · rename_i e
      subst e
      exact List.pairwise_cons.mpr ⟨h1, h2⟩
    · rename_i hne
      split
      · rename_i hlt
        have hlt := (strLt_iff k a).mp hlt
        refine List.pairwise_cons.mpr ⟨fun p hp => ?_, h⟩
        rcases List.mem_cons.mp hp with rfl | hp
        · exact hlt
        · exact List.lt_trans hlt (h1 p hp)
      · rename_i hlt
        have hgt : a < k := str_trichotomy hne fun h => hlt ((strLt_iff k a).mpr h)
        refine List.pairwise_cons.mpr ⟨fun p hp => ?_, insertKey_ascending k v r h2⟩
        rcases mem_insertKey hp with rfl | hp
        · exact hgt
        · exact h1 p hp

theorem sortedPairs_ascending : ∀ m : GoMap Int, (sortedPairs m).Pairwise (fun p q => p.1 < q.1)
  | [] => List.Pairwise.nil
  | (k, v) :: m => insertKey_ascending k v _ (sortedPairs_ascending m)

theorem mapGet_sortedPairs : ∀ (m : GoMap Int) (k : Str), mapGet (sortedPairs m) k = mapGet m k
  | [], _ => rfl
  | (a, b) :: m, k => by
    rw [sortedPairs, mapGet_insertKey, mapGet, mapGet_sortedPairs m k]

theorem mapGet_mem {α : Type} : ∀ {m : GoMap α} {k : Str} {v : α}, mapGet m k = some v → (k, v) ∈ m
  | (a, b) :: m, k, v, h => by
    simp only [mapGet] at h
    split at h
    · rename_i e; subst e; cases h; exact List.mem_cons_self
    · exact List.mem_cons_of_mem _ (mapGet_mem h)

theorem mapGet_of_mem : ∀ {l : List (Str × Int)}, l.Pairwise (fun p q => p.1 < q.1) → ∀ {p : Str × Int}, p ∈ l →
    mapGet l p.1 = some p.2
  | (a, b) :: l, h, p, hp => by
    obtain ⟨h1, h2⟩ := List.pairwise_cons.mp h
    simp only [mapGet]
    rcases List.mem_cons.mp hp with rfl | hp
    · exact if_pos rfl
    · rw [if_neg, mapGet_of_mem h2 hp]
      intro e
      have := h1 p hp
      simp only [] at this
      rw [e] at this
      exact List.lt_irrefl _ this

theorem mem_sortedPairs {m : GoMap Int} {p : Str × Int} (h : p ∈ sortedPairs m) : p ∈ m := by
  have := mapGet_of_mem (sortedPairs_ascending m) h
  rw [mapGet_sortedPairs] at this
  exact mapGet_mem this

theorem ascending_ext : ∀ {l m : List (Str × Int)}, l.Pairwise (fun p q => p.1 < q.1) → m.Pairwise (fun p q => p.1 < q.1) →
    (∀ k, mapGet l k = mapGet m k) → l = m
  | [], [], _, _, _ => rfl
  | [], (a, b) :: m, _, _, h => by have := h a; simp [mapGet] at this
  | (a, b) :: l, [], _, _, h => by have := h a; simp [mapGet] at this
  | (a, b) :: l, (c, d) :: m, hl, hm, h => by
    obtain ⟨l1, l2⟩ := List.pairwise_cons.mp hl
    obtain ⟨m1, m2⟩ := List.pairwise_cons.mp hm
    have hac : a = c := by
      have ha : (a, b) ∈ (c, d) :: m := mapGet_mem (by rw [← h a]; simp [mapGet])
      have hc : (c, d) ∈ (a, b) :: l := mapGet_mem (by rw [h c]; simp [mapGet])
      rcases List.mem_cons.mp ha with e | ha
      · exact congrArg Prod.fst e
      · rcases List.mem_cons.mp hc with e | hc
        · exact (congrArg Prod.fst e).symm
        · exact absurd (List.lt_trans (m1 _ ha) (l1 _ hc)) (List.lt_irrefl _)
    subst hac
    have hbd : b = d := by have := h a; simpa [mapGet] using this
    subst hbd
    have : l = m := by
      refine ascending_ext l2 m2 fun k => ?_
      by_cases hk : a = k
      · subst hk
        have n1 : ∀ {l : List (Str × Int)}, (∀ p ∈ l, a < p.1) → mapGet l a = none := by
          intro l hl
          cases hg : mapGet l a with
          | none => rfl
          | some v => exact absurd (hl _ (mapGet_mem hg)) (List.lt_irrefl _)
        rw [n1 (fun p hp => l1 p hp), n1 (fun p hp => m1 p hp)]
      · have := h k
        simpa [mapGet, hk] using this
    rw [this]

/-- **C101 (order).** The names of the languages are written in ascending order, each once, with the number it stands for; so the
metadata written does not depend on the order a map is walked in. -/
theorem C101_order (m : GoMap Int) : ∃ l : List (Str × Int), JVal.ofMap m = .obj (l.map fun p => (escape p.1, .ofInt p.2)) ∧
    l.Pairwise (fun p q => p.1 < q.1) ∧ ∀ k, mapGet l k = mapGet m k :=
  ⟨sortedPairs m, rfl, sortedPairs_ascending m, mapGet_sortedPairs m⟩

theorem C101_same_bytes (nilFields nilExtra : Bool) (m : Ipdb.MetaData) (L : GoMap Int)
    (h : ∀ k, mapGet L k = mapGet m.languages k) :
    marshalMeta nilFields nilExtra { m with languages := L } = marshalMeta nilFields nilExtra m := by
  have : sortedPairs L = sortedPairs m.languages :=
    ascending_ext (sortedPairs_ascending _) (sortedPairs_ascending _) fun k => by rw [mapGet_sortedPairs, mapGet_sortedPairs, h k]
  unfold marshalMeta metaVal JVal.ofMap
  simp only [this]

theorem putPairs_ofInts : ∀ (l : List (Str × Int)) (acc : GoMap Int), (∀ p ∈ l, IsText p.1 ∧ IsInt64 p.2) →
    l.Pairwise (fun p q => p.1 < q.1) →
    ∃ L, putPairs acc (l.map fun p => (escape p.1, JVal.ofInt p.2)) = some L ∧
      ∀ k, mapGet L k = (mapGet l k).or (mapGet acc k)
  | [], acc, _, _ => ⟨acc, rfl, fun k => by simp [mapGet]⟩
  | (a, b) :: l, acc, h, hp => by
    obtain ⟨p1, p2⟩ := List.pairwise_cons.mp hp
    obtain ⟨ha, hb⟩ := h (a, b) List.mem_cons_self
    obtain ⟨L, e, hL⟩ := putPairs_ofInts l (mapSet (acc.filter fun p => p.1 ≠ a) a b)
      (fun p hp => h p (List.mem_cons_of_mem _ hp)) p2
    refine ⟨L, ?_, fun k => ?_⟩
    · simp only [List.map_cons, putPairs, putInt_ofInt hb.bounds.1 hb.bounds.2, unquote_escape, (repair_eq_iff a).mpr ha]
      exact e
    · rw [hL k, mapSet, mapGet, mapGet]
      by_cases hk : a = k
      · subst hk
        have : mapGet l a = none := by
          cases hg : mapGet l a with
          | none => rfl
          | some v => exact absurd (p1 _ (mapGet_mem hg)) (List.lt_irrefl _)
        rw [if_pos rfl, if_pos rfl, this]; rfl
      · rw [if_neg hk, if_neg hk]
        have : ∀ acc : GoMap Int, mapGet (acc.filter fun p => p.1 ≠ a) k = mapGet acc k := by
          intro acc
          induction acc with
          | nil => rfl
          | cons p acc ih =>
            obtain ⟨c, d⟩ := p
            by_cases hc : c = a
            · rw [List.filter_cons_of_neg (by simp [hc]), ih, mapGet, if_neg (by rw [hc]; exact hk)]
            · rw [List.filter_cons_of_pos (by simp [hc]), mapGet, mapGet, ih]
        rw [this]

/-- **C101 (any languages).** Metadata with any number of languages, whose names are texts, comes back with the same languages. -/
theorem C101_languages (nilFields nilExtra : Bool) (m : Ipdb.MetaData) (hb : IsInt64 m.build) (hv : m.ipVersion < 65536)
    (hn : IsInt64 m.nodeCount) (hs : IsInt64 m.totalSize) (hl : ∀ p ∈ m.languages, IsText p.1 ∧ IsInt64 p.2) :
    ∃ L, unmarshalMeta (marshalMeta nilFields nilExtra m) = some
        { m with languages := L, fields := m.fields.map repair, version := repair m.version, extra := m.extra.map repair } ∧
      ∀ k, mapGet L k = mapGet m.languages k := by
  obtain ⟨L, e, hL⟩ := putPairs_ofInts (sortedPairs m.languages) [] (fun p hp => hl p (mem_sortedPairs hp)) (sortedPairs_ascending _)
  refine ⟨L, ?_, fun k => by rw [hL k, mapGet_sortedPairs]; cases mapGet m.languages k <;> rfl⟩
  have hput : putMap [] (.ofMap m.languages) = some L := e
  have hp := parse_text (fits_meta nilFields nilExtra m)
  unfold unmarshalMeta marshalMeta
  rw [hp]
  have hn' := meta_name
  have e1 := hn' "build" (by decide)
  have e2 := hn' "ip_version" (by decide)
  have e3 := hn' "languages" (by decide)
  have e4 := hn' "node_count" (by decide)
  have e5 := hn' "total_size" (by decide)
  have e6 := hn' "fields" (by decide)
  have e7 := hn' "version" (by decide)
  have e8 := hn' "extra" (by decide)
  have h1 := hb.bounds
  have h3 := hn.bounds
  have h4 := hs.bounds
  simp only [metaVal, JVal.ofFields, List.map_cons, List.map_nil, putMeta, putMetaField, e1, e2, e3, e4, e5, e6, e7, e8]
  rw [if_pos trivial, putInt_ofInt h1.1 h1.2]
  simp only [Option.map_some]
  rw [if_neg (by decide), if_pos trivial, putUint_ofInt (by omega) (by omega)]
  simp only [Option.map_some]
  rw [if_neg (by decide), if_neg (by decide), if_pos trivial, hput]
  simp only [Option.map_some]
  rw [if_neg (by decide), if_neg (by decide), if_neg (by decide), if_pos trivial, putInt_ofInt h3.1 h3.2]
  simp only [Option.map_some]
  rw [if_neg (by decide), if_neg (by decide), if_neg (by decide), if_neg (by decide), if_pos trivial, putInt_ofInt h4.1 h4.2]
  simp only [Option.map_some]
  rw [if_neg (by decide), if_neg (by decide), if_neg (by decide), if_neg (by decide), if_neg (by decide), if_pos trivial,
    putStrings_ofStrings]
  simp only [Option.map_some]
  rw [if_neg (by decide), if_neg (by decide), if_neg (by decide), if_neg (by decide), if_neg (by decide), if_neg (by decide),
    if_pos trivial, putStr_ofStr]
  simp only [Option.map_some]
  rw [if_neg (by decide), if_neg (by decide), if_neg (by decide), if_neg (by decide), if_neg (by decide), if_neg (by decide),
    if_neg (by decide), putStrings_ofStrings]
  rfl

/-- Two languages: the hypotheses of `C101_languages` are met, and the text written starts with the smaller name. -/
example : (∀ p ∈ ([(gs "EN", 2), (gs "CN", 0)] : GoMap Int), IsText p.1 ∧ IsInt64 p.2) ∧
    JVal.ofMap [(gs "EN", 2), (gs "CN", 0)] = .obj [(gs "CN", .num (gs "0")), (gs "EN", .num (gs "2"))] := by
  refine ⟨?_, by rfl⟩
  intro p hp
  refine ⟨?_, ?_⟩
  · rcases List.mem_cons.mp hp with rfl | hp
    · exact isText_gs _
    · rw [List.mem_singleton.mp hp]; exact isText_gs _
  · rcases List.mem_cons.mp hp with rfl | hp
    · decide
    · rw [List.mem_singleton.mp hp]; decide

end Uip.Json
