import Verif.Proof.Json.DecodeMeta
/-!
# What is decoded from an object whose members appear once
-/
namespace Uip.Json
open Uip Uip.Spec.AddrText Uip.Spec.JsonText

section
variable {names : List String} {n : String} {l : List (Bytes × Spec.JsonText.Json)} {d : Nat} {v : Spec.JsonText.Json}

theorem int_put (ho : Once names l) (hn : n ∈ names) {a : Int} (h : IntMember l n a) (hv : Has l n v) :
    putInt minInt64 maxInt64 0 (toJ v) = some a := by
  rw [putInt_iff]
  rcases h with ⟨t, ht, hw, hf⟩ | ⟨hm, e⟩
  · exact .inl ⟨t, once_has ho hn hv ht, hw, (fits64_iff _).mp hf⟩
  · exact .inr ⟨hm v hv, e⟩

theorem nat_put (ho : Once names l) (hn : n ∈ names) {hi a : Nat} (h : NatMember l n hi a) (hv : Has l n v) :
    putUint hi 0 (toJ v) = some (a : Int) := by
  rw [putUint_iff]
  rcases h with ⟨t, ht, hw, hf⟩ | ⟨hm, e⟩
  · exact .inl ⟨t, a, once_has ho hn hv ht, hw, rfl, hf⟩
  · exact .inr ⟨hm v hv, by rw [e]; rfl⟩

theorem str_put (ho : Once names l) (hn : n ∈ names) {a : Str} (h : StrMember l n a) (hv : Has l n v) {u : Bytes} (hu : Value d v u) :
    putStr [] (toJ v) = some a := by
  rw [putStr_iff hu]
  rcases h with ⟨t, ht, hw⟩ | ⟨hm, e⟩
  · exact .inl ⟨t, once_has ho hn hv ht, hw⟩
  · exact .inr ⟨hm v hv, e⟩

theorem strs_put (ho : Once names l) (hn : n ∈ names) {a : List Str} (h : StrsMember l n a) (hv : Has l n v) {u : Bytes}
    (hu : Value (d + 1) v u) : ∃ sl, putStrings {} (toJ v) = some sl ∧ sl.elems = a := by
  rw [putStrings_iff hu]
  rcases h with ⟨t, ht, hw⟩ | ⟨hm, e⟩
  · exact .inl ⟨t, once_has ho hn hv ht, hw⟩
  · exact .inr ⟨hm v hv, e⟩

theorem counts_put (ho : Once names l) (hn : n ∈ names) {a : GoMap Int} (h : CountsMember l n a) (hv : Has l n v) {u : Bytes}
    (hu : Value (d + 1) v u) : ∃ m, putMap [] (toJ v) = some m ∧ ∀ k, mapGet m k = mapGet a k := by
  rcases h with ⟨ps, qs, ht, h1, h2⟩ | ⟨hm, e⟩
  · obtain rfl := once_has ho hn hv ht
    refine ⟨_, (putPairs_iff (value_obj hu) [] _).mpr ⟨qs, h1, rfl⟩, fun k => ?_⟩
    rw [h2, mapGet_setAll]
    cases ((qs.filter fun q => decide (q.1 = k)).getLast?).map (·.2) <;> rfl
  · obtain rfl := hm v hv
    exact ⟨[], rfl, fun k => by rw [e]⟩
end

section
variable {D : Type} {names : List String} {F : D → Str → JVal → Option D} {n : String} {l : List (Bytes × Spec.JsonText.Json)} {d : Nat}
  {m m' : D}

theorem int_unique (hok : NamesOK names) {g : D → Int} (hc : Comp names F n g (putInt minInt64 maxInt64)) (hq : ∀ p ∈ l, Quoted p.1)
    (ho : Once names l) (h0 : g m = 0) (h : putAll F m (toJps l) = some m') {a : Int} (ha : IntMember l n a) : g m' = a := by
  by_cases hh : ∃ v, Has l n v
  · obtain ⟨v, hv⟩ := hh
    have := comp_has hok hc hq ho h v hv
    rw [h0, int_put ho hc.mem ha hv] at this
    exact (Option.some.inj this).symm
  · rw [comp_none hok hc hq h (fun v hv => hh ⟨v, hv⟩), h0]
    rcases ha with ⟨t, ht, _⟩ | ⟨_, e⟩
    · exact absurd ⟨_, ht⟩ hh
    · exact e.symm

theorem nat_unique (hok : NamesOK names) {hi : Nat} {g : D → Int} (hc : Comp names F n g (putUint hi)) (hq : ∀ p ∈ l, Quoted p.1)
    (ho : Once names l) (h0 : g m = 0) (h : putAll F m (toJps l) = some m') {a : Nat} (ha : NatMember l n hi a) : g m' = a := by
  by_cases hh : ∃ v, Has l n v
  · obtain ⟨v, hv⟩ := hh
    have := comp_has hok hc hq ho h v hv
    rw [h0, nat_put ho hc.mem ha hv] at this
    exact (Option.some.inj this).symm
  · rw [comp_none hok hc hq h (fun v hv => hh ⟨v, hv⟩), h0]
    rcases ha with ⟨t, ht, _⟩ | ⟨_, e⟩
    · exact absurd ⟨_, ht⟩ hh
    · rw [e]; rfl

theorem str_unique (hok : NamesOK names) {g : D → Str} (hc : Comp names F n g putStr) (hq : ∀ p ∈ l, Quoted p.1 ∧ ∃ u, Value d p.2 u)
    (ho : Once names l) (h0 : g m = []) (h : putAll F m (toJps l) = some m') {a : Str} (ha : StrMember l n a) : g m' = a := by
  have hq' := fun p hp => (hq p hp).1
  by_cases hh : ∃ v, Has l n v
  · obtain ⟨v, hv⟩ := hh
    have := comp_has hok hc hq' ho h v hv
    obtain ⟨k, hk, _⟩ := id hv
    obtain ⟨_, u, hu⟩ := hq _ hk
    rw [h0, str_put ho hc.mem ha hv hu] at this
    exact (Option.some.inj this).symm
  · rw [comp_none hok hc hq' h (fun v hv => hh ⟨v, hv⟩), h0]
    rcases ha with ⟨t, ht, _⟩ | ⟨_, e⟩
    · exact absurd ⟨_, ht⟩ hh
    · exact e.symm

theorem strs_unique (hok : NamesOK names) {g : D → SliceVal} (hc : Comp names F n g putStrings)
    (hq : ∀ p ∈ l, Quoted p.1 ∧ ∃ u, Value (d + 1) p.2 u)
    (ho : Once names l) (h0 : g m = {}) (h : putAll F m (toJps l) = some m') {a : List Str} (ha : StrsMember l n a) : (g m').elems = a := by
  have hq' := fun p hp => (hq p hp).1
  by_cases hh : ∃ v, Has l n v
  · obtain ⟨v, hv⟩ := hh
    have := comp_has hok hc hq' ho h v hv
    obtain ⟨k, hk, _⟩ := id hv
    obtain ⟨_, u, hu⟩ := hq _ hk
    obtain ⟨sl, e, e'⟩ := strs_put ho hc.mem ha hv hu
    rw [h0, e] at this
    rw [← Option.some.inj this, e']
  · rw [comp_none hok hc hq' h (fun v hv => hh ⟨v, hv⟩), h0]
    rcases ha with ⟨t, ht, _⟩ | ⟨_, e⟩
    · exact absurd ⟨_, ht⟩ hh
    · rw [e]

theorem counts_unique (hok : NamesOK names) {g : D → GoMap Int} (hc : Comp names F n g putMap)
    (hq : ∀ p ∈ l, Quoted p.1 ∧ ∃ u, Value (d + 1) p.2 u)
    (ho : Once names l) (h0 : g m = []) (h : putAll F m (toJps l) = some m') {a : GoMap Int} (ha : CountsMember l n a) (k : Str) :
    mapGet (g m') k = mapGet a k := by
  have hq' := fun p hp => (hq p hp).1
  by_cases hh : ∃ v, Has l n v
  · obtain ⟨v, hv⟩ := hh
    have := comp_has hok hc hq' ho h v hv
    obtain ⟨x, hk, _⟩ := id hv
    obtain ⟨_, u, hu⟩ := hq _ hk
    obtain ⟨y, e, e'⟩ := counts_put ho hc.mem ha hv hu
    rw [h0, e] at this
    rw [← Option.some.inj this, e']
  · rw [comp_none hok hc hq' h (fun v hv => hh ⟨v, hv⟩), h0]
    rcases ha with ⟨ps, qs, ht, _⟩ | ⟨_, e⟩
    · exact absurd ⟨_, ht⟩ hh
    · rw [e]
end

theorem text_obj {j : Spec.JsonText.Json} {d : Nat} {s : Bytes} (h : Text d j s) : ∃ t, Value d j t := by
  obtain ⟨_, t, _, _, _, ht, _⟩ := h
  exact ⟨t, ht⟩

/-- A member that the specification describes is accepted. -/
theorem meta_accepts {l : List (Bytes × Spec.JsonText.Json)} {d : Nat} (hq : ∀ p ∈ l, Quoted p.1 ∧ ∃ u, Value (d + 1) p.2 u)
    (ho : Once metaMembers l) {m : Ipdb.MetaData} (hd : Describes l m) : ∀ q ∈ toJps l, (putMetaField {} (unquote q.1) q.2).isSome = true := by
  intro q hql
  rw [toJps_eq] at hql
  obtain ⟨p, hp, rfl⟩ := List.mem_map.mp hql
  obtain ⟨hk, u, hu⟩ := hq p hp
  have key := fieldFor_iff metaNames_ok hk
  simp only []
  rw [putMetaField_eq]
  rw [metaNames_eq]
  cases hf : fieldFor metaMembers (unquote p.1) with
  | none => rfl
  | some n =>
    obtain ⟨hn, hnam⟩ := (key n).mp hf
    have hv : Has l n p.2 := ⟨p.1, hp, hnam⟩
    simp only [Option.isSome_map]
    have hn' := hn
    simp only [metaMembers, List.mem_cons, List.not_mem_nil, or_false] at hn'
    rcases hn' with rfl | rfl | rfl | rfl | rfl | rfl | rfl | rfl
    · show (Option.map _ _).isSome = true
      rw [Option.isSome_map, int_put ho hn hd.build hv]; rfl
    · show (Option.map _ _).isSome = true
      rw [Option.isSome_map]; have := nat_put ho hn hd.ipVersion hv; rw [show ((65535 : Nat) : Int) = 65535 from rfl] at this; rw [this]; rfl
    · obtain ⟨x, e, _⟩ := counts_put ho hn hd.languages hv hu
      show (Option.map _ _).isSome = true
      rw [Option.isSome_map, e]; rfl
    · show (Option.map _ _).isSome = true
      rw [Option.isSome_map, int_put ho hn hd.nodeCount hv]; rfl
    · show (Option.map _ _).isSome = true
      rw [Option.isSome_map, int_put ho hn hd.totalSize hv]; rfl
    · obtain ⟨x, e, _⟩ := strs_put ho hn hd.fields hv hu
      show (Option.map _ _).isSome = true
      rw [Option.isSome_map, e]; rfl
    · show (Option.map _ _).isSome = true
      rw [Option.isSome_map, str_put ho hn hd.version hv hu]; rfl
    · obtain ⟨x, e, _⟩ := strs_put ho hn hd.extra hv hu
      show (Option.map _ _).isSome = true
      rw [Option.isSome_map, e]; rfl

theorem version_accepts {l : List (Bytes × Spec.JsonText.Json)} {d : Nat} (hq : ∀ p ∈ l, Quoted p.1 ∧ ∃ u, Value (d + 1) p.2 u)
    (ho : Once versionMembers l) {m : VersionInfo} (hd : DescribesVersion l m) :
    ∀ q ∈ toJps l, (putVersionField {} (unquote q.1) q.2).isSome = true := by
  intro q hql
  rw [toJps_eq] at hql
  obtain ⟨p, hp, rfl⟩ := List.mem_map.mp hql
  obtain ⟨hk, u, hu⟩ := hq p hp
  have key := fieldFor_iff versionNames_ok hk
  simp only []
  rw [putVersionField_eq]
  rw [versionNames_eq]
  cases hf : fieldFor versionMembers (unquote p.1) with
  | none => rfl
  | some n =>
    obtain ⟨hn, hnam⟩ := (key n).mp hf
    have hv : Has l n p.2 := ⟨p.1, hp, hnam⟩
    simp only [Option.isSome_map]
    have hn' := hn
    simp only [versionMembers, List.mem_cons, List.not_mem_nil, or_false] at hn'
    rcases hn' with rfl | rfl | rfl | rfl | rfl | rfl
    · show (Option.map _ _).isSome = true
      rw [Option.isSome_map, int_put ho hn hd.ipType hv]; rfl
    · show (Option.map _ _).isSome = true
      rw [Option.isSome_map]; have := nat_put ho hn hd.count hv; rw [show ((4294967295 : Nat) : Int) = 4294967295 from rfl] at this; rw [this]; rfl
    · show (Option.map _ _).isSome = true
      rw [Option.isSome_map, int_put ho hn hd.build hv]; rfl
    · show (Option.map _ _).isSome = true
      rw [Option.isSome_map, str_put ho hn hd.version hv hu]; rfl
    · obtain ⟨x, e, _⟩ := strs_put ho hn hd.languages hv hu
      show (Option.map _ _).isSome = true
      rw [Option.isSome_map, e]; rfl
    · obtain ⟨x, e, _⟩ := strs_put ho hn hd.extraInfo hv hu
      show (Option.map _ _).isSome = true
      rw [Option.isSome_map, e]; rfl

end Uip.Json
