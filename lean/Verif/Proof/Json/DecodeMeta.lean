import Verif.Proof.Json.Decode
/-!
# Assigning the members of an object
-/
namespace Uip.Json
open Uip Uip.Spec.AddrText Uip.Spec.JsonText

theorem once_has {names : List String} {l : List (Bytes × Spec.JsonText.Json)} (h : Once names l) {n : String} (hn : n ∈ names)
    {v w : Spec.JsonText.Json} (hv : Has l n v) (hw : Has l n w) : v = w := by
  obtain ⟨k, hk, nk⟩ := hv
  obtain ⟨k', hk', nk'⟩ := hw
  unfold Once at h
  induction h with
  | nil => cases hk
  | cons h1 _ ih =>
    rcases List.mem_cons.mp hk with e | hk1
    · rcases List.mem_cons.mp hk' with e' | hk1'
      · rw [← e] at e'; exact ((Prod.mk.inj e').2).symm
      · subst e; exact absurd ⟨nk, nk'⟩ (h1 (k', w) hk1' n hn)
    · rcases List.mem_cons.mp hk' with e' | hk1'
      · subst e'; exact absurd ⟨nk', nk⟩ (h1 (k, v) hk1 n hn)
      · exact ih hk1 hk1'

/-- Members assigned one after the other. -/
def putAll {D : Type} (F : D → Str → JVal → Option D) (m : D) : List (Bytes × JVal) → Option D
  | [] => some m
  | (k, v) :: r => match F m (unquote k) v with
    | none => none
    | some m => putAll F m r

theorem putMeta_all (m : MetaDest) (l : List (Bytes × JVal)) : putMeta m l = putAll putMetaField m l := by
  induction l generalizing m with
  | nil => rfl
  | cons p l ih =>
    obtain ⟨k, v⟩ := p
    rw [putMeta, putAll]
    cases putMetaField m (unquote k) v with
    | none => rfl
    | some m => exact ih m

theorem putVersion_all (m : VersionDest) (l : List (Bytes × JVal)) : putVersion m l = putAll putVersionField m l := by
  induction l generalizing m with
  | nil => rfl
  | cons p l ih =>
    obtain ⟨k, v⟩ := p
    rw [putVersion, putAll]
    cases putVersionField m (unquote k) v with
    | none => rfl
    | some m => exact ih m

/-- One component of the destination, assigned by `p` from the member `n`. -/
structure Comp {D α : Type} (names : List String) (F : D → Str → JVal → Option D) (n : String) (g : D → α) (p : α → JVal → Option α) : Prop where
  mem : n ∈ names
  here : ∀ m key v m', fieldFor names key = some n → F m key v = some m' → p (g m) v = some (g m')
  other : ∀ m key v m', fieldFor names key ≠ some n → F m key v = some m' → g m' = g m

section
variable {D α : Type} {names : List String} {F : D → Str → JVal → Option D} {n : String} {g : D → α} {p : α → JVal → Option α}

theorem comp_none (hok : NamesOK names) (hc : Comp names F n g p) : ∀ {l : List (Bytes × Spec.JsonText.Json)}, (∀ p ∈ l, Quoted p.1) →
    ∀ {m m' : D}, putAll F m (toJps l) = some m' → (∀ v, ¬ Has l n v) → g m' = g m := by
  intro l
  induction l with
  | nil => intro _ m m' h _; rw [toJps, putAll] at h; rw [Option.some.inj h]
  | cons q l ih =>
    intro hq m m' h hn
    obtain ⟨k, v⟩ := q
    rw [toJps, putAll] at h
    split at h
    · cases h
    rename_i m1 h1
    have hk := hq (k, v) (List.mem_cons_self ..)
    rw [ih (fun x hx => hq x (List.mem_cons_of_mem _ hx)) h (fun w ⟨k', hk', nk⟩ => hn w ⟨k', List.mem_cons_of_mem _ hk', nk⟩)]
    refine hc.other _ _ _ _ (fun e => ?_) h1
    exact hn v ⟨k, List.mem_cons_self .., ((fieldFor_iff hok hk n).mp e).2⟩

theorem comp_has (hok : NamesOK names) (hc : Comp names F n g p) : ∀ {l : List (Bytes × Spec.JsonText.Json)}, (∀ p ∈ l, Quoted p.1) →
    Once names l → ∀ {m m' : D}, putAll F m (toJps l) = some m' → ∀ v, Has l n v → p (g m) (toJ v) = some (g m') := by
  intro l
  induction l with
  | nil => intro _ _ m m' h v ⟨k, hk, _⟩; cases hk
  | cons q l ih =>
    intro hq ho m m' h w hw
    obtain ⟨k, v⟩ := q
    rw [toJps, putAll] at h
    split at h
    · cases h
    rename_i m1 h1
    have hk := hq (k, v) (List.mem_cons_self ..)
    have hq' : ∀ p ∈ l, Quoted p.1 := fun x hx => hq x (List.mem_cons_of_mem _ hx)
    obtain ⟨o1, o2⟩ := List.pairwise_cons.mp ho
    by_cases hkn : Named k n
    · have hvw : w = v := once_has ho hc.mem hw ⟨k, List.mem_cons_self .., hkn⟩
      subst hvw
      have hno : ∀ w, ¬ Has l n w := by
        rintro w ⟨k', hk', nk'⟩
        exact o1 _ hk' n hc.mem ⟨hkn, nk'⟩
      rw [comp_none hok hc hq' h hno]
      exact hc.here _ _ _ _ ((fieldFor_iff hok hk n).mpr ⟨hc.mem, hkn⟩) h1
    · obtain ⟨k', hk', nk'⟩ := hw
      rcases List.mem_cons.mp hk' with e | hk'
      · obtain ⟨rfl, rfl⟩ := Prod.mk.inj e; exact absurd nk' hkn
      · have := ih hq' o2 h w ⟨k', hk', nk'⟩
        rwa [hc.other _ _ _ _ (fun e => hkn ((fieldFor_iff hok hk n).mp e).2) h1] at this

theorem all_exists (hF : ∀ m m' key v, (F m key v).isSome = (F m' key v).isSome) (m0 : D) : ∀ {l : List (Bytes × JVal)},
    (∀ q ∈ l, (F m0 (unquote q.1) q.2).isSome = true) → ∀ m, ∃ m', putAll F m l = some m' := by
  intro l
  induction l with
  | nil => intro _ m; exact ⟨m, rfl⟩
  | cons q l ih =>
    intro hq m
    obtain ⟨k, v⟩ := q
    have h1 := hq (k, v) (List.mem_cons_self ..)
    rw [hF m0 m] at h1
    obtain ⟨m1, e⟩ := Option.isSome_iff_exists.mp h1
    rw [putAll, e]
    exact ih (fun x hx => hq x (List.mem_cons_of_mem _ hx)) m1
end

/-! ## The members of the specification -/

section
variable {D : Type} {names : List String} {F : D → Str → JVal → Option D} {n : String} {l : List (Bytes × Spec.JsonText.Json)} {d : Nat}
  {m m' : D}

theorem int_member (hok : NamesOK names) {g : D → Int} (hc : Comp names F n g (putInt minInt64 maxInt64)) (hq : ∀ p ∈ l, Quoted p.1)
    (ho : Once names l) (h0 : g m = 0) (h : putAll F m (toJps l) = some m') : IntMember l n (g m') := by
  by_cases hh : ∃ v, Has l n v
  · obtain ⟨v, hv⟩ := hh
    have := comp_has hok hc hq ho h v hv
    rw [h0, putInt_iff] at this
    rcases this with ⟨t, rfl, hw, hb⟩ | ⟨rfl, e⟩
    · exact .inl ⟨t, hv, hw, (fits64_iff _).mpr hb⟩
    · exact .inr ⟨fun w hw => once_has ho hc.mem hw hv, e⟩
  · refine .inr ⟨fun w hw => absurd ⟨w, hw⟩ hh, ?_⟩
    rw [comp_none hok hc hq h (fun v hv => hh ⟨v, hv⟩), h0]

theorem nat_member (hok : NamesOK names) {hi : Nat} {g : D → Int} (hc : Comp names F n g (putUint hi)) (hq : ∀ p ∈ l, Quoted p.1)
    (ho : Once names l) (h0 : g m = 0) (h : putAll F m (toJps l) = some m') : NatMember l n hi (g m').toNat ∧ 0 ≤ g m' ∧ g m' ≤ hi := by
  by_cases hh : ∃ v, Has l n v
  · obtain ⟨v, hv⟩ := hh
    have := comp_has hok hc hq ho h v hv
    rw [h0, putUint_iff] at this
    rcases this with ⟨t, k, rfl, hw, e, hb⟩ | ⟨rfl, e⟩
    · rw [e]; exact ⟨.inl ⟨t, hv, hw, hb⟩, by omega, by omega⟩
    · rw [e]; exact ⟨.inr ⟨fun w hw => once_has ho hc.mem hw hv, rfl⟩, by omega, by omega⟩
  · rw [comp_none hok hc hq h (fun v hv => hh ⟨v, hv⟩), h0]
    exact ⟨.inr ⟨fun w hw => absurd ⟨w, hw⟩ hh, rfl⟩, by omega, by omega⟩

theorem str_member (hok : NamesOK names) {g : D → Str} (hc : Comp names F n g putStr) (hq : ∀ p ∈ l, Quoted p.1 ∧ ∃ u, Value d p.2 u)
    (ho : Once names l) (h0 : g m = []) (h : putAll F m (toJps l) = some m') : StrMember l n (g m') := by
  have hq' := fun p hp => (hq p hp).1
  by_cases hh : ∃ v, Has l n v
  · obtain ⟨v, hv⟩ := hh
    have := comp_has hok hc hq' ho h v hv
    obtain ⟨k, hk, _⟩ := id hv
    obtain ⟨_, u, hu⟩ := hq _ hk
    rw [h0, putStr_iff hu] at this
    rcases this with ⟨t, rfl, hw⟩ | ⟨rfl, e⟩
    · exact .inl ⟨t, hv, hw⟩
    · exact .inr ⟨fun w hw => once_has ho hc.mem hw hv, e⟩
  · refine .inr ⟨fun w hw => absurd ⟨w, hw⟩ hh, ?_⟩
    rw [comp_none hok hc hq' h (fun v hv => hh ⟨v, hv⟩), h0]

theorem strs_member (hok : NamesOK names) {g : D → SliceVal} (hc : Comp names F n g putStrings)
    (hq : ∀ p ∈ l, Quoted p.1 ∧ ∃ u, Value (d + 1) p.2 u)
    (ho : Once names l) (h0 : g m = {}) (h : putAll F m (toJps l) = some m') : StrsMember l n (g m').elems := by
  have hq' := fun p hp => (hq p hp).1
  by_cases hh : ∃ v, Has l n v
  · obtain ⟨v, hv⟩ := hh
    have := comp_has hok hc hq' ho h v hv
    obtain ⟨k, hk, _⟩ := id hv
    obtain ⟨_, u, hu⟩ := hq _ hk
    rw [h0] at this
    rcases (putStrings_iff hu _).mp ⟨_, this, rfl⟩ with ⟨t, rfl, hw⟩ | ⟨rfl, e⟩
    · exact .inl ⟨t, hv, hw⟩
    · exact .inr ⟨fun w hw => once_has ho hc.mem hw hv, e⟩
  · refine .inr ⟨fun w hw => absurd ⟨w, hw⟩ hh, ?_⟩
    rw [comp_none hok hc hq' h (fun v hv => hh ⟨v, hv⟩), h0]

theorem counts_member (hok : NamesOK names) {g : D → GoMap Int} (hc : Comp names F n g putMap)
    (hq : ∀ p ∈ l, Quoted p.1 ∧ ∃ u, Value (d + 1) p.2 u)
    (ho : Once names l) (h0 : g m = []) (h : putAll F m (toJps l) = some m') : CountsMember l n (g m') := by
  have hq' := fun p hp => (hq p hp).1
  by_cases hh : ∃ v, Has l n v
  · obtain ⟨v, hv⟩ := hh
    have := comp_has hok hc hq' ho h v hv
    obtain ⟨k, hk, _⟩ := id hv
    obtain ⟨_, u, hu⟩ := hq _ hk
    rw [h0] at this
    cases v with
    | null => exact .inr ⟨fun w hw => once_has ho hc.mem hw hv, (Option.some.inj this).symm⟩
    | obj ps =>
      obtain ⟨qs, h1, h2⟩ := (putPairs_iff (value_obj hu) [] _).mp this
      refine .inl ⟨ps, qs, hv, h1, fun k => ?_⟩
      rw [h2, mapGet_setAll]
      cases ((qs.filter fun q => decide (q.1 = k)).getLast?).map (·.2) <;> rfl
    | bool b | num b | str b | arr b => cases this
  · refine .inr ⟨fun w hw => absurd ⟨w, hw⟩ hh, ?_⟩
    rw [comp_none hok hc hq' h (fun v hv => hh ⟨v, hv⟩), h0]
end

/-! ## Success does not depend on what was there before -/

theorem putInt_isSome (lo hi a b : Int) (v : JVal) : (putInt lo hi a v).isSome = (putInt lo hi b v).isSome := by
  cases v <;> rfl
theorem putUint_isSome (hi a b : Int) (v : JVal) : (putUint hi a v).isSome = (putUint hi b v).isSome := by
  cases v with
  | num raw => simp only [putUint]; split <;> rfl
  | _ => rfl
theorem putStr_isSome (a b : Str) (v : JVal) : (putStr a v).isSome = (putStr b v).isSome := by cases v <;> rfl
theorem putElems_isSome : ∀ (l : List JVal) (a b : List Str), (putElems a l).isSome = (putElems b l).isSome := by
  intro l
  induction l with
  | nil => intro a b; rfl
  | cons v l ih =>
    intro a b
    have h := putStr_isSome (a.headD []) (b.headD []) v
    rw [putElems, putElems]
    cases ha : putStr (a.headD []) v with
    | none =>
      rw [ha] at h
      cases hb : putStr (b.headD []) v with
      | none => rfl
      | some y => rw [hb] at h; cases h
    | some x =>
      rw [ha] at h
      cases hb : putStr (b.headD []) v with
      | none => rw [hb] at h; cases h
      | some y => simp only [Option.isSome_map]; exact ih _ _
theorem putStrings_isSome (a b : SliceVal) (v : JVal) : (putStrings a v).isSome = (putStrings b v).isSome := by
  cases v with
  | arr l =>
    cases l with
    | nil => rfl
    | cons x l => simp only [putStrings, Option.isSome_map]; exact putElems_isSome _ _ _
  | _ => rfl
theorem putPairs_isSome : ∀ (l : List (Bytes × JVal)) (a b : GoMap Int), (putPairs a l).isSome = (putPairs b l).isSome := by
  intro l
  induction l with
  | nil => intro a b; rfl
  | cons q l ih =>
    intro a b
    obtain ⟨k, v⟩ := q
    rw [putPairs, putPairs]
    cases putInt minInt64 maxInt64 0 v with
    | none => rfl
    | some n => exact ih _ _
theorem putMap_isSome (a b : GoMap Int) (v : JVal) : (putMap a v).isSome = (putMap b v).isSome := by
  cases v with
  | obj l => exact putPairs_isSome _ _ _
  | _ => rfl

/-! ## The components of the metadata -/

/-- What assigning to one field does, for each field of the metadata. -/
theorem putMetaField_eq (m : MetaDest) (key : Str) (v : JVal) : putMetaField m key v =
    match fieldFor metaNames key with
    | none => some m
    | some n =>
      if n = "build" then (putInt minInt64 maxInt64 m.build v).map ({ m with build := · })
      else if n = "ip_version" then (putUint 65535 m.ipVersion v).map ({ m with ipVersion := · })
      else if n = "languages" then (putMap m.languages v).map ({ m with languages := · })
      else if n = "node_count" then (putInt minInt64 maxInt64 m.nodeCount v).map ({ m with nodeCount := · })
      else if n = "total_size" then (putInt minInt64 maxInt64 m.totalSize v).map ({ m with totalSize := · })
      else if n = "fields" then (putStrings m.fields v).map ({ m with fields := · })
      else if n = "version" then (putStr m.version v).map ({ m with version := · })
      else (putStrings m.extra v).map ({ m with extra := · }) := rfl

theorem metaNames_eq : metaNames = metaMembers := rfl
theorem versionNames_eq : versionNames = versionMembers := rfl

theorem fieldFor_mem {names : List String} {key : Str} {n : String} (h : fieldFor names key = some n) : n ∈ names := by
  unfold fieldFor at h
  split at h
  · rename_i hf; obtain rfl := Option.some.inj h; exact List.mem_of_find?_eq_some hf
  · exact List.mem_of_find?_eq_some h

/-- The cases of assigning a member of the metadata. -/
theorem meta_cases {P : MetaDest → Prop} {m : MetaDest} {key : Str} {v : JVal} {m' : MetaDest} (h : putMetaField m key v = some m')
    (h0 : fieldFor metaNames key = none → P m)
    (h1 : fieldFor metaNames key = some "build" → ∀ x, putInt minInt64 maxInt64 m.build v = some x → P { m with build := x })
    (h2 : fieldFor metaNames key = some "ip_version" → ∀ x, putUint 65535 m.ipVersion v = some x → P { m with ipVersion := x })
    (h3 : fieldFor metaNames key = some "languages" → ∀ x, putMap m.languages v = some x → P { m with languages := x })
    (h4 : fieldFor metaNames key = some "node_count" → ∀ x, putInt minInt64 maxInt64 m.nodeCount v = some x → P { m with nodeCount := x })
    (h5 : fieldFor metaNames key = some "total_size" → ∀ x, putInt minInt64 maxInt64 m.totalSize v = some x → P { m with totalSize := x })
    (h6 : fieldFor metaNames key = some "fields" → ∀ x, putStrings m.fields v = some x → P { m with fields := x })
    (h7 : fieldFor metaNames key = some "version" → ∀ x, putStr m.version v = some x → P { m with version := x })
    (h8 : fieldFor metaNames key = some "extra" → ∀ x, putStrings m.extra v = some x → P { m with extra := x }) : P m' := by
  have take : ∀ {α : Type} {o : Option α} {f : α → MetaDest}, o.map f = some m' → ∃ x, o = some x ∧ f x = m' := by
    intro α o f ho
    cases o with
    | none => cases ho
    | some x => exact ⟨x, rfl, Option.some.inj ho⟩
  rw [putMetaField_eq] at h
  cases hf : fieldFor metaNames key with
  | none => rw [hf] at h; rw [← Option.some.inj h]; exact h0 hf
  | some n =>
    have hm := fieldFor_mem hf
    rw [hf] at h h0 h1 h2 h3 h4 h5 h6 h7 h8
    simp only [metaNames, List.mem_cons, List.not_mem_nil, or_false] at hm
    rcases hm with rfl | rfl | rfl | rfl | rfl | rfl | rfl | rfl
    · obtain ⟨x, hx, rfl⟩ := take h; exact h1 rfl x hx
    · obtain ⟨x, hx, rfl⟩ := take h; exact h2 rfl x hx
    · obtain ⟨x, hx, rfl⟩ := take h; exact h3 rfl x hx
    · obtain ⟨x, hx, rfl⟩ := take h; exact h4 rfl x hx
    · obtain ⟨x, hx, rfl⟩ := take h; exact h5 rfl x hx
    · obtain ⟨x, hx, rfl⟩ := take h; exact h6 rfl x hx
    · obtain ⟨x, hx, rfl⟩ := take h; exact h7 rfl x hx
    · obtain ⟨x, hx, rfl⟩ := take h; exact h8 rfl x hx

theorem mcomp_build : Comp metaMembers putMetaField "build" (·.build) (putInt minInt64 maxInt64) := by
  refine ⟨by decide, fun m key v m' e h => ?_, fun m key v m' e h => ?_⟩ <;> rw [← metaNames_eq] at e
  · refine meta_cases (P := fun m' => putInt minInt64 maxInt64 m.build v = some m'.build) h ?_ ?_ ?_ ?_ ?_ ?_ ?_ ?_ ?_ <;> intro he
    all_goals first | (rw [e] at he; exact fun x hx => hx) | (rw [e] at he; cases he) | (rw [e] at he; exact absurd (Option.some.inj he) (by decide))
  · refine meta_cases (P := fun m' => m'.build = m.build) h ?_ ?_ ?_ ?_ ?_ ?_ ?_ ?_ ?_ <;> intro he
    all_goals first | rfl | exact fun _ _ => rfl | exact absurd he e

theorem mcomp_ipVersion : Comp metaMembers putMetaField "ip_version" (·.ipVersion) (putUint (65535 : Nat)) := by
  refine ⟨by decide, fun m key v m' e h => ?_, fun m key v m' e h => ?_⟩ <;> rw [← metaNames_eq] at e
  · refine meta_cases (P := fun m' => putUint (65535 : Nat) m.ipVersion v = some m'.ipVersion) h ?_ ?_ ?_ ?_ ?_ ?_ ?_ ?_ ?_ <;> intro he
    all_goals first | (rw [e] at he; exact fun x hx => hx) | (rw [e] at he; cases he) | (rw [e] at he; exact absurd (Option.some.inj he) (by decide))
  · refine meta_cases (P := fun m' => m'.ipVersion = m.ipVersion) h ?_ ?_ ?_ ?_ ?_ ?_ ?_ ?_ ?_ <;> intro he
    all_goals first | rfl | exact fun _ _ => rfl | exact absurd he e

theorem mcomp_languages : Comp metaMembers putMetaField "languages" (·.languages) (putMap) := by
  refine ⟨by decide, fun m key v m' e h => ?_, fun m key v m' e h => ?_⟩ <;> rw [← metaNames_eq] at e
  · refine meta_cases (P := fun m' => putMap m.languages v = some m'.languages) h ?_ ?_ ?_ ?_ ?_ ?_ ?_ ?_ ?_ <;> intro he
    all_goals first | (rw [e] at he; exact fun x hx => hx) | (rw [e] at he; cases he) | (rw [e] at he; exact absurd (Option.some.inj he) (by decide))
  · refine meta_cases (P := fun m' => m'.languages = m.languages) h ?_ ?_ ?_ ?_ ?_ ?_ ?_ ?_ ?_ <;> intro he
    all_goals first | rfl | exact fun _ _ => rfl | exact absurd he e

theorem mcomp_nodeCount : Comp metaMembers putMetaField "node_count" (·.nodeCount) (putInt minInt64 maxInt64) := by
  refine ⟨by decide, fun m key v m' e h => ?_, fun m key v m' e h => ?_⟩ <;> rw [← metaNames_eq] at e
  · refine meta_cases (P := fun m' => putInt minInt64 maxInt64 m.nodeCount v = some m'.nodeCount) h ?_ ?_ ?_ ?_ ?_ ?_ ?_ ?_ ?_ <;> intro he
    all_goals first | (rw [e] at he; exact fun x hx => hx) | (rw [e] at he; cases he) | (rw [e] at he; exact absurd (Option.some.inj he) (by decide))
  · refine meta_cases (P := fun m' => m'.nodeCount = m.nodeCount) h ?_ ?_ ?_ ?_ ?_ ?_ ?_ ?_ ?_ <;> intro he
    all_goals first | rfl | exact fun _ _ => rfl | exact absurd he e

theorem mcomp_totalSize : Comp metaMembers putMetaField "total_size" (·.totalSize) (putInt minInt64 maxInt64) := by
  refine ⟨by decide, fun m key v m' e h => ?_, fun m key v m' e h => ?_⟩ <;> rw [← metaNames_eq] at e
  · refine meta_cases (P := fun m' => putInt minInt64 maxInt64 m.totalSize v = some m'.totalSize) h ?_ ?_ ?_ ?_ ?_ ?_ ?_ ?_ ?_ <;> intro he
    all_goals first | (rw [e] at he; exact fun x hx => hx) | (rw [e] at he; cases he) | (rw [e] at he; exact absurd (Option.some.inj he) (by decide))
  · refine meta_cases (P := fun m' => m'.totalSize = m.totalSize) h ?_ ?_ ?_ ?_ ?_ ?_ ?_ ?_ ?_ <;> intro he
    all_goals first | rfl | exact fun _ _ => rfl | exact absurd he e

theorem mcomp_fields : Comp metaMembers putMetaField "fields" (·.fields) (putStrings) := by
  refine ⟨by decide, fun m key v m' e h => ?_, fun m key v m' e h => ?_⟩ <;> rw [← metaNames_eq] at e
  · refine meta_cases (P := fun m' => putStrings m.fields v = some m'.fields) h ?_ ?_ ?_ ?_ ?_ ?_ ?_ ?_ ?_ <;> intro he
    all_goals first | (rw [e] at he; exact fun x hx => hx) | (rw [e] at he; cases he) | (rw [e] at he; exact absurd (Option.some.inj he) (by decide))
  · refine meta_cases (P := fun m' => m'.fields = m.fields) h ?_ ?_ ?_ ?_ ?_ ?_ ?_ ?_ ?_ <;> intro he
    all_goals first | rfl | exact fun _ _ => rfl | exact absurd he e

theorem mcomp_version : Comp metaMembers putMetaField "version" (·.version) (putStr) := by
  refine ⟨by decide, fun m key v m' e h => ?_, fun m key v m' e h => ?_⟩ <;> rw [← metaNames_eq] at e
  · refine meta_cases (P := fun m' => putStr m.version v = some m'.version) h ?_ ?_ ?_ ?_ ?_ ?_ ?_ ?_ ?_ <;> intro he
    all_goals first | (rw [e] at he; exact fun x hx => hx) | (rw [e] at he; cases he) | (rw [e] at he; exact absurd (Option.some.inj he) (by decide))
  · refine meta_cases (P := fun m' => m'.version = m.version) h ?_ ?_ ?_ ?_ ?_ ?_ ?_ ?_ ?_ <;> intro he
    all_goals first | rfl | exact fun _ _ => rfl | exact absurd he e

theorem mcomp_extra : Comp metaMembers putMetaField "extra" (·.extra) (putStrings) := by
  refine ⟨by decide, fun m key v m' e h => ?_, fun m key v m' e h => ?_⟩ <;> rw [← metaNames_eq] at e
  · refine meta_cases (P := fun m' => putStrings m.extra v = some m'.extra) h ?_ ?_ ?_ ?_ ?_ ?_ ?_ ?_ ?_ <;> intro he
    all_goals first | (rw [e] at he; exact fun x hx => hx) | (rw [e] at he; cases he) | (rw [e] at he; exact absurd (Option.some.inj he) (by decide))
  · refine meta_cases (P := fun m' => m'.extra = m.extra) h ?_ ?_ ?_ ?_ ?_ ?_ ?_ ?_ ?_ <;> intro he
    all_goals first | rfl | exact fun _ _ => rfl | exact absurd he e

/-- What assigning to one field does, for each field of the version. -/
theorem putVersionField_eq (m : VersionDest) (key : Str) (v : JVal) : putVersionField m key v =
    match fieldFor versionNames key with
    | none => some m
    | some n =>
      if n = "IpType" then (putInt minInt64 maxInt64 m.ipType v).map ({ m with ipType := · })
      else if n = "Count" then (putUint 4294967295 m.count v).map ({ m with count := · })
      else if n = "Build" then (putInt minInt64 maxInt64 m.build v).map ({ m with build := · })
      else if n = "Version" then (putStr m.version v).map ({ m with version := · })
      else if n = "Languages" then (putStrings m.languages v).map ({ m with languages := · })
      else (putStrings m.extraInfo v).map ({ m with extraInfo := · }) := rfl

/-- The cases of assigning a member of the version. -/
theorem version_cases {P : VersionDest → Prop} {m : VersionDest} {key : Str} {v : JVal} {m' : VersionDest} (h : putVersionField m key v = some m')
    (h0 : fieldFor versionNames key = none → P m)
    (h1 : fieldFor versionNames key = some "IpType" → ∀ x, putInt minInt64 maxInt64 m.ipType v = some x → P { m with ipType := x })
    (h2 : fieldFor versionNames key = some "Count" → ∀ x, putUint 4294967295 m.count v = some x → P { m with count := x })
    (h3 : fieldFor versionNames key = some "Build" → ∀ x, putInt minInt64 maxInt64 m.build v = some x → P { m with build := x })
    (h4 : fieldFor versionNames key = some "Version" → ∀ x, putStr m.version v = some x → P { m with version := x })
    (h5 : fieldFor versionNames key = some "Languages" → ∀ x, putStrings m.languages v = some x → P { m with languages := x })
    (h6 : fieldFor versionNames key = some "ExtraInfo" → ∀ x, putStrings m.extraInfo v = some x → P { m with extraInfo := x }) : P m' := by
  have take : ∀ {α : Type} {o : Option α} {f : α → VersionDest}, o.map f = some m' → ∃ x, o = some x ∧ f x = m' := by
    intro α o f ho
    cases o with
    | none => cases ho
    | some x => exact ⟨x, rfl, Option.some.inj ho⟩
  rw [putVersionField_eq] at h
  cases hf : fieldFor versionNames key with
  | none => rw [hf] at h; rw [← Option.some.inj h]; exact h0 hf
  | some n =>
    have hm := fieldFor_mem hf
    rw [hf] at h h0 h1 h2 h3 h4 h5 h6
    simp only [versionNames, List.mem_cons, List.not_mem_nil, or_false] at hm
    rcases hm with rfl | rfl | rfl | rfl | rfl | rfl
    · obtain ⟨x, hx, rfl⟩ := take h; exact h1 rfl x hx
    · obtain ⟨x, hx, rfl⟩ := take h; exact h2 rfl x hx
    · obtain ⟨x, hx, rfl⟩ := take h; exact h3 rfl x hx
    · obtain ⟨x, hx, rfl⟩ := take h; exact h4 rfl x hx
    · obtain ⟨x, hx, rfl⟩ := take h; exact h5 rfl x hx
    · obtain ⟨x, hx, rfl⟩ := take h; exact h6 rfl x hx

theorem vcomp_ipType : Comp versionMembers putVersionField "IpType" (·.ipType) (putInt minInt64 maxInt64) := by
  refine ⟨by decide, fun m key v m' e h => ?_, fun m key v m' e h => ?_⟩ <;> rw [← versionNames_eq] at e
  · refine version_cases (P := fun m' => putInt minInt64 maxInt64 m.ipType v = some m'.ipType) h ?_ ?_ ?_ ?_ ?_ ?_ ?_ <;> intro he
    all_goals first | (rw [e] at he; exact fun x hx => hx) | (rw [e] at he; cases he) | (rw [e] at he; exact absurd (Option.some.inj he) (by decide))
  · refine version_cases (P := fun m' => m'.ipType = m.ipType) h ?_ ?_ ?_ ?_ ?_ ?_ ?_ <;> intro he
    all_goals first | rfl | exact fun _ _ => rfl | exact absurd he e

theorem vcomp_count : Comp versionMembers putVersionField "Count" (·.count) (putUint (4294967295 : Nat)) := by
  refine ⟨by decide, fun m key v m' e h => ?_, fun m key v m' e h => ?_⟩ <;> rw [← versionNames_eq] at e
  · refine version_cases (P := fun m' => putUint (4294967295 : Nat) m.count v = some m'.count) h ?_ ?_ ?_ ?_ ?_ ?_ ?_ <;> intro he
    all_goals first | (rw [e] at he; exact fun x hx => hx) | (rw [e] at he; cases he) | (rw [e] at he; exact absurd (Option.some.inj he) (by decide))
  · refine version_cases (P := fun m' => m'.count = m.count) h ?_ ?_ ?_ ?_ ?_ ?_ ?_ <;> intro he
    all_goals first | rfl | exact fun _ _ => rfl | exact absurd he e

theorem vcomp_build : Comp versionMembers putVersionField "Build" (·.build) (putInt minInt64 maxInt64) := by
  refine ⟨by decide, fun m key v m' e h => ?_, fun m key v m' e h => ?_⟩ <;> rw [← versionNames_eq] at e
  · refine version_cases (P := fun m' => putInt minInt64 maxInt64 m.build v = some m'.build) h ?_ ?_ ?_ ?_ ?_ ?_ ?_ <;> intro he
    all_goals first | (rw [e] at he; exact fun x hx => hx) | (rw [e] at he; cases he) | (rw [e] at he; exact absurd (Option.some.inj he) (by decide))
  · refine version_cases (P := fun m' => m'.build = m.build) h ?_ ?_ ?_ ?_ ?_ ?_ ?_ <;> intro he
    all_goals first | rfl | exact fun _ _ => rfl | exact absurd he e

theorem vcomp_version : Comp versionMembers putVersionField "Version" (·.version) (putStr) := by
  refine ⟨by decide, fun m key v m' e h => ?_, fun m key v m' e h => ?_⟩ <;> rw [← versionNames_eq] at e
  · refine version_cases (P := fun m' => putStr m.version v = some m'.version) h ?_ ?_ ?_ ?_ ?_ ?_ ?_ <;> intro he
    all_goals first | (rw [e] at he; exact fun x hx => hx) | (rw [e] at he; cases he) | (rw [e] at he; exact absurd (Option.some.inj he) (by decide))
  · refine version_cases (P := fun m' => m'.version = m.version) h ?_ ?_ ?_ ?_ ?_ ?_ ?_ <;> intro he
    all_goals first | rfl | exact fun _ _ => rfl | exact absurd he e

theorem vcomp_languages : Comp versionMembers putVersionField "Languages" (·.languages) (putStrings) := by
  refine ⟨by decide, fun m key v m' e h => ?_, fun m key v m' e h => ?_⟩ <;> rw [← versionNames_eq] at e
  · refine version_cases (P := fun m' => putStrings m.languages v = some m'.languages) h ?_ ?_ ?_ ?_ ?_ ?_ ?_ <;> intro he
    all_goals first | (rw [e] at he; exact fun x hx => hx) | (rw [e] at he; cases he) | (rw [e] at he; exact absurd (Option.some.inj he) (by decide))
  · refine version_cases (P := fun m' => m'.languages = m.languages) h ?_ ?_ ?_ ?_ ?_ ?_ ?_ <;> intro he
    all_goals first | rfl | exact fun _ _ => rfl | exact absurd he e

theorem vcomp_extraInfo : Comp versionMembers putVersionField "ExtraInfo" (·.extraInfo) (putStrings) := by
  refine ⟨by decide, fun m key v m' e h => ?_, fun m key v m' e h => ?_⟩ <;> rw [← versionNames_eq] at e
  · refine version_cases (P := fun m' => putStrings m.extraInfo v = some m'.extraInfo) h ?_ ?_ ?_ ?_ ?_ ?_ ?_ <;> intro he
    all_goals first | (rw [e] at he; exact fun x hx => hx) | (rw [e] at he; cases he) | (rw [e] at he; exact absurd (Option.some.inj he) (by decide))
  · refine version_cases (P := fun m' => m'.extraInfo = m.extraInfo) h ?_ ?_ ?_ ?_ ?_ ?_ ?_ <;> intro he
    all_goals first | rfl | exact fun _ _ => rfl | exact absurd he e

theorem putMetaField_isSome (m m' : MetaDest) (key : Str) (v : JVal) : (putMetaField m key v).isSome = (putMetaField m' key v).isSome := by
  rw [putMetaField_eq, putMetaField_eq]
  cases fieldFor metaNames key with
  | none => rfl
  | some n =>
    simp only []
    repeat' split
    all_goals simp only [Option.isSome_map]
    all_goals first | exact putInt_isSome .. | exact putUint_isSome .. | exact putStr_isSome .. | exact putStrings_isSome .. | exact putMap_isSome ..

theorem putVersionField_isSome (m m' : VersionDest) (key : Str) (v : JVal) :
    (putVersionField m key v).isSome = (putVersionField m' key v).isSome := by
  rw [putVersionField_eq, putVersionField_eq]
  cases fieldFor versionNames key with
  | none => rfl
  | some n =>
    simp only []
    repeat' split
    all_goals simp only [Option.isSome_map]
    all_goals first | exact putInt_isSome .. | exact putUint_isSome .. | exact putStr_isSome .. | exact putStrings_isSome .. | exact putMap_isSome ..

end Uip.Json
