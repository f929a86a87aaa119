import Verif.Model.Threads
import Verif.Props.Shared
import Verif.Props.AwdbFile
/-!
# C106: queries that run at the same time
-/
namespace Uip.Threads
open Uip Uip.Spec

/-- Two goroutines are about to access the same field of the same object, and one of them to write it. -/
def Race (m : Machine) : Prop :=
  ∃ (i j p : Nat) (k : Attr) (w : Bool), i ≠ j ∧ m.threads[i]?.bind Thread.next = some (p, k, true) ∧ m.threads[j]?.bind Thread.next = some (p, k, w)

/-- The answer a plan leads to, on its own, when the shared objects are `h0`. -/
def planned (h0 : Heap) : Plan → Res (IpInfo × Nat)
  | .crash => .panic
  | .fail e => .err e
  | .shared p m => .ok (h0[p]?.getD {}, m)
  | .own w m => .ok (w.foldl (fun i x => x.1.set x.2 i) {}, m)

/-- Objects that are there before the goroutines start. -/
def Old (plan : IP → Plan) (h0 : Heap) : Prop := ∀ a p m, plan a = .shared p m → p < h0.length

theorem get_set_self (k : Attr) (v : Str) (i : IpInfo) : k.get (k.set v i) = v := by cases k <;> rfl
theorem get_set_ne {k k' : Attr} (h : k ≠ k') (v : Str) (i : IpInfo) : k.get (k'.set v i) = k.get i := by
  cases k <;> cases k' <;> first | rfl | exact absurd rfl h
theorem ext_get {i j : IpInfo} (h : ∀ k : Attr, k.get i = k.get j) : i = j := by
  obtain ⟨a1, a2, a3, a4, a5, a6, a7, a8⟩ := i
  obtain ⟨b1, b2, b3, b4, b5, b6, b7, b8⟩ := j
  have h1 := h .country; have h2 := h .district; have h3 := h .province; have h4 := h .city
  have h5 := h .asn; have h6 := h .isp; have h7 := h .continent; have h8 := h .line
  simp only [Attr.get] at h1 h2 h3 h4 h5 h6 h7 h8
  subst h1 h2 h3 h4 h5 h6 h7 h8; rfl

/-- What holds of the goroutine that asked for `a`. -/
def ThreadOK (plan : IP → Plan) (h0 h : Heap) (a : IP) : Thread → Prop
  | .waiting b => b = a
  | .filling p todo m => h0.length ≤ p ∧ ∃ i, h[p]? = some i ∧
      planned h0 (plan a) = .ok (todo.foldl (fun i x => x.1.set x.2 i) i, m)
  | .reading p todo got m => ∃ i, h[p]? = some i ∧ planned h0 (plan a) = .ok (i, m) ∧
      (∀ k, k ∉ todo → k.get got = k.get i)
  | .finished r => r = planned h0 (plan a)

/-- The object a goroutine allocated and may still use. -/
def Thread.cell : Thread → Option Nat
  | .filling p _ _ => some p
  | .reading p _ _ _ => some p
  | _ => none

/-- The invariant. -/
structure Inv (plan : IP → Plan) (h0 : Heap) (asks : List IP) (m : Machine) : Prop where
  old : ∀ p : Nat, p < h0.length → m.heap[p]? = h0[p]?
  len : h0.length ≤ m.heap.length
  count : m.threads.length = asks.length
  ok : ∀ (i : Nat) t a, m.threads[i]? = some t → asks[i]? = some a → ThreadOK plan h0 m.heap a t
  own : ∀ (i j : Nat) t u p, i ≠ j → m.threads[i]? = some t → m.threads[j]? = some u → t.cell = some p → u.cell = some p → p < h0.length
  bound : ∀ (i : Nat) t p, m.threads[i]? = some t → t.cell = some p → p < m.heap.length

theorem ThreadOK.append {plan : IP → Plan} {h0 h : Heap} {a : IP} {t : Thread} (ht : ThreadOK plan h0 h a t) (x : IpInfo) :
    ThreadOK plan h0 (h ++ [x]) a t := by
  have key : ∀ p i, h[p]? = some i → (h ++ [x])[p]? = some i := fun p i hp => by
    rw [List.getElem?_append_left (List.getElem?_eq_some_iff.mp hp).1]; exact hp
  cases t with
  | waiting b => exact ht
  | filling p todo m => obtain ⟨h1, i, h2, h3⟩ := ht; exact ⟨h1, i, key _ _ h2, h3⟩
  | reading p todo got m => obtain ⟨i, h2, h3⟩ := ht; exact ⟨i, key _ _ h2, h3⟩
  | finished r => exact ht

theorem ThreadOK.other {plan : IP → Plan} {h0 h : Heap} {a : IP} {t : Thread} (ht : ThreadOK plan h0 h a t) (p : Nat) (f : IpInfo → IpInfo)
    (hp : t.cell ≠ some p) : ThreadOK plan h0 (h.modify p f) a t := by
  have key : ∀ p', p' ≠ p → (h.modify p f)[p']? = h[p']? := fun p' hp' => by
    rw [List.getElem?_modify]; simp only [if_neg (Ne.symm hp')]; simp
  cases t with
  | waiting b => exact ht
  | filling p' todo m =>
    obtain ⟨h1, i, h2, h3⟩ := ht
    exact ⟨h1, i, by rw [key p' (fun e => hp (by rw [e]; rfl))]; exact h2, h3⟩
  | reading p' todo got m =>
    obtain ⟨i, h2, h3⟩ := ht
    exact ⟨i, by rw [key p' (fun e => hp (by rw [e]; rfl))]; exact h2, h3⟩
  | finished r => exact ht

theorem inv_step {plan : IP → Plan} {h0 : Heap} {asks : List IP} (hold : Old plan h0) {m : Machine} (h : Inv plan h0 asks m) (i : Nat) :
    Inv plan h0 asks (m.step plan i) := by
  unfold Machine.step
  cases hi : m.threads[i]? with
  | none => exact h
  | some t =>
    simp only []
    have hil : i < m.threads.length := (List.getElem?_eq_some_iff.mp hi).1
    obtain ⟨a, ha⟩ : ∃ a, asks[i]? = some a := ⟨_, List.getElem?_eq_getElem (by rw [← h.count]; exact hil)⟩
    have hok := h.ok i t a hi ha
    have set_get : ∀ t' j, (m.threads.set i t')[j]? = if i = j then some t' else m.threads[j]? := by
      intro t' j
      by_cases e : i = j
      · subst e; rw [if_pos rfl]; exact List.getElem?_set_self hil
      · rw [if_neg e]; exact List.getElem?_set_ne e
    -- a step that leaves the heap alone
    have keep : ∀ t', ThreadOK plan h0 m.heap a t' → (∀ p, t'.cell = some p → t.cell = some p ∨ p < h0.length) →
        Inv plan h0 asks ⟨m.heap, m.threads.set i t'⟩ := by
      intro t' h1 h2
      refine ⟨h.old, h.len, by simp [h.count], ?_, ?_, ?_⟩
      · intro j u b hu hb
        simp only [set_get] at hu
        split at hu
        · rename_i e; subst e; cases hu; rw [ha] at hb; cases hb; exact h1
        · exact h.ok j u b hu hb
      · intro j l u v p hne hu hv hcu hcv
        simp only [set_get] at hu hv
        split at hu
        · cases hu
          split at hv
          · rename_i e1 e2; exact absurd (e1.symm.trans e2) hne
          · rename_i e1 e2
            rcases h2 p hcu with h3 | h3
            · exact h.own i l t v p e2 hi hv h3 hcv
            · exact h3
        · split at hv
          · cases hv
            rename_i e1 e2
            rcases h2 p hcv with h3 | h3
            · exact h.own i j t u p e1 hi hu h3 hcu
            · exact h3
          · exact h.own j l u v p hne hu hv hcu hcv
      · intro j u p hu hcu
        simp only [set_get] at hu
        split at hu
        · cases hu
          rcases h2 p hcu with h3 | h3
          · exact h.bound i t p hi h3
          · have := h.len; simp only []; omega
        · exact h.bound j u p hu hcu
    cases t with
    | waiting b =>
      simp only [ThreadOK] at hok
      subst hok
      simp only [Thread.step]
      cases hp : plan b with
      | crash => exact keep _ (by simp only [ThreadOK, hp, planned]) (by intro p hc; cases hc)
      | fail e => exact keep _ (by simp only [ThreadOK, hp, planned]) (by intro p hc; cases hc)
      | shared p mk =>
        have hlt := hold b p mk hp
        refine keep _ ?_ (by intro p' hc; cases hc; exact .inr hlt)
        refine ⟨h0[p], ?_, ?_, ?_⟩
        · rw [h.old p hlt, List.getElem?_eq_getElem hlt]
        · rw [hp]; simp only [planned, List.getElem?_eq_getElem hlt, Option.getD_some]
        · intro k hk; exact absurd (by cases k <;> decide) hk
      | own w mk =>
        simp only []
        refine ⟨?_, ?_, by simp [h.count], ?_, ?_, ?_⟩
        · intro p hlt
          simp only []
          rw [List.getElem?_append_left (by have := h.len; omega)]; exact h.old p hlt
        · have := h.len; simp only [List.length_append, List.length_cons, List.length_nil]; omega
        · intro j u c hu hc
          simp only [set_get] at hu
          split at hu
          · rename_i e; subst e; cases hu; rw [ha] at hc; cases hc
            refine ⟨h.len, {}, by simp, ?_⟩
            rw [hp]; rfl
          · exact (h.ok j u c hu hc).append _
        · intro j l u v p hne hu hv hcu hcv
          simp only [set_get] at hu hv
          split at hu
          · cases hu
            split at hv
            · rename_i e1 e2; exact absurd (e1.symm.trans e2) hne
            · cases hcu
              have := h.bound l v _ hv hcv
              omega
          · split at hv
            · cases hv; cases hcv
              have := h.bound j u _ hu hcu
              omega
            · exact h.own j l u v p hne hu hv hcu hcv
        · intro j u p hu hcu
          simp only [set_get] at hu
          split at hu
          · cases hu; cases hcu; simp
          · have := h.bound j u p hu hcu
            simp only [List.length_append]; omega
    | filling p todo mk =>
      obtain ⟨hp0, x, hx, hpl⟩ := hok
      cases todo with
      | nil =>
        refine keep _ ⟨x, hx, hpl, ?_⟩ (by intro p' hc; cases hc; exact .inl rfl)
        intro k hk; exact absurd (by cases k <;> decide) hk
      | cons kv w =>
        obtain ⟨k, v⟩ := kv
        simp only [Thread.step]
        have hpl' : p < m.heap.length := (List.getElem?_eq_some_iff.mp hx).1
        refine ⟨?_, by simp [h.len], by simp [h.count], ?_, ?_, ?_⟩
        · intro p' hlt
          simp only []
          rw [List.getElem?_modify]
          have hne : p ≠ p' := by omega
          simp only [if_neg hne, Option.map_eq_map, Option.map_id_fun', id_eq]
          exact h.old p' hlt
        · intro j u c hu hc
          simp only [set_get] at hu
          split at hu
          · rename_i e; subst e; cases hu; rw [ha] at hc; cases hc
            refine ⟨hp0, k.set v x, ?_, hpl⟩
            rw [List.getElem?_modify, hx]; simp
          · rename_i e
            refine (h.ok j u c hu hc).other p _ fun hcu => ?_
            have := h.own i j _ u p e hi hu rfl hcu
            omega
        · intro j l u u' p' hne hu hv hcu hcv
          simp only [set_get] at hu hv
          split at hu
          · cases hu
            split at hv
            · rename_i e1 e2; exact absurd (e1.symm.trans e2) hne
            · rename_i e1 e2; exact h.own i l _ u' p' e2 hi hv hcu hcv
          · split at hv
            · cases hv
              rename_i e1 e2
              exact h.own i j _ u p' e1 hi hu hcv hcu
            · exact h.own j l u u' p' hne hu hv hcu hcv
        · intro j u p' hu hcu
          simp only [set_get] at hu
          simp only [List.length_modify]
          split at hu
          · cases hu; cases hcu; exact hpl'
          · exact h.bound j u p' hu hcu
    | reading p todo got mk =>
      obtain ⟨x, hx, hpl, hgot⟩ := hok
      cases todo with
      | nil =>
        simp only [Thread.step]
        refine keep _ ?_ (by intro p' hc; cases hc)
        have : got = x := ext_get fun k => hgot k (by simp)
        simp only [ThreadOK]
        rw [this, hpl]
      | cons k ks =>
        simp only [Thread.step, hx]
        refine keep _ ⟨x, hx, hpl, ?_⟩ (by intro p' hc; cases hc; exact .inl rfl)
        intro k' hk'
        by_cases e : k' = k
        · subst e; rw [get_set_self]
        · rw [get_set_ne e]; exact hgot k' (by simp [e, hk'])
    | finished r => exact keep _ hok (by intro p hc; cases hc)

theorem inv_run {plan : IP → Plan} {h0 : Heap} {asks : List IP} (hold : Old plan h0) : ∀ (sched : List Nat) {m : Machine},
    Inv plan h0 asks m → Inv plan h0 asks (m.run plan sched)
  | [], _, h => h
  | i :: is, _, h => inv_run hold is (inv_step hold h i)

theorem inv_start (plan : IP → Plan) (h0 : Heap) (asks : List IP) : Inv plan h0 asks (.start h0 asks) := by
  have hget : ∀ (i : Nat) t, (Machine.start h0 asks).threads[i]? = some t → ∃ a, asks[i]? = some a ∧ t = .waiting a := by
    intro i t ht
    simp only [Machine.start, List.getElem?_map, Option.map_eq_some_iff] at ht
    obtain ⟨a, h1, h2⟩ := ht
    exact ⟨a, h1, h2.symm⟩
  refine ⟨fun _ _ => rfl, Nat.le_refl _, by simp [Machine.start], ?_, ?_, ?_⟩
  · intro i t a ht ha
    obtain ⟨b, h1, rfl⟩ := hget i t ht
    rw [ha] at h1; cases h1; rfl
  · intro i j t u p _ ht _ hc
    obtain ⟨b, _, rfl⟩ := hget i t ht
    cases hc
  · intro i t p ht hc
    obtain ⟨b, _, rfl⟩ := hget i t ht
    cases hc

theorem inv_no_race {plan : IP → Plan} {h0 : Heap} {asks : List IP} {m : Machine} (h : Inv plan h0 asks m) : ¬ Race m := by
  rintro ⟨i, j, p, k, w, hne, h1, h2⟩
  rw [Option.bind_eq_some_iff] at h1 h2
  obtain ⟨t, ht, h1⟩ := h1
  obtain ⟨u, hu, h2⟩ := h2
  have hil : i < m.threads.length := (List.getElem?_eq_some_iff.mp ht).1
  obtain ⟨a, ha⟩ : ∃ a, asks[i]? = some a := ⟨_, List.getElem?_eq_getElem (by rw [← h.count]; exact hil)⟩
  have hcu : u.cell = some p := by
    cases u with
    | waiting b => cases h2
    | finished r => cases h2
    | filling p' todo mk => cases todo with
      | nil => cases h2
      | cons x l => simp only [Thread.next, Option.some.injEq, Prod.mk.injEq] at h2; rw [← h2.1]; rfl
    | reading p' todo got mk => cases todo with
      | nil => cases h2
      | cons x l => simp only [Thread.next, Option.some.injEq, Prod.mk.injEq] at h2; rw [← h2.1]; rfl
  cases t with
  | waiting b => cases h1
  | finished r => cases h1
  | reading p' todo got mk => cases todo with
    | nil => cases h1
    | cons x l => simp [Thread.next] at h1
  | filling p' todo mk =>
    cases todo with
    | nil => cases h1
    | cons x l =>
      simp only [Thread.next, Option.some.injEq, Prod.mk.injEq] at h1
      have h3 := (h.ok i _ a ht ha).1
      have h4 := h.own i j _ u p hne ht hu (by rw [← h1.1]; rfl) hcu
      rw [← h1.1] at h4
      omega

/-- Steps a goroutine may still take. -/
def left (plan : IP → Plan) : Thread → Nat
  | .waiting a => match plan a with
    | .own w _ => w.length + 11
    | _ => 10
  | .filling _ w _ => w.length + 10
  | .reading _ ks _ _ => ks.length + 1
  | .finished _ => 0

theorem left_step (plan : IP → Plan) (h : Heap) (t : Thread) : left plan (t.step plan h).1 ≤ left plan t - 1 := by
  cases t with
  | waiting a =>
    simp only [Thread.step]
    cases hp : plan a <;> simp [left, hp, Attr.all]
  | filling p w m =>
    cases w with
    | nil => simp [Thread.step, left, Attr.all]
    | cons x w => obtain ⟨k, v⟩ := x; simp [Thread.step, left]
  | reading p ks got m =>
    cases ks with
    | nil => simp [Thread.step, left]
    | cons k ks =>
      simp only [Thread.step]
      split <;> simp [left]
  | finished r => simp [Thread.step, left]

theorem left_zero {plan : IP → Plan} {t : Thread} (h : left plan t = 0) : ∃ r, t = .finished r := by
  cases t with
  | waiting a =>
    simp only [left] at h
    split at h <;> omega
  | filling p w m => simp [left] at h
  | reading p ks got m => simp [left] at h
  | finished r => exact ⟨r, rfl⟩

theorem run_left {plan : IP → Plan} (i : Nat) : ∀ (sched : List Nat) (m : Machine) (t : Thread), m.threads[i]? = some t →
    ∃ t', (m.run plan sched).threads[i]? = some t' ∧ left plan t' ≤ left plan t - sched.count i
  | [], m, t, h => ⟨t, h, by simp⟩
  | j :: js, m, t, h => by
    have key : ∃ t1, (m.step plan j).threads[i]? = some t1 ∧ left plan t1 ≤ left plan t - (if j = i then 1 else 0) := by
      unfold Machine.step
      by_cases e : j = i
      · subst e
        simp only [h]
        refine ⟨(t.step plan m.heap).1, ?_, ?_⟩
        · exact List.getElem?_set_self (List.getElem?_eq_some_iff.mp h).1
        · simp only [if_true]; exact left_step plan _ t
      · rw [if_neg e]
        cases hj : m.threads[j]? with
        | none => exact ⟨t, h, by simp⟩
        | some u => exact ⟨t, by simp only []; rw [List.getElem?_set_ne e]; exact h, by simp⟩
    obtain ⟨t1, h1, h2⟩ := key
    obtain ⟨t', h3, h4⟩ := run_left i js _ t1 h1
    refine ⟨t', h3, ?_⟩
    rw [List.count_cons]
    by_cases e : j = i
    · rw [if_pos e] at h2; rw [if_pos (by simp [e])]; omega
    · rw [if_neg e] at h2; rw [if_neg (by simp [e])]; omega

/-! ## ipdb -/

theorem setAttr_attr (info : IpInfo) (f v : Str) : Ipdb.setAttr info f v = match attrOf f with
    | some k => k.set v info
    | none => info := by
  unfold Ipdb.setAttr attrOf
  repeat (split; · rfl)
  rfl

theorem buildInfo_writes : ∀ (fs vs : List Str) (i : IpInfo),
    Ipdb.buildInfo fs vs i = (writesOf fs vs).foldl (fun i x => x.1.set x.2 i) i
  | [], _, _ => rfl
  | _ :: _, [], _ => rfl
  | f :: fs, v :: vs, i => by
    simp only [Ipdb.buildInfo, writesOf]
    rw [setAttr_attr, buildInfo_writes fs vs]
    cases attrOf f <;> rfl

theorem writes_length : ∀ (fs vs : List Str), (writesOf fs vs).length ≤ fs.length
  | [], _ => by simp [writesOf]
  | _ :: _, [] => by simp [writesOf]
  | f :: fs, v :: vs => by
    have := writes_length fs vs
    simp only [writesOf]
    split <;> simp <;> omega

theorem ipdb_planned (q : Ipdb.SQuerier) (h0 : Heap) (a : IP) : planned h0 (ipdbPlan q a) = (q.deref h0).Query a := by
  unfold ipdbPlan Ipdb.Querier.Query Ipdb.Querier.QueryInternal
  have hr : (q.deref h0).r = q.r := rfl
  have hc : ∀ n, Ipdb.cacheGet (q.deref h0).queryCache n = (Ipdb.ptrGet q.queryCache n).map fun p => h0[p]?.getD {} :=
    Ipdb.cacheGet_deref h0 q.queryCache
  have key : ∀ node body mask, planned h0 (match Ipdb.ptrGet q.queryCache node with
      | some p => .shared p mask
      | none => match mapGet q.r.md.languages (gs "CN") with
        | none => .fail .noSupportLanguage
        | some off => match q.r.decodeInfo body off with
          | .panic => .crash
          | .err e => .fail e
          | .ok values => .own (writesOf q.r.md.fields values) mask) =
      ((match (if true = true then Ipdb.cacheGet (q.deref h0).queryCache node else none) with
        | some v => (.ok (node, v, mask) : Res (Nat × IpInfo × Nat))
        | none => match mapGet q.r.md.languages (gs "CN") with
          | none => .err .noSupportLanguage
          | some off => do
            let values ← q.r.decodeInfo body off
            return (node, Ipdb.buildInfo q.r.md.fields values {}, mask)) >>= fun x => .ok (x.2.1, x.2.2)) := by
    intro node body mask
    rw [if_pos rfl, hc]
    cases Ipdb.ptrGet q.queryCache node with
    | some p => rfl
    | none =>
      simp only [Option.map_none]
      cases mapGet q.r.md.languages (gs "CN") with
      | none => rfl
      | some off =>
        simp only []
        cases q.r.decodeInfo body off with
        | panic => rfl
        | err e => rfl
        | ok values => simp only [planned, Res.ok_bind, Res.pure_eq, buildInfo_writes]
  rw [hr]
  cases q.r.find0 a with
  | panic => rfl
  | err e => exact key 0 [] 0
  | ok x => obtain ⟨node, body, mask⟩ := x; exact key node body mask

theorem ipdb_old {q : Ipdb.SQuerier} {h0 : Heap} (hf : Ipdb.Fit q h0.length) : Old (ipdbPlan q) h0 := by
  intro a p m h
  unfold ipdbPlan at h
  have key : ∀ node body mask, (match Ipdb.ptrGet q.queryCache node with
      | some p => Plan.shared p mask
      | none => match mapGet q.r.md.languages (gs "CN") with
        | none => .fail .noSupportLanguage
        | some off => match q.r.decodeInfo body off with
          | .panic => .crash
          | .err e => .fail e
          | .ok values => .own (writesOf q.r.md.fields values) mask) = .shared p m → p < h0.length := by
    intro node body mask h
    cases hp : Ipdb.ptrGet q.queryCache node with
    | some p' => rw [hp] at h; cases h; exact hf.1 _ _ hp
    | none =>
      rw [hp] at h
      simp only [] at h
      split at h
      · cases h
      · split at h <;> cases h
  cases hfnd : q.r.find0 a with
  | panic => rw [hfnd] at h; cases h
  | err e => rw [hfnd] at h; exact key 0 [] 0 h
  | ok x => obtain ⟨node, body, mask⟩ := x; rw [hfnd] at h; exact key node body mask h

theorem deref_query {q : Ipdb.SQuerier} {h0 : Heap} (hs : Ipdb.CacheSound (q.deref h0)) (a : IP) :
    (q.deref h0).Query a = Ipdb.Querier.Query ⟨q.r, []⟩ a := by
  have e1 := Ipdb.QueryInternal_eq (q.deref h0) a hs true
  have er : (q.deref h0).r = q.r := rfl
  rw [er] at e1
  unfold Ipdb.Querier.Query
  rw [e1, Ipdb.QueryInternal_eq ⟨q.r, []⟩ a (Ipdb.CacheSound_nil _) true]

theorem ipdb_left (q : Ipdb.SQuerier) (a : IP) : left (ipdbPlan q) (.waiting a) ≤ q.r.md.fields.length + 11 := by
  simp only [left]
  split
  · rename_i w m h
    unfold ipdbPlan at h
    have key : ∀ node body mask, (match Ipdb.ptrGet q.queryCache node with
        | some p => Plan.shared p mask
        | none => match mapGet q.r.md.languages (gs "CN") with
          | none => .fail .noSupportLanguage
          | some off => match q.r.decodeInfo body off with
            | .panic => .crash
            | .err e => .fail e
            | .ok values => .own (writesOf q.r.md.fields values) mask) = .own w m → w.length ≤ q.r.md.fields.length := by
      intro node body mask h
      split at h
      · cases h
      · split at h
        · cases h
        · split at h <;> cases h
          exact writes_length _ _
    cases hfnd : q.r.find0 a with
    | panic => rw [hfnd] at h; cases h
    | err e => rw [hfnd] at h; have := key 0 [] 0 h; omega
    | ok x => obtain ⟨node, body, mask⟩ := x; rw [hfnd] at h; have := key node body mask h; omega
  · omega

/-- C106 for ipdb: any number of goroutines query one opened database at the same time and read their answers, interleaved in any
way.  Every answer is the one the database gives to that question alone; a goroutine is done after a bounded number of its own
steps, however often the others run in between; and no two of them ever access the same field at the same time if one writes. -/
theorem C106_ipdb {dec : Bytes → Option Ipdb.MetaData} {bytes : Bytes} {ips : List IP} {q : Ipdb.SQuerier} {h0 : Heap}
    (hr : Ipdb.Ready dec bytes ips q h0) {q0 : Ipdb.Querier} (hq : Ipdb.newQuerier dec bytes = .ok q0) (asks : List IP) (sched : List Nat) :
    let m := (Machine.start h0 asks).run (ipdbPlan q) sched
    (∀ (i : Nat) r, m.threads[i]? = some (.finished r) → ∃ a, asks[i]? = some a ∧ r = q0.Query a) ∧
    (∀ i : Nat, i < asks.length → q0.r.md.fields.length + 11 ≤ sched.count i → ∃ r, m.threads[i]? = some (.finished r)) ∧
    ¬ Race m := by
  obtain ⟨h1, hf, hs, _⟩ := hr.spec
  rw [h1] at hq
  cases Res.ok.inj hq
  have hinv := inv_run (ipdb_old hf) sched (inv_start (ipdbPlan q) h0 asks)
  refine ⟨?_, ?_, inv_no_race hinv⟩
  · intro i r hi
    have hil := (List.getElem?_eq_some_iff.mp hi).1
    obtain ⟨a, ha⟩ : ∃ a, asks[i]? = some a := ⟨_, List.getElem?_eq_getElem (by rw [← hinv.count]; exact hil)⟩
    refine ⟨a, ha, ?_⟩
    have := hinv.ok i _ a hi ha
    simp only [ThreadOK] at this
    rw [this, ipdb_planned, deref_query hs]
  · intro i hi hc
    have h0t : (Machine.start h0 asks).threads[i]? = some (.waiting asks[i]) := by
      simp [Machine.start, List.getElem?_eq_getElem hi]
    obtain ⟨t', h3, h4⟩ := run_left (plan := ipdbPlan q) i sched _ _ h0t
    have := ipdb_left q asks[i]
    obtain ⟨r, rfl⟩ := left_zero (plan := ipdbPlan q) (t := t') (by simp only [] at hc; omega)
    exact ⟨r, h3⟩

/-! ## awdb -/

theorem awdb_planned (r : Awdb.Reader) (a : IP) : planned [] (awdbPlan r a) = r.Query a := by
  unfold awdbPlan Awdb.Reader.Query
  cases r.Find a with
  | panic => rfl
  | err e => rfl
  | ok x => obtain ⟨cidr, info⟩ := x; rfl

/-- C106 for awdb: the same, with 18 steps. -/
theorem C106_awdb (r : Awdb.Reader) (asks : List IP) (sched : List Nat) :
    let m := (Machine.start [] asks).run (awdbPlan r) sched
    (∀ (i : Nat) x, m.threads[i]? = some (.finished x) → ∃ a, asks[i]? = some a ∧ x = r.Query a) ∧
    (∀ i : Nat, i < asks.length → 18 ≤ sched.count i → ∃ x, m.threads[i]? = some (.finished x)) ∧
    ¬ Race m := by
  have hold : Old (awdbPlan r) [] := by
    intro a p m h
    unfold awdbPlan at h
    split at h <;> cases h
  have hinv := inv_run hold sched (inv_start (awdbPlan r) [] asks)
  refine ⟨?_, ?_, inv_no_race hinv⟩
  · intro i x hi
    have hil := (List.getElem?_eq_some_iff.mp hi).1
    obtain ⟨a, ha⟩ : ∃ a, asks[i]? = some a := ⟨_, List.getElem?_eq_getElem (by rw [← hinv.count]; exact hil)⟩
    refine ⟨a, ha, ?_⟩
    have := hinv.ok i _ a hi ha
    simp only [ThreadOK] at this
    rw [this, awdb_planned]
  · intro i hi hc
    have h0t : (Machine.start [] asks).threads[i]? = some (.waiting asks[i]) := by
      simp [Machine.start, List.getElem?_eq_getElem hi]
    obtain ⟨t', h3, h4⟩ := run_left (plan := awdbPlan r) i sched _ _ h0t
    have hl : left (awdbPlan r) (.waiting asks[i]) ≤ 18 := by
      simp only [left, awdbPlan]
      cases r.Find asks[i] with
      | panic => simp
      | err e => simp
      | ok x => obtain ⟨cidr, info⟩ := x; simp
    obtain ⟨x, rfl⟩ := left_zero (plan := awdbPlan r) (t := t') (by omega)
    exact ⟨x, h3⟩

/-! ## Examples -/

/-- The definition of a race is not empty: an object written by one goroutine while another reads it. -/
example : Race ⟨[{}], [.filling 0 [(.city, gs "x")] 8, .reading 0 [.city, .line] {} 8]⟩ :=
  ⟨0, 1, 0, .city, false, by decide, rfl, rfl⟩

/-- A packed file opened and warmed up with 1.0.0.1; two goroutines ask for 1.0.0.1 and 1.0.0.2 (one cached
record), taking turns: the second ends with the answer the database gives. -/
example : ∃ bytes q0 q h0, Ipdb.pack Ipdb.encMeta 0 Ipdb.demo1 = .ok bytes ∧ Ipdb.newQuerier Ipdb.decMeta bytes = .ok q0 ∧
    Ipdb.Ready Ipdb.decMeta bytes [[1, 0, 0, 1]] q h0 ∧
    ((Machine.start h0 [[1, 0, 0, 1], [1, 0, 0, 2]]).run (ipdbPlan q)
      ((List.replicate (q0.r.md.fields.length + 11) [0, 1]).flatten)).threads[1]? =
        some (.finished (.ok ({ city := gs "北京" }, 8))) := by
  obtain ⟨bytes, h1, h2⟩ := Ipdb.opens (enc := Ipdb.encMeta) (dec := Ipdb.decMeta) (now := 0) (ipd := Ipdb.demo1)
    (by decide +kernel) (fun _ _ _ _ => Ipdb.dec_encMeta _)
  obtain ⟨r, _, h4, h5⟩ := h2 (Ipdb.size_of_packed Ipdb.demo1_size h1)
  have ha : ∀ x : UInt8, x = 1 ∨ x = 2 → Ipdb.Querier.Query ⟨r, []⟩ [1, 0, 0, x] = .ok ({ city := gs "北京" }, 8) := by
    intro x hx
    rw [h5.query_covered (m := (⟨[1, 0, 0, 0], [255, 0, 0, 0]⟩, [gs "北京"])) (by decide +kernel)
      (by rcases hx with rfl | rfl <;> decide +kernel) (by rcases hx with rfl | rfl <;> decide) (by rcases hx with rfl | rfl <;> decide)
      (by rcases hx with rfl | rfl <;> decide +kernel)]
    rcases hx with rfl | rfl <;> decide +kernel
  obtain ⟨q1, hb⟩ := Ipdb.C16_build_cache_total (Ipdb.Opened.new h4) (ips := [[1, 0, 0, 1]]) (by
    intro a ha'; simp only [List.mem_singleton] at ha'; subst ha'; rw [ha 1 (.inl rfl)]; intro h; cases h)
  obtain ⟨q, hh, hr⟩ := Ipdb.ready_of h4 hb
  refine ⟨bytes, _, q, hh, h1, h4, hr, ?_⟩
  obtain ⟨c1, c2, _⟩ := C106_ipdb hr h4 [[1, 0, 0, 1], [1, 0, 0, 2]] ((List.replicate (r.md.fields.length + 11) [0, 1]).flatten)
  have hcount : ∀ n, ((List.replicate n [0, 1]).flatten).count 1 = n := by
    intro n
    induction n with
    | zero => rfl
    | succ n ih => rw [List.replicate_succ, List.flatten_cons, List.count_append, ih]; simp; omega
  obtain ⟨x, hx⟩ := c2 1 (by decide) (by rw [hcount]; exact Nat.le_refl _)
  obtain ⟨a, h6, h7⟩ := c1 1 x hx
  cases h6
  rw [ha 2 (.inr rfl)] at h7
  rw [← h7]
  exact hx

end Uip.Threads
