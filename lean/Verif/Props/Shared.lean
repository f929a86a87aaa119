import Verif.Model.Ipdb.Shared
import Verif.Props.Ipdb
/-!
# C87: answers and what callers do to them

`ipdb` queries that end on a record cached at opening time all return one shared object. The English
property — "what a caller does to an answer it was given never changes a later answer" — is false then, and
true for every other address. `C87_exact` says what each later answer is.
-/
namespace Uip.Ipdb
open Uip Uip.Spec

/-- The record an address ends on: 0 when the lookup fails, nothing when it crashes. -/
def leafOf (r : Reader) (a : IP) : Option Nat := match r.find0 a with
  | .ok (n, _, _) => some n
  | .err _ => some 0
  | .panic => none

/-- The address ends on the record of an address of the warm-up list that has an answer. -/
def Warmed (r : Reader) (ips : List IP) (a : IP) : Prop :=
  ∃ w ∈ ips, leafOf r w = leafOf r a ∧ ∃ x, Querier.Query ⟨r, []⟩ w = .ok x

open Classical in
/-- The last value a history assigns to the answer of a question about an address related to `a`:
`asked` are the questions asked so far, `last` the last value so far. -/
noncomputable def lastAssigned (related : IP → Prop) : List Ev → List IP → Option IpInfo → Option IpInfo
  | [], _, last => last
  | .ask a :: es, asked, last => lastAssigned related es (asked ++ [a]) last
  | .assign i v :: es, asked, last =>
    lastAssigned related es asked (if ∃ b, asked[i]? = some b ∧ related b then some v else last)

/-! ## Refinement of the value model -/

/-- The value querier a pointer querier stands for. -/
def SQuerier.deref (q : SQuerier) (h : Heap) : Querier :=
  { r := q.r, queryCache := q.queryCache.map fun x => (x.1, h[x.2]?.getD {}) }

theorem cacheGet_deref (h : Heap) : ∀ (c : List (Nat × Nat)) (n : Nat),
    cacheGet (c.map fun x => (x.1, h[x.2]?.getD {})) n = (ptrGet c n).map fun p => h[p]?.getD {}
  | [], _ => rfl
  | (k, v) :: c, n => by
    simp only [List.map_cons, cacheGet, ptrGet]
    split
    · rfl
    · exact cacheGet_deref h c n

/-- Cached pointers point into the first `N` cells, different nodes to different cells. -/
def Fit (q : SQuerier) (N : Nat) : Prop :=
  (∀ n p, ptrGet q.queryCache n = some p → p < N) ∧
  (∀ n n' p, ptrGet q.queryCache n = some p → ptrGet q.queryCache n' = some p → n = n') ∧
  (∀ x ∈ q.queryCache, x.2 < N)

theorem Fit.mono {q : SQuerier} {N M : Nat} (h : Fit q N) (hm : N ≤ M) : Fit q M :=
  ⟨fun n p hp => by have := h.1 n p hp; omega, h.2.1, fun x hx => by have := h.2.2 x hx; omega⟩

/-- A pointer query `S` gives what the value query `R` gives, through a cached or a fresh cell. -/
def Refines (q : SQuerier) (h : Heap) (a : IP) (b : Bool) (R : Res (Nat × IpInfo × Nat))
    (S : Res ((Nat × Nat × Nat) × Heap)) : Prop :=
  match R with
  | .panic => S = .panic
  | .err e => S = .err e
  | .ok (n, info, m) => leafOf q.r a = some n ∧
    ((∃ p, b = true ∧ ptrGet q.queryCache n = some p ∧ h[p]? = some info ∧ S = .ok ((n, p, m), h)) ∨
     ((b = true → ptrGet q.queryCache n = none) ∧ S = .ok ((n, h.length, m), h ++ [info])))

theorem SQ_spec (q : SQuerier) (h : Heap) (hf : Fit q h.length) (a : IP) (b : Bool) :
    Refines q h a b ((q.deref h).QueryInternal a b) (q.QueryInternal h a b) := by
  have fresh : ∀ node body mask, leafOf q.r a = some node → (b = true → ptrGet q.queryCache node = none) →
      Refines q h a b (match mapGet q.r.md.languages (gs "CN") with
          | none => .err .noSupportLanguage
          | some off => do
            let values ← q.r.decodeInfo body off
            return (node, buildInfo q.r.md.fields values {}, mask))
        (match mapGet q.r.md.languages (gs "CN") with
          | none => .err .noSupportLanguage
          | some off => do
            let values ← q.r.decodeInfo body off
            return ((node, h.length, mask), h ++ [buildInfo q.r.md.fields values {}])) := by
    intro node body mask hn hb
    cases mapGet q.r.md.languages (gs "CN") with
    | none => rfl
    | some off =>
      simp only []
      cases q.r.decodeInfo body off with
      | panic => rfl
      | err e => rfl
      | ok values => exact ⟨hn, .inr ⟨hb, rfl⟩⟩
  have key : ∀ node body mask, leafOf q.r a = some node →
      Refines q h a b (match (if b then cacheGet (q.deref h).queryCache node else none) with
        | some v => (.ok (node, v, mask) : Res (Nat × IpInfo × Nat))
        | none => match mapGet q.r.md.languages (gs "CN") with
          | none => .err .noSupportLanguage
          | some off => do
            let values ← q.r.decodeInfo body off
            return (node, buildInfo q.r.md.fields values {}, mask))
        (match (if b then ptrGet q.queryCache node else none) with
        | some p => (.ok ((node, p, mask), h) : Res ((Nat × Nat × Nat) × Heap))
        | none => match mapGet q.r.md.languages (gs "CN") with
          | none => .err .noSupportLanguage
          | some off => do
            let values ← q.r.decodeInfo body off
            return ((node, h.length, mask), h ++ [buildInfo q.r.md.fields values {}])) := by
    intro node body mask hn
    have e0 : cacheGet (q.deref h).queryCache node = (ptrGet q.queryCache node).map fun p => h[p]?.getD {} :=
      cacheGet_deref h q.queryCache node
    cases b with
    | false => exact fresh node body mask hn (by intro h; cases h)
    | true =>
      rw [if_pos rfl, if_pos rfl, e0]
      cases hp : ptrGet q.queryCache node with
      | none => exact fresh node body mask hn (fun _ => hp)
      | some p =>
        have := hf.1 node p hp
        refine ⟨hn, .inl ⟨p, rfl, hp, ?_, rfl⟩⟩
        rw [List.getElem?_eq_getElem this]; simp [this]
  unfold Querier.QueryInternal SQuerier.QueryInternal
  have hr : (q.deref h).r = q.r := rfl
  simp only [hr]
  cases hfnd : q.r.find0 a with
  | panic => rfl
  | err e => exact key 0 [] 0 (by simp only [leafOf, hfnd])
  | ok x =>
    obtain ⟨node, body, mask⟩ := x
    exact key node body mask (by simp only [leafOf, hfnd])

theorem deref_append {q : SQuerier} {h : Heap} (hf : Fit q h.length) (t : Heap) : q.deref (h ++ t) = q.deref h := by
  unfold SQuerier.deref
  congr 1
  apply List.map_congr_left
  intro x hx
  rw [List.getElem?_append_left (hf.2.2 x hx)]

/-- An uncached query answers exactly when the value model does. -/
theorem query_ok_iff (r : Reader) (c : List (Nat × IpInfo)) (a : IP) :
    (∃ x, Querier.Query ⟨r, []⟩ a = .ok x) ↔ ∃ x, Querier.QueryInternal ⟨r, c⟩ a false = .ok x := by
  have e : Querier.QueryInternal ⟨r, c⟩ a false = Querier.QueryInternal ⟨r, []⟩ a true := by
    unfold Querier.QueryInternal
    simp only [cacheGet, if_true, Bool.false_eq_true, if_false]
  rw [e]
  unfold Querier.Query
  cases Querier.QueryInternal ⟨r, []⟩ a true with
  | panic => simp
  | err e => simp
  | ok x => simp

theorem warm_spec : ∀ (ips : List IP) (q : SQuerier) (h : Heap), Fit q h.length →
    match (q.deref h).BuildCache ips with
    | .panic => q.BuildCache h ips = .panic
    | .err e => q.BuildCache h ips = .err e
    | .ok Q => ∃ q' h', q.BuildCache h ips = .ok (q', h') ∧ Fit q' h'.length ∧ q'.deref h' = Q ∧ q'.r = q.r ∧
      ∀ n, (ptrGet q'.queryCache n).isSome ↔ (ptrGet q.queryCache n).isSome ∨
        ∃ w ∈ ips, leafOf q.r w = some n ∧ ∃ x, Querier.Query ⟨q.r, []⟩ w = .ok x := by
  intro ips
  induction ips with
  | nil => intro q h hf; exact ⟨q, h, rfl, hf, rfl, rfl, by simp⟩
  | cons a ips ih =>
    intro q h hf
    have hs := SQ_spec q h hf a false
    have hk := query_ok_iff q.r (q.deref h).queryCache a
    unfold Querier.BuildCache SQuerier.BuildCache
    change (_ ↔ ∃ x, (q.deref h).QueryInternal a false = .ok x) at hk
    cases hq : (q.deref h).QueryInternal a false with
    | panic => rw [hq] at hs; simp only [Refines] at hs; rw [hs]
    | err e =>
      rw [hq] at hs; simp only [Refines] at hs; rw [hs]
      simp only []
      have := ih q h hf
      split
      · rename_i h1; rw [h1] at this; exact this
      · rename_i e' h1; rw [h1] at this; exact this
      · rename_i Q h1; rw [h1] at this
        obtain ⟨q', h', e1, e2, e3, e4, e5⟩ := this
        refine ⟨q', h', e1, e2, e3, e4, ?_⟩
        intro n
        rw [e5 n]
        rw [hq] at hk
        have hno : ¬ ∃ x, Querier.Query ⟨q.r, []⟩ a = .ok x := by rw [hk]; rintro ⟨x, hx⟩; cases hx
        constructor
        · rintro (h | ⟨w, h1, h2⟩)
          · exact .inl h
          · exact .inr ⟨w, List.mem_cons_of_mem _ h1, h2⟩
        · rintro (h | ⟨w, h1, h2, h3⟩)
          · exact .inl h
          · rcases List.mem_cons.mp h1 with rfl | h1
            · exact absurd h3 hno
            · exact .inr ⟨w, h1, h2, h3⟩
    | ok x =>
      obtain ⟨n, info, m⟩ := x
      rw [hq] at hs; simp only [Refines] at hs
      obtain ⟨hn, ⟨p, hb, _⟩ | ⟨_, hs⟩⟩ := hs
      · cases hb
      rw [hs]
      simp only []
      have hf' : Fit { q with queryCache := (n, h.length) :: q.queryCache } (h ++ [info]).length := by
        refine ⟨?_, ?_, ?_⟩
        · intro n' p hp
          simp only [ptrGet] at hp
          simp only [List.length_append, List.length_cons, List.length_nil]
          split at hp
          · cases hp; omega
          · have := hf.1 n' p hp; omega
        · intro n1 n2 p h1 h2
          simp only [ptrGet] at h1 h2
          split at h1 <;> split at h2
          · omega
          · cases h1; have := hf.1 n2 _ h2; omega
          · cases h2; have := hf.1 n1 _ h1; omega
          · exact hf.2.1 n1 n2 p h1 h2
        · intro x hx
          simp only [List.length_append, List.length_cons, List.length_nil]
          rcases List.mem_cons.mp hx with rfl | hx
          · simp
          · have := hf.2.2 x hx; omega
      have e0 : SQuerier.deref { q with queryCache := (n, h.length) :: q.queryCache } (h ++ [info]) =
          { (q.deref h) with queryCache := (n, info) :: (q.deref h).queryCache } := by
        have := deref_append hf [info]
        unfold SQuerier.deref at this ⊢
        simp only [List.map_cons, List.getElem?_concat_length, Option.getD_some, Querier.mk.injEq, true_and,
          List.cons.injEq] at this ⊢
        exact this
      have := ih _ _ hf'
      rw [e0] at this
      split
      · rename_i h1; rw [h1] at this; exact this
      · rename_i e' h1; rw [h1] at this; exact this
      · rename_i Q h1; rw [h1] at this
        obtain ⟨q', h', e1, e2, e3, e4, e5⟩ := this
        refine ⟨q', h', e1, e2, e3, e4, ?_⟩
        intro n'
        rw [e5 n']
        have hyes : ∃ x, Querier.Query ⟨q.r, []⟩ a = .ok x := by rw [hk]; exact ⟨_, hq⟩
        simp only [ptrGet]
        constructor
        · rintro (h | ⟨w, h1, h2⟩)
          · split at h
            · rename_i hh; exact .inr ⟨a, List.mem_cons_self .., by rw [hn, hh], hyes⟩
            · exact .inl h
          · exact .inr ⟨w, List.mem_cons_of_mem _ h1, h2⟩
        · rintro (h | ⟨w, h1, h2, h3⟩)
          · left; split
            · rfl
            · exact h
          · rcases List.mem_cons.mp h1 with rfl | h1
            · left; rw [if_pos (by rw [hn] at h2; exact Option.some.inj h2)]; rfl
            · exact .inr ⟨w, h1, h2, h3⟩

/-- A pointer querier opened from bytes and warmed up with `ips`, and the heap at that point. -/
def Ready (dec : Bytes → Option MetaData) (bytes : Bytes) (ips : List IP) (q : SQuerier) (h0 : Heap) : Prop :=
  ∃ q0, newSQuerier dec bytes = .ok q0 ∧ q0.BuildCache [] ips = .ok (q, h0)

theorem Ready.spec {dec : Bytes → Option MetaData} {bytes : Bytes} {ips : List IP} {q : SQuerier} {h0 : Heap}
    (h : Ready dec bytes ips q h0) : newQuerier dec bytes = .ok ⟨q.r, []⟩ ∧ Fit q h0.length ∧
      CacheSound (q.deref h0) ∧ ∀ n, (ptrGet q.queryCache n).isSome ↔
        ∃ w ∈ ips, leafOf q.r w = some n ∧ ∃ x, Querier.Query ⟨q.r, []⟩ w = .ok x := by
  obtain ⟨q0, h1, h2⟩ := h
  unfold newSQuerier at h1
  simp only [Res.bind_eq_ok, Res.pure_eq, Res.ok.injEq] at h1
  obtain ⟨r, h3, rfl⟩ := h1
  have hf : Fit ⟨r, []⟩ ([] : Heap).length :=
    ⟨(by intro n p h; cases h), (by intro n n' p h; cases h), (by intro x h; cases h)⟩
  have hw := warm_spec ips ⟨r, []⟩ [] hf
  have hb := (BuildCache_spec ips ⟨r, []⟩ (CacheSound_nil r)).1
  have ed : SQuerier.deref ⟨r, []⟩ [] = ⟨r, []⟩ := rfl
  rw [ed] at hw
  cases hc : Querier.BuildCache ⟨r, []⟩ ips with
  | panic => rw [hc] at hw; simp only [] at hw; rw [hw] at h2; cases h2
  | err e => rw [hc] at hw; simp only [] at hw; rw [hw] at h2; cases h2
  | ok Q =>
    rw [hc] at hw
    obtain ⟨q', h', e1, e2, e3, e4, e5⟩ := hw
    rw [e1] at h2
    cases h2
    simp only [] at e4 e5
    obtain ⟨_, h7⟩ := hb Q hc
    refine ⟨?_, e2, by rw [e3]; exact h7, ?_⟩
    · unfold newQuerier; rw [h3, e4]; rfl
    · intro n; rw [e5 n, e4]; simp [ptrGet]

/-! ## Histories -/

/-- The cached cell of an address. -/
def cellOf (q : SQuerier) (a : IP) : Option Nat := (leafOf q.r a).bind (ptrGet q.queryCache)

theorem query_spec (q : SQuerier) (h : Heap) (hf : Fit q h.length) (a : IP) :
    (∃ e, (q.deref h).Query a = e ∧ q.Query h a = .panic ∧ e = .panic) ∨
    (∃ e, (q.deref h).Query a = .err e ∧ q.Query h a = .err e) ∨
    (∃ info m p, (q.deref h).Query a = .ok (info, m) ∧ cellOf q a = some p ∧
      h[p]? = some info ∧ q.Query h a = .ok ((p, m), h)) ∨
    (∃ info m, (q.deref h).Query a = .ok (info, m) ∧ cellOf q a = none ∧
      q.Query h a = .ok ((h.length, m), h ++ [info])) := by
  have hs := SQ_spec q h hf a true
  unfold Querier.Query SQuerier.Query
  cases hq : (q.deref h).QueryInternal a true with
  | panic => rw [hq] at hs; simp only [Refines] at hs; rw [hs]; exact .inl ⟨_, rfl, rfl, rfl⟩
  | err e => rw [hq] at hs; simp only [Refines] at hs; rw [hs]; exact .inr (.inl ⟨e, rfl, rfl⟩)
  | ok x =>
    obtain ⟨n, info, m⟩ := x
    rw [hq] at hs; simp only [Refines] at hs
    have hc : leafOf q.r a = some n → cellOf q a = ptrGet q.queryCache n := by
      intro h; unfold cellOf; rw [h]; rfl
    obtain ⟨hn, ⟨p, _, h1, h2, h3⟩ | ⟨h1, h3⟩⟩ := hs
    · rw [h3]; exact .inr (.inr (.inl ⟨info, m, p, rfl, by rw [hc hn]; exact h1, h2, rfl⟩))
    · rw [h3]; exact .inr (.inr (.inr ⟨info, m, rfl, by rw [hc hn]; exact h1 trivial, rfl⟩))

theorem sees_eq (q : SQuerier) (s : Session) (hf : Fit q s.heap.length) (a : IP) :
    q.sees s a = (q.deref s.heap).Query a := by
  unfold SQuerier.sees
  rcases query_spec q s.heap hf a with ⟨e, h1, h2, h3⟩ | ⟨e, h1, h2⟩ | ⟨info, m, p, h1, _, h3, h4⟩ | ⟨info, m, h1, _, h4⟩
  · rw [h1, h2, h3]; rfl
  · rw [h1, h2]; rfl
  · rw [h1, h4]; simp only [Res.ok_bind, h3]; rfl
  · rw [h1, h4]; simp only [Res.ok_bind, List.getElem?_concat_length]; rfl

/-- The object a cached query of `a` reads: the value it had when the database was opened, or the last one
assigned through an answer that ended on the same record. -/
theorem run_cell {q : SQuerier} {h0 : Heap} (hf : Fit q h0.length)
    (hok : ∀ b p, cellOf q b = some p → ∀ h, Fit q h.length → ∃ m, q.Query h b = .ok ((p, m), h))
    {n0 p0 : Nat} (hp0 : ptrGet q.queryCache n0 = some p0) {orig : IpInfo} :
    ∀ (es : List Ev) (s : Session) (asked : List IP) (last : Option IpInfo),
      h0.length ≤ s.heap.length → s.heap[p0]? = some (last.getD orig) → s.got.length = asked.length →
      (∀ (i : Nat) b, asked[i]? = some b → ∀ p, s.got[i]? = some (some p) →
        cellOf q b = some p ∨ h0.length ≤ p) →
      (∀ (i : Nat) b p, asked[i]? = some b → cellOf q b = some p → s.got[i]? = some (some p)) →
      h0.length ≤ (q.run s es).heap.length ∧
      (q.run s es).heap[p0]? = some ((lastAssigned (fun b => leafOf q.r b = some n0) es asked last).getD orig) := by
  intro es
  induction es with
  | nil => intro s asked last h1 h2 _ _ _; exact ⟨h1, h2⟩
  | cons e es ih =>
    intro s asked last h1 h2 h3 h4 h5
    have hp0' := hf.1 _ _ hp0
    cases e with
    | ask a =>
      simp only [SQuerier.run, lastAssigned]
      have hf' := hf.mono h1
      have hgot : ∀ (x : Option Nat) (t : Heap), q.step s (.ask a) = ⟨s.heap ++ t, s.got ++ [x]⟩ →
          (∀ p, x = some p → cellOf q a = some p ∨ h0.length ≤ p) →
          (∀ p, cellOf q a = some p → x = some p) →
          h0.length ≤ (q.run (q.step s (.ask a)) es).heap.length ∧ (q.run (q.step s (.ask a)) es).heap[p0]? =
            some ((lastAssigned (fun b => leafOf q.r b = some n0) es (asked ++ [a]) last).getD orig) := by
        intro x t he hx hx'
        refine ih (q.step s (.ask a)) (asked ++ [a]) last ?_ ?_ ?_ ?_ ?_
        · rw [he]; simp only [List.length_append]; omega
        · rw [he]; simp only []; rw [List.getElem?_append_left (by omega)]; exact h2
        · rw [he]; simp [h3]
        · rw [he]
          intro i b hb p hp
          simp only [] at hp
          rcases Nat.lt_or_ge i asked.length with hi | hi
          · rw [List.getElem?_append_left hi] at hb
            rw [List.getElem?_append_left (by omega)] at hp
            exact h4 i b hb p hp
          · rw [List.getElem?_append_right hi] at hb
            rw [List.getElem?_append_right (by omega)] at hp
            rw [h3] at hp
            cases hi' : i - asked.length with
            | zero =>
              rw [hi'] at hb hp
              simp only [List.getElem?_cons_zero, Option.some.injEq] at hb hp
              subst hb; exact hx p hp
            | succ k => rw [hi'] at hb; simp at hb
        · rw [he]
          intro i b p hb hp
          simp only []
          rcases Nat.lt_or_ge i asked.length with hi | hi
          · rw [List.getElem?_append_left hi] at hb
            rw [List.getElem?_append_left (by omega)]
            exact h5 i b p hb hp
          · rw [List.getElem?_append_right hi] at hb
            rw [List.getElem?_append_right (by omega), h3]
            cases hi' : i - asked.length with
            | zero =>
              rw [hi'] at hb
              simp only [List.getElem?_cons_zero, Option.some.injEq] at hb ⊢
              subst hb; exact hx' p hp
            | succ k => rw [hi'] at hb; simp at hb
      rcases query_spec q s.heap hf' a with ⟨e, g1, g2, g3⟩ | ⟨e, g1, g2⟩ | ⟨info, m, p, g1, g3, _, g4⟩ | ⟨info, m, g1, g3, g4⟩
      · refine hgot none [] ?_ (by intro p h; cases h) ?_
        · simp only [SQuerier.step, g2, List.append_nil]
        · intro p hp; obtain ⟨m, hm⟩ := hok a p hp s.heap hf'; rw [hm] at g2; cases g2
      · refine hgot none [] ?_ (by intro p h; cases h) ?_
        · simp only [SQuerier.step, g2, List.append_nil]
        · intro p hp; obtain ⟨m, hm⟩ := hok a p hp s.heap hf'; rw [hm] at g2; cases g2
      · refine hgot (some p) [] ?_ ?_ ?_
        · simp only [SQuerier.step, g4, List.append_nil]
        · intro p' hp'; cases hp'; exact .inl g3
        · intro p' hp'; rw [g3] at hp'; exact hp'
      · refine hgot (some s.heap.length) [info] ?_ ?_ ?_
        · simp only [SQuerier.step, g4]
        · intro p' hp'; cases hp'; exact .inr h1
        · intro p' hp'; rw [g3] at hp'; cases hp'
    | assign i v =>
      simp only [SQuerier.run, lastAssigned]
      by_cases hc : ∃ b, asked[i]? = some b ∧ leafOf q.r b = some n0
      · rw [if_pos hc]
        obtain ⟨b, hb, hbn⟩ := hc
        have hg := h5 i b p0 hb (by unfold cellOf; rw [hbn]; exact hp0)
        have he : q.step s (.assign i v) = ⟨s.heap.set p0 v, s.got⟩ := by
          simp only [SQuerier.step, hg]
        rw [he]
        refine ih ⟨s.heap.set p0 v, s.got⟩ asked (some v) (by simpa using h1) ?_ h3 h4 h5
        simp only [Option.getD_some]
        rw [List.getElem?_set_self (by omega)]
      · rw [if_neg hc]
        cases hg : s.got[i]? with
        | none =>
          have he : q.step s (.assign i v) = s := by simp only [SQuerier.step, hg]
          rw [he]; exact ih s asked last h1 h2 h3 h4 h5
        | some o =>
          cases o with
          | none =>
            have he : q.step s (.assign i v) = s := by simp only [SQuerier.step, hg]
            rw [he]; exact ih s asked last h1 h2 h3 h4 h5
          | some p =>
            have he : q.step s (.assign i v) = ⟨s.heap.set p v, s.got⟩ := by simp only [SQuerier.step, hg]
            rw [he]
            refine ih ⟨s.heap.set p v, s.got⟩ asked last (by simpa using h1) ?_ h3 h4 h5
            simp only []
            have hi : i < asked.length := by
              rw [← h3]; exact (List.getElem?_eq_some_iff.mp hg).1
            have hne : p ≠ p0 := by
              intro hpp; subst hpp
              rcases h4 i asked[i] (List.getElem?_eq_getElem hi) p hg with h6 | h6
              · unfold cellOf at h6
                rw [Option.bind_eq_some_iff] at h6
                obtain ⟨n, h6, h7⟩ := h6
                exact hc ⟨asked[i], List.getElem?_eq_getElem hi, by rw [h6, hf.2.1 _ _ _ h7 hp0]⟩
              · omega
            rw [List.getElem?_set_ne hne]; exact h2

theorem lastAssigned_congr {P Q : IP → Prop} (h : ∀ b, P b ↔ Q b) : ∀ es asked last,
    lastAssigned P es asked last = lastAssigned Q es asked last
  | [], _, _ => rfl
  | .ask a :: es, asked, last => by simp only [lastAssigned]; exact lastAssigned_congr h es _ _
  | .assign i v :: es, asked, last => by
    have : P = Q := funext fun b => propext (h b)
    subst this; rfl

theorem lastAssigned_none {P : IP → Prop} (h : ∀ b, ¬ P b) : ∀ es asked last, lastAssigned P es asked last = last
  | [], _, _ => rfl
  | .ask a :: es, asked, last => by simp only [lastAssigned]; exact lastAssigned_none h es _ _
  | .assign i v :: es, asked, last => by
    simp only [lastAssigned]
    rw [if_neg (by rintro ⟨b, _, hb⟩; exact h b hb)]
    exact lastAssigned_none h es _ _

theorem run_length {q : SQuerier} : ∀ (es : List Ev) (s : Session), s.heap.length ≤ (q.run s es).heap.length
  | [], _ => Nat.le_refl _
  | e :: es, s => by
    refine Nat.le_trans ?_ (run_length es _)
    cases e with
    | ask a =>
      simp only [SQuerier.step]
      split
      · rename_i p m h' he
        unfold SQuerier.Query SQuerier.QueryInternal at he
        cases hfnd : q.r.find0 a with
        | panic => rw [hfnd] at he; cases he
        | _ =>
          simp only [hfnd] at he
          split at he
          · cases he; exact Nat.le_refl _
          · split at he
            · cases he
            · simp only [Res.bind_eq_ok, Res.pure_eq, Res.ok.injEq] at he
              obtain ⟨x, ⟨v, _, rfl⟩, he⟩ := he
              cases he
              simp
      · exact Nat.le_refl _
    | assign i v =>
      simp only [SQuerier.step]
      split
      · simp
      · exact Nat.le_refl _

/-- C87, what is true in general: after any history of questions and assignments, the answer for an address
is the answer of a fresh database, or, for an address that ends on a record cached at opening time, the last
value a caller assigned to an answer that ended on that record. The mask is never affected. -/
theorem C87_exact {dec : Bytes → Option MetaData} {bytes : Bytes} {ips : List IP} {q : SQuerier} {h0 : Heap}
    (hr : Ready dec bytes ips q h0) {q0 : Querier} (hq : newQuerier dec bytes = .ok q0) (es : List Ev) (a : IP) :
    q.sees (q.run ⟨h0, []⟩ es) a = q0.Query a >>= fun x =>
      .ok ((lastAssigned (fun b => Warmed q0.r ips a ∧ leafOf q0.r b = leafOf q0.r a) es [] none).getD x.1, x.2) := by
  obtain ⟨h1, hf, hs, hw⟩ := hr.spec
  rw [h1] at hq
  cases Res.ok.inj hq
  have hf' : Fit q (q.run ⟨h0, []⟩ es).heap.length := hf.mono (run_length es ⟨h0, []⟩)
  rw [sees_eq q _ hf' a]
  simp only []
  have er : ∀ h, (q.deref h).r = q.r := fun _ => rfl
  have hW : Warmed q.r ips a ↔ (cellOf q a).isSome := by
    unfold cellOf Warmed
    cases hl : leafOf q.r a with
    | some n => simp only [Option.bind_some]; rw [hw]
    | none =>
      simp only [Option.bind_none, Option.isSome_none, Bool.false_eq_true, iff_false]
      rintro ⟨w, _, h2, x, hx⟩
      unfold leafOf at h2
      cases hfnd : q.r.find0 w with
      | panic => unfold Querier.Query Querier.QueryInternal at hx; simp only [hfnd] at hx; cases hx
      | err e => rw [hfnd] at h2; cases h2
      | ok x => rw [hfnd] at h2; cases h2
  have hget : ∀ h n, cacheGet (q.deref h).queryCache n = (ptrGet q.queryCache n).map fun p => h[p]?.getD {} :=
    fun h n => cacheGet_deref h q.queryCache n
  cases hp : cellOf q a with
  | none =>
    rw [hp] at hW
    rw [lastAssigned_none (by rintro b ⟨hb, _⟩; simpa using hW.mp hb)]
    have e : (q.deref (q.run ⟨h0, []⟩ es).heap).Query a = Querier.Query ⟨q.r, []⟩ a := by
      unfold Querier.Query Querier.QueryInternal
      simp only [er]
      cases hfnd : q.r.find0 a with
      | panic => rfl
      | err e =>
        simp only [cellOf, leafOf, hfnd, Option.bind_some] at hp
        simp only [if_true, cacheGet, hget, hp, Option.map_none]
      | ok x =>
        obtain ⟨n, body, m⟩ := x
        simp only [cellOf, leafOf, hfnd, Option.bind_some] at hp
        simp only [if_true, cacheGet, hget, hp, Option.map_none]
    rw [e]
    cases Querier.Query ⟨q.r, []⟩ a <;> rfl
  | some p0 =>
    have hWa : Warmed q.r ips a := by rw [hW, hp]; rfl
    have hok : ∀ b p, cellOf q b = some p → ∀ h, Fit q h.length → ∃ m, q.Query h b = .ok ((p, m), h) := by
      intro b p hpn h hfh
      unfold SQuerier.Query SQuerier.QueryInternal
      cases hfnd : q.r.find0 b with
      | panic => simp only [cellOf, leafOf, hfnd, Option.bind_none] at hpn; cases hpn
      | err e =>
        simp only [cellOf, leafOf, hfnd, Option.bind_some] at hpn
        simp only [if_true, hpn]; exact ⟨_, rfl⟩
      | ok x =>
        obtain ⟨n, body, m⟩ := x
        simp only [cellOf, leafOf, hfnd, Option.bind_some] at hpn
        simp only [if_true, hpn]; exact ⟨_, rfl⟩
    obtain ⟨n0, hn0, hp0⟩ := Option.bind_eq_some_iff.mp hp
    have hlt := hf.1 _ _ hp0
    have hcell := (run_cell hf hok hp0 (orig := h0[p0]) es ⟨h0, []⟩ [] none (Nat.le_refl _)
      (by simp only [Option.getD_none]; rw [List.getElem?_eq_getElem hlt]) rfl (by simp) (by simp)).2
    rw [lastAssigned_congr (Q := fun b => leafOf q.r b = some n0) (by intro b; simp [hWa, hn0])]
    generalize lastAssigned (fun b => leafOf q.r b = some n0) es [] none = last at hcell
    generalize (q.run ⟨h0, []⟩ es).heap = h' at hcell
    have base : ∃ m, Querier.Query ⟨q.r, []⟩ a = .ok (h0[p0], m) ∧ (q.deref h').Query a = .ok (last.getD h0[p0], m) := by
      have e1 := QueryInternal_eq (q.deref h0) a hs true
      rw [er] at e1
      have e2 : Querier.Query ⟨q.r, []⟩ a = (q.deref h0).Query a := by
        unfold Querier.Query
        rw [e1, QueryInternal_eq ⟨q.r, []⟩ a (CacheSound_nil _) true]
      rw [e2]
      have h00 : h0[p0]? = some h0[p0] := List.getElem?_eq_getElem hlt
      unfold Querier.Query Querier.QueryInternal
      simp only [er]
      cases hfnd : q.r.find0 a with
      | panic => simp only [leafOf, hfnd] at hn0; cases hn0
      | err e =>
        simp only [leafOf, hfnd, Option.some.injEq] at hn0
        subst hn0
        simp only [if_true, hget, hp0, Option.map_some, h00, hcell, Option.getD_some]
        exact ⟨_, rfl, rfl⟩
      | ok x =>
        obtain ⟨n, body, m⟩ := x
        simp only [leafOf, hfnd, Option.some.injEq] at hn0
        subst hn0
        simp only [if_true, hget, hp0, Option.map_some, h00, hcell, Option.getD_some]
        exact ⟨_, rfl, rfl⟩
    obtain ⟨m, b1, b2⟩ := base
    rw [b1, b2]
    rfl

/-- C87 for the addresses it holds for: whatever callers did with earlier answers, an address that ends on no
record cached at opening time gets the answer of a fresh database. -/
theorem C87_untouched {dec : Bytes → Option MetaData} {bytes : Bytes} {ips : List IP} {q : SQuerier}
    {h0 : Heap} (hr : Ready dec bytes ips q h0) {q0 : Querier} (hq : newQuerier dec bytes = .ok q0) (es : List Ev)
    {a : IP} (ha : ¬ Warmed q0.r ips a) : q.sees (q.run ⟨h0, []⟩ es) a = q0.Query a := by
  rw [C87_exact hr hq, lastAssigned_none (by rintro b ⟨hb, _⟩; exact ha hb)]
  cases q0.Query a <;> rfl

/-- C87 for callers that only read: every answer is the answer of a fresh database. -/
theorem C87_read_only {dec : Bytes → Option MetaData} {bytes : Bytes} {ips : List IP} {q : SQuerier}
    {h0 : Heap} (hr : Ready dec bytes ips q h0) {q0 : Querier} (hq : newQuerier dec bytes = .ok q0) (asks : List IP)
    (a : IP) : q.sees (q.run ⟨h0, []⟩ (asks.map .ask)) a = q0.Query a := by
  rw [C87_exact hr hq]
  have : ∀ (P : IP → Prop) (asks asked : List IP), lastAssigned P (asks.map .ask) asked none = none := by
    intro P asks
    induction asks with
    | nil => intro _; rfl
    | cons x xs ih => intro asked; exact ih _
  rw [this]
  cases q0.Query a <;> rfl

/-- Opening and warming up succeed whenever they do in the value model. -/
theorem ready_of {dec : Bytes → Option MetaData} {bytes : Bytes} {ips : List IP} {q0 q1 : Querier}
    (h0 : newQuerier dec bytes = .ok q0) (h1 : q0.BuildCache ips = .ok q1) : ∃ q h, Ready dec bytes ips q h := by
  unfold newQuerier at h0
  simp only [Res.bind_eq_ok, Res.pure_eq, Res.ok.injEq] at h0
  obtain ⟨r, h3, rfl⟩ := h0
  have hf : Fit ⟨r, []⟩ ([] : Heap).length :=
    ⟨(by intro n p h; cases h), (by intro n n' p h; cases h), (by intro x h; cases h)⟩
  have hw := warm_spec ips ⟨r, []⟩ [] hf
  have ed : SQuerier.deref ⟨r, []⟩ [] = ⟨r, []⟩ := rfl
  rw [ed, h1] at hw
  obtain ⟨q', h', e1, _⟩ := hw
  exact ⟨q', h', ⟨r, []⟩, by unfold newSQuerier; rw [h3]; rfl, e1⟩

/-- C87 is false as it stands: whoever asks for an address of the warm-up list and overwrites the answer
decides what everybody is told about it from then on. -/
theorem C87_negation {dec : Bytes → Option MetaData} {bytes : Bytes} {ips : List IP} {q : SQuerier} {h0 : Heap}
    (hr : Ready dec bytes ips q h0) {q0 : Querier} (hq : newQuerier dec bytes = .ok q0) {w : IP} (hw : w ∈ ips)
    {info : IpInfo} {mask : Nat} (ha : q0.Query w = .ok (info, mask)) (v : IpInfo) :
    q.sees (q.run ⟨h0, []⟩ [.ask w, .assign 0 v]) w = .ok (v, mask) := by
  have hq' := hr.spec.1
  rw [hq'] at hq
  cases Res.ok.inj hq
  rw [C87_exact hr hq', ha]
  have hW : Warmed q.r ips w := ⟨w, hw, rfl, _, ha⟩
  have e : lastAssigned (fun b => Warmed q.r ips w ∧ leafOf q.r b = leafOf q.r w) [.ask w, .assign 0 v] [] none =
      some v := by
    simp only [lastAssigned, List.nil_append]
    rw [if_pos ⟨w, rfl, hW, rfl⟩]
  simp only [] at e ⊢
  rw [e]; rfl

/-- The hypotheses are met, and the failure is real: a packed file, warmed up with 1.0.0.1, answers "北京"
for it, and "X" after one caller wrote "X" into its answer. -/
theorem C87_negation_example : ∃ bytes q0 q h0, pack encMeta 0 demo1 = .ok bytes ∧
    newQuerier decMeta bytes = .ok q0 ∧ Ready decMeta bytes [[1, 0, 0, 1]] q h0 ∧
    q.sees ⟨h0, []⟩ [1, 0, 0, 1] = .ok ({ city := gs "北京" }, 8) ∧
    q.sees (q.run ⟨h0, []⟩ [.ask [1, 0, 0, 1], .assign 0 { city := gs "X" }]) [1, 0, 0, 1] =
      .ok ({ city := gs "X" }, 8) := by
  obtain ⟨bytes, h1, h2⟩ := opens (enc := encMeta) (dec := decMeta) (now := 0) (ipd := demo1)
    (by decide +kernel) (fun _ _ _ _ => dec_encMeta _)
  obtain ⟨r, _, h4, h5⟩ := h2 (size_of_packed demo1_size h1)
  have ha : Querier.Query ⟨r, []⟩ [1, 0, 0, 1] = .ok ({ city := gs "北京" }, 8) := by
    rw [h5.query_covered (m := (⟨[1, 0, 0, 0], [255, 0, 0, 0]⟩, [gs "北京"])) (by decide +kernel) (by decide +kernel)
      (by decide) (by decide) (by decide +kernel)]
    decide +kernel
  obtain ⟨q1, hb⟩ := C16_build_cache_total (Opened.new h4) (ips := [[1, 0, 0, 1]]) (by
    intro a ha'; simp only [List.mem_singleton] at ha'; subst ha'; rw [ha]; intro h; cases h)
  obtain ⟨q, hh, hr⟩ := ready_of h4 hb
  refine ⟨bytes, _, q, hh, h1, h4, hr, ?_, C87_negation hr h4 (by simp) ha _⟩
  have := C87_read_only hr h4 [] [1, 0, 0, 1]
  rw [← ha]; exact this

/-- An address `C87_untouched` speaks about: in the same file 9.9.9.9 does not end on a cached record. -/
example : ∃ bytes q0 q h0, pack encMeta 0 demo1 = .ok bytes ∧ newQuerier decMeta bytes = .ok q0 ∧
    Ready decMeta bytes [[1, 0, 0, 1]] q h0 ∧ ¬ Warmed q0.r [[1, 0, 0, 1]] [9, 9, 9, 9] := by
  obtain ⟨bytes, q0, q, h0, h1, h2, h3, _⟩ := C87_negation_example
  obtain ⟨bytes', h1', h2'⟩ := opens (enc := encMeta) (dec := decMeta) (now := 0) (ipd := demo1)
    (by decide +kernel) (fun _ _ _ _ => dec_encMeta _)
  rw [h1] at h1'; cases h1'
  obtain ⟨r, _, h4, h5⟩ := h2' (size_of_packed demo1_size h1)
  rw [h2] at h4; cases h4
  refine ⟨bytes, _, q, h0, h1, h2, h3, ?_⟩
  rintro ⟨w, hw, hl, _⟩
  simp only [List.mem_singleton] at hw; subst hw
  have e1 := h5.uncovered (a := [9, 9, 9, 9]) (.inr (.inr (by decide +kernel)))
  obtain ⟨n, hn, e2⟩ := h5.covered (a := [1, 0, 0, 1]) (m := (⟨[1, 0, 0, 0], [255, 0, 0, 0]⟩, [gs "北京"]))
    (by decide +kernel) (by decide) (by decide) (by decide +kernel)
  simp only [leafOf, e1, e2, Option.some.injEq] at hl
  omega

end Uip.Ipdb
