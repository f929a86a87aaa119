import Verif.Model.Ipdb.JavaShared
import Verif.Props.Readers
/-!
# C121: answers of the Java reader and what callers do to them

The Java reader hands out the objects of its warm-up cache. The English property — "what a caller does to an
answer it was given never changes a later answer" — is false for the addresses that end on a cached record, and
true for every other address. `C121_exact` says what each later answer is.
-/
namespace Uip.Java
open Uip Uip.Ipdb

/-- The record an address ends on, if the lookup does not fail. -/
def endsOn (r : JReader) (a : Bytes) : Option Int := match r.find0 a with
  | .ok n => some n
  | _ => none

/-- The file has IPv4, and the address ends on the record of an address of the warm-up list that has an answer. -/
def JWarmed (utf8 : Bytes → Str) (r : JReader) (ips : List Bytes) (a : Bytes) : Prop :=
  hasIpV4 (version (fun _ => []) r) = true ∧
    ∃ w ∈ ips, endsOn r w = endsOn r a ∧ ∃ x, query utf8 r w = .ok x

open Classical in
/-- The last value a history assigns to the answer of a question about an address related to `a`:
`asked` are the questions asked so far, `last` the last value so far. -/
noncomputable def lastSet (related : Bytes → Prop) : List JEv → List Bytes → Option JInfo → Option JInfo
  | [], _, last => last
  | .ask a :: es, asked, last => lastSet related es (asked ++ [a]) last
  | .assign i v :: es, asked, last =>
    lastSet related es asked (if ∃ b, asked[i]? = some b ∧ related b then some v else last)

/-! ## Opening -/

theorem reader_cold {dec : Bytes → Option MetaData} {file : Bytes} {r : JReader}
    (hr : Java.Reader dec file = .ok r) : r.resultCache = none := by
  unfold Java.Reader at hr
  simp only [] at hr
  split at hr
  · cases hr
  · split at hr
    · split at hr
      · cases hr
      · split at hr
        · cases hr
        · obtain ⟨body, _, hr⟩ := Res.bind_eq_ok.mp hr
          split at hr
          · obtain ⟨_, _, hr⟩ := Res.bind_eq_ok.mp hr
            obtain ⟨_, _, hr⟩ := Res.bind_eq_ok.mp hr
            rw [← Res.ok.inj hr]
          · rw [← Res.ok.inj hr]
    · cases hr

/-- `Reader.java:113-169`: what is made of a record. -/
def infoOf (utf8 : Bytes → Str) (r : JReader) (n : Int) : Res JInfo := do
  match ← r.resolveNode utf8 n (gs "CN") with
  | none => .err .ipFormat
  | some parts => buildInfo r.md.fields parts {}

theorem fresh_eq (utf8 : Bytes → Str) {r : JReader} (hc : r.resultCache = none) (a : Bytes) :
    query utf8 r a = (r.find0 a >>= infoOf utf8 r) := by
  unfold query JReader.query infoOf
  rw [hc]
  cases r.find0 a with
  | panic => rfl
  | err e => rfl
  | ok n =>
    simp only [Res.ok_bind, Option.bind_none, if_true]
    cases r.resolveNode utf8 n (gs "CN") with
    | panic => rfl
    | err e => rfl
    | ok o =>
      simp only [Res.ok_bind]
      cases o with
      | none => rfl
      | some parts =>
        simp only []
        cases buildInfo r.md.fields parts {} <;> rfl

theorem squery_eq (utf8 : Bytes → Str) (q : SReader) (h : JHeap) (a : Bytes) (b : Bool) :
    q.query utf8 h a b = (q.r.find0 a >>= fun n =>
      match (if b then q.cache.bind fun c => refGet c n else none) with
      | some p => .ok ((n, p), h)
      | none => infoOf utf8 q.r n >>= fun i => .ok ((n, h.length), h ++ [i])) := by
  unfold SReader.query infoOf
  cases q.r.find0 a with
  | panic => rfl
  | err e => rfl
  | ok n =>
    simp only [Res.ok_bind]
    cases (if b then q.cache.bind fun c => refGet c n else none) with
    | some p => rfl
    | none =>
      simp only []
      cases q.r.resolveNode utf8 n (gs "CN") with
      | panic => rfl
      | err e => rfl
      | ok o =>
        simp only [Res.ok_bind]
        cases o with
        | none => rfl
        | some parts => rfl

/-- References of a cache: each to a finished object of its record, different records to different objects, and
for no record whose object could not be made. -/
structure Sound (utf8 : Bytes → Str) (r : JReader) (c : List (Int × Nat)) (h : JHeap) : Prop where
  points : ∀ n p, refGet c n = some p → ∃ i, h[p]? = some i ∧ infoOf utf8 r n = .ok i
  apart : ∀ n n' p, refGet c n = some p → refGet c n' = some p → n = n'

theorem warm_sound (utf8 : Bytes → Str) (q : SReader) : ∀ (ips : List Bytes) (c : List (Int × Nat)) (h : JHeap),
    Sound utf8 q.r c h → Sound utf8 q.r (q.warmLoop utf8 ips c h).1 (q.warmLoop utf8 ips c h).2 ∧
      ∀ n, (refGet (q.warmLoop utf8 ips c h).1 n).isSome ↔ (refGet c n).isSome ∨
        ∃ w ∈ ips, endsOn q.r w = some n ∧ ∃ x, infoOf utf8 q.r n = .ok x := by
  intro ips
  induction ips with
  | nil => intro c h hs; exact ⟨hs, by simp [SReader.warmLoop]⟩
  | cons a ips ih =>
    intro c h hs
    have skip : (∀ n, endsOn q.r a = some n → ¬ ∃ x, infoOf utf8 q.r n = .ok x) →
        q.warmLoop utf8 (a :: ips) c h = q.warmLoop utf8 ips c h →
        Sound utf8 q.r (q.warmLoop utf8 (a :: ips) c h).1 (q.warmLoop utf8 (a :: ips) c h).2 ∧
        ∀ n, (refGet (q.warmLoop utf8 (a :: ips) c h).1 n).isSome ↔ (refGet c n).isSome ∨
          ∃ w ∈ a :: ips, endsOn q.r w = some n ∧ ∃ x, infoOf utf8 q.r n = .ok x := by
      intro hno he
      rw [he]
      refine ⟨(ih c h hs).1, fun n => ?_⟩
      rw [(ih c h hs).2 n]
      constructor
      · rintro (h1 | ⟨w, h1, h2⟩)
        · exact .inl h1
        · exact .inr ⟨w, List.mem_cons_of_mem _ h1, h2⟩
      · rintro (h1 | ⟨w, h1, h2, h3⟩)
        · exact .inl h1
        · rcases List.mem_cons.mp h1 with rfl | h1
          · exact absurd h3 (hno n h2)
          · exact .inr ⟨w, h1, h2, h3⟩
    have hq := squery_eq utf8 q h a false
    simp only [Bool.false_eq_true, if_false] at hq
    cases hf : q.r.find0 a with
    | panic =>
      rw [hf] at hq
      refine skip (by intro n hn; simp only [endsOn, hf] at hn; cases hn) ?_
      rw [SReader.warmLoop, hq]; rfl
    | err e =>
      rw [hf] at hq
      refine skip (by intro n hn; simp only [endsOn, hf] at hn; cases hn) ?_
      rw [SReader.warmLoop, hq]; rfl
    | ok n =>
      rw [hf, Res.ok_bind] at hq
      have hend : endsOn q.r a = some n := by simp only [endsOn, hf]
      cases hi : infoOf utf8 q.r n with
      | panic =>
        rw [hi] at hq
        refine skip (by intro n' hn; rw [hend] at hn; cases hn; rw [hi]; rintro ⟨_, h⟩; cases h) ?_
        rw [SReader.warmLoop, hq]; rfl
      | err e =>
        rw [hi] at hq
        refine skip (by intro n' hn; rw [hend] at hn; cases hn; rw [hi]; rintro ⟨_, h⟩; cases h) ?_
        rw [SReader.warmLoop, hq]; rfl
      | ok i =>
        rw [hi, Res.ok_bind] at hq
        have he : q.warmLoop utf8 (a :: ips) c h = q.warmLoop utf8 ips ((n, h.length) :: c) (h ++ [i]) := by
          rw [SReader.warmLoop, hq]
        have hlt : ∀ m p, refGet c m = some p → p < h.length := by
          intro m p hp
          obtain ⟨j, hj, _⟩ := hs.points m p hp
          exact (List.getElem?_eq_some_iff.mp hj).1
        have hs' : Sound utf8 q.r ((n, h.length) :: c) (h ++ [i]) := by
          refine ⟨?_, ?_⟩
          · intro m p hp
            simp only [refGet] at hp
            split at hp
            · rename_i e; cases hp; exact ⟨i, by simp, by rw [← e]; exact hi⟩
            · obtain ⟨j, h1, h2⟩ := hs.points m p hp
              exact ⟨j, by rw [List.getElem?_append_left (hlt m p hp)]; exact h1, h2⟩
          · intro m m' p h1 h2
            simp only [refGet] at h1 h2
            split at h1 <;> split at h2
            · omega
            · cases h1; have := hlt _ _ h2; omega
            · cases h2; have := hlt _ _ h1; omega
            · exact hs.apart m m' p h1 h2
        rw [he]
        refine ⟨(ih _ _ hs').1, fun m => ?_⟩
        rw [(ih _ _ hs').2 m]
        simp only [refGet]
        constructor
        · rintro (h1 | ⟨w, h1, h2⟩)
          · split at h1
            · rename_i e; exact .inr ⟨a, List.mem_cons_self .., by rw [hend, e], i, by rw [← e]; exact hi⟩
            · exact .inl h1
          · exact .inr ⟨w, List.mem_cons_of_mem _ h1, h2⟩
        · rintro (h1 | ⟨w, h1, h2, h3⟩)
          · left; split
            · rfl
            · exact h1
          · rcases List.mem_cons.mp h1 with rfl | h1
            · rw [hend] at h2
              left; rw [if_pos (Option.some.inj h2)]; rfl
            · exact .inr ⟨w, h1, h2, h3⟩

/-- The cached object of an address. -/
def cellAt (q : SReader) (a : Bytes) : Option Nat := (endsOn q.r a).bind fun n => q.cache.bind fun c => refGet c n

theorem create_spec {dec : Bytes → Option MetaData} {utf8 : Bytes → Str} {ips : List Bytes} {file : Bytes}
    {q : SReader} {h0 : JHeap} (hq : SReader.create dec utf8 ips file = .ok (q, h0)) :
    Java.Reader dec file = .ok q.r ∧ Sound utf8 q.r (q.cache.getD []) h0 ∧
      ∀ a, (cellAt q a).isSome ↔ JWarmed utf8 q.r ips a := by
  unfold SReader.create at hq
  obtain ⟨r, hr, hq⟩ := Res.bind_eq_ok.mp hq
  have nil : Sound utf8 r [] [] := ⟨(by intro n p h; cases h), (by intro n n' p h; cases h)⟩
  simp only [] at hq
  split at hq
  · rename_i h4
    have e := Res.ok.inj hq
    unfold SReader.buildCache at e
    have hw := warm_sound utf8 ⟨r, none⟩ ips [] [] nil
    generalize hg : SReader.warmLoop utf8 ⟨r, none⟩ ips [] [] = x at e hw
    obtain ⟨c, h⟩ := x
    simp only [Prod.mk.injEq] at e
    obtain ⟨rfl, rfl⟩ := e
    refine ⟨hr, hw.1, fun a => ?_⟩
    unfold cellAt JWarmed
    simp only [h4, Option.bind_some, true_and]
    cases he : endsOn r a with
    | none =>
      simp only [Option.bind_none, Option.isSome_none, Bool.false_eq_true, false_iff]
      rintro ⟨w, _, h2, x, hx⟩
      rw [fresh_eq utf8 (reader_cold hr)] at hx
      unfold endsOn at h2
      obtain ⟨n, hn, _⟩ := Res.bind_eq_ok.mp hx
      rw [hn] at h2; cases h2
    | some n =>
      simp only [Option.bind_some]
      rw [hw.2 n]
      simp only [refGet, Option.isSome_none, Bool.false_eq_true, false_or]
      constructor
      · rintro ⟨w, h1, h2, x, h3⟩
        refine ⟨w, h1, h2, x, ?_⟩
        rw [fresh_eq utf8 (reader_cold hr)]
        unfold endsOn at h2
        split at h2
        · rename_i n' hn; cases h2; rw [hn, Res.ok_bind]; exact h3
        · cases h2
      · rintro ⟨w, h1, h2, x, h3⟩
        refine ⟨w, h1, h2, x, ?_⟩
        rw [fresh_eq utf8 (reader_cold hr)] at h3
        obtain ⟨n', hn, h3⟩ := Res.bind_eq_ok.mp h3
        unfold endsOn at h2
        rw [hn] at h2; cases h2; exact h3
  · rename_i h4
    have e := Res.ok.inj hq
    simp only [Prod.mk.injEq] at e
    obtain ⟨rfl, rfl⟩ := e
    refine ⟨hr, nil, fun a => ?_⟩
    unfold cellAt JWarmed
    simp only [Option.bind_none, Option.bind_fun_none, Option.isSome_none, Bool.false_eq_true, false_iff]
    intro h; exact h4 h.1

/-! ## Asking -/

theorem ask_cached {utf8 : Bytes → Str} {q : SReader} {a : Bytes} {p : Nat} (hp : cellAt q a = some p) (h : JHeap) :
    q.ask utf8 h a = .ok (p, h) := by
  unfold SReader.ask
  rw [squery_eq]
  unfold cellAt endsOn at hp
  cases hf : q.r.find0 a with
  | panic => rw [hf] at hp; cases hp
  | err e => rw [hf] at hp; cases hp
  | ok n =>
    rw [hf] at hp
    simp only [Option.bind_some] at hp
    simp only [Res.ok_bind, if_true, hp]; rfl

theorem ask_fresh {utf8 : Bytes → Str} {q : SReader} (hc : q.r.resultCache = none) {a : Bytes}
    (hp : cellAt q a = none) (h : JHeap) :
    q.ask utf8 h a = (query utf8 q.r a >>= fun i => .ok (h.length, h ++ [i])) := by
  unfold SReader.ask
  rw [squery_eq, fresh_eq utf8 hc]
  unfold cellAt endsOn at hp
  cases hf : q.r.find0 a with
  | panic => rfl
  | err e => rfl
  | ok n =>
    rw [hf] at hp
    simp only [Option.bind_some] at hp
    simp only [Res.ok_bind, if_true, hp]
    cases infoOf utf8 q.r n <;> rfl

/-- The cell of a cached record holds the last value assigned to an answer for it, or the value it had. -/
theorem run_cell {utf8 : Bytes → Str} {q : SReader} {h0 : JHeap} (hc : q.r.resultCache = none)
    (hs : Sound utf8 q.r (q.cache.getD []) h0) {n0 : Int} {p0 : Nat} {c : List (Int × Nat)}
    (hcache : q.cache = some c) (hp0 : refGet c n0 = some p0) {orig : JInfo} :
    ∀ (es : List JEv) (s : JSession) (asked : List Bytes) (last : Option JInfo),
      h0.length ≤ s.heap.length → s.heap[p0]? = some (last.getD orig) → s.got.length = asked.length →
      (∀ (i : Nat) b p, asked[i]? = some b → s.got[i]? = some (some p) →
        cellAt q b = some p ∨ (cellAt q b = none ∧ h0.length ≤ p)) →
      (∀ (i : Nat) b p, asked[i]? = some b → cellAt q b = some p → s.got[i]? = some (some p)) →
      (q.run utf8 s es).heap[p0]? =
        some ((lastSet (fun b => endsOn q.r b = some n0) es asked last).getD orig) := by
  have hlt0 : p0 < h0.length := by
    obtain ⟨i, hi, _⟩ := hs.points n0 p0 (by rw [hcache]; exact hp0)
    exact (List.getElem?_eq_some_iff.mp hi).1
  have hcell : ∀ b, endsOn q.r b = some n0 → cellAt q b = some p0 := by
    intro b hb; unfold cellAt; rw [hb, hcache]; exact hp0
  have hback : ∀ b, cellAt q b = some p0 → endsOn q.r b = some n0 := by
    intro b hb
    unfold cellAt at hb
    obtain ⟨n, h1, h2⟩ := Option.bind_eq_some_iff.mp hb
    rw [hcache] at h2
    have h2 : refGet c n = some p0 := h2
    rw [h1, hs.apart n n0 p0 (by rw [hcache]; exact h2) (by rw [hcache]; exact hp0)]
  intro es
  induction es with
  | nil => intro s asked last _ h2 _ _ _; exact h2
  | cons e es ih =>
    intro s asked last h1 h2 h3 h4 h5
    cases e with
    | ask a =>
      have push : ∀ (x : Option Nat) (t : JHeap), q.step utf8 s (.ask a) = ⟨s.heap ++ t, s.got ++ [x]⟩ →
          (∀ p, x = some p → cellAt q a = some p ∨ (cellAt q a = none ∧ h0.length ≤ p)) →
          (∀ p, cellAt q a = some p → x = some p) →
          (q.run utf8 s (.ask a :: es)).heap[p0]? =
            some ((lastSet (fun b => endsOn q.r b = some n0) (.ask a :: es) asked last).getD orig) := by
        intro x t he hx hx'
        rw [SReader.run, he, lastSet]
        refine ih _ _ _ ?_ ?_ ?_ ?_ ?_
        · simp only [List.length_append]; omega
        · rw [List.getElem?_append_left (by omega)]; exact h2
        · simp [h3]
        · intro i b p hb hg
          by_cases hi : i < asked.length
          · rw [List.getElem?_append_left hi] at hb
            rw [List.getElem?_append_left (by omega)] at hg
            exact h4 i b p hb hg
          · rw [List.getElem?_append_right (by omega)] at hb hg
            have : i - asked.length = 0 := by
              rcases Nat.eq_zero_or_pos (i - asked.length) with h | h
              · exact h
              · rw [List.getElem?_eq_none (by simp; omega)] at hb; cases hb
            rw [h3, this] at hg
            rw [this] at hb
            simp only [List.getElem?_cons_zero, Option.some.injEq] at hb hg
            subst hb; exact hx p hg
        · intro i b p hb hp
          by_cases hi : i < asked.length
          · rw [List.getElem?_append_left hi] at hb
            rw [List.getElem?_append_left (by omega)]
            exact h5 i b p hb hp
          · rw [List.getElem?_append_right (by omega)] at hb
            have : i - asked.length = 0 := by
              rcases Nat.eq_zero_or_pos (i - asked.length) with h | h
              · exact h
              · rw [List.getElem?_eq_none (by simp; omega)] at hb; cases hb
            rw [this] at hb
            rw [List.getElem?_append_right (by omega), h3, this]
            simp only [List.getElem?_cons_zero, Option.some.injEq] at hb ⊢
            subst hb; exact hx' p hp
      cases hp : cellAt q a with
      | some p =>
        refine push (some p) [] ?_ (by intro p' hp'; cases hp'; exact .inl hp) (by intro p' hp'; rw [hp] at hp'; exact hp')
        simp only [SReader.step, ask_cached hp, List.append_nil]
      | none =>
        have ha := ask_fresh (utf8 := utf8) hc hp s.heap
        cases hq : query utf8 q.r a with
        | panic =>
          rw [hq] at ha
          refine push none [] ?_ (by intro p' hp'; cases hp') (by intro p' hp'; rw [hp] at hp'; cases hp')
          simp only [SReader.step, ha, Res.panic_bind, List.append_nil]
        | err e =>
          rw [hq] at ha
          refine push none [] ?_ (by intro p' hp'; cases hp') (by intro p' hp'; rw [hp] at hp'; cases hp')
          simp only [SReader.step, ha, Res.err_bind, List.append_nil]
        | ok i =>
          rw [hq] at ha
          refine push (some s.heap.length) [i] ?_ (by intro p' hp'; cases hp'; exact .inr ⟨hp, h1⟩)
            (by intro p' hp'; rw [hp] at hp'; cases hp')
          simp only [SReader.step, ha, Res.ok_bind]
    | assign i v =>
      rw [SReader.run, lastSet]
      have same : q.step utf8 s (.assign i v) = s → (¬ ∃ b, asked[i]? = some b ∧ endsOn q.r b = some n0) →
          (q.run utf8 (q.step utf8 s (.assign i v)) es).heap[p0]? = some ((lastSet (fun b => endsOn q.r b = some n0) es
            asked last).getD orig) := by
        intro he _; rw [he]; exact ih s asked last h1 h2 h3 h4 h5
      by_cases hb : ∃ b, asked[i]? = some b ∧ endsOn q.r b = some n0
      · rw [if_pos hb]
        obtain ⟨b, hb1, hb2⟩ := hb
        have hg := h5 i b p0 hb1 (hcell b hb2)
        have he : q.step utf8 s (.assign i v) = ⟨s.heap.set p0 v, s.got⟩ := by
          simp only [SReader.step, hg]
        rw [he]
        refine ih _ _ _ (by simpa using h1) ?_ h3 h4 h5
        rw [List.getElem?_set_self (by omega)]; rfl
      · rw [if_neg hb]
        cases hg : s.got[i]? with
        | none => exact same (by simp only [SReader.step, hg]) hb
        | some x =>
          cases x with
          | none => exact same (by simp only [SReader.step, hg]) hb
          | some p =>
            have he : q.step utf8 s (.assign i v) = ⟨s.heap.set p v, s.got⟩ := by
              simp only [SReader.step, hg]
            rw [he]
            refine ih _ _ _ (by simpa using h1) ?_ h3 h4 h5
            have hil : i < asked.length := by rw [← h3]; exact (List.getElem?_eq_some_iff.mp hg).1
            have hne : p ≠ p0 := by
              rintro rfl
              rcases h4 i asked[i] p (List.getElem?_eq_getElem hil) hg with h6 | h6
              · exact hb ⟨asked[i], List.getElem?_eq_getElem hil, hback _ h6⟩
              · omega
            rw [List.getElem?_set_ne hne]; exact h2

theorem lastSet_congr {P Q : Bytes → Prop} (h : ∀ b, P b ↔ Q b) : ∀ es asked last,
    lastSet P es asked last = lastSet Q es asked last := by
  have : P = Q := funext fun b => propext (h b)
  subst this; intros; rfl

theorem lastSet_none {P : Bytes → Prop} (h : ∀ b, ¬ P b) : ∀ es asked last, lastSet P es asked last = last
  | [], _, _ => rfl
  | .ask a :: es, asked, last => by simp only [lastSet]; exact lastSet_none h es _ _
  | .assign i v :: es, asked, last => by
    simp only [lastSet]
    rw [if_neg (by rintro ⟨b, _, hb⟩; exact h b hb)]
    exact lastSet_none h es _ _

/-! ## The property -/

section
variable {dec : Bytes → Option MetaData} {utf8 : Bytes → Str} {ips : List Bytes} {file : Bytes} {r : JReader}
  {q : SReader} {h0 : JHeap}

/-- C121, what is true in general: after any history of questions and assignments, the answer for an address is
the answer of a fresh reader, or, for an address that ends on a record cached at opening time, the last value a
caller assigned to an answer that ended on that record. -/
theorem C121_exact (hr : Java.Reader dec file = .ok r) (hq : SReader.create dec utf8 ips file = .ok (q, h0))
    (es : List JEv) (a : Bytes) : q.sees utf8 (q.run utf8 ⟨h0, []⟩ es) a = query utf8 r a >>= fun x =>
      .ok ((lastSet (fun b => JWarmed utf8 r ips a ∧ endsOn r b = endsOn r a) es [] none).getD x) := by
  obtain ⟨h1, hs, hw⟩ := create_spec hq
  rw [hr] at h1
  cases Res.ok.inj h1
  have hc := reader_cold hr
  have hwa := hw a
  unfold SReader.sees
  cases hp : cellAt q a with
  | none =>
    rw [hp] at hwa
    have hnw : ¬ JWarmed utf8 q.r ips a := by rw [← hwa]; simp
    rw [lastSet_none (by rintro b ⟨hb, _⟩; exact hnw hb), ask_fresh hc hp]
    cases query utf8 q.r a with
    | panic => rfl
    | err e => rfl
    | ok i => simp [Res.ok_bind]
  | some p =>
    rw [hp] at hwa
    have hwd : JWarmed utf8 q.r ips a := hwa.mp rfl
    rw [ask_cached hp, Res.ok_bind]
    unfold cellAt at hp
    obtain ⟨n, hn, hp⟩ := Option.bind_eq_some_iff.mp hp
    obtain ⟨c, hcc, hp⟩ := Option.bind_eq_some_iff.mp hp
    obtain ⟨i, hi, hinf⟩ := hs.points n p (by rw [hcc]; exact hp)
    have hcell := run_cell hc hs hcc hp (orig := i) es ⟨h0, []⟩ [] none (Nat.le_refl _) hi rfl
      (by intro i b p h; simp at h) (by intro i b p h; simp at h)
    have hfr : query utf8 q.r a = .ok i := by
      rw [fresh_eq utf8 hc]
      unfold endsOn at hn
      split at hn
      · rename_i n' hn'; cases hn; rw [hn', Res.ok_bind]; exact hinf
      · cases hn
    rw [hfr, Res.ok_bind, lastSet_congr (Q := fun b => endsOn q.r b = some n) (by intro b; simp [hwd, hn])]
    simp only [hcell]; rfl

/-- C121 for the addresses it holds for: whatever callers did with earlier answers, an address that ends on no
record cached at opening time gets the answer of a fresh reader. -/
theorem C121_untouched (hr : Java.Reader dec file = .ok r) (hq : SReader.create dec utf8 ips file = .ok (q, h0))
    (es : List JEv) {a : Bytes} (ha : ¬ JWarmed utf8 r ips a) :
    q.sees utf8 (q.run utf8 ⟨h0, []⟩ es) a = query utf8 r a := by
  rw [C121_exact hr hq, lastSet_none (by rintro b ⟨hb, _⟩; exact ha hb)]
  cases query utf8 r a <;> rfl

/-- C121 for callers that only read: every answer is the answer of a fresh reader. -/
theorem C121_read_only (hr : Java.Reader dec file = .ok r) (hq : SReader.create dec utf8 ips file = .ok (q, h0))
    (asks : List Bytes) (a : Bytes) : q.sees utf8 (q.run utf8 ⟨h0, []⟩ (asks.map .ask)) a = query utf8 r a := by
  rw [C121_exact hr hq]
  have : ∀ (P : Bytes → Prop) (asks asked : List Bytes), lastSet P (asks.map .ask) asked none = none := by
    intro P asks
    induction asks with
    | nil => intro _; rfl
    | cons x xs ih => intro asked; exact ih _
  rw [this]
  cases query utf8 r a <;> rfl

/-- A file that opens as a value opens with its objects, and the other way round. -/
theorem shared_opens (hr : Java.Reader dec file = .ok r) :
    ∃ q h0, SReader.create dec utf8 ips file = .ok (q, h0) := by
  unfold SReader.create
  rw [hr, Res.ok_bind]
  simp only []
  split <;> exact ⟨_, _, rfl⟩

/-- C121 is false as it stands: in a file with IPv4, whoever asks for an address of the warm-up list and
overwrites the answer decides what everybody is told about it from then on. -/
theorem C121_negation (hr : Java.Reader dec file = .ok r) (hq : SReader.create dec utf8 ips file = .ok (q, h0))
    (h4 : hasIpV4 (version (fun _ => []) r) = true) {w : Bytes} (hw : w ∈ ips) {info : JInfo}
    (ha : query utf8 r w = .ok info) (v : JInfo) :
    q.sees utf8 (q.run utf8 ⟨h0, []⟩ [.ask w, .assign 0 v]) w = .ok v := by
  rw [C121_exact hr hq, ha]
  have hW : JWarmed utf8 r ips w := ⟨h4, w, hw, rfl, _, ha⟩
  have e : lastSet (fun b => JWarmed utf8 r ips w ∧ endsOn r b = endsOn r w) [.ask w, .assign 0 v] [] none =
      some v := by
    simp only [lastSet, List.nil_append]
    rw [if_pos ⟨w, rfl, hW, rfl⟩]
  rw [e]; rfl

/-- Addresses that end on the same record have the same answer in a fresh reader. -/
theorem same_end (hr : Java.Reader dec file = .ok r) {a b : Bytes} {x : JInfo} (hb : query utf8 r b = .ok x)
    (h : endsOn r b = endsOn r a) : query utf8 r a = .ok x := by
  rw [fresh_eq utf8 (reader_cold hr)] at hb ⊢
  obtain ⟨n, hn, hi⟩ := Res.bind_eq_ok.mp hb
  have hb : endsOn r b = some n := by simp only [endsOn, hn]
  rw [hb] at h
  cases hm : r.find0 a with
  | panic => simp only [endsOn, hm] at h; cases h
  | err e => simp only [endsOn, hm] at h; cases h
  | ok m =>
    simp only [endsOn, hm, Option.some.injEq] at h
    rw [Res.ok_bind, ← h]; exact hi

/-- C121 seen from outside: an address whose fresh answer is not that of any warm-up address keeps it, whatever
callers do. -/
theorem C121_other (hr : Java.Reader dec file = .ok r) (hq : SReader.create dec utf8 ips file = .ok (q, h0))
    (es : List JEv) {a : Bytes} {x : JInfo} (hx : query utf8 r a = .ok x) (ha : ∀ w ∈ ips, query utf8 r w ≠ .ok x) :
    q.sees utf8 (q.run utf8 ⟨h0, []⟩ es) a = .ok x := by
  rw [← hx]
  refine C121_untouched hr hq es ?_
  rintro ⟨_, w, hw, hl, y, hy⟩
  have := same_end hr hy hl
  rw [hx] at this
  cases this
  exact ha w hw hy

/-- C121 for files without IPv4: nothing callers do changes any answer. -/
theorem C121_ipv6_file (hr : Java.Reader dec file = .ok r) (hq : SReader.create dec utf8 ips file = .ok (q, h0))
    (h4 : hasIpV4 (version (fun _ => []) r) = false) (es : List JEv) (a : Bytes) :
    q.sees utf8 (q.run utf8 ⟨h0, []⟩ es) a = query utf8 r a :=
  C121_untouched hr hq es (by rintro ⟨h, _⟩; rw [h4] at h; cases h)

end

/-! ## Examples -/

section
variable {enc : MetaData → Bytes} {decJ : Bytes → Option MetaData} {utf8 : Bytes → Str} {now : Int} {ipd : IpData}
  {bytes : Bytes}
open Uip.Spec

/-- C121 on packed files: a file with IPv4 rows opens, warmed up with any list, and an address of the list that a
kept row covers answers with that row's attributes until a caller overwrites its answer, and with what the caller
wrote from then on. -/
theorem C121_packed (h : RowsOK ipd) (hval : ValuesOK ipd) (htx : TextValues ipd)
    (hj : MetaRoundTripInt enc decJ (buildMeta now ipd.version ipd.fields)) (hu : KeepsTexts utf8)
    (hp : pack enc now ipd = .ok bytes) (hl : bytes.length < 2 ^ 31) (ips : List Bytes)
    (hv : ipd.version.ipType ∈ [IpV4, IpAll]) :
    ∃ r q h0, Java.Reader decJ bytes = .ok r ∧ SReader.create decJ utf8 ips bytes = .ok (q, h0) ∧
      ∀ w m, w ∈ ips → TakesLen ipd.version w → rowOf (keptRows (rowsOf ipd)) (addrNum w) = some m →
        (∀ asks : List Bytes, q.sees utf8 (q.run utf8 ⟨h0, []⟩ (asks.map .ask)) w = .ok (javaInfo ipd.fields m.2)) ∧
        ∀ v, q.sees utf8 (q.run utf8 ⟨h0, []⟩ [.ask w, .assign 0 v]) w = .ok v := by
  obtain ⟨q1, hq1, hans⟩ := C68_java_answer (utf8 := utf8) h hval htx hj hu hp hl ips
  obtain ⟨j, _, hj1, _, hj3, _⟩ := C71_versions (utf8 := utf8) h hj hp hl ips (fun _ => [])
  rw [hq1] at hj1; cases hj1
  have hr : ∃ r, Java.Reader decJ bytes = .ok r := by
    unfold create at hq1
    obtain ⟨r, hr, _⟩ := Res.bind_eq_ok.mp hq1
    exact ⟨r, hr⟩
  obtain ⟨r, hr⟩ := hr
  have hsame : version (fun _ => []) q1 = version (fun _ => []) r := by
    unfold create at hq1
    rw [hr, Res.ok_bind] at hq1
    split at hq1
    · rw [← Res.ok.inj hq1]; rfl
    · rw [← Res.ok.inj hq1]
  have h4 : hasIpV4 (version (fun _ => []) r) = true := by
    have e : (version (fun _ => []) q1).ipType = ipd.version.ipType := by
      refine (hj3 ?_).1
      simp only [List.mem_cons, List.not_mem_nil, or_false] at hv ⊢
      exact hv.elim .inl fun h => .inr (.inr h)
    unfold hasIpV4
    rw [← hsame, e]
    simp only [List.mem_cons, List.not_mem_nil, or_false] at hv
    rcases hv with hv | hv <;> rw [hv] <;> decide
  obtain ⟨q, h0, hq⟩ := shared_opens (ips := ips) (utf8 := utf8) hr
  refine ⟨r, q, h0, hr, hq, fun w m hw ht hm => ?_⟩
  have hw' := hans w m ht hm
  rw [C68_java_cache_transparent decJ utf8 ips bytes r q1 hr hq1] at hw'
  exact ⟨fun asks => by rw [C121_read_only hr hq, hw'], fun v => C121_negation hr hq h4 hw hw' v⟩

/-- The hypotheses are met, and the failure is real: a packed file, warmed up with 1.1.1.1, answers with its row
until one caller writes "X" into the answer, and with "X" afterwards; 2.0.0.1 keeps its answer. -/
example : ∃ bytes r q h0, pack encMeta 0 demo = .ok bytes ∧ Java.Reader decMeta bytes = .ok r ∧
    SReader.create decMeta id [[1, 1, 1, 1]] bytes = .ok (q, h0) ∧
    q.sees id ⟨h0, []⟩ [1, 1, 1, 1] = .ok
      { country := some (gs "中国"), city := some (gs "北京"), asn := some (gs "4134"), line := some (gs "4134"),
        continent := some (gs "亚洲") } ∧
    q.sees id (q.run id ⟨h0, []⟩ [.ask [1, 1, 1, 1], .assign 0 { city := some (gs "X") }]) [1, 1, 1, 1] =
      .ok { city := some (gs "X") } ∧
    ∀ es, (q.sees id (q.run id ⟨h0, []⟩ es) [2, 0, 0, 1]) = query id r [2, 0, 0, 1] ∧
      ∃ x, query id r [2, 0, 0, 1] = .ok x ∧ x.country = some (gs "法国") := by
  obtain ⟨bytes, hp, hl⟩ := demo_packed
  have hm : rowOf (keptRows (rowsOf demo)) (addrNum [1, 1, 1, 1]) =
      some (⟨[1, 0, 0, 0], [255, 0, 0, 0]⟩, [gs "中国", gs "亚洲", gs "北京", gs "4134"]) := by decide +kernel
  have hm2 : rowOf (keptRows (rowsOf demo)) (addrNum [2, 0, 0, 1]) =
      some (⟨[2, 0, 0, 0], [255, 255, 0, 0]⟩, [gs "法国", gs "EU", gs "", gs "3215"]) := by decide +kernel
  have hok : RowsOK demo := by decide +kernel
  have hvals : ValuesOK demo := by decide +kernel
  obtain ⟨r, q, h0, hr, hq, hall⟩ := C121_packed (utf8 := id) (decJ := decMeta) hok hvals demo_texts
    (fun _ _ _ _ => dec_encMeta _) (fun _ => rfl) hp (by omega) [[1, 1, 1, 1]] (by decide)
  obtain ⟨ha, hb⟩ := hall [1, 1, 1, 1] _ (by simp) (by decide) hm
  obtain ⟨q1, hq1, hans⟩ := C68_java_answer (utf8 := id) (decJ := decMeta) hok hvals demo_texts
    (fun _ _ _ _ => dec_encMeta _) (fun _ => rfl) hp (by omega) [[1, 1, 1, 1]]
  have h1 := hans _ _ (by decide) hm
  have h2 := hans _ _ (by decide) hm2
  rw [C68_java_cache_transparent decMeta id _ bytes r q1 hr hq1] at h1 h2
  refine ⟨bytes, r, q, h0, hp, hr, hq, ?_, hb _, fun es => ⟨?_, _, h2, by decide +kernel⟩⟩
  · rw [show q.sees id ⟨h0, []⟩ [1, 1, 1, 1] = _ from ha []]
    decide +kernel
  · rw [h2]
    refine C121_other hr hq es h2 ?_
    intro w hw
    simp only [List.mem_singleton] at hw
    subst hw
    rw [h1]
    decide +kernel

end

end Uip.Java
