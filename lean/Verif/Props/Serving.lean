import Verif.Model.Serving
import Verif.Props.Threads
import Verif.Props.AwdbServe
import Verif.Proof.PipelineEnd
/-!
# Property C109: the HTTP server with many requests at a time
-/
namespace Uip.Program
open Uip Uip.Spec Uip.Threads

/-- The requests of a history, in the order of their arrival. -/
def requests (es : List Event) : List Str := es.filterMap fun e => match e with
  | .request path => some path
  | .run _ => none

/-- Two requests are about to access the same field of the same object, and one of them to write it. -/
def ServingRace (s : Serving) : Prop :=
  ∃ (i j p : Nat) (k : Attr) (w : Bool), i ≠ j ∧ s.tasks[i]?.bind Task.next = some (p, k, true) ∧
    s.tasks[j]?.bind Task.next = some (p, k, w)

/-- The address a request asks the database for, or an address nobody asks for. -/
def askOf (path : Str) : IP := match path with
  | [] => []
  | _ :: ip => (ParseIP ip).getD []

theorem begin_cases (w : World) (enc : IpInfo → Bytes) (encV : VersionInfo → Bytes) (q : OpenDb) (path : Str) :
    (Task.begin w encV q path = .replied (serve w enc encV q path)) ∨
    (Task.begin w encV q path = .asking (.waiting (askOf path)) ∧ serve w enc encV q path = replyOf enc (q.query (askOf path))) := by
  unfold Task.begin serve
  by_cases h : path = gs "/version"
  · rw [if_pos h, if_pos h]; exact .inl rfl
  · rw [if_neg h, if_neg h]
    match path with
    | [] => exact .inl rfl
    | c :: ip =>
      simp only [serveQuery, askOf, Db.QueryStr]
      cases hp : ParseIP ip with
      | none => exact .inl rfl
      | some a =>
        refine .inr ⟨rfl, ?_⟩
        simp only [Option.getD_some, Db.Query]
        rcases q.query a with ⟨i, m⟩ | e | _ <;> rfl

/-- A request arrives. -/
theorem inv_arrive {plan : IP → Plan} {h0 : Threads.Heap} {asks : List IP} {m : Machine} (h : Inv plan h0 asks m) (a : IP) :
    Inv plan h0 (asks ++ [a]) ⟨m.heap, m.threads ++ [.waiting a]⟩ := by
  have split : ∀ (i : Nat) t, (m.threads ++ [.waiting a])[i]? = some t → m.threads[i]? = some t ∨ (i = m.threads.length ∧ t = .waiting a) := by
    intro i t hi
    rcases Nat.lt_trichotomy i m.threads.length with hl | hl | hl
    · rw [List.getElem?_append_left hl] at hi; exact .inl hi
    · subst hl
      rw [List.getElem?_append_right (Nat.le_refl _)] at hi
      simp at hi
      exact .inr ⟨rfl, hi.symm⟩
    · rw [List.getElem?_eq_none (by simp; omega)] at hi; cases hi
  refine ⟨h.old, h.len, by simp [h.count], ?_, ?_, ?_⟩
  · intro i t b hi hb
    rcases split i t hi with h1 | ⟨rfl, rfl⟩
    · have hl := (List.getElem?_eq_some_iff.mp h1).1
      rw [List.getElem?_append_left (by rw [← h.count]; exact hl)] at hb
      exact h.ok i t b h1 hb
    · rw [h.count, List.getElem?_append_right (Nat.le_refl _)] at hb
      simp at hb
      exact hb
  · intro i j t u p hij hi hj hc hd
    rcases split i t hi with h1 | ⟨_, rfl⟩
    · rcases split j u hj with h2 | ⟨_, rfl⟩
      · exact h.own i j t u p hij h1 h2 hc hd
      · cases hd
    · cases hc
  · intro i t p hi hc
    rcases split i t hi with h1 | ⟨_, rfl⟩
    · exact h.bound i t p h1 hc
    · cases hc

/-- The invariant of the server: its goroutines are those of a machine of `Model/Threads.lean`. -/
def ServingInv (w : World) (enc : IpInfo → Bytes) (encV : VersionInfo → Bytes) (q : OpenDb) (plan : IP → Plan) (h0 : Threads.Heap)
    (paths : List Str) (s : Serving) : Prop :=
  ∃ m, Inv plan h0 (paths.map askOf) m ∧ m.heap = s.heap ∧ s.tasks.length = paths.length ∧
    ∀ (i : Nat) path t, paths[i]? = some path → s.tasks[i]? = some t →
      match t with
      | .replied r => r = serve w enc encV q path
      | .asking u => m.threads[i]? = some u ∧ serve w enc encV q path = replyOf enc (q.query (askOf path))

theorem serving_step {w : World} {enc : IpInfo → Bytes} {encV : VersionInfo → Bytes} {q : OpenDb} {plan : IP → Plan} {h0 : Threads.Heap}
    (hold : Old plan h0) (hq : ∀ a, planned h0 (plan a) = q.query a) {paths : List Str} {s : Serving}
    (h : ServingInv w enc encV q plan h0 paths s) (e : Event) :
    ServingInv w enc encV q plan h0 (paths ++ requests [e]) (s.step w enc encV q plan e) := by
  obtain ⟨m, hi, hh, hl, ht⟩ := h
  cases e with
  | request path =>
    refine ⟨⟨m.heap, m.threads ++ [.waiting (askOf path)]⟩, ?_, hh, by simp [Serving.step, requests, hl], ?_⟩
    · have := inv_arrive hi (askOf path)
      simpa [requests] using this
    · intro i path' t hp hs
      simp only [Serving.step] at hs
      have hc := hi.count
      rw [List.length_map] at hc
      rcases Nat.lt_trichotomy i paths.length with hlt | heq | hgt
      · rw [List.getElem?_append_left hlt] at hp
        rw [List.getElem?_append_left (by omega)] at hs
        have := ht i path' t hp hs
        cases t with
        | replied r => exact this
        | asking u => exact ⟨by simp only []; rw [List.getElem?_append_left (by omega)]; exact this.1, this.2⟩
      · subst heq
        rw [List.getElem?_append_right (Nat.le_refl _)] at hp
        rw [← hl, List.getElem?_append_right (Nat.le_refl _)] at hs
        simp [requests] at hp hs
        subst hp hs
        rcases begin_cases w enc encV q path with hb | ⟨hb, hb'⟩
        · rw [hb]
        · rw [hb]
          refine ⟨?_, hb'⟩
          simp only []
          rw [← hc, List.getElem?_append_right (Nat.le_refl _)]
          simp
      · rw [List.getElem?_eq_none (by simp [requests]; omega)] at hp; cases hp
  | run i =>
    simp only [Serving.step, requests, List.filterMap_cons, List.filterMap_nil, List.append_nil]
    cases hs : s.tasks[i]? with
    | none => exact ⟨m, hi, hh, hl, ht⟩
    | some t =>
      simp only []
      have hlt : i < s.tasks.length := (List.getElem?_eq_some_iff.mp hs).1
      obtain ⟨path, hpath⟩ : ∃ p, paths[i]? = some p := ⟨_, List.getElem?_eq_getElem (by omega)⟩
      have hti := ht i path t hpath hs
      -- a step that changes only task `i`, and no goroutine
      have only : ∀ t' : Task, (match t' with
            | .replied r => r = serve w enc encV q path
            | .asking u => m.threads[i]? = some u ∧ serve w enc encV q path = replyOf enc (q.query (askOf path))) →
          ServingInv w enc encV q plan h0 paths ⟨s.heap, s.tasks.set i t'⟩ := by
        intro t' ht'
        refine ⟨m, hi, hh, by simp [hl], ?_⟩
        intro j path' u hp hu
        by_cases e : i = j
        · subst e
          rw [List.getElem?_set_self hlt] at hu
          cases hu
          rw [hpath] at hp
          cases hp
          exact ht'
        · rw [List.getElem?_set_ne e] at hu
          exact ht j path' u hp hu
      -- a step of goroutine `i`
      have other : ∀ u : Thread, t = .asking u →
          ServingInv w enc encV q plan h0 paths ⟨(u.step plan s.heap).2, s.tasks.set i (.asking (u.step plan s.heap).1)⟩ := by
        rintro u rfl
        obtain ⟨h1, h2⟩ := hti
        have hst : m.step plan i = ⟨(u.step plan s.heap).2, m.threads.set i (u.step plan s.heap).1⟩ := by
          unfold Machine.step
          rw [h1, hh]
        refine ⟨m.step plan i, inv_step hold hi i, by rw [hst], by simp [hl], ?_⟩
        intro j path' v hp hv
        by_cases e : i = j
        · subst e
          rw [List.getElem?_set_self hlt] at hv
          cases hv
          rw [hpath] at hp
          cases hp
          refine ⟨?_, h2⟩
          rw [hst]
          exact List.getElem?_set_self (List.getElem?_eq_some_iff.mp h1).1
        · rw [List.getElem?_set_ne e] at hv
          have := ht j path' v hp hv
          cases v with
          | replied r => exact this
          | asking u' =>
            refine ⟨?_, this.2⟩
            rw [hst]
            simp only []
            rw [List.getElem?_set_ne e]
            exact this.1
      cases t with
      | replied r => exact only _ hti
      | asking u =>
        cases u with
        | finished x =>
          obtain ⟨h1, h2⟩ := hti
          refine only (.replied (replyOf enc x)) ?_
          have := hi.ok i _ (askOf path) h1 (by rw [List.getElem?_map, hpath]; rfl)
          simp only [ThreadOK] at this
          simp only []
          rw [h2, this, hq]
        | waiting a => exact other _ rfl
        | filling p w' m' => exact other _ rfl
        | reading p k g m' => exact other _ rfl

theorem serving_after {w : World} {enc : IpInfo → Bytes} {encV : VersionInfo → Bytes} {q : OpenDb} {plan : IP → Plan} {h0 : Threads.Heap}
    (hold : Old plan h0) (hq : ∀ a, planned h0 (plan a) = q.query a) : ∀ (es : List Event) {paths : List Str} {s : Serving},
    ServingInv w enc encV q plan h0 paths s →
      ServingInv w enc encV q plan h0 (paths ++ requests es) (s.after w enc encV q plan es)
  | [], _, _, h => by simpa [requests, Serving.after] using h
  | e :: es, paths, s, h => by
    have := serving_after hold hq es (serving_step hold hq h e)
    have hr : requests (e :: es) = requests [e] ++ requests es := by
      simp only [requests, ← List.filterMap_append, List.singleton_append]
    rw [hr, ← List.append_assoc]
    exact this

theorem serving_start (w : World) (enc : IpInfo → Bytes) (encV : VersionInfo → Bytes) (q : OpenDb) (plan : IP → Plan) (h0 : Threads.Heap) :
    ServingInv w enc encV q plan h0 [] ⟨h0, []⟩ :=
  ⟨Machine.start h0 [], inv_start plan h0 [], rfl, rfl, by intro i path t hp; cases hp⟩

/-- Steps a task may still take. -/
def taskLeft (plan : IP → Plan) : Task → Nat
  | .replied _ => 0
  | .asking t => left plan t + 1

theorem taskLeft_step (plan : IP → Plan) (enc : IpInfo → Bytes) (h : Threads.Heap) (t : Task) :
    taskLeft plan (t.step plan enc h).1 ≤ taskLeft plan t - 1 := by
  cases t with
  | replied r => exact Nat.le_refl _
  | asking u =>
    cases u with
    | finished x => simp [Task.step, taskLeft]
    | waiting a =>
      have := left_step plan h (.waiting a)
      have hp : 0 < left plan (.waiting a) := by
        simp only [left]; split <;> omega
      simp only [Task.step, taskLeft]; omega
    | filling p w' m' =>
      have := left_step plan h (.filling p w' m')
      have hp : 0 < left plan (.filling p w' m') := by simp [left]
      simp only [Task.step, taskLeft]; omega
    | reading p k g m' =>
      have := left_step plan h (.reading p k g m')
      have hp : 0 < left plan (.reading p k g m') := by simp [left]
      simp only [Task.step, taskLeft]; omega

theorem after_left {w : World} {enc : IpInfo → Bytes} {encV : VersionInfo → Bytes} {q : OpenDb} {plan : IP → Plan} (i : Nat) :
    ∀ (es : List Event) (s : Serving) (t : Task), s.tasks[i]? = some t →
      ∃ t', (s.after w enc encV q plan es).tasks[i]? = some t' ∧ taskLeft plan t' ≤ taskLeft plan t - es.count (.run i)
  | [], s, t, h => ⟨t, h, by simp⟩
  | e :: es, s, t, h => by
    have hlt := (List.getElem?_eq_some_iff.mp h).1
    have key : ∃ t1, (s.step w enc encV q plan e).tasks[i]? = some t1 ∧
        taskLeft plan t1 ≤ taskLeft plan t - (if e = .run i then 1 else 0) := by
      cases e with
      | request path =>
        refine ⟨t, ?_, by simp⟩
        simp only [Serving.step]
        rw [List.getElem?_append_left hlt]
        exact h
      | run j =>
        by_cases e : j = i
        · subst e
          simp only [Serving.step, h]
          exact ⟨_, List.getElem?_set_self hlt, by simp only [if_true]; exact taskLeft_step plan enc _ t⟩
        · rw [if_neg (by intro h'; cases h'; exact e rfl)]
          simp only [Serving.step]
          cases hj : s.tasks[j]? with
          | none => exact ⟨t, h, by simp⟩
          | some u => exact ⟨t, by simp only []; rw [List.getElem?_set_ne e]; exact h, by simp⟩
    obtain ⟨t1, h1, h2⟩ := key
    obtain ⟨t', h3, h4⟩ := after_left i es _ t1 h1
    refine ⟨t', h3, ?_⟩
    rw [List.count_cons]
    by_cases e' : e = .run i
    · rw [if_pos e'] at h2; rw [if_pos (by simp [e'])]; omega
    · rw [if_neg e'] at h2; rw [if_neg (by simp [e'])]; omega

theorem after_append (w : World) (enc : IpInfo → Bytes) (encV : VersionInfo → Bytes) (q : OpenDb) (plan : IP → Plan) :
    ∀ (es fs : List Event) (s : Serving), s.after w enc encV q plan (es ++ fs) =
      (s.after w enc encV q plan es).after w enc encV q plan fs
  | [], _, _ => rfl
  | e :: es, fs, s => by
    rw [List.cons_append, Serving.after, Serving.after]
    exact after_append w enc encV q plan es fs _

/-- What is said of the server. -/
theorem serving_all {w : World} {enc : IpInfo → Bytes} {encV : VersionInfo → Bytes} {q : OpenDb} {plan : IP → Plan} {h0 : Threads.Heap}
    (hold : Old plan h0) (hq : ∀ a, planned h0 (plan a) = q.query a) (N : Nat) (hN : ∀ a, left plan (.waiting a) < N) (es : List Event) :
    let s := Serving.after w enc encV q plan ⟨h0, []⟩ es
    (∀ (i : Nat) r, s.tasks[i]? = some (.replied r) → ∃ path, (requests es)[i]? = some path ∧ r = serve w enc encV q path) ∧
    (∀ pre path post, es = pre ++ .request path :: post → N ≤ post.count (.run (requests pre).length) →
      s.tasks[(requests pre).length]? = some (.replied (serve w enc encV q path))) ∧
    ¬ ServingRace s := by
  have hinv := serving_after (w := w) (enc := enc) (encV := encV) hold hq es (serving_start w enc encV q plan h0)
  rw [List.nil_append] at hinv
  have first : ∀ (i : Nat) r, (Serving.after w enc encV q plan ⟨h0, []⟩ es).tasks[i]? = some (.replied r) →
      ∃ path, (requests es)[i]? = some path ∧ r = serve w enc encV q path := by
    intro i r hr
    obtain ⟨m, hi, hh, hl, ht⟩ := hinv
    have hlt := (List.getElem?_eq_some_iff.mp hr).1
    obtain ⟨path, hp⟩ : ∃ p, (requests es)[i]? = some p := ⟨_, List.getElem?_eq_getElem (by omega)⟩
    exact ⟨path, hp, ht i path _ hp hr⟩
  refine ⟨first, ?_, ?_⟩
  · intro pre path post he hc
    have hpre := serving_after (w := w) (enc := enc) (encV := encV) hold hq pre (serving_start w enc encV q plan h0)
    rw [List.nil_append] at hpre
    obtain ⟨m, _, _, hl, _⟩ := hpre
    generalize hs : Serving.after w enc encV q plan ⟨h0, []⟩ pre = s at hl
    have e : Serving.after w enc encV q plan ⟨h0, []⟩ es =
        (s.step w enc encV q plan (.request path)).after w enc encV q plan post := by
      rw [he, after_append, hs]; rfl
    have hb : (s.step w enc encV q plan (.request path)).tasks[(requests pre).length]? = some (Task.begin w encV q path) := by
      simp only [Serving.step]
      rw [← hl, List.getElem?_append_right (Nat.le_refl _)]
      simp
    obtain ⟨t', h3, h4⟩ := after_left (w := w) (enc := enc) (encV := encV) (q := q) (plan := plan) _ post _ _ hb
    have hleft : taskLeft plan (Task.begin w encV q path) ≤ N := by
      rcases begin_cases w enc encV q path with h | ⟨h, _⟩
      · rw [h]; simp [taskLeft]
      · rw [h]; simp only [taskLeft]; exact hN _
    have h0' : taskLeft plan t' = 0 := by omega
    rw [← e] at h3
    cases t' with
    | asking u => simp [taskLeft] at h0'
    | replied r =>
      obtain ⟨path', h5, rfl⟩ := first _ _ h3
      have hr : requests es = requests pre ++ path :: requests post := by
        rw [he]
        simp [requests, List.filterMap_append]
      rw [hr, List.getElem?_append_right (Nat.le_refl _)] at h5
      simp at h5
      subst h5
      exact h3
  · rintro ⟨i, j, p, k, b, hij, h1, h2⟩
    obtain ⟨m, hi, hh, hl, ht⟩ := hinv
    have thread : ∀ (i : Nat) x, (Serving.after w enc encV q plan ⟨h0, []⟩ es).tasks[i]?.bind Task.next = some x →
        m.threads[i]?.bind Thread.next = some x := by
      intro i x hx
      cases hs : (Serving.after w enc encV q plan ⟨h0, []⟩ es).tasks[i]? with
      | none => rw [hs] at hx; cases hx
      | some t =>
        rw [hs] at hx
        have hlt := (List.getElem?_eq_some_iff.mp hs).1
        obtain ⟨path, hp⟩ : ∃ p, (requests es)[i]? = some p := ⟨_, List.getElem?_eq_getElem (by omega)⟩
        have := ht i path t hp hs
        cases t with
        | replied r => cases hx
        | asking u => rw [this.1]; exact hx
    exact inv_no_race hi ⟨i, j, p, k, b, hij, thread i _ h1, thread j _ h2⟩

/-- C109 for .awdb files: whatever requests arrive whenever, and however their goroutines are interleaved, a request is replied to
as if it were the only one (a crash closes its own connection only), after at most 19 of its own steps, and no two requests access
the same field at the same time if one writes. -/
theorem C109_awdb (w : World) (enc : IpInfo → Bytes) (encV : VersionInfo → Bytes) (r : Awdb.Reader) (es : List Event) :
    let s := Serving.after w enc encV (.awdb r) (awdbPlan r) ⟨[], []⟩ es
    (∀ (i : Nat) x, s.tasks[i]? = some (.replied x) → ∃ path, (requests es)[i]? = some path ∧ x = serve w enc encV (.awdb r) path) ∧
    (∀ pre path post, es = pre ++ .request path :: post → 19 ≤ post.count (.run (requests pre).length) →
      s.tasks[(requests pre).length]? = some (.replied (serve w enc encV (.awdb r) path))) ∧
    ¬ ServingRace s := by
  refine serving_all ?_ (fun a => awdb_planned r a) 19 ?_ es
  · intro a p m h
    unfold awdbPlan at h
    split at h <;> cases h
  · intro a
    simp only [left, awdbPlan]
    cases r.Find a with
    | panic => simp
    | err e => simp
    | ok x => obtain ⟨cidr, info⟩ := x; simp

/-- C109 for .ipdb files: the same, after opening and warming up, with 12 steps and one for each field. -/
theorem C109_ipdb (w : World) (fuel : Nat) (fs : Fs) (file : Str) (enc : IpInfo → Bytes) (encV : VersionInfo → Bytes) (Q : Ipdb.Querier)
    (b : Bytes) (hf : fs file = some b) (ho : NewDb w (serverFormats w fuel) fs file = .ok (.ipdb Q)) :
    ∃ q h0, Ipdb.Ready w.decMeta b (((splitByte 0x0A w.warm).filter (· ≠ [])).map fun s => (ParseIP s).getD []) q h0 ∧ ∀ es : List Event,
      let s := Serving.after w enc encV (.ipdb Q) (ipdbPlan q) ⟨h0, []⟩ es
      (∀ (i : Nat) x, s.tasks[i]? = some (.replied x) → ∃ path, (requests es)[i]? = some path ∧ x = serve w enc encV (.ipdb Q) path) ∧
      (∀ pre path post, es = pre ++ .request path :: post → Q.r.md.fields.length + 12 ≤ post.count (.run (requests pre).length) →
        s.tasks[(requests pre).length]? = some (.replied (serve w enc encV (.ipdb Q) path))) ∧
      ¬ ServingRace s := by
  have hopen : ∃ q0, Ipdb.newQuerier w.decMeta b = .ok q0 ∧
      q0.BuildCache (((splitByte 0x0A w.warm).filter (· ≠ [])).map fun s => (ParseIP s).getD []) = .ok Q := by
    obtain ⟨_, g1, g2, g3⟩ := C93_go w fuel fs file
    by_cases h1 : gs ".ipdb" <:+ file
    · rw [g1 b hf h1, Res.bind_eq_ok] at ho
      obtain ⟨q0, h2, h3⟩ := ho
      refine ⟨q0, h2, ?_⟩
      simp only [OpenDb.buildCache, Res.bind_eq_ok, Res.pure_eq, Res.ok.injEq, OpenDb.ipdb.injEq] at h3
      obtain ⟨q1, h3, rfl⟩ := h3
      exact h3
    · by_cases h2 : gs ".awdb" <:+ file
      · rw [g2 b hf h2, Res.bind_eq_ok] at ho
        obtain ⟨r, _, h3⟩ := ho
        cases Res.ok.inj h3
      · rw [g3 b hf h1 h2] at ho
        cases ho
  obtain ⟨q0, h1, h2⟩ := hopen
  obtain ⟨q, h0, hr⟩ := Ipdb.ready_of h1 h2
  refine ⟨q, h0, hr, fun es => ?_⟩
  obtain ⟨e1, hfit, hs, _⟩ := hr.spec
  rw [e1] at h1
  cases Res.ok.inj h1
  obtain ⟨hQr, hQs⟩ := (Ipdb.BuildCache_spec _ _ (Ipdb.CacheSound_nil q.r)).1 Q h2
  have hQr' : Q.r = q.r := hQr
  refine serving_all (ipdb_old hfit) (fun a => ?_) (Q.r.md.fields.length + 12) (fun a => ?_) es
  · rw [ipdb_planned, deref_query hs]
    have e2 := Ipdb.QueryInternal_eq Q a hQs true
    simp only [OpenDb.query]
    unfold Ipdb.Querier.Query
    rw [e2, hQr', Ipdb.QueryInternal_eq ⟨q.r, []⟩ a (Ipdb.CacheSound_nil _) true]
  · rw [hQr']
    exact Nat.lt_succ_of_le (ipdb_left q a)

/-! ## Concrete cases -/

/-- The goroutine of the request for 200.0.0.1 crashes between two steps of the request for 1.2.3.4, which arrived before it; the
latter and a third, arriving after the crash, are answered. -/
example (w : World) (fuel : Nat) (enc : IpInfo → Bytes) (encV : VersionInfo → Bytes) :
    ∃ r, NewDb w (serverFormats w fuel) (fun _ => some Awdb.demo4.bytes) (gs "x.awdb") = .ok (.awdb r) ∧
      ∃ i : IpInfo, i.asn = gs "4837" ∧
        let es := [.request (0x2F :: gs "1.2.3.4"), .run 0, .request (0x2F :: gs "200.0.0.1")] ++ List.replicate 19 (.run 1) ++
          .request (0x2F :: gs "hello") :: (List.replicate 19 (.run 0) ++ List.replicate 19 (.run 2))
        let s := Serving.after w enc encV (.awdb r) (awdbPlan r) ⟨[], []⟩ es
        s.tasks[0]? = some (.replied (.ok ⟨200, enc i⟩)) ∧ s.tasks[1]? = some (.replied .panic) ∧
        s.tasks[2]? = some (.replied (.ok ⟨404, []⟩)) := by
  obtain ⟨r, h1, ⟨i, h2, h3⟩, h4, h5⟩ := demo4_served w fuel enc encV
  refine ⟨r, h1, i, h3, ?_⟩
  generalize hp : (0x2F :: gs "1.2.3.4") = p at h2
  generalize hq : (0x2F :: gs "200.0.0.1") = q at h5
  generalize hs : (0x2F :: gs "hello") = s at h4
  obtain ⟨_, c, _⟩ := C109_awdb w enc encV r ([.request p, .run 0, .request q] ++ List.replicate 19 (.run 1) ++
          .request s :: (List.replicate 19 (.run 0) ++ List.replicate 19 (.run 2)))
  refine ⟨?_, ?_, ?_⟩
  · rw [← h2]
    exact c [] p _ rfl (by simp [requests])
  · rw [← h5]
    exact c [.request p, .run 0] q (List.replicate 19 (.run 1) ++ .request s :: (List.replicate 19 (.run 0) ++ List.replicate 19 (.run 2))) rfl
      (by simp [requests])
  · rw [← h4]
    have hl : (requests ([.request p, .run 0, .request q] ++ List.replicate 19 (.run 1))).length = 2 := by
      simp [requests, List.filterMap_append]
    have := c ([.request p, .run 0, .request q] ++ List.replicate 19 (.run 1)) s (List.replicate 19 (.run 0) ++ List.replicate 19 (.run 2)) rfl
    rw [hl] at this
    exact this (by simp)

/-- A packed file opened by the server, warm-up included: a request is answered. -/
example (w : World) (fuel : Nat) (hw : w.decMeta = Ipdb.decMeta) (hwarm : w.warm = gs "1.0.0.1\n") (enc : IpInfo → Bytes)
    (encV : VersionInfo → Bytes) :
    ∃ bytes Q, Ipdb.pack Ipdb.encMeta 0 Ipdb.demo1 = .ok bytes ∧
      NewDb w (serverFormats w fuel) (fun _ => some bytes) (gs "x.ipdb") = .ok (.ipdb Q) := by
  obtain ⟨bytes, h1, h2⟩ := Ipdb.opens (enc := Ipdb.encMeta) (dec := Ipdb.decMeta) (now := 0) (ipd := Ipdb.demo1)
    (by decide +kernel) (fun _ _ _ _ => Ipdb.dec_encMeta _)
  obtain ⟨r, _, h4, h5⟩ := h2 (Ipdb.size_of_packed Ipdb.demo1_size h1)
  have hl : ((splitByte 0x0A w.warm).filter (· ≠ [])).map (fun s => (ParseIP s).getD []) = [goIPv4 1 0 0 1] := by
    rw [hwarm]; decide +kernel
  have ha : Ipdb.Querier.Query ⟨r, []⟩ (goIPv4 1 0 0 1) = .ok ({ city := gs "北京" }, 8) := by
    rw [h5.query_covered (m := (⟨[1, 0, 0, 0], [255, 0, 0, 0]⟩, [gs "北京"])) (by decide +kernel)
      (by decide +kernel) (by decide) (by decide) (by decide +kernel)]
    decide +kernel
  obtain ⟨q1, hb⟩ := Ipdb.C16_build_cache_total (Ipdb.Opened.new h4) (ips := [goIPv4 1 0 0 1]) (by
    intro a ha'; simp only [List.mem_singleton] at ha'; subst ha'; rw [ha]; intro h; cases h)
  refine ⟨bytes, q1, h1, ?_⟩
  rw [(C93_go w fuel (fun _ => some bytes) (gs "x.ipdb")).2.1 bytes rfl (by decide +kernel), hw, h4, Res.ok_bind]
  unfold OpenDb.buildCache
  simp only []
  rw [hl, hb]
  rfl

end Uip.Program
