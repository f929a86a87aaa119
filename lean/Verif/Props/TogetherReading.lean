import Verif.Props.Together
/-!
# C123: a database that is opened while a converter writes it
-/
namespace Uip.Program
open Uip

/-! ## The outputs of a converter at a moment -/

/-- The outputs still to be created. -/
def Job.todo (j : Job) : Phase → List Str
  | .finished _ => []
  | .outputs os _ => os
  | .writing _ _ _ _ more => more
  | _ => j.outs

/-- The outputs still to be created are different, and the one being written is none of them. -/
def Job.Distinct (j : Job) : Phase → Prop
  | .writing o _ _ _ more => o ∉ more ∧ more.Nodup
  | p => (j.todo p).Nodup

/-- The output has not been created. -/
def Untouched (o : Str) (fs0 f : Fs) (p : Phase) : Prop :=
  f o = fs0 o ∧ ∀ o' off b res more, p = .writing o' off b res more → o' ≠ o

/-- The output has been created, and not a second time. -/
def Job.Created (j : Job) (o : Str) (f : Fs) (p : Phase) : Prop := o ∉ j.todo p ∧ ∃ b, f o = some b

theorem distinct_finished (j : Job) (r : Outcome) : j.Distinct (.finished r) := List.nodup_nil

theorem untouched_of {o : Str} {fs0 f : Fs} {p : Phase} (h : f o = fs0 o)
    (hp : ∀ o' off b res more, p ≠ .writing o' off b res more) : Untouched o fs0 f p :=
  ⟨h, fun _ _ _ _ _ e => absurd e (hp _ _ _ _ _)⟩

theorem Job.step_watch (j : Job) (k : Nat) (f : Fs) (p : Phase) (hn : j.outs.Nodup) (hd : j.Distinct p)
    (hs : (Proc.convert j).Sound f p) :
    j.Distinct (j.step k f p).1 ∧ ∀ (o : Str) (fs0 : Fs),
      (Untouched o fs0 f p → Untouched o fs0 (j.step k f p).2 (j.step k f p).1 ∨ j.Created o (j.step k f p).2 (j.step k f p).1) ∧
      (o ∈ j.outs → j.Created o f p → j.Created o (j.step k f p).2 (j.step k f p).1) := by
  have early : ∀ p', (j.todo p = j.outs) → (∀ o' off b res more, p' ≠ .writing o' off b res more) →
      (j.todo p').Nodup → ∀ (o : Str) (fs0 : Fs),
      (Untouched o fs0 f p → Untouched o fs0 f p' ∨ j.Created o f p') ∧ (o ∈ j.outs → j.Created o f p → j.Created o f p') :=
    fun p' ht hw _ o fs0 => ⟨fun h => .inl (untouched_of h.1 hw), fun ho h => absurd ho (ht ▸ h.1)⟩
  have hin : ∀ q, (∀ o' off b res more, j.openInput f q ≠ .writing o' off b res more) ∧ (j.todo (j.openInput f q)).Nodup ∧
      j.Distinct (j.openInput f q) := by
    intro q; unfold Job.openInput
    cases f j.args.input with
    | none => exact ⟨(fun _ _ _ _ _ e => by cases e), List.nodup_nil, List.nodup_nil⟩
    | some b => exact ⟨(fun _ _ _ _ _ e => by cases e), hn, hn⟩
  cases p with
  | finished r => exact ⟨hd, fun o fs0 => ⟨fun h => .inl h, fun _ h => h⟩⟩
  | hung => exact ⟨hd, fun o fs0 => ⟨fun h => .inl h, fun _ h => h⟩⟩
  | readingDb got => exact hs.elim
  | begin =>
    by_cases hl : j.args.line ≠ []
    · cases h : f j.args.line with
      | none =>
        have e : j.step k f .begin = (.finished (.converted .panic), f) := by simp only [Job.step, if_pos hl, h]
        rw [e]
        exact ⟨List.nodup_nil, early _ rfl (fun _ _ _ _ _ e => by cases e) List.nodup_nil⟩
      | some b =>
        have e : j.step k f .begin = (.readingLine [], f) := by simp only [Job.step, if_pos hl, h]
        rw [e]
        exact ⟨hn, early _ rfl (fun _ _ _ _ _ e => by cases e) hn⟩
    · have e : j.step k f .begin = (j.openInput f none, f) := by simp only [Job.step, if_neg hl]
      rw [e]
      exact ⟨(hin none).2.2, early _ rfl (hin none).1 (hin none).2.1⟩
  | readingLine got =>
    cases hr : f.readOn j.args.line got k with
    | cons x xs =>
      have e : j.step k f (.readingLine got) = (.readingLine (got ++ x :: xs), f) := by simp only [Job.step, hr]
      rw [e]
      exact ⟨hn, early _ rfl (fun _ _ _ _ _ e => by cases e) hn⟩
    | nil =>
      cases hl : j.lineDb got with
      | ok q =>
        have e : j.step k f (.readingLine got) = (j.openInput f (some q), f) := by simp only [Job.step, hr, hl]
        rw [e]
        exact ⟨(hin _).2.2, early _ rfl (hin _).1 (hin _).2.1⟩
      | err er =>
        have e : j.step k f (.readingLine got) = (.finished (.converted (.err er)), f) := by simp only [Job.step, hr, hl]
        rw [e]
        exact ⟨List.nodup_nil, early _ rfl (fun _ _ _ _ _ e => by cases e) List.nodup_nil⟩
      | panic =>
        have e : j.step k f (.readingLine got) = (.finished (.converted .panic), f) := by simp only [Job.step, hr, hl]
        rw [e]
        exact ⟨List.nodup_nil, early _ rfl (fun _ _ _ _ _ e => by cases e) List.nodup_nil⟩
  | readingInput q got =>
    cases hr : f.readOn j.args.input got k with
    | cons x xs =>
      have e : j.step k f (.readingInput q got) = (.readingInput q (got ++ x :: xs), f) := by simp only [Job.step, hr]
      rw [e]
      exact ⟨hn, early _ rfl (fun _ _ _ _ _ e => by cases e) hn⟩
    | nil =>
      have e : j.step k f (.readingInput q got) = (j.dumpedPhase (j.dump q got), f) := by simp only [Job.step, hr]
      rw [e]
      have hp : (∀ o' off b res more, j.dumpedPhase (j.dump q got) ≠ .writing o' off b res more) ∧
          (j.todo (j.dumpedPhase (j.dump q got))).Nodup ∧ j.Distinct (j.dumpedPhase (j.dump q got)) := by
        cases j.dump q got with
        | none => exact ⟨(fun _ _ _ _ _ e => by cases e), hn, hn⟩
        | some r =>
          cases r with
          | ok d => exact ⟨(fun _ _ _ _ _ e => by cases e), hn, hn⟩
          | err e => exact ⟨(fun _ _ _ _ _ e => by cases e), List.nodup_nil, List.nodup_nil⟩
          | panic => exact ⟨(fun _ _ _ _ _ e => by cases e), List.nodup_nil, List.nodup_nil⟩
      exact ⟨hp.2.2, early _ rfl hp.1 hp.2.1⟩
  | outputs os d =>
    cases os with
    | nil =>
      exact ⟨List.nodup_nil, fun o fs0 => ⟨fun h => .inl (untouched_of h.1 fun _ _ _ _ _ e => by cases e), fun _ h => h⟩⟩
    | cons o os =>
      have hd : (o :: os).Nodup := hd
      obtain ⟨hd1, hd2⟩ := List.nodup_cons.mp hd
      by_cases hc : j.canCreate o = false
      · have e : j.step k f (.outputs (o :: os) d) = (.finished (.converted (.err (.other "create"))), f) := by
          simp only [Job.step, if_pos hc]
        rw [e]
        exact ⟨List.nodup_nil, fun o fs0 => ⟨fun h => .inl (untouched_of h.1 fun _ _ _ _ _ e => by cases e),
          fun _ h => ⟨List.not_mem_nil, h.2⟩⟩⟩
      · have e : j.step k f (.outputs (o :: os) d) =
            (.writing o 0 ((outputCalls j.w (pathExt o) d).1.map Prod.snd).flatten (outputCalls j.w (pathExt o) d).2 os, f.set o []) := by
          simp only [Job.step, if_neg hc]
        rw [e]
        refine ⟨⟨hd1, hd2⟩, fun n fs0 => ⟨fun h => ?_, fun hn h => ?_⟩⟩
        · by_cases hno : n = o
          · subst hno
            exact .inr ⟨hd1, [], if_pos rfl⟩
          · refine .inl ⟨(if_neg hno).trans h.1, ?_⟩
            intro o' off b res more e
            injection e with e
            exact fun e' => hno (e'.symm.trans e.symm)
        · obtain ⟨h1, b, hb⟩ := h
          have hno : n ≠ o := fun e => h1 (by rw [e]; exact List.mem_cons_self)
          exact ⟨fun hc => h1 (List.mem_cons_of_mem _ hc), b, (if_neg hno).trans hb⟩
  | writing o off b res more =>
    obtain ⟨hd1, hd2⟩ : o ∉ more ∧ more.Nodup := hd
    cases b with
    | nil =>
      have e : j.step k f (.writing o off [] res more) = (packedPhase res more, f) := rfl
      rw [e]
      cases res with
      | ok d =>
        exact ⟨hd2, fun n fs0 => ⟨fun h => .inl (untouched_of h.1 fun _ _ _ _ _ e => by cases e), fun _ h => h⟩⟩
      | err e =>
        exact ⟨List.nodup_nil, fun n fs0 => ⟨fun h => .inl (untouched_of h.1 fun _ _ _ _ _ e => by cases e),
          fun _ h => ⟨List.not_mem_nil, h.2⟩⟩⟩
      | panic =>
        exact ⟨List.nodup_nil, fun n fs0 => ⟨fun h => .inl (untouched_of h.1 fun _ _ _ _ _ e => by cases e),
          fun _ h => ⟨List.not_mem_nil, h.2⟩⟩⟩
    | cons x xs =>
      have e : j.step k f (.writing o off (x :: xs) res more) =
        (.writing o (off + ((x :: xs).take (k + 1)).length) ((x :: xs).drop (k + 1)) res more,
          f.writeAt o off ((x :: xs).take (k + 1))) := rfl
      rw [e]
      refine ⟨⟨hd1, hd2⟩, fun n fs0 => ⟨fun h => ?_, fun _ h => ?_⟩⟩
      · have hno : o ≠ n := h.2 _ _ _ _ _ rfl
        refine .inl ⟨(if_neg fun e => hno e.symm).trans h.1, ?_⟩
        intro o' off' b' res' more' e
        injection e with e
        exact fun e' => hno (e.trans e')
      · obtain ⟨h1, b, hb⟩ := h
        refine ⟨h1, ?_⟩
        unfold Fs.writeAt Fs.set
        by_cases hno : n = o
        · exact ⟨_, if_pos hno⟩
        · exact ⟨b, (if_neg hno).trans hb⟩

/-! ## What is in an output that has been created -/

theorem writeAll_kept (reg : Formats) (cc : Str → Bool) (o : Str) : ∀ (os : List Str) (f : Fs) (d : HData), o ∉ os →
    (writeAll reg cc os f d).1 o = f o
  | [], _, _, _ => rfl
  | n :: os, f, d, h => by
    have h1 : o ≠ n := fun e => h (by rw [e]; exact List.mem_cons_self)
    have h2 : o ∉ os := fun hc => h (List.mem_cons_of_mem _ hc)
    have hp : (PackFile reg cc f n d).1 o = f o := by
      unfold PackFile
      split
      · rfl
      · cases PackWriter reg (pathExt n) d with
        | ok x => exact if_neg h1
        | err e => exact if_neg h1
        | panic => exact if_neg h1
    rw [writeAll]
    generalize PackFile reg cc f n d = x at hp ⊢
    obtain ⟨f', r⟩ := x
    cases r with
    | ok d' => exact (writeAll_kept reg cc o os f' d' h2).trans hp
    | err e => exact hp
    | panic => exact hp

theorem Job.afterPack_kept (j : Job) (o : Str) (f : Fs) (r : Res HData) (more : List Str) (h : o ∉ more) :
    (j.afterPack f r more).1 o = f o := by
  cases r with
  | ok d => exact writeAll_kept _ _ o more f d h
  | err e => rfl
  | panic => rfl

/-- What has been created is, at the end, what it is now and what is added to it. -/
theorem created_grows {j : Job} {o : Str} {f : Fs} {p : Phase} (ho : o ∈ j.outs) (hd : j.Distinct p) (h : j.Created o f p) :
    ∃ b c fend r, f o = some b ∧ (Proc.convert j).rest f p = some (fend, r) ∧ fend o = some c ∧ b <+: c := by
  obtain ⟨h1, b, hb⟩ := h
  cases p with
  | finished r => exact ⟨b, b, f, r, hb, rfl, hb, List.prefix_refl b⟩
  | hung => exact absurd ho h1
  | begin => exact absurd ho h1
  | readingLine got => exact absurd ho h1
  | readingInput q got => exact absurd ho h1
  | readingDb got => exact absurd ho h1
  | outputs os d =>
    exact ⟨b, b, _, _, hb, rfl, (writeAll_kept _ _ o os f d h1).trans hb, List.prefix_refl b⟩
  | writing n off rest res more =>
    obtain ⟨hd1, hd2⟩ : n ∉ more ∧ more.Nodup := hd
    refine ⟨b, if o = n then b ++ rest else b, _, _, hb, rfl, ?_, ?_⟩
    · rw [j.afterPack_kept o _ res more h1]
      unfold Fs.set
      by_cases hno : o = n
      · subst hno
        rw [if_pos rfl, if_pos rfl, hb]; rfl
      · rw [if_neg hno, if_neg hno, hb]
    · split
      · exact List.prefix_append b rest
      · exact List.prefix_refl b

/-! ## A reader of an output -/

/-- What a program that reads output `o` has got: the beginning of the old file, and then what comes after as many bytes in the new
one. -/
def Got (pr : Proc) (fs0 : Fs) (o : Str) (got : Bytes) : Prop :=
  got <+: (fs0 o).getD [] ∨
  ∃ fend r c m l, pr.alone fs0 = some (fend, r) ∧ fend o = some c ∧ m ≤ ((fs0 o).getD []).length ∧ m + l ≤ c.length ∧
    got = ((fs0 o).getD []).take m ++ (c.drop m).take l

/-- How the opening of output `o` ends. -/
def Ends (pr : Proc) (fs0 : Fs) (o : Str) (w : World) (fuel : Nat) (r : Outcome) : Prop :=
  (r = .opened .panic ∧ fs0 o = none) ∨
  ∃ got, Got pr fs0 o got ∧ r = .opened (NewDb w (serverFormats w fuel) (fun _ => some got) o)

/-- Converter `i` writes `o`, and process `k` opens it. -/
structure Watch {ι : Type} (procs : ι → Proc) (i k : ι) (j : Job) (o : Str) (w : World) (fuel : Nat) (fs0 : Fs) (s : Moment ι)
    (f : Fs) : Prop where
  own : Own procs s
  priv : Private procs i fs0 s f
  distinct : j.Distinct (s.at_ i)
  out : (Untouched o fs0 f (s.at_ i) ∧ ∀ got, s.at_ k = .readingDb got → got <+: (fs0 o).getD []) ∨
    (j.Created o f (s.at_ i) ∧ ∀ got, s.at_ k = .readingDb got → Got (procs i) fs0 o got)
  phase : s.at_ k = .begin ∨ (∃ got, s.at_ k = .readingDb got) ∨ ∃ r, s.at_ k = .finished r
  fin : ∀ r, s.at_ k = .finished r → Ends (procs i) fs0 o w fuel r

/-- What is in output `o`. -/
theorem Watch.now {ι : Type} {procs : ι → Proc} {i k : ι} {j : Job} {o : Str} {w : World} {fuel : Nat} {fs0 : Fs}
    {s : Moment ι} {f : Fs} (hi : procs i = .convert j) (ho : o ∈ j.outs) (h : Watch procs i k j o w fuel fs0 s f)
    (hc : j.Created o f (s.at_ i)) : ∃ b c fend r, s.fs o = some b ∧ (procs i).alone fs0 = some (fend, r) ∧ fend o = some c ∧ b <+: c := by
  obtain ⟨b, c, fend, r, h1, h2, h3, h4⟩ := created_grows ho h.distinct hc
  refine ⟨b, c, fend, r, ?_, ?_, h3, h4⟩
  · rw [h.priv.same o (by rw [hi]; exact outs_used ho), h1]
  · rw [← h.priv.rest, hi]; exact h2

/-- A read goes on where the last one ended. -/
theorem Got.more {pr : Proc} {fs0 fs fend : Fs} {o : Str} {got b c : Bytes} {r : Outcome} {k : Nat} (h : Got pr fs0 o got)
    (ha : pr.alone fs0 = some (fend, r)) (hc : fend o = some c) (hb : fs o = some b) (hp : b <+: c) :
    Got pr fs0 o (got ++ fs.readOn o got k) := by
  have hread : ∀ g : Bytes, ∃ l, fs.readOn o g k = (c.drop g.length).take l ∧ (g.length + l ≤ c.length ∨ l = 0) := by
    intro g
    unfold Fs.readOn
    rw [hb, Option.getD_some]
    obtain ⟨t, rfl⟩ := hp
    by_cases hg : g.length ≤ b.length
    · refine ⟨((b.drop g.length).take (k + 1)).length, ?_, .inl ?_⟩
      · rw [List.drop_append_of_le_length hg, List.take_append_of_le_length (by rw [List.length_take]; exact Nat.min_le_right _ _)]
        rw [List.length_take, List.take_eq_take_min]
      · rw [List.length_take, List.length_drop, List.length_append]; omega
    · refine ⟨0, ?_, .inr rfl⟩
      rw [List.drop_eq_nil_of_le (by omega)]; rfl
  obtain ⟨l, hl, hlen⟩ := hread got
  rw [hl]
  rcases h with h | ⟨fend', r', c', m, l', h1, h2, h3, h4, h5⟩
  · rcases hlen with hlen | h0
    · refine .inr ⟨fend, r, c, got.length, l, ha, hc, h.length_le, hlen, ?_⟩
      obtain ⟨t, ht⟩ := h
      rw [← ht, List.take_left]
    · subst h0
      rw [List.take_zero, List.append_nil]; exact .inl h
  · rw [ha] at h1
    have h1 := Option.some.inj h1
    have e1 : fend = fend' := congrArg Prod.fst h1
    subst e1
    rw [hc] at h2
    have h2 := Option.some.inj h2
    subst h2
    have hlg : got.length = m + l' := by
      rw [h5, List.length_append, List.length_take, List.length_take, List.length_drop]; omega
    rcases hlen with hlen | h0
    · refine .inr ⟨fend, r, c, m, l' + l, ha, hc, h3, by omega, ?_⟩
      rw [hlg, ← List.drop_drop, List.take_add, ← List.append_assoc, ← h5]
    · subst h0
      rw [List.take_zero, List.append_nil]
      exact .inr ⟨fend, r, c, m, l', ha, hc, h3, h4, h5⟩

theorem step_self_at {ι : Type} [DecidableEq ι] (procs : ι → Proc) (s : Moment ι) (i : ι) (n : Nat) :
    (s.step procs (i, n)).at_ i = ((procs i).step n s.fs (s.at_ i)).1 := if_pos rfl

theorem step_other_at {ι : Type} [DecidableEq ι] (procs : ι → Proc) (s : Moment ι) {i k : ι} (n : Nat) (h : k ≠ i) :
    (s.step procs (i, n)).at_ k = s.at_ k := if_neg h

/-- Steps of other processes than `k` keep what has been read. -/
theorem Watch.quiet {ι : Type} [DecidableEq ι] {procs : ι → Proc} {i k : ι} {j : Job} {o : Str} {w : World} {fuel : Nat} {fs0 : Fs}
    (hi : procs i = .convert j) (hu : Undisturbed procs i) (hn : j.outs.Nodup) (ho : o ∈ j.outs) {s : Moment ι} {f : Fs}
    (h : Watch procs i k j o w fuel fs0 s f) (x : ι × Nat) (hx : x.1 ≠ k) :
    ∃ f', Watch procs i k j o w fuel fs0 (s.step procs x) f' := by
  obtain ⟨y, n⟩ := x
  have hk : (s.step procs (y, n)).at_ k = s.at_ k := step_other_at procs s n (fun e => hx e.symm)
  by_cases hy : y = i
  · subst hy
    obtain ⟨hat, hp⟩ := h.priv.self n
    have hs := h.priv.sound
    obtain ⟨w1, w2⟩ := j.step_watch n f (s.at_ y) hn h.distinct (by rw [← hi]; exact hs)
    have e : (procs y).step n f (s.at_ y) = j.step n f (s.at_ y) := by rw [hi]; rfl
    rw [e] at hat hp
    refine ⟨_, h.own.step _, hp, by rw [hat]; exact w1, ?_, by rw [hk]; exact h.phase, by rw [hk]; exact h.fin⟩
    rw [hat, hk]
    rcases h.out with ⟨u, g⟩ | ⟨c, g⟩
    · rcases (w2 o fs0).1 u with u | c
      · exact .inl ⟨u, g⟩
      · exact .inr ⟨c, fun got e => .inl (g got e)⟩
    · exact .inr ⟨(w2 o fs0).2 ho c, g⟩
  · have hat : (s.step procs (y, n)).at_ i = s.at_ i := step_other_at procs s n (fun e => hy e.symm)
    exact ⟨f, h.own.step _, h.priv.other hu h.own hy, by rw [hat]; exact h.distinct, by rw [hat, hk]; exact h.out,
      by rw [hk]; exact h.phase, by rw [hk]; exact h.fin⟩

/-- So do steps of process `k`. -/
theorem Watch.read {ι : Type} [DecidableEq ι] {procs : ι → Proc} {i k : ι} {j : Job} {o : Str} {w : World} {fuel : Nat} {fs0 : Fs}
    (hi : procs i = .convert j) (hk : procs k = .opener w fuel o) (hu : Undisturbed procs i) (ho : o ∈ j.outs)
    {s : Moment ι} {f : Fs} (h : Watch procs i k j o w fuel fs0 s f) (n : Nat) :
    Watch procs i k j o w fuel fs0 (s.step procs (k, n)) f := by
  have hki : k ≠ i := fun e => by rw [e, hi] at hk; cases hk
  have hat : (s.step procs (k, n)).at_ i = s.at_ i := step_other_at procs s n (fun e => hki e.symm)
  have hkk : (s.step procs (k, n)).at_ k = (openerStep w fuel o n s.fs (s.at_ k)).1 := by
    rw [step_self_at, hk]; rfl
  have hpriv := h.priv.other hu h.own (x := (k, n)) hki
  have hso : s.fs o = f o := h.priv.same o (by rw [hi]; exact outs_used ho)
  refine ⟨h.own.step _, hpriv, by rw [hat]; exact h.distinct, ?_, ?_, ?_⟩
  · rw [hat]
    rcases h.out with ⟨u, g⟩ | ⟨c, g⟩
    · refine .inl ⟨u, fun got e => ?_⟩
      rw [hkk] at e
      rcases h.phase with h1 | ⟨got0, h1⟩ | ⟨r, h1⟩
      · rw [h1] at e
        simp only [openerStep] at e
        cases hf : s.fs o with
        | none => rw [hf] at e; cases e
        | some b => rw [hf] at e; injection e with e; rw [← e]; exact List.nil_prefix
      · rw [h1] at e
        have g0 := g got0 h1
        simp only [openerStep] at e
        cases hr : s.fs.readOn o got0 n with
        | nil => rw [hr] at e; cases e
        | cons y ys =>
          rw [hr] at e
          injection e with e
          rw [← e]
          have hb : s.fs o = fs0 o := hso.trans u.1
          cases h0 : fs0 o with
          | none =>
            unfold Fs.readOn at hr
            rw [hb, h0] at hr
            simp at hr
          | some b =>
            rw [h0] at g0
            exact readOn_cons (hb.trans h0) g0 hr
      · rw [h1] at e; cases e
    · refine .inr ⟨c, fun got e => ?_⟩
      rw [hkk] at e
      rcases h.phase with h1 | ⟨got0, h1⟩ | ⟨r, h1⟩
      · rw [h1] at e
        simp only [openerStep] at e
        cases hf : s.fs o with
        | none => rw [hf] at e; cases e
        | some b => rw [hf] at e; injection e with e; rw [← e]; exact .inl List.nil_prefix
      · rw [h1] at e
        have g0 := g got0 h1
        obtain ⟨b, cc, fend, r, n1, n2, n3, n4⟩ := h.now hi ho c
        have := g0.more (k := n) n2 n3 n1 n4
        simp only [openerStep] at e
        cases hr : s.fs.readOn o got0 n with
        | nil => rw [hr] at e; cases e
        | cons y ys =>
          rw [hr] at e this
          injection e with e
          rw [← e]; exact this
      · rw [h1] at e; cases e
  · rw [hkk]
    rcases h.phase with h1 | ⟨got0, h1⟩ | ⟨r, h1⟩
    · rw [h1]
      simp only [openerStep]
      cases s.fs o with
      | none => exact .inr (.inr ⟨_, rfl⟩)
      | some b => exact .inr (.inl ⟨_, rfl⟩)
    · rw [h1]
      simp only [openerStep]
      cases s.fs.readOn o got0 n with
      | nil => exact .inr (.inr ⟨_, rfl⟩)
      | cons y ys => exact .inr (.inl ⟨_, rfl⟩)
    · rw [h1]; exact .inr (.inr ⟨r, rfl⟩)
  · intro r e
    rw [hkk] at e
    rcases h.phase with h1 | ⟨got0, h1⟩ | ⟨r', h1⟩
    · rw [h1] at e
      simp only [openerStep] at e
      cases hf : s.fs o with
      | some b => rw [hf] at e; cases e
      | none =>
        rw [hf] at e
        injection e with e
        refine .inl ⟨e.symm, ?_⟩
        rcases h.out with ⟨u, _⟩ | ⟨⟨_, b, hb⟩, _⟩
        · rw [← u.1, ← hso, hf]
        · rw [← hso, hf] at hb; cases hb
    · rw [h1] at e
      simp only [openerStep] at e
      cases hr : s.fs.readOn o got0 n with
      | cons y ys => rw [hr] at e; cases e
      | nil =>
        rw [hr] at e
        injection e with e
        refine .inr ⟨got0, ?_, e.symm⟩
        rcases h.out with ⟨_, g⟩ | ⟨_, g⟩
        · exact .inl (g got0 h1)
        · exact g got0 h1
    · rw [h1] at e
      exact h.fin r (by rw [h1]; exact e)

theorem Watch.start {ι : Type} (procs : ι → Proc) (i k : ι) (j : Job) (hn : j.outs.Nodup) (o : Str)
    (w : World) (fuel : Nat) (fs0 : Fs) : Watch procs i k j o w fuel fs0 (.start fs0) fs0 :=
  ⟨Own.start procs fs0, Private.start procs i fs0, hn, .inl ⟨⟨rfl, fun _ _ _ _ _ e => by cases e⟩, fun _ e => by cases e⟩, .inl rfl,
    fun _ e => by cases e⟩

theorem Watch.schedule {ι : Type} [DecidableEq ι] {procs : ι → Proc} {i k : ι} {j : Job} {o : Str} {w : World} {fuel : Nat} {fs0 : Fs}
    (hi : procs i = .convert j) (hk : procs k = .opener w fuel o) (hu : Undisturbed procs i) (hn : j.outs.Nodup) (ho : o ∈ j.outs) :
    ∀ (xs : List (ι × Nat)) {s : Moment ι} {f : Fs}, Watch procs i k j o w fuel fs0 s f →
      ∃ f', Watch procs i k j o w fuel fs0 (schedule procs s xs) f'
  | [], _, f, h => ⟨f, h⟩
  | x :: xs, s, f, h => by
    by_cases hx : x.1 = k
    · obtain ⟨y, n⟩ := x
      subst hx
      exact Watch.schedule hi hk hu hn ho xs (h.read hi hk hu ho n)
    · obtain ⟨f', h'⟩ := h.quiet hi hu hn ho x hx
      exact Watch.schedule hi hk hu hn ho xs h'

/-! ## C123 -/

/-- **C123 (what is in an output).** A converter, whose files no other program writes, runs among other programs.  At every moment
each of its outputs is what it was before, or the beginning of what the run leaves there. -/
theorem C123_moment {ι : Type} [DecidableEq ι] (procs : ι → Proc) (fs : Fs) (i : ι) (j : Job) (hi : procs i = .convert j)
    (hu : Undisturbed procs i) (hn : j.outs.Nodup) (xs : List (ι × Nat)) :
    ∀ o ∈ j.outs, (schedule procs (.start fs) xs).fs o = fs o ∨
      ∃ fend r b c, converter j.w j.fuel j.orders j.canCreate fs j.args = some (fend, r) ∧ fend o = some c ∧
        (schedule procs (.start fs) xs).fs o = some b ∧ b <+: c := by
  intro o ho
  have : ∀ (xs : List (ι × Nat)) {s : Moment ι} {f : Fs}, Own procs s → Private procs i fs s f → j.Distinct (s.at_ i) →
      (Untouched o fs f (s.at_ i) ∨ j.Created o f (s.at_ i)) → ∃ f', Private procs i fs (schedule procs s xs) f' ∧
        j.Distinct ((schedule procs s xs).at_ i) ∧
        (Untouched o fs f' ((schedule procs s xs).at_ i) ∨ j.Created o f' ((schedule procs s xs).at_ i)) := by
    intro xs
    induction xs with
    | nil => intro s f _ h1 h2 h3; exact ⟨f, h1, h2, h3⟩
    | cons x xs ih =>
      intro s f h0 h1 h2 h3
      obtain ⟨y, n⟩ := x
      by_cases hy : y = i
      · subst hy
        obtain ⟨hat, hp⟩ := h1.self n
        obtain ⟨w1, w2⟩ := j.step_watch n f (s.at_ y) hn h2 (by rw [← hi]; exact h1.sound)
        have e : (procs y).step n f (s.at_ y) = j.step n f (s.at_ y) := by rw [hi]; rfl
        rw [e] at hat hp
        refine ih (h0.step _) hp (by rw [hat]; exact w1) ?_
        rw [hat]
        rcases h3 with h3 | h3
        · exact (w2 o fs).1 h3
        · exact .inr ((w2 o fs).2 ho h3)
      · have hat : (s.step procs (y, n)).at_ i = s.at_ i := step_other_at procs s n (fun e => hy e.symm)
        exact ih (h0.step _) (h1.other hu h0 hy) (by rw [hat]; exact h2) (by rw [hat]; exact h3)
  obtain ⟨f, h1, h2, h3⟩ := this xs (Own.start procs fs) (Private.start procs i fs) hn
    (.inl ⟨rfl, fun _ _ _ _ _ e => by cases e⟩)
  have hso : (schedule procs (.start fs) xs).fs o = f o := h1.same o (by rw [hi]; exact outs_used ho)
  rcases h3 with h3 | h3
  · exact .inl (hso.trans h3.1)
  · obtain ⟨b, c, fend, r, k1, k2, k3, k4⟩ := created_grows ho h2 h3
    have k2 : (procs i).alone fs = some (fend, r) := by rw [← h1.rest, hi]; exact k2
    rw [hi] at k2
    simp only [Proc.alone] at k2
    cases hc : converter j.w j.fuel j.orders j.canCreate fs j.args with
    | none => rw [hc] at k2; cases k2
    | some x =>
      rw [hc] at k2
      have k2 := Option.some.inj k2
      have e : x.1 = fend := congrArg Prod.fst k2
      exact .inr ⟨fend, x.2, b, c, by rw [← e], k3, hso.trans k1, k4⟩

/-- **C123 (opening it).** A program that opens an output of this converter, at any time, panics as the file is not there yet, or
opens what it has read: the beginning of the old file, followed by what comes after as many bytes in the new one. -/
theorem C123_opened {ι : Type} [DecidableEq ι] (procs : ι → Proc) (fs : Fs) (i k : ι) (j : Job) (w : World) (fuel : Nat) (o : Str)
    (hi : procs i = .convert j) (hk : procs k = .opener w fuel o) (hu : Undisturbed procs i) (hn : j.outs.Nodup) (ho : o ∈ j.outs)
    (xs : List (ι × Nat)) (r : Outcome) (hr : (schedule procs (.start fs) xs).at_ k = .finished r) :
    (r = .opened .panic ∧ fs o = none) ∨ ∃ got, r = .opened (NewDb w (serverFormats w fuel) (fun _ => some got) o) ∧
      (got <+: (fs o).getD [] ∨ ∃ fend r' c m l, converter j.w j.fuel j.orders j.canCreate fs j.args = some (fend, r') ∧
        fend o = some c ∧ m ≤ ((fs o).getD []).length ∧ m + l ≤ c.length ∧
        got = ((fs o).getD []).take m ++ (c.drop m).take l) := by
  obtain ⟨f, h⟩ := Watch.schedule hi hk hu hn ho xs (Watch.start procs i k j hn o w fuel fs)
  rcases h.fin r hr with h1 | ⟨got, h1, h2⟩
  · exact .inl h1
  · refine .inr ⟨got, h2, ?_⟩
    rcases h1 with h1 | ⟨fend, r', c, m, l, k2, k3, k4, k5, k6⟩
    · exact .inl h1
    · rw [hi] at k2
      simp only [Proc.alone] at k2
      cases hc : converter j.w j.fuel j.orders j.canCreate fs j.args with
      | none => rw [hc] at k2; cases k2
      | some x =>
        rw [hc] at k2
        have e : x.1 = fend := congrArg Prod.fst (Option.some.inj k2)
        exact .inr ⟨fend, x.2, c, m, l, by rw [← e], k3, k4, k5, k6⟩

/-! ## Old and new -/

theorem openerStep_fs (w : World) (fuel : Nat) (o : Str) (k : Nat) (fs : Fs) (p : Phase) : (openerStep w fuel o k fs p).2 = fs := by
  cases p with
  | begin => simp only [openerStep]; cases fs o <;> rfl
  | readingDb got => simp only [openerStep]; cases fs.readOn o got k <;> rfl
  | _ => rfl

theorem schedule_only {ι : Type} [DecidableEq ι] (procs : ι → Proc) {i k : ι} (hki : k ≠ i) : ∀ (n : Nat) (s : Moment ι),
    (schedule procs s (List.replicate n (i, 0))).at_ k = s.at_ k
  | 0, _ => rfl
  | n + 1, s => by
    rw [List.replicate_succ]
    exact (schedule_only procs hki n _).trans (step_other_at procs s 0 hki)

/-- **C123 (the limit of it).** If there is an old file, a program that opens it while the converter writes over it can get any
beginning of the old file followed by the rest of the new one. -/
theorem C123_mixed {ι : Type} [DecidableEq ι] (procs : ι → Proc) (fs fend : Fs) (i k : ι) (j : Job) (w : World) (fuel : Nat) (o : Str)
    (hi : procs i = .convert j) (hk : procs k = .opener w fuel o) (hu : Undisturbed procs i) (ho : o ∈ j.outs) (r : Res Unit)
    (h : converter j.w j.fuel j.orders j.canCreate fs j.args = some (fend, r)) (old new : Bytes) (hold : fs o = some old)
    (hnew : fend o = some new) (m : Nat) (hm : m ≤ old.length) :
    ∃ xs, (schedule procs (.start fs) xs).at_ k =
      .finished (.opened (NewDb w (serverFormats w fuel) (fun _ => some (old.take m ++ new.drop m)) o)) := by
  have hki : k ≠ i := fun e => by rw [e, hi] at hk; cases hk
  have ostep : ∀ (s : Moment ι) n, (s.step procs (k, n)).fs = s.fs ∧
      (s.step procs (k, n)).at_ k = (openerStep w fuel o n s.fs (s.at_ k)).1 := by
    intro s n
    refine ⟨?_, by rw [step_self_at, hk]; rfl⟩
    show ((procs k).step n s.fs (s.at_ k)).2 = _
    rw [hk]; exact openerStep_fs w fuel o n s.fs _
  -- one read gets what is asked for
  have rd : ∀ (s : Moment ι) (got c : Bytes) n, s.at_ k = .readingDb got → s.fs o = some c →
      ∃ xs, (schedule procs s xs).fs = s.fs ∧ (schedule procs s xs).at_ k = .readingDb (got ++ (c.drop got.length).take n) ∧
        ∀ x ∈ xs, x.1 = k := by
    intro s got c n hp hc
    cases n with
    | zero => exact ⟨[], rfl, by rw [List.take_zero, List.append_nil]; exact hp, fun _ hx => by cases hx⟩
    | succ n =>
      cases hr : s.fs.readOn o got n with
      | nil =>
        refine ⟨[], rfl, ?_, fun _ hx => by cases hx⟩
        have : (c.drop got.length).take (n + 1) = [] := by rw [← hr]; unfold Fs.readOn; rw [hc]; rfl
        rw [this, List.append_nil]; exact hp
      | cons y ys =>
        refine ⟨[(k, n)], (ostep s n).1, ?_, fun x hx => by rw [List.mem_singleton.mp hx]⟩
        have : (c.drop got.length).take (n + 1) = y :: ys := by rw [← hr]; unfold Fs.readOn; rw [hc]; rfl
        rw [this]
        show (s.step procs (k, n)).at_ k = _
        rw [(ostep s n).2, hp]
        simp only [openerStep, hr]
  -- steps of `k` leave the converter alone
  have keep : ∀ (xs : List (ι × Nat)) (s : Moment ι) (f : Fs), (∀ x ∈ xs, x.1 = k) → Own procs s → Private procs i fs s f →
      Own procs (schedule procs s xs) ∧ Private procs i fs (schedule procs s xs) f := by
    intro xs
    induction xs with
    | nil => intro s f _ h1 h2; exact ⟨h1, h2⟩
    | cons x xs ih =>
      intro s f hx h1 h2
      exact ih _ _ (fun y hy => hx y (List.mem_cons_of_mem _ hy)) (h1.step x)
        (h2.other hu h1 (by rw [hx x List.mem_cons_self]; exact hki))
  -- the opener begins
  let s1 := (Moment.start fs).step procs (k, 0)
  have s1fs : s1.fs = fs := (ostep (.start fs) 0).1
  have s1at : s1.at_ k = .readingDb [] := by
    rw [(ostep (.start fs) 0).2]
    show (openerStep w fuel o 0 fs .begin).1 = _
    simp only [openerStep, hold]
  have s1own := (Own.start procs fs).step (k, 0)
  have s1priv := (Private.start procs i fs).other hu (Own.start procs fs) (x := (k, 0)) hki
  obtain ⟨xs2, f2, a2, k2⟩ := rd s1 [] old m s1at (by rw [s1fs]; exact hold)
  obtain ⟨o2, p2⟩ := keep xs2 s1 fs k2 s1own s1priv
  -- the converter runs
  have halone : (procs i).alone fs = some (fend, .converted r) := by
    rw [hi]; show (converter j.w j.fuel j.orders j.canCreate fs j.args).map _ = _; rw [h]; rfl
  let N := (procs i).cost fs ((schedule procs s1 xs2).at_ i) + 1
  have hN : ((List.replicate N (i, 0)).filter fun x : ι × Nat => decide (x.1 = i)).length = N := by
    rw [List.filter_eq_self.mpr (by intro x hx; rw [(List.mem_replicate.mp hx).2]; exact decide_eq_true rfl), List.length_replicate]
  obtain ⟨r3, e3⟩ := progress hu (by rw [halone]; exact fun e => by cases e) (List.replicate N (i, 0)) o2 p2
    (by rw [hN]; exact Nat.le_succ _) (.inr (by rw [hN]; exact Nat.succ_pos _))
  obtain ⟨f3, p3⟩ := Private.schedule hu (List.replicate N (i, 0)) o2 p2
  have hf3 : f3 = fend := by
    have := p3.rest
    rw [e3, halone] at this
    rw [hi] at this
    exact congrArg Prod.fst (Option.some.inj this)
  have a3 : (schedule procs (schedule procs s1 xs2) (List.replicate N (i, 0))).at_ k = .readingDb (old.take m) := by
    rw [schedule_only procs hki, a2]; rfl
  have n3 : (schedule procs (schedule procs s1 xs2) (List.replicate N (i, 0))).fs o = some new := by
    rw [p3.same o (by rw [hi]; exact outs_used ho), hf3, hnew]
  obtain ⟨xs4, f4, a4, _⟩ := rd _ _ new new.length a3 n3
  refine ⟨(k, 0) :: (xs2 ++ (List.replicate N (i, 0) ++ (xs4 ++ [(k, 0)]))), ?_⟩
  show (schedule procs s1 (xs2 ++ (List.replicate N (i, 0) ++ (xs4 ++ [(k, 0)])))).at_ k = _
  rw [schedule_append, schedule_append, schedule_append]
  show (Moment.step procs _ (k, 0)).at_ k = _
  have hlen : (old.take m).length = m := by rw [List.length_take]; omega
  have hgot : old.take m ++ (new.drop (old.take m).length).take new.length = old.take m ++ new.drop m := by
    rw [hlen, show (new.drop m).take new.length = new.drop m from List.take_of_length_le (by rw [List.length_drop]; omega)]
  rw [hgot] at a4
  rw [(ostep _ 0).2, a4]
  have hr : Fs.readOn (schedule procs (schedule procs (schedule procs s1 xs2) (List.replicate N (i, 0))) xs4).fs o
      (old.take m ++ new.drop m) 0 = [] := by
    unfold Fs.readOn
    rw [f4, n3, Option.getD_some, List.drop_eq_nil_of_le (by rw [List.length_append, hlen, List.length_drop]; omega)]
    rfl
  simp only [openerStep, hr]

end Uip.Program
