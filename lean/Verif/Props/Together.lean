import Verif.Model.Together
import Verif.Props.Writing
/-!
# C122, C123: programs that run at the same time
-/
namespace Uip.Program
open Uip

/-! ## What is left to do, in one go -/

/-- The rest of a conversion from the dump on. -/
def Job.afterDump (j : Job) (fs : Fs) (r : Option (Res HData)) : Option (Fs × Res Unit) :=
  r.map fun r => match r with
    | .ok d => writeAll (converterFormats j.w j.fuel) j.canCreate j.outs fs d
    | .err e => (fs, .err e)
    | .panic => (fs, .panic)

/-- The rest of a conversion from the opening of the input on. -/
def Job.fromInput (j : Job) (fs : Fs) (q : Option OpenDb) : Option (Fs × Res Unit) :=
  match fs j.args.input with
  | none => some (fs, .err (.other "read file"))
  | some b => j.afterDump fs (j.dump q b)

theorem Job.fromInput_eq (j : Job) (fs : Fs) (q : Option OpenDb) : j.fromInput fs q =
    j.afterDump fs (DumpFile (converterFormats j.w j.fuel) fs j.args.input (ruleText j.args.rule)
      (operations j.w j.orders q j.args.lineReplace)) := by
  unfold Job.fromInput Job.dump DumpFile
  cases fs j.args.input with
  | none => rfl
  | some b => rfl

/-- The rest of a conversion from the opening of the line file on. -/
def Job.fromLine (j : Job) (fs : Fs) : Option (Fs × Res Unit) :=
  match fs j.args.line with
  | none => some (fs, .panic)
  | some b => match j.lineDb b with
    | .ok q => j.fromInput fs (some q)
    | .err e => some (fs, .err e)
    | .panic => some (fs, .panic)

/-- A whole conversion. -/
def Job.all (j : Job) (fs : Fs) : Option (Fs × Res Unit) := converter j.w j.fuel j.orders j.canCreate fs j.args

theorem Job.all_eq (j : Job) (fs : Fs) : j.all fs = if j.args.line ≠ [] then j.fromLine fs else j.fromInput fs none := by
  unfold Job.all converter Job.fromLine
  simp only []
  split
  · unfold Job.lineDb NewDb
    cases hl : fs j.args.line with
    | none => rfl
    | some b =>
      simp only []
      cases NewDbFromBytes j.w (converterFormats j.w j.fuel) (pathExt j.args.line) b with
      | ok q => simp only [Job.fromInput_eq]; rfl
      | err e => rfl
      | panic => rfl
  · rw [Job.fromInput_eq]; rfl

/-- The rest of a conversion from a packer's end on. -/
def Job.afterPack (j : Job) (fs : Fs) (r : Res HData) (more : List Str) : Fs × Res Unit :=
  match r with
  | .ok d => writeAll (converterFormats j.w j.fuel) j.canCreate more fs d
  | .err e => (fs, .err e)
  | .panic => (fs, .panic)

theorem Job.writeAll_cons (j : Job) (o : Str) (os : List Str) (fs : Fs) (d : HData) (hc : ¬ j.canCreate o = false) :
    writeAll (converterFormats j.w j.fuel) j.canCreate (o :: os) fs d =
      j.afterPack (fs.set o ((outputCalls j.w (pathExt o) d).1.map Prod.snd).flatten) (outputCalls j.w (pathExt o) d).2 os := by
  have hs := outputCalls_spec j.w j.fuel (pathExt o) d
  rw [writeAll]
  unfold PackFile
  rw [if_neg hc]
  cases hp : PackWriter (converterFormats j.w j.fuel) (pathExt o) d with
  | ok x =>
    obtain ⟨b, d'⟩ := x
    rw [hp] at hs
    rw [hs.1, hs.2]; rfl
  | err e =>
    rw [hp] at hs
    rw [hs.1, hs.2]; rfl
  | panic =>
    rw [hp] at hs
    rw [hs.1, hs.2]; rfl

/-- The rest of a process. -/
def Proc.rest (fs : Fs) : Proc → Phase → Option (Fs × Outcome)
  | _, .finished r => some (fs, r)
  | _, .hung => none
  | .convert j, .begin => (j.all fs).map fun x => (x.1, .converted x.2)
  | .convert j, .readingLine _ => (j.fromLine fs).map fun x => (x.1, .converted x.2)
  | .convert j, .readingInput q _ => (j.fromInput fs q).map fun x => (x.1, .converted x.2)
  | .convert j, .outputs os d =>
    let x := writeAll (converterFormats j.w j.fuel) j.canCreate os fs d
    some (x.1, .converted x.2)
  | .convert j, .writing o _ b res more =>
    let x := j.afterPack (fs.set o ((fs o).getD [] ++ b)) res more
    some (x.1, .converted x.2)
  | .opener w fuel file, .begin => some (fs, .opened (NewDb w (serverFormats w fuel) fs file))
  | .opener w fuel file, .readingDb _ => some (fs, .opened (NewDb w (serverFormats w fuel) fs file))
  | _, _ => none

/-- What is true of a process that is by itself: it has read the beginning of the file it reads, and writes at the end of the
file it writes, one of its outputs. -/
def Proc.Sound (fs : Fs) : Proc → Phase → Prop
  | _, .finished _ => True
  | .convert _, .hung => True
  | .convert _, .begin => True
  | .convert j, .readingLine got => j.args.line ≠ [] ∧ ∃ b, fs j.args.line = some b ∧ got <+: b
  | .convert j, .readingInput _ got => ∃ b, fs j.args.input = some b ∧ got <+: b
  | .convert j, .outputs os _ => ∀ o ∈ os, o ∈ j.outs
  | .convert j, .writing o off _ _ more => (∃ c, fs o = some c ∧ c.length = off) ∧ o ∈ j.outs ∧ ∀ o ∈ more, o ∈ j.outs
  | .opener _ _ _, .begin => True
  | .opener _ _ file, .readingDb got => ∃ b, fs file = some b ∧ got <+: b
  | _, _ => False

theorem readOn_nil {fs : Fs} {n : Str} {got b : Bytes} {k : Nat} (hb : fs n = some b) (hp : got <+: b)
    (h : fs.readOn n got k = []) : got = b := by
  unfold Fs.readOn at h
  rw [hb] at h
  obtain ⟨t, rfl⟩ := hp
  simp only [Option.getD_some, List.drop_left] at h
  cases t with
  | nil => simp
  | cons x xs => simp at h

theorem readOn_cons {fs : Fs} {n : Str} {got b : Bytes} {k : Nat} {x : UInt8} {xs : Bytes} (hb : fs n = some b)
    (hp : got <+: b) (h : fs.readOn n got k = x :: xs) : got ++ x :: xs <+: b := by
  unfold Fs.readOn at h
  rw [hb] at h
  obtain ⟨t, rfl⟩ := hp
  simp only [Option.getD_some, List.drop_left] at h
  rw [← h]
  exact (List.prefix_append_right_inj got).mpr (List.take_prefix _ _)

theorem set_set (fs : Fs) (n : Str) (a b : Bytes) : (fs.set n a).set n b = fs.set n b := by
  funext m; unfold Fs.set; split <;> rfl

theorem set_same {fs : Fs} {n : Str} {b : Bytes} (h : fs n = some b) : fs.set n b = fs := by
  funext m; unfold Fs.set; split
  · rename_i e; rw [e, h]
  · rfl

theorem writeAt_end {fs : Fs} {n : Str} {c b : Bytes} (h : fs n = some c) : fs.writeAt n c.length b = fs.set n (c ++ b) := by
  unfold Fs.writeAt
  have : c.drop (c.length + b.length) = [] := List.drop_eq_nil_of_le (by omega)
  simp [h, this]

/-- One step by itself leaves the same to do in one go. -/
theorem Proc.step_rest (pr : Proc) (k : Nat) (fs : Fs) (p : Phase) (hs : pr.Sound fs p) :
    pr.rest (pr.step k fs p).2 (pr.step k fs p).1 = pr.rest fs p ∧ pr.Sound (pr.step k fs p).2 (pr.step k fs p).1 := by
  have hin : ∀ (j : Job) (q : Option OpenDb), (Proc.convert j).rest fs (j.openInput fs q) =
      ((j.fromInput fs q).map fun x => (x.1, Outcome.converted x.2)) ∧ (Proc.convert j).Sound fs (j.openInput fs q) := by
    intro j q
    unfold Job.openInput Job.fromInput
    cases h : fs j.args.input with
    | none => exact ⟨rfl, trivial⟩
    | some b =>
      refine ⟨?_, b, h, List.nil_prefix⟩
      simp only [Proc.rest, Job.fromInput, h]
  cases pr with
  | convert j =>
    cases p with
    | finished r => exact ⟨rfl, trivial⟩
    | hung => exact ⟨rfl, trivial⟩
    | readingDb got => exact hs.elim
    | begin =>
      by_cases hl : j.args.line ≠ []
      · have hr : (Proc.convert j).rest fs .begin = (j.fromLine fs).map fun x => (x.1, Outcome.converted x.2) := by
          show ((j.all fs).map fun x => (x.1, Outcome.converted x.2)) = _
          rw [Job.all_eq, if_pos hl]
        rw [hr]
        cases h : fs j.args.line with
        | none =>
          have e : (Proc.convert j).step k fs .begin = (.finished (.converted .panic), fs) := by
            simp only [Proc.step, Job.step, if_pos hl, h]
          rw [e]
          exact ⟨by simp only [Job.fromLine, h]; rfl, trivial⟩
        | some b =>
          have e : (Proc.convert j).step k fs .begin = (.readingLine [], fs) := by
            simp only [Proc.step, Job.step, if_pos hl, h]
          rw [e]
          exact ⟨rfl, hl, b, h, List.nil_prefix⟩
      · have hr : (Proc.convert j).rest fs .begin = (j.fromInput fs none).map fun x => (x.1, Outcome.converted x.2) := by
          show ((j.all fs).map fun x => (x.1, Outcome.converted x.2)) = _
          rw [Job.all_eq, if_neg hl]
        have e : (Proc.convert j).step k fs .begin = (j.openInput fs none, fs) := by
          simp only [Proc.step, Job.step, if_neg hl]
        rw [hr, e]
        exact hin j none
    | readingLine got =>
      obtain ⟨hl, b, hb, hg⟩ := hs
      cases hr : fs.readOn j.args.line got k with
      | nil =>
        have := readOn_nil hb hg hr
        subst this
        have hrest : (Proc.convert j).rest fs (.readingLine got) = ((match j.lineDb got with
            | .ok q => j.fromInput fs (some q)
            | .err e => some (fs, .err e)
            | .panic => some (fs, .panic) : Option (Fs × Res Unit)).map fun x => (x.1, Outcome.converted x.2)) := by
          show ((j.fromLine fs).map fun x => (x.1, Outcome.converted x.2)) = _
          simp only [Job.fromLine, hb]
        rw [hrest]
        have e : (Proc.convert j).step k fs (.readingLine got) = (match j.lineDb got with
            | .ok q => (j.openInput fs (some q), fs)
            | .err e => (.finished (.converted (.err e)), fs)
            | .panic => (.finished (.converted .panic), fs)) := by
          simp only [Proc.step, Job.step, hr]
          cases j.lineDb got <;> rfl
        rw [e]
        cases j.lineDb got with
        | ok q => exact hin j (some q)
        | err e => exact ⟨rfl, trivial⟩
        | panic => exact ⟨rfl, trivial⟩
      | cons x xs =>
        have e : (Proc.convert j).step k fs (.readingLine got) = (.readingLine (got ++ x :: xs), fs) := by
          simp only [Proc.step, Job.step, hr]
        rw [e]
        exact ⟨rfl, hl, b, hb, readOn_cons hb hg hr⟩
    | readingInput q got =>
      obtain ⟨b, hb, hg⟩ := hs
      cases hr : fs.readOn j.args.input got k with
      | nil =>
        have := readOn_nil hb hg hr
        subst this
        have hrest : (Proc.convert j).rest fs (.readingInput q got) =
            ((j.afterDump fs (j.dump q got)).map fun x => (x.1, Outcome.converted x.2)) := by
          show ((j.fromInput fs q).map fun x => (x.1, Outcome.converted x.2)) = _
          simp only [Job.fromInput, hb]
        have e : (Proc.convert j).step k fs (.readingInput q got) = (j.dumpedPhase (j.dump q got), fs) := by
          simp only [Proc.step, Job.step, hr]
        rw [hrest, e]
        cases j.dump q got with
        | none => exact ⟨rfl, trivial⟩
        | some r =>
          cases r with
          | ok d => exact ⟨rfl, fun o ho => ho⟩
          | err e => exact ⟨rfl, trivial⟩
          | panic => exact ⟨rfl, trivial⟩
      | cons x xs =>
        have e : (Proc.convert j).step k fs (.readingInput q got) = (.readingInput q (got ++ x :: xs), fs) := by
          simp only [Proc.step, Job.step, hr]
        rw [e]
        exact ⟨rfl, b, hb, readOn_cons hb hg hr⟩
    | outputs os d =>
      cases os with
      | nil => exact ⟨rfl, trivial⟩
      | cons o os =>
        have hrest : (Proc.convert j).rest fs (.outputs (o :: os) d) =
          some ((writeAll (converterFormats j.w j.fuel) j.canCreate (o :: os) fs d).1,
            .converted (writeAll (converterFormats j.w j.fuel) j.canCreate (o :: os) fs d).2) := rfl
        rw [hrest]
        by_cases hc : j.canCreate o = false
        · have e : (Proc.convert j).step k fs (.outputs (o :: os) d) = (.finished (.converted (.err (.other "create"))), fs) := by
            simp only [Proc.step, Job.step, if_pos hc]
          rw [e]
          refine ⟨?_, trivial⟩
          rw [writeAll, PackFile, if_pos hc]; rfl
        · have e : (Proc.convert j).step k fs (.outputs (o :: os) d) =
              (.writing o 0 ((outputCalls j.w (pathExt o) d).1.map Prod.snd).flatten (outputCalls j.w (pathExt o) d).2 os, fs.set o []) := by
            simp only [Proc.step, Job.step, if_neg hc]
          rw [e, Job.writeAll_cons j o os fs d hc]
          refine ⟨?_, ⟨[], if_pos rfl, rfl⟩, hs o (by simp), fun x hx => hs x (by simp [hx])⟩
          generalize ((outputCalls j.w (pathExt o) d).1.map Prod.snd).flatten = c
          generalize (outputCalls j.w (pathExt o) d).2 = res
          show some ((j.afterPack ((fs.set o []).set o (((fs.set o []) o).getD [] ++ c)) res os).1,
            Outcome.converted (j.afterPack ((fs.set o []).set o (((fs.set o []) o).getD [] ++ c)) res os).2) = _
          rw [set_set, show (fs.set o []) o = some [] from if_pos rfl]
          rfl
    | writing o off b res more =>
      obtain ⟨⟨c, hc, ho⟩, h1, h2⟩ := hs
      have hrest : ∀ g b off, (Proc.convert j).rest g (.writing o off b res more) =
          some ((j.afterPack (g.set o ((g o).getD [] ++ b)) res more).1,
            .converted (j.afterPack (g.set o ((g o).getD [] ++ b)) res more).2) := fun _ _ _ => rfl
      rw [hrest]
      cases b with
      | nil =>
        have e : (Proc.convert j).step k fs (.writing o off [] res more) = (packedPhase res more, fs) := rfl
        rw [e, List.append_nil, set_same (b := (fs o).getD []) (by rw [hc]; rfl)]
        cases res with
        | ok d => exact ⟨rfl, h2⟩
        | err e => exact ⟨rfl, trivial⟩
        | panic => exact ⟨rfl, trivial⟩
      | cons x xs =>
        have e : (Proc.convert j).step k fs (.writing o off (x :: xs) res more) =
          (.writing o (off + ((x :: xs).take (k + 1)).length) ((x :: xs).drop (k + 1)) res more,
            fs.writeAt o off ((x :: xs).take (k + 1))) := rfl
        rw [e, hrest, ← ho, writeAt_end hc, set_set]
        have hg : ∀ y, (fs.set o y) o = some y := fun y => if_pos rfl
        refine ⟨?_, ⟨_, hg _, by rw [List.length_append]⟩, h1, h2⟩
        dsimp only
        rw [hg, hc, Option.getD_some, Option.getD_some, List.append_assoc, List.take_append_drop]
  | opener w fuel file =>
    cases p with
    | finished r => exact ⟨rfl, trivial⟩
    | begin =>
      have hrest : (Proc.opener w fuel file).rest fs .begin = some (fs, .opened (NewDb w (serverFormats w fuel) fs file)) := rfl
      rw [hrest]
      cases h : fs file with
      | none =>
        have e : (Proc.opener w fuel file).step k fs .begin = (.finished (.opened .panic), fs) := by
          simp only [Proc.step, openerStep, h]
        rw [e]
        exact ⟨by simp only [NewDb, h]; rfl, trivial⟩
      | some b =>
        have e : (Proc.opener w fuel file).step k fs .begin = (.readingDb [], fs) := by
          simp only [Proc.step, openerStep, h]
        rw [e]
        exact ⟨rfl, b, h, List.nil_prefix⟩
    | readingDb got =>
      obtain ⟨b, hb, hg⟩ := hs
      have hrest : (Proc.opener w fuel file).rest fs (.readingDb got) =
        some (fs, .opened (NewDb w (serverFormats w fuel) fs file)) := rfl
      rw [hrest]
      cases hr : fs.readOn file got k with
      | nil =>
        have := readOn_nil hb hg hr
        subst this
        have e : (Proc.opener w fuel file).step k fs (.readingDb got) =
            (.finished (.opened (NewDb w (serverFormats w fuel) (fun _ => some got) file)), fs) := by
          simp only [Proc.step, openerStep, hr]
        rw [e]
        exact ⟨by simp only [NewDb, hb]; rfl, trivial⟩
      | cons x xs =>
        have e : (Proc.opener w fuel file).step k fs (.readingDb got) = (.readingDb (got ++ x :: xs), fs) := by
          simp only [Proc.step, openerStep, hr]
        rw [e]
        exact ⟨rfl, b, hb, readOn_cons hb hg hr⟩
    | hung => exact hs.elim
    | readingLine got => exact hs.elim
    | readingInput q got => exact hs.elim
    | outputs os d => exact hs.elim
    | writing o off b res more => exact hs.elim

/-! ## Files a step depends on and changes -/

/-- The same files as far as a process can tell. -/
def SameFor (pr : Proc) (f g : Fs) : Prop := ∀ n ∈ pr.uses, f n = g n

theorem line_used {j : Job} (h : j.args.line ≠ []) : j.args.line ∈ (Proc.convert j).uses := by
  simp [Proc.uses, if_neg h]

theorem outs_used {j : Job} {o : Str} (h : o ∈ j.outs) : o ∈ (Proc.convert j).uses := by
  simp [Proc.uses, h]

theorem set_same_for {pr : Proc} {f g : Fs} (h : SameFor pr f g) (o : Str) (b : Bytes) : SameFor pr (f.set o b) (g.set o b) := by
  intro n hn
  simp only [Fs.set]
  split
  · rfl
  · exact h n hn

/-- A step depends on the files of the process only. -/
theorem Proc.step_same (pr : Proc) (k : Nat) {f g : Fs} (p : Phase) (h : SameFor pr f g) (hs : pr.Sound g p) :
    (pr.step k f p).1 = (pr.step k g p).1 ∧ SameFor pr (pr.step k f p).2 (pr.step k g p).2 := by
  cases pr with
  | convert j =>
    have hi : f j.args.input = g j.args.input := h _ (by simp [Proc.uses])
    have ho : ∀ q, j.openInput f q = j.openInput g q := by intro q; unfold Job.openInput; rw [hi]
    cases p with
    | finished r => exact ⟨rfl, h⟩
    | hung => exact ⟨rfl, h⟩
    | readingDb got => exact hs.elim
    | begin =>
      simp only [Proc.step, Job.step]
      split
      · rename_i hl
        rw [h _ (line_used hl)]
        cases g j.args.line with
        | none => exact ⟨rfl, h⟩
        | some b => exact ⟨rfl, h⟩
      · rw [ho]; exact ⟨rfl, h⟩
    | readingLine got =>
      have hr : f.readOn j.args.line got k = g.readOn j.args.line got k := by
        unfold Fs.readOn; rw [h _ (line_used hs.1)]
      simp only [Proc.step, Job.step, hr]
      cases g.readOn j.args.line got k with
      | nil =>
        simp only []
        cases j.lineDb got with
        | ok q => simp only [ho]; exact ⟨trivial, h⟩
        | err e => exact ⟨rfl, h⟩
        | panic => exact ⟨rfl, h⟩
      | cons x xs => exact ⟨rfl, h⟩
    | readingInput q got =>
      have hr : f.readOn j.args.input got k = g.readOn j.args.input got k := by
        unfold Fs.readOn; rw [hi]
      simp only [Proc.step, Job.step, hr]
      cases g.readOn j.args.input got k with
      | nil => exact ⟨rfl, h⟩
      | cons x xs => exact ⟨rfl, h⟩
    | outputs os d =>
      cases os with
      | nil => exact ⟨rfl, h⟩
      | cons o os =>
        simp only [Proc.step, Job.step]
        split
        · exact ⟨rfl, h⟩
        · exact ⟨rfl, set_same_for h _ _⟩
    | writing o off b res more =>
      cases b with
      | nil => exact ⟨rfl, h⟩
      | cons x xs =>
        simp only [Proc.step, Job.step]
        refine ⟨trivial, ?_⟩
        unfold Fs.writeAt
        rw [h o (outs_used hs.2.1)]
        exact set_same_for h _ _
  | opener w fuel file =>
    have hi : f file = g file := h _ (by simp [Proc.uses])
    cases p with
    | finished r => exact ⟨rfl, h⟩
    | begin =>
      simp only [Proc.step, openerStep, hi]
      cases g file with
      | none => exact ⟨rfl, h⟩
      | some b => exact ⟨rfl, h⟩
    | readingDb got =>
      have hr : f.readOn file got k = g.readOn file got k := by unfold Fs.readOn; rw [hi]
      simp only [Proc.step, openerStep, hr]
      cases g.readOn file got k with
      | nil => exact ⟨rfl, h⟩
      | cons x xs => exact ⟨rfl, h⟩
    | hung => exact ⟨rfl, h⟩
    | readingLine got => exact ⟨rfl, h⟩
    | readingInput q got => exact ⟨rfl, h⟩
    | outputs os d => exact ⟨rfl, h⟩
    | writing o off b res more => exact ⟨rfl, h⟩

/-- The outputs a process is about to create or is writing are its own. -/
def Proc.Names : Proc → Phase → Prop
  | .convert j, .outputs os _ => ∀ o ∈ os, o ∈ j.outs
  | .convert j, .writing o _ _ _ more => o ∈ j.outs ∧ ∀ o ∈ more, o ∈ j.outs
  | _, _ => True

theorem Proc.step_names (pr : Proc) (k : Nat) (f : Fs) (p : Phase) (h : pr.Names p) : pr.Names (pr.step k f p).1 := by
  cases pr with
  | opener w fuel file =>
    generalize ((Proc.opener w fuel file).step k f p).1 = p'
    cases p' <;> trivial
  | convert j =>
    have hin : ∀ q, (Proc.convert j).Names (j.openInput f q) := by
      intro q; unfold Job.openInput; cases f j.args.input <;> trivial
    cases p with
    | finished r => trivial
    | hung => trivial
    | readingDb got => trivial
    | begin =>
      simp only [Proc.step, Job.step]
      split
      · cases f j.args.line <;> trivial
      · exact hin none
    | readingLine got =>
      simp only [Proc.step, Job.step]
      cases f.readOn j.args.line got k with
      | nil =>
        simp only []
        cases j.lineDb got with
        | ok q => exact hin _
        | err e => trivial
        | panic => trivial
      | cons x xs => trivial
    | readingInput q got =>
      simp only [Proc.step, Job.step]
      cases f.readOn j.args.input got k with
      | nil =>
        simp only [Job.dumpedPhase]
        split
        · trivial
        · exact fun o ho => ho
        · trivial
        · trivial
      | cons x xs => trivial
    | outputs os d =>
      cases os with
      | nil => trivial
      | cons o os =>
        simp only [Proc.step, Job.step]
        split
        · trivial
        · exact ⟨h o (by simp), fun x hx => h x (by simp [hx])⟩
    | writing o off b res more =>
      cases b with
      | nil =>
        simp only [Proc.step, Job.step, packedPhase]
        split
        · exact h.2
        · trivial
        · trivial
      | cons x xs => exact h

/-- A step changes the files the process writes only. -/
theorem Proc.step_writes (pr : Proc) (k : Nat) {f : Fs} (p : Phase) (hs : pr.Names p) {n : Str} (hn : n ∉ pr.writes) :
    (pr.step k f p).2 n = f n := by
  cases pr with
  | convert j =>
    cases p with
    | finished r => rfl
    | hung => rfl
    | readingDb got => rfl
    | begin =>
      simp only [Proc.step, Job.step]
      split
      · cases f j.args.line <;> rfl
      · rfl
    | readingLine got =>
      simp only [Proc.step, Job.step]
      cases f.readOn j.args.line got k with
      | nil => simp only []; cases j.lineDb got <;> rfl
      | cons x xs => rfl
    | readingInput q got =>
      simp only [Proc.step, Job.step]
      cases f.readOn j.args.input got k <;> rfl
    | outputs os d =>
      cases os with
      | nil => rfl
      | cons o os =>
        simp only [Proc.step, Job.step]
        split
        · rfl
        · refine if_neg ?_
          rintro rfl
          exact hn (hs _ (by simp))
    | writing o off b res more =>
      cases b with
      | nil => rfl
      | cons x xs =>
        refine if_neg ?_
        rintro rfl
        exact hn hs.1
  | opener w fuel file =>
    cases p with
    | begin => simp only [Proc.step, openerStep]; cases f file <;> rfl
    | readingDb got => simp only [Proc.step, openerStep]; cases f.readOn file got k <;> rfl
    | _ => rfl

/-! ## How many steps are left -/

/-- Steps left when the outputs are to be written. -/
def Job.costOuts (j : Job) : List Str → HData → Nat
  | [], _ => 1
  | o :: os, d =>
    let c := outputCalls j.w (pathExt o) d
    1 + (c.1.map Prod.snd).flatten.length + 1 + (match c.2 with
      | .ok d => j.costOuts os d
      | _ => 0)

/-- Steps left after a dump. -/
def Job.costDump (j : Job) (r : Option (Res HData)) : Nat := match r with
  | some (.ok d) => j.costOuts j.outs d
  | _ => 0

/-- Steps left in reading the input. -/
def Job.costInput (j : Job) (fs : Fs) (q : Option OpenDb) (got : Bytes) : Nat := match fs j.args.input with
  | none => 0
  | some b => (b.length - got.length) + 1 + j.costDump (j.dump q b)

/-- Steps left in reading the line file. -/
def Job.costLine (j : Job) (fs : Fs) (got : Bytes) : Nat := match fs j.args.line with
  | none => 0
  | some b => (b.length - got.length) + 1 + (match j.lineDb b with
    | .ok q => j.costInput fs (some q) []
    | _ => 0)

/-- Steps left at most. -/
def Proc.cost (fs : Fs) : Proc → Phase → Nat
  | .convert j, .begin => 1 + if j.args.line ≠ [] then j.costLine fs [] else j.costInput fs none []
  | .convert j, .readingLine got => j.costLine fs got
  | .convert j, .readingInput q got => j.costInput fs q got
  | .convert j, .outputs os d => j.costOuts os d
  | .convert j, .writing _ _ b res more => b.length + 1 + (match res with
    | .ok d => j.costOuts more d
    | _ => 0)
  | .opener _ _ file, .begin => 1 + (match fs file with
    | none => 0
    | some b => b.length + 1)
  | .opener _ _ file, .readingDb got => (match fs file with
    | none => 0
    | some b => (b.length - got.length) + 1)
  | _, _ => 0

theorem prefix_left {got b : Bytes} {x : UInt8} {xs : Bytes} (h : got ++ x :: xs <+: b) :
    b.length - (got ++ x :: xs).length < b.length - got.length := by
  have := h.length_le
  simp only [List.length_append, List.length_cons] at this ⊢
  omega

theorem Proc.step_cost (pr : Proc) (k : Nat) (fs : Fs) (p : Phase) (hs : pr.Sound fs p) (hr : pr.rest fs p ≠ none)
    (hf : ∀ r, p ≠ .finished r) : pr.cost (pr.step k fs p).2 (pr.step k fs p).1 < pr.cost fs p := by
  have hin : ∀ (j : Job) (q : Option OpenDb), (Proc.convert j).cost fs (j.openInput fs q) = j.costInput fs q [] := by
    intro j q
    unfold Job.openInput
    cases h : fs j.args.input with
    | none => simp only [Job.costInput, h]; rfl
    | some b => rfl
  cases pr with
  | convert j =>
    cases p with
    | finished r => exact absurd rfl (hf r)
    | hung => exact absurd rfl hr
    | readingDb got => exact hs.elim
    | begin =>
      have hc : (Proc.convert j).cost fs .begin = 1 + if j.args.line ≠ [] then j.costLine fs [] else j.costInput fs none [] := rfl
      rw [hc]
      by_cases hl : j.args.line ≠ []
      · rw [if_pos hl]
        cases h : fs j.args.line with
        | none =>
          have e : (Proc.convert j).step k fs .begin = (.finished (.converted .panic), fs) := by
            simp only [Proc.step, Job.step, if_pos hl, h]
          rw [e]
          show 0 < _
          omega
        | some b =>
          have e : (Proc.convert j).step k fs .begin = (.readingLine [], fs) := by
            simp only [Proc.step, Job.step, if_pos hl, h]
          rw [e]
          show j.costLine fs [] < _
          omega
      · have e : (Proc.convert j).step k fs .begin = (j.openInput fs none, fs) := by
          simp only [Proc.step, Job.step, if_neg hl]
        rw [e, if_neg hl]
        show (Proc.convert j).cost fs (j.openInput fs none) < _
        rw [hin]; omega
    | readingLine got =>
      obtain ⟨hl, b, hb, hg⟩ := hs
      have hc : ∀ got, (Proc.convert j).cost fs (.readingLine got) = (b.length - got.length) + 1 + (match j.lineDb b with
          | .ok q => j.costInput fs (some q) []
          | _ => 0) := by
        intro got
        show j.costLine fs got = _
        simp only [Job.costLine, hb]
      rw [hc]
      cases hr : fs.readOn j.args.line got k with
      | nil =>
        have := readOn_nil hb hg hr
        subst this
        cases hq : j.lineDb got with
        | ok q =>
          have e : (Proc.convert j).step k fs (.readingLine got) = (j.openInput fs (some q), fs) := by
            simp only [Proc.step, Job.step, hr, hq]
          rw [e]
          show (Proc.convert j).cost fs (j.openInput fs (some q)) < _
          rw [hin]; simp only []; omega
        | err e =>
          have e : (Proc.convert j).step k fs (.readingLine got) = (.finished (.converted (.err e)), fs) := by
            simp only [Proc.step, Job.step, hr, hq]
          rw [e]; show 0 < _; simp only []; omega
        | panic =>
          have e : (Proc.convert j).step k fs (.readingLine got) = (.finished (.converted .panic), fs) := by
            simp only [Proc.step, Job.step, hr, hq]
          rw [e]; show 0 < _; simp only []; omega
      | cons x xs =>
        have e : (Proc.convert j).step k fs (.readingLine got) = (.readingLine (got ++ x :: xs), fs) := by
          simp only [Proc.step, Job.step, hr]
        rw [e]
        show (Proc.convert j).cost fs (.readingLine (got ++ x :: xs)) < _
        rw [hc]
        have := prefix_left (readOn_cons hb hg hr)
        omega
    | readingInput q got =>
      obtain ⟨b, hb, hg⟩ := hs
      have hc : ∀ got, (Proc.convert j).cost fs (.readingInput q got) = (b.length - got.length) + 1 + j.costDump (j.dump q b) := by
        intro got
        show j.costInput fs q got = _
        simp only [Job.costInput, hb]
      rw [hc]
      cases hr : fs.readOn j.args.input got k with
      | nil =>
        have := readOn_nil hb hg hr
        subst this
        have e : (Proc.convert j).step k fs (.readingInput q got) = (j.dumpedPhase (j.dump q got), fs) := by
          simp only [Proc.step, Job.step, hr]
        rw [e]
        have : (Proc.convert j).cost fs (j.dumpedPhase (j.dump q got)) = j.costDump (j.dump q got) := by
          cases j.dump q got with
          | none => rfl
          | some r => cases r <;> rfl
        show (Proc.convert j).cost fs (j.dumpedPhase (j.dump q got)) < _
        rw [this]; omega
      | cons x xs =>
        have e : (Proc.convert j).step k fs (.readingInput q got) = (.readingInput q (got ++ x :: xs), fs) := by
          simp only [Proc.step, Job.step, hr]
        rw [e]
        show (Proc.convert j).cost fs (.readingInput q (got ++ x :: xs)) < _
        rw [hc]
        have := prefix_left (readOn_cons hb hg hr)
        omega
    | outputs os d =>
      cases os with
      | nil => exact Nat.zero_lt_one
      | cons o os =>
        by_cases hc : j.canCreate o = false
        · have e : (Proc.convert j).step k fs (.outputs (o :: os) d) = (.finished (.converted (.err (.other "create"))), fs) := by
            simp only [Proc.step, Job.step, if_pos hc]
          rw [e]
          show 0 < j.costOuts (o :: os) d
          rw [Job.costOuts]
          omega
        · have e : (Proc.convert j).step k fs (.outputs (o :: os) d) =
              (.writing o 0 ((outputCalls j.w (pathExt o) d).1.map Prod.snd).flatten (outputCalls j.w (pathExt o) d).2 os, fs.set o []) := by
            simp only [Proc.step, Job.step, if_neg hc]
          rw [e]
          show _ < j.costOuts (o :: os) d
          rw [Job.costOuts]
          generalize ((outputCalls j.w (pathExt o) d).1.map Prod.snd).flatten = c
          generalize (outputCalls j.w (pathExt o) d).2 = res
          show c.length + 1 + (match res with | .ok d => j.costOuts os d | _ => 0) < _
          omega
    | writing o off b res more =>
      clear hr hs hf
      have hc : ∀ g off b, (Proc.convert j).cost g (.writing o off b res more) = b.length + 1 +
          (match res with | .ok d => j.costOuts more d | _ => 0) := fun _ _ _ => rfl
      rw [hc]
      cases b with
      | nil =>
        have e : (Proc.convert j).step k fs (.writing o off [] res more) = (packedPhase res more, fs) := rfl
        rw [e]
        cases res with
        | ok d => show j.costOuts more d < _; simp only []; omega
        | err e => show 0 < _; simp only []; omega
        | panic => show 0 < _; simp only []; omega
      | cons x xs =>
        have e : (Proc.convert j).step k fs (.writing o off (x :: xs) res more) =
          (.writing o (off + ((x :: xs).take (k + 1)).length) ((x :: xs).drop (k + 1)) res more,
            fs.writeAt o off ((x :: xs).take (k + 1))) := rfl
        rw [e, hc, List.length_drop]
        simp only [List.length_cons]
        omega
  | opener w fuel file =>
    cases p with
    | finished r => exact absurd rfl (hf r)
    | begin =>
      cases h : fs file with
      | none =>
        have e : (Proc.opener w fuel file).step k fs .begin = (.finished (.opened .panic), fs) := by
          simp only [Proc.step, openerStep, h]
        rw [e]
        show 0 < 1 + _
        omega
      | some b =>
        have e : (Proc.opener w fuel file).step k fs .begin = (.readingDb [], fs) := by
          simp only [Proc.step, openerStep, h]
        rw [e]
        simp only [Proc.cost, h, List.length_nil, Nat.sub_zero]
        exact Nat.lt_add_of_pos_left Nat.one_pos
    | readingDb got =>
      obtain ⟨b, hb, hg⟩ := hs
      cases hr : fs.readOn file got k with
      | nil =>
        have e : (Proc.opener w fuel file).step k fs (.readingDb got) =
            (.finished (.opened (NewDb w (serverFormats w fuel) (fun _ => some got) file)), fs) := by
          simp only [Proc.step, openerStep, hr]
        rw [e]
        simp only [Proc.cost, hb]
        omega
      | cons x xs =>
        have e : (Proc.opener w fuel file).step k fs (.readingDb got) = (.readingDb (got ++ x :: xs), fs) := by
          simp only [Proc.step, openerStep, hr]
        rw [e]
        simp only [Proc.cost, hb]
        have := prefix_left (readOn_cons hb hg hr)
        omega
    | hung => exact hs.elim
    | readingLine got => exact hs.elim
    | readingInput q got => exact hs.elim
    | outputs os d => exact hs.elim
    | writing o off b res more => exact hs.elim

theorem Proc.step_finished (pr : Proc) (k : Nat) (fs : Fs) (r : Outcome) :
    pr.step k fs (.finished r) = (.finished r, fs) := by
  cases pr <;> rfl

/-! ## C122 -/

/-- No other process writes a file that process `i` reads or writes. -/
def Undisturbed {ι : Type} (procs : ι → Proc) (i : ι) : Prop := ∀ k, k ≠ i → ∀ n ∈ (procs k).writes, n ∉ (procs i).uses

theorem schedule_append {ι : Type} [DecidableEq ι] (procs : ι → Proc) : ∀ (xs ys : List (ι × Nat)) (s : Moment ι),
    schedule procs s (xs ++ ys) = schedule procs (schedule procs s xs) ys
  | [], _, _ => rfl
  | _ :: xs, ys, s => schedule_append procs xs ys _

/-- Every process creates and writes its own outputs only. -/
def Own {ι : Type} (procs : ι → Proc) (s : Moment ι) : Prop := ∀ i, (procs i).Names (s.at_ i)

theorem Own.start {ι : Type} (procs : ι → Proc) (fs : Fs) : Own procs (Moment.start fs) := by
  intro i; cases h : procs i <;> trivial

theorem Own.step {ι : Type} [DecidableEq ι] {procs : ι → Proc} {s : Moment ι} (h : Own procs s) (x : ι × Nat) :
    Own procs (s.step procs x) := by
  intro i
  simp only [Moment.step]
  split
  · rename_i e; subst e; exact Proc.step_names _ _ _ _ (h _)
  · exact h i

theorem Own.schedule {ι : Type} [DecidableEq ι] {procs : ι → Proc} : ∀ (xs : List (ι × Nat)) {s : Moment ι}, Own procs s →
    Own procs (schedule procs s xs)
  | [], _, h => h
  | x :: xs, _, h => Own.schedule xs (h.step x)

theorem Own.step_other {ι : Type} [DecidableEq ι] {procs : ι → Proc} {s : Moment ι} (h : Own procs s) (x : ι × Nat) {n : Str}
    (hn : n ∉ (procs x.1).writes) : (s.step procs x).fs n = s.fs n :=
  Proc.step_writes (procs x.1) x.2 (s.at_ x.1) (h x.1) hn

/-- Process `i` is where it is by itself with the files `f`. -/
structure Private {ι : Type} (procs : ι → Proc) (i : ι) (fs0 : Fs) (s : Moment ι) (f : Fs) : Prop where
  same : SameFor (procs i) s.fs f
  sound : (procs i).Sound f (s.at_ i)
  rest : (procs i).rest f (s.at_ i) = (procs i).alone fs0

theorem Proc.rest_begin (pr : Proc) (fs : Fs) : pr.rest fs .begin = pr.alone fs := by
  cases pr <;> rfl

theorem Private.start {ι : Type} (procs : ι → Proc) (i : ι) (fs0 : Fs) : Private procs i fs0 (Moment.start fs0) fs0 :=
  ⟨fun _ _ => rfl, by show (procs i).Sound fs0 .begin; cases procs i <;> trivial, Proc.rest_begin _ _⟩

theorem Private.other {ι : Type} [DecidableEq ι] {procs : ι → Proc} {i : ι} (hu : Undisturbed procs i) {fs0 f : Fs} {s : Moment ι}
    (ho : Own procs s) (h : Private procs i fs0 s f) {x : ι × Nat} (hx : x.1 ≠ i) : Private procs i fs0 (s.step procs x) f := by
  have hat : (s.step procs x).at_ i = s.at_ i := if_neg fun e => hx e.symm
  refine ⟨fun n hn => ?_, by rw [hat]; exact h.sound, by rw [hat]; exact h.rest⟩
  rw [ho.step_other x fun hc => hu x.1 hx n hc hn]
  exact h.same n hn

theorem Private.self {ι : Type} [DecidableEq ι] {procs : ι → Proc} {i : ι} {fs0 f : Fs} {s : Moment ι}
    (h : Private procs i fs0 s f) (k : Nat) : (s.step procs (i, k)).at_ i = ((procs i).step k f (s.at_ i)).1 ∧
      Private procs i fs0 (s.step procs (i, k)) ((procs i).step k f (s.at_ i)).2 := by
  obtain ⟨e1, e2⟩ := Proc.step_same (procs i) k (s.at_ i) h.same h.sound
  obtain ⟨r1, r2⟩ := Proc.step_rest (procs i) k f (s.at_ i) h.sound
  have hat : (s.step procs (i, k)).at_ i = ((procs i).step k f (s.at_ i)).1 := by
    show (if i = i then ((procs i).step k s.fs (s.at_ i)).1 else _) = _
    rw [if_pos rfl, e1]
  exact ⟨hat, e2, by rw [hat]; exact r2, by rw [hat, r1]; exact h.rest⟩

theorem Private.schedule {ι : Type} [DecidableEq ι] {procs : ι → Proc} {i : ι} (hu : Undisturbed procs i) {fs0 : Fs} :
    ∀ (xs : List (ι × Nat)) {s : Moment ι} {f : Fs}, Own procs s → Private procs i fs0 s f →
      ∃ f', Private procs i fs0 (schedule procs s xs) f'
  | [], _, f, _, h => ⟨f, h⟩
  | x :: xs, s, f, ho, h => by
    by_cases hx : x.1 = i
    · obtain ⟨j, k⟩ := x
      subst hx
      exact Private.schedule hu xs (ho.step _) (h.self k).2
    · exact Private.schedule hu xs (ho.step _) (h.other hu ho hx)

/-- **C122 (no interference).** Programs run at the same time, their steps interleaved in any way. One whose files no other
program writes ends as it does when it runs alone, and its files hold what they hold then. -/
theorem C122_undisturbed {ι : Type} [DecidableEq ι] (procs : ι → Proc) (fs : Fs) (xs : List (ι × Nat)) (i : ι)
    (hu : Undisturbed procs i) (r : Outcome) (hr : (schedule procs (.start fs) xs).at_ i = .finished r) :
    ∃ f, (procs i).alone fs = some (f, r) ∧ ∀ n ∈ (procs i).uses, (schedule procs (.start fs) xs).fs n = f n := by
  obtain ⟨f, h⟩ := Private.schedule hu xs (Own.start procs fs) (Private.start procs i fs)
  refine ⟨f, ?_, h.same⟩
  rw [← h.rest, hr]
  cases procs i <;> rfl

/-- **C122 (untouched files).** Files that are outputs of none of the programs do not change. -/
theorem C122_untouched {ι : Type} [DecidableEq ι] (procs : ι → Proc) (fs : Fs) (n : Str) (hn : ∀ i, n ∉ (procs i).writes)
    (xs : List (ι × Nat)) : (schedule procs (.start fs) xs).fs n = fs n := by
  have : ∀ (xs : List (ι × Nat)) (s : Moment ι), Own procs s → (schedule procs s xs).fs n = s.fs n := by
    intro xs
    induction xs with
    | nil => intro s _; rfl
    | cons x xs ih => intro s ho; exact (ih _ (ho.step x)).trans (ho.step_other x (hn x.1))
  exact this xs _ (Own.start procs fs)

/-- **C122 (no end).** A conversion that does not end alone does not end among others. -/
theorem C122_endless {ι : Type} [DecidableEq ι] (procs : ι → Proc) (fs : Fs) (i : ι) (hu : Undisturbed procs i)
    (h : (procs i).alone fs = none) (xs : List (ι × Nat)) (r : Outcome) :
    (schedule procs (.start fs) xs).at_ i ≠ .finished r := by
  intro hr
  obtain ⟨f, hf, _⟩ := C122_undisturbed procs fs xs i hu r hr
  rw [h] at hf; cases hf

theorem progress {ι : Type} [DecidableEq ι] {procs : ι → Proc} {i : ι} (hu : Undisturbed procs i) {fs0 : Fs}
    (hal : (procs i).alone fs0 ≠ none) : ∀ (xs : List (ι × Nat)) {s : Moment ι} {f : Fs}, Own procs s →
      Private procs i fs0 s f → (procs i).cost f (s.at_ i) ≤ (xs.filter fun x => decide (x.1 = i)).length →
      (∃ r, s.at_ i = .finished r) ∨ 0 < (xs.filter fun x => decide (x.1 = i)).length →
      ∃ r, (schedule procs s xs).at_ i = .finished r
  | [], s, f, _, h, hc, h0 => by
    rcases h0 with h0 | h0
    · exact h0
    · simp at h0
  | x :: xs, s, f, ho, h, hc, h0 => by
    have stay : ∀ (xs : List (ι × Nat)) (s : Moment ι) (r : Outcome), s.at_ i = .finished r →
        (schedule procs s xs).at_ i = .finished r := by
      intro xs
      induction xs with
      | nil => intro s r h; exact h
      | cons x xs ih =>
        intro s r h
        refine ih _ _ ?_
        simp only [Moment.step]
        split
        · rename_i e; rw [← e, h, Proc.step_finished]
        · exact h
    by_cases hx : x.1 = i
    · obtain ⟨j, k⟩ := x
      subst hx
      by_cases hfin : ∃ r, s.at_ j = .finished r
      · obtain ⟨r, hr⟩ := hfin
        exact ⟨r, stay _ _ _ hr⟩
      · have hlt := Proc.step_cost (procs j) k f (s.at_ j) h.sound (by rw [h.rest]; exact hal) fun r hr => hfin ⟨r, hr⟩
        obtain ⟨hat, hp⟩ := h.self k
        rw [List.filter_cons_of_pos (by simp), List.length_cons] at hc
        change (procs j).cost f (s.at_ j) ≤ (xs.filter fun x => decide (x.1 = j)).length + 1 at hc
        dsimp only at hat
        dsimp only at hp
        have hc' : (procs j).cost ((procs j).step k f (s.at_ j)).2 ((s.step procs (j, k)).at_ j) ≤
            (xs.filter fun x => decide (x.1 = j)).length := by rw [hat]; omega
        by_cases hpos : 0 < (xs.filter fun x => decide (x.1 = j)).length
        · exact progress hu hal xs (ho.step _) hp hc' (.inr hpos)
        · by_cases hfin' : ∃ r, (s.step procs (j, k)).at_ j = .finished r
          · exact progress hu hal xs (ho.step _) hp hc' (.inl hfin')
          · have := Proc.step_cost (procs j) 0 _ _ hp.sound (by rw [hp.rest]; exact hal) fun r hr => hfin' ⟨r, hr⟩
            omega
    · rw [List.filter_cons_of_neg (by simpa using hx)] at hc h0
      refine progress hu hal xs (ho.step _) (h.other hu ho hx) ?_ ?_
      · have hat : (s.step procs x).at_ i = s.at_ i := if_neg fun e => hx e.symm
        rw [hat]; exact hc
      · have hat : (s.step procs x).at_ i = s.at_ i := if_neg fun e => hx e.symm
        rw [hat]; exact h0

/-- **C122 (progress).** A program that ends alone and whose files no other program writes ends among others after a number of
steps of its own that does not depend on them. -/
theorem C122_progress {ι : Type} [DecidableEq ι] (procs : ι → Proc) (fs : Fs) (i : ι) (hu : Undisturbed procs i) {f : Fs}
    {r : Outcome} (h : (procs i).alone fs = some (f, r)) : ∃ N, ∀ xs : List (ι × Nat),
      N ≤ (xs.filter fun x => decide (x.1 = i)).length → (schedule procs (.start fs) xs).at_ i = .finished r ∧
        ∀ n ∈ (procs i).uses, (schedule procs (.start fs) xs).fs n = f n := by
  refine ⟨(procs i).cost fs .begin + 1, fun xs hx => ?_⟩
  obtain ⟨r', hr'⟩ := progress hu (by rw [h]; exact fun e => by cases e) xs (Own.start procs fs) (Private.start procs i fs)
    (Nat.le_trans (Nat.le_succ _) hx) (.inr (by omega))
  obtain ⟨f', h1, h2⟩ := C122_undisturbed procs fs xs i hu r' hr'
  rw [h] at h1
  have h1 := Option.some.inj h1
  have e1 : f = f' := congrArg Prod.fst h1
  have e2 : r = r' := congrArg Prod.snd h1
  subst e1; subst e2
  exact ⟨hr', h2⟩

end Uip.Program
