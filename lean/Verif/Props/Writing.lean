import Verif.Spec.Writing
import Verif.Props.ConverterFail
import Verif.Props.OutputsAlone
/-!
# C107: conversions on a full disk, with failing writes, and killed conversions
-/
namespace Uip.Plain
open Uip

theorem rowCalls_eq : ∀ (rs : List HRow) (h : Heap), packRows rs h = (do
    let (ls, h) ← rowCalls rs h
    return (ls.flatten, h))
  | [], h => rfl
  | r :: rs, h => by
    unfold packRows rowCalls
    cases hc : replaceComma h r.vals with
    | err e => rfl
    | panic => rfl
    | ok h1 =>
      simp only [Res.ok_bind]
      rw [rowCalls_eq rs h1]
      cases rowCalls rs h1 with
      | err e => rfl
      | panic => rfl
      | ok p => rfl

theorem headerCalls_eq (v now : Str) (fields : List Str) : (headerCalls v now fields).flatten = header v now fields := by
  unfold headerCalls header
  simp only [List.flatten_cons, List.flatten_nil, List.append_nil, List.append_assoc, List.cons_append, List.nil_append]

end Uip.Plain

namespace Uip.Ipdb
open Uip

theorem saveCalls_eq (enc : MetaData → Bytes) (w : Writer) : (w.saveCalls enc).flatten = w.Save enc := by
  unfold Writer.saveCalls Writer.Save
  split
  · rename_i h; simp [h]
  · simp

end Uip.Ipdb

namespace Uip.Memip
open Uip

theorem lineCalls_end {v4 : Bool} : ∀ (rs : List (Range × List Str)), ∀ l ∈ lineCalls v4 rs, ∃ x, l = x ++ [0x0A]
  | [], l, h => by cases h
  | r :: rs, l, h => by
    unfold lineCalls at h
    cases hl : rangeLine v4 r with
    | err e => rw [hl] at h; cases h
    | panic => rw [hl] at h; cases h
    | ok t =>
      rw [hl] at h
      rcases List.mem_cons.mp h with rfl | h
      · unfold rangeLine at hl
        cases v4 with
        | false => exact ⟨_, (Res.ok.inj (hl.symm.trans (if_neg (by simp)))).trans rfl⟩
        | true =>
          rw [if_pos rfl] at hl
          cases hs : IPv4ToUint32 r.1.start with
          | err e => rw [hs] at hl; cases hl
          | panic => rw [hs] at hl; cases hl
          | ok s =>
            cases he : IPv4ToUint32 r.1.end_ with
            | err e => rw [hs, he] at hl; cases hl
            | panic => rw [hs, he] at hl; cases hl
            | ok e =>
              rw [hs, he] at hl
              exact ⟨_, (Res.ok.inj hl).symm⟩
      · exact lineCalls_end rs l h

theorem packCalls_end (d : IpData) : ∀ l ∈ packCalls d, ∃ x, l = x ++ [0x0A] := by
  unfold packCalls
  cases packRanges d with
  | ok rs => exact lineCalls_end rs
  | err e => intro l h; cases h
  | panic => intro l h; cases h

/-- Not an error. -/
def NoErr {α : Type} (r : Res α) : Prop := ∀ e, r ≠ .err e

theorem NoErr.ok {α : Type} (a : α) : NoErr (.ok a : Res α) := by intro e h; cases h

theorem NoErr.panic {α : Type} : NoErr (.panic : Res α) := by intro e h; cases h

theorem NoErr.bind {α β : Type} {r : Res α} {f : α → Res β} (h : NoErr r) (hf : ∀ a, NoErr (f a)) : NoErr (r >>= f) := by
  intro e
  cases hr : r with
  | ok a => exact hf a e
  | err e' => exact absurd hr (h e')
  | panic => intro h; cases h

theorem newValue_noErr (vs : List Str) (i : Nat) : ∀ o, NoErr (newValue vs i o)
  | none => .ok _
  | some v => by
    unfold newValue
    simp only []
    split
    · exact .panic
    · exact .ok _

theorem covertLoop_noErr (vs : List Str) : ∀ (os : List (Option Nat)) (i : Nat) (acc : List Str), NoErr (covertLoop vs i os acc)
  | [], _, _ => .ok _
  | o :: os, i, acc => by
    unfold covertLoop
    exact (newValue_noErr vs i o).bind fun _ => covertLoop_noErr vs os _ _

theorem lastIP_noErr (n : IPNet) : NoErr (LastIP n) := by
  unfold LastIP
  split
  · exact .panic
  · exact .ok _

theorem newRange_noErr (n : IPNet) : NoErr (NewRange n) := by
  unfold NewRange
  exact (lastIP_noErr n).bind fun _ => .ok _

theorem joinIPNet_noErr (r : Range) (n : IPNet) : NoErr (r.JoinIPNet n) := by
  unfold Range.JoinIPNet
  simp only []
  split
  · exact .ok _
  · refine (lastIP_noErr n).bind fun _ => ?_
    split
    · exact .ok _
    · exact .ok _

theorem packLoop_noErr (os : List (Option Nat)) : ∀ (ips : List IpRaw) (prev : Range × List Str), NoErr (packLoop os prev ips)
  | [], _ => .ok _
  | ip :: ips, prev => by
    unfold packLoop
    refine (covertLoop_noErr _ _ _ _).bind fun values => ?_
    have hnew : NoErr (NewRange ip.cidr >>= fun nr => packLoop os (nr, values) ips >>= fun rest => (pure (prev :: rest) : Res _)) :=
      (newRange_noErr _).bind fun _ => (packLoop_noErr os ips _).bind fun _ => .ok _
    split
    · refine (joinIPNet_noErr _ _).bind fun x => ?_
      rcases x with ⟨r, j⟩
      simp only []
      split
      · exact packLoop_noErr os ips _
      · exact hnew
    · exact hnew

theorem rangeLines_noErr (v4 : Bool) : ∀ rs, NoErr (rangeLines v4 rs)
  | [] => .ok _
  | r :: rs => by
    unfold rangeLines
    refine NoErr.bind ?_ fun _ => (rangeLines_noErr v4 rs).bind fun _ => .ok _
    unfold rangeLine
    have h4 : ∀ ip, NoErr (IPv4ToUint32 ip) := by
      intro ip
      unfold IPv4ToUint32
      split
      · exact .ok _
      · exact .panic
    split
    · exact (h4 _).bind fun _ => (h4 _).bind fun _ => .ok _
    · exact .ok _

theorem pack_noErr (d : IpData) : NoErr (pack d) := by
  unfold pack packRanges
  refine NoErr.bind ?_ fun _ => rangeLines_noErr _ _
  cases d.ips with
  | nil => exact .panic
  | cons ip ips => exact (covertLoop_noErr _ _ _ _).bind fun _ => (newRange_noErr _).bind fun _ => packLoop_noErr _ _ _

end Uip.Memip

namespace Uip.Program
open Uip Uip.Spec

/-- The calls make up what is written at once. -/
theorem outputCalls_spec (w : World) (fuel : Nat) (kind : Str) (d : HData) :
    match PackWriter (converterFormats w fuel) kind d with
    | .ok (b, d') => ((outputCalls w kind d).1.map Prod.snd).flatten = b ∧ (outputCalls w kind d).2 = .ok d'
    | .err e => (outputCalls w kind d).1 = [] ∧ (outputCalls w kind d).2 = .err e
    | .panic => ((outputCalls w kind d).1.map Prod.snd).flatten = leftBy kind d ∧ (outputCalls w kind d).2 = .panic := by
  rw [C59_packWriter]
  unfold Convert.PackWriter outputCalls leftBy
  by_cases h1 : kind = gs ".ipdb"
  · have h4 : kind ≠ gs ".memip" := by rw [h1]; decide
    simp only [if_pos h1, if_neg h4]
    unfold Ipdb.packH
    cases (Ipdb.NewWriter (Ipdb.buildMeta w.now d.version d.fields)).insertAllH d.heap d.rows with
    | ok p =>
      refine ⟨?_, rfl⟩
      show ((List.map (fun b => (true, b)) _).map Prod.snd).flatten = _
      rw [List.map_map, show Prod.snd ∘ (fun b : Bytes => (true, b)) = id from rfl, List.map_id, Ipdb.saveCalls_eq]
    | err e => exact ⟨rfl, rfl⟩
    | panic => exact ⟨rfl, rfl⟩
  · simp only [if_neg h1]
    by_cases h2 : kind = gs ".scan"
    · have h4 : kind ≠ gs ".memip" := by rw [h2]; decide
      simp only [if_pos h2, if_neg h4]
      unfold Plain.pack
      rw [Plain.rowCalls_eq]
      cases Plain.rowCalls d.rows d.heap with
      | ok p =>
        refine ⟨?_, rfl⟩
        show ((_ ++ List.map (fun b => (true, b)) _).map Prod.snd).flatten = _
        rw [List.map_append, List.map_map, List.map_map, show Prod.snd ∘ (fun b : Bytes => (true, b)) = id from rfl,
          show Prod.snd ∘ (fun b : Bytes => (false, b)) = id from rfl, List.map_id, List.map_id, List.flatten_append,
          Plain.headerCalls_eq]
      | err e => exact ⟨rfl, rfl⟩
      | panic => exact ⟨rfl, rfl⟩
    · simp only [if_neg h2]
      by_cases h3 : kind = gs ".memip"
      · simp only [if_pos h3]
        have hm : ((Memip.packCalls d.view).map fun b => (false, b)).map Prod.snd = Memip.packCalls d.view := by
          rw [List.map_map, show Prod.snd ∘ (fun b : Bytes => (false, b)) = id from rfl, List.map_id]
        cases hp : Memip.pack d.view with
        | ok t => exact ⟨by rw [hm]; exact Memip.pack_calls hp, rfl⟩
        | err e =>
          exact absurd hp (Memip.pack_noErr d.view e)
        | panic => exact ⟨by rw [hm], rfl⟩
      · simp only [if_neg h3, and_self]

/-! ## The calls on such a system -/

/-- What has been accepted when all calls were made: those whose error is looked at are complete. -/
inductive Taken : List (Bool × Bytes) → List Bytes → Prop
  | nil : Taken [] []
  | cons {c : Bool} {b p : Bytes} {cs : List (Bool × Bytes)} {ps : List Bytes} : p <+: b → (c = true → p = b) → Taken cs ps →
    Taken ((c, b) :: cs) (p :: ps)

theorem Taken.inv {c : Bool} {b : Bytes} {cs : List (Bool × Bytes)} {ps : List Bytes} (h : Taken ((c, b) :: cs) ps) :
    ∃ p qs, ps = p :: qs ∧ p <+: b ∧ (c = true → p = b) ∧ Taken cs qs := by
  cases h with
  | cons h1 h2 h3 => exact ⟨_, _, rfl, h1, h2, h3⟩

theorem Taken.full : ∀ (cs : List (Bool × Bytes)), Taken cs (cs.map Prod.snd)
  | [] => .nil
  | (_, _) :: cs => .cons (List.prefix_refl _) (fun _ => rfl) (Taken.full cs)

theorem perform_spec (disk : Nat → Fate) : ∀ (cs : List (Bool × Bytes)) (n : Nat) (b : Bytes) (n' : Nat) (s : Stop),
    perform disk cs n = (b, n', s) → ∃ ps, Taken cs ps ∧ b <+: ps.flatten ∧ (s = .done → b = ps.flatten)
  | [], n, b, n', s, h => by
    unfold perform at h
    cases h
    exact ⟨[], .nil, List.prefix_refl _, fun _ => rfl⟩
  | (c, x) :: cs, n, b, n', s, h => by
    unfold perform at h
    cases hd : disk n with
    | all =>
      rw [hd] at h
      simp only [] at h
      rcases hr : perform disk cs (n + 1) with ⟨rb, rn, rs⟩
      rw [hr] at h
      cases h
      obtain ⟨ps, h1, h2, h3⟩ := perform_spec disk cs _ _ _ _ hr
      refine ⟨x :: ps, .cons (List.prefix_refl _) (fun _ => rfl) h1, ?_, fun e => ?_⟩
      · rw [List.flatten_cons]; exact (List.prefix_append_right_inj x).mpr h2
      · rw [List.flatten_cons, h3 e]
    | short m =>
      rw [hd] at h
      simp only [] at h
      split at h
      · cases h
        exact ⟨x :: cs.map Prod.snd, .cons (List.prefix_refl _) (fun _ => rfl) (.full cs),
          by rw [List.flatten_cons]; exact (List.take_prefix m x).trans (List.prefix_append _ _), fun e => by cases e⟩
      · rename_i hm
        rcases hr : perform disk cs (n + 1) with ⟨rb, rn, rs⟩
        rw [hr] at h
        cases h
        obtain ⟨ps, h1, h2, h3⟩ := perform_spec disk cs _ _ _ _ hr
        refine ⟨x.take m :: ps, .cons (List.take_prefix m x) (fun hc => ?_) h1, ?_, fun e => ?_⟩
        · have : ¬ m < x.length := fun h => hm ⟨h, hc⟩
          exact List.take_of_length_le (by omega)
        · rw [List.flatten_cons]; exact (List.prefix_append_right_inj _).mpr h2
        · rw [List.flatten_cons, h3 e]
    | dies m =>
      rw [hd] at h
      cases h
      exact ⟨x :: cs.map Prod.snd, .cons (List.prefix_refl _) (fun _ => rfl) (.full cs),
        by rw [List.flatten_cons]; exact (List.take_prefix m x).trans (List.prefix_append _ _), fun e => by cases e⟩

theorem perform_all {disk : Nat → Fate} (hd : ∀ n, disk n = .all) : ∀ (cs : List (Bool × Bytes)) (n : Nat),
    perform disk cs n = ((cs.map Prod.snd).flatten, n + cs.length, .done)
  | [], n => rfl
  | (c, x) :: cs, n => by
    unfold perform
    rw [hd n]
    simp only [perform_all hd cs (n + 1), List.map_cons, List.flatten_cons, List.length_cons]
    congr 2
    omega

theorem taken_checked : ∀ {cs : List (Bool × Bytes)} {ps : List Bytes}, Taken cs ps → (∀ c ∈ cs, c.1 = true) → ps = cs.map Prod.snd
  | _, _, .nil, _ => rfl
  | _, _, .cons (c := c) (b := b) (p := p) _ hc ht, h => by
    rw [List.map_cons, ← taken_checked ht fun c hc => h c (by simp [hc]), hc (h (c, b) (by simp))]

theorem taken_begins : ∀ {ls : List Bytes} {ps : List Bytes} {f : Bool}, Taken (ls.map fun b => (f, b)) ps → Begins ps ls
  | [], _, _, .nil => .nil
  | _ :: _, _, _, .cons h _ ht => .cons h (taken_begins ht)

/-- What the calls of an output leave when all were made, against what they make up. -/
theorem taken_passed {w : World} {kind : Str} {d : HData} {ps : List Bytes} (h : Taken (outputCalls w kind d).1 ps) :
    Passed kind ((outputCalls w kind d).1.map Prod.snd).flatten ps.flatten := by
  unfold Passed
  by_cases h2 : kind = gs ".scan"
  · have h1 : kind ≠ gs ".ipdb" := by rw [h2]; decide
    unfold outputCalls at h ⊢
    rw [if_neg h1, if_pos h2] at h ⊢
    cases hc : Plain.rowCalls d.rows d.heap with
    | err e => rw [hc] at h; cases h; exact .inl rfl
    | panic => rw [hc] at h; cases h; exact .inl rfl
    | ok p =>
      rcases p with ⟨ls, hp⟩
      rw [hc] at h
      refine .inr (.inl ⟨h2, w.nowText, w.encVersion d.version, d.fields, ls.flatten, ?_⟩)
      replace h : Taken ((false, gs "#### scan dump " ++ w.nowText ++ gs " ####" ++ [0x0A]) :: (false, gs "#### " ++ w.encVersion d.version ++ [0x0A]) ::
        (false, gs "#### " ++ joinByte 0x2C d.fields ++ [0x0A]) :: ls.map fun b => (true, b)) ps := h
      have e1 : gs " ####\n" = gs " ####" ++ [0x0A] := by decide +kernel
      have e2 : gs "\n" = [0x0A] := by decide +kernel
      rw [e1, e2]
      obtain ⟨p1, q1, rfl, k1, _, h⟩ := h.inv
      obtain ⟨p2, q2, rfl, k2, _, h⟩ := h.inv
      obtain ⟨p3, q3, rfl, k3, _, h⟩ := h.inv
      refine ⟨p1, p2, p3, ?_, by rw [← List.append_assoc]; exact k1, k2, k3, ?_⟩
      · have : ((List.map (fun b => (false, b)) (Plain.headerCalls (w.encVersion d.version) w.nowText d.fields) ++
          List.map (fun b => (true, b)) ls).map Prod.snd) = Plain.headerCalls (w.encVersion d.version) w.nowText d.fields ++ ls := by
          rw [List.map_append, List.map_map, List.map_map, show Prod.snd ∘ (fun b : Bytes => (true, b)) = id from rfl,
            show Prod.snd ∘ (fun b : Bytes => (false, b)) = id from rfl, List.map_id, List.map_id]
        show ((List.map (fun b => (false, b)) (Plain.headerCalls (w.encVersion d.version) w.nowText d.fields) ++
          List.map (fun b => (true, b)) ls).map Prod.snd).flatten = _
        rw [this]
        simp only [List.flatten_append, Plain.headerCalls, List.flatten_cons, List.flatten_nil, List.append_nil, List.append_assoc]
      · have hq := taken_checked h (fun c hc => by obtain ⟨b, _, rfl⟩ := List.mem_map.mp hc; rfl)
        rw [List.map_map, show Prod.snd ∘ (fun b : Bytes => (true, b)) = id from rfl, List.map_id] at hq
        rw [hq]
        simp only [List.flatten_cons, List.append_assoc]
  · by_cases h3 : kind = gs ".memip"
    · have h1 : kind ≠ gs ".ipdb" := by rw [h3]; decide
      unfold outputCalls at h ⊢
      rw [if_neg h1, if_neg h2, if_pos h3] at h ⊢
      refine .inr (.inr ⟨h3, ps, Memip.packCalls d.view, ?_, ?_, taken_begins h, rfl⟩)
      · rw [List.map_map, show Prod.snd ∘ (fun b : Bytes => (false, b)) = id from rfl, List.map_id]
      · rw [show gs "\n" = [0x0A] from by decide +kernel]; exact Memip.packCalls_end _
    · left
      rw [taken_checked h]
      unfold outputCalls
      rw [if_neg h2, if_neg h3]
      split
      · split
        · intro c hc
          obtain ⟨b, _, rfl⟩ := List.mem_map.mp hc
          rfl
        · intro c hc; cases hc
        · intro c hc; cases hc
      · intro c hc; cases hc

/-! ## The outputs -/

theorem packFileD_all {w : World} {fuel : Nat} {canCreate : Str → Bool} {disk : Nat → Fate} (hd : ∀ n, disk n = .all) (fs : Fs) (n : Nat)
    (o : Str) (d : HData) : ∃ n', PackFileD w canCreate disk fs n o d =
      ((PackFile (converterFormats w fuel) canCreate fs o d).1, n', some (PackFile (converterFormats w fuel) canCreate fs o d).2) := by
  unfold PackFileD PackFile
  by_cases hc : canCreate o = false
  · exact ⟨n, by rw [if_pos hc, if_pos hc]⟩
  · rw [if_neg hc, if_neg hc]
    simp only []
    rw [perform_all hd]
    have h := outputCalls_spec w fuel (pathExt o) d
    cases hp : PackWriter (converterFormats w fuel) (pathExt o) d with
    | ok p => rcases p with ⟨b, d'⟩; rw [hp] at h; simp only [] at h; exact ⟨_, by simp only [h.1, h.2]; rfl⟩
    | err e => rw [hp] at h; simp only [] at h; exact ⟨_, by simp only [h.1, h.2]; rfl⟩
    | panic => rw [hp] at h; simp only [] at h; exact ⟨_, by simp only [h.1, h.2]; rfl⟩

theorem writeAllD_all {w : World} {fuel : Nat} {canCreate : Str → Bool} {disk : Nat → Fate} (hd : ∀ n, disk n = .all) :
    ∀ (os : List Str) (fs : Fs) (n : Nat) (d : HData), writeAllD w canCreate disk os fs n d =
      ((writeAll (converterFormats w fuel) canCreate os fs d).1, some (writeAll (converterFormats w fuel) canCreate os fs d).2)
  | [], fs, n, d => rfl
  | o :: os, fs, n, d => by
    unfold writeAllD writeAll
    obtain ⟨n', e⟩ := packFileD_all (w := w) (fuel := fuel) (canCreate := canCreate) hd fs n o d
    rw [e]
    rcases PackFile (converterFormats w fuel) canCreate fs o d with ⟨f, d' | x | _⟩
    · exact writeAllD_all hd os f n' d'
    · rfl
    · rfl

/-- One output: it was not created; or it is written and the run goes on as it would; or the run stops. -/
theorem packFileD_cases (w : World) (fuel : Nat) (canCreate : Str → Bool) (disk : Nat → Fate) (fs : Fs) (n : Nat) (o : Str) (d : HData) :
    (canCreate o = false ∧ PackFileD w canCreate disk fs n o d = (fs, n, some (.err (.other "create")))) ∨
    (canCreate o = true ∧ ∃ b0 r0, (∀ fs, PackFile (converterFormats w fuel) canCreate fs o d = (fs.set o b0, r0)) ∧
      ∃ b n' r, PackFileD w canCreate disk fs n o d = (fs.set o b, n', r) ∧
        ((r = some r0 ∧ Passed (pathExt o) b0 b) ∨ ((r = none ∨ r = some (.err (.other "write"))) ∧ Begun (pathExt o) b0 b))) := by
  by_cases hc : canCreate o = false
  · left
    refine ⟨hc, ?_⟩
    unfold PackFileD
    rw [if_pos hc]
  · right
    refine ⟨by simpa using hc, ((outputCalls w (pathExt o) d).1.map Prod.snd).flatten, (outputCalls w (pathExt o) d).2, fun fs => ?_, ?_⟩
    · unfold PackFile
      rw [if_neg hc]
      have h := outputCalls_spec w fuel (pathExt o) d
      cases hp : PackWriter (converterFormats w fuel) (pathExt o) d with
      | ok p => rcases p with ⟨b, d'⟩; rw [hp] at h; simp only [] at h; simp only [h.1, h.2]
      | err e => rw [hp] at h; simp only [] at h; simp only [h.1, h.2]; rfl
      | panic => rw [hp] at h; simp only [] at h; simp only [h.1, h.2]
    · unfold PackFileD
      rw [if_neg hc]
      simp only []
      rcases hp : perform disk (outputCalls w (pathExt o) d).1 n with ⟨b, n', s⟩
      obtain ⟨ps, h1, h2, h3⟩ := perform_spec disk _ _ _ _ _ hp
      cases s with
      | done => exact ⟨b, n', _, rfl, .inl ⟨rfl, by rw [h3 rfl]; exact taken_passed h1⟩⟩
      | failed => exact ⟨b, n', _, rfl, .inr ⟨.inr rfl, _, taken_passed h1, h2⟩⟩
      | killed => exact ⟨b, n', _, rfl, .inr ⟨.inl rfl, _, taken_passed h1, h2⟩⟩

theorem writeAllD_ok {w : World} {fuel : Nat} {canCreate : Str → Bool} {disk : Nat → Fate} :
    ∀ (os : List Str) (fs fi fs' : Fs) (n : Nat) (d : HData), writeAllD w canCreate disk os fs n d = (fs', some (.ok ())) →
      ∃ f0, writeAll (converterFormats w fuel) canCreate os fi d = (f0, .ok ()) ∧
        (∀ o ∈ os, ∃ b0 b, f0 o = some b0 ∧ fs' o = some b ∧ Passed (pathExt o) b0 b) ∧
        ∀ m, m ∉ os → fs' m = fs m ∧ f0 m = fi m
  | [], fs, fi, fs', n, d, h => by
    unfold writeAllD at h
    cases h
    exact ⟨fi, rfl, by simp, fun m _ => ⟨rfl, rfl⟩⟩
  | o :: os, fs, fi, fs', n, d, h => by
    unfold writeAllD at h
    rcases packFileD_cases w fuel canCreate disk fs n o d with ⟨_, e⟩ | ⟨hc, b0, r0, e0, b, n', r, e, hr⟩
    · rw [e] at h; cases h
    · rw [e] at h
      rcases hr with ⟨rfl, hp⟩ | ⟨rfl | rfl, _⟩
      · cases r0 with
        | err x => cases h
        | panic => cases h
        | ok d' =>
          simp only [] at h
          obtain ⟨f0, k1, k2, k3⟩ := writeAllD_ok os (fs.set o b) (fi.set o b0) fs' n' d' h
          refine ⟨f0, ?_, fun x hx => ?_, fun m hm => ?_⟩
          · unfold writeAll
            rw [e0]
            exact k1
          · by_cases hxo : x ∈ os
            · exact k2 x hxo
            · obtain rfl : x = o := (List.mem_cons.mp hx).resolve_right hxo
              obtain ⟨g1, g2⟩ := k3 x hxo
              refine ⟨b0, b, ?_, ?_, hp⟩
              · rw [g2]; unfold Fs.set; rw [if_pos rfl]
              · rw [g1]; unfold Fs.set; rw [if_pos rfl]
          · simp only [List.mem_cons, not_or] at hm
            obtain ⟨g1, g2⟩ := k3 m hm.2
            rw [g1, g2]
            unfold Fs.set
            rw [if_neg hm.1, if_neg hm.1]
            exact ⟨rfl, rfl⟩
      · cases h
      · cases h

/-- How the run stops at the output `o`, against the ideal run of the outputs up to it: the same way, killed, or with a write
error. -/
def StopsAt (canCreate : Str → Bool) (fs f0 fs' : Fs) (o : Str) (r0 : Res Unit) (r : Option (Res Unit)) : Prop :=
  (r = some r0 ∨ r = none ∨ r = some (.err (.other "write"))) ∧
  if canCreate o = false then fs' o = fs o ∧ f0 o = fs o
  else ∃ b0 b, f0 o = some b0 ∧ fs' o = some b ∧ Begun (pathExt o) b0 b

theorem writeAllD_stops {w : World} {fuel : Nat} {canCreate : Str → Bool} {disk : Nat → Fate} :
    ∀ (os : List Str) (fs fi fs' : Fs) (n : Nat) (d : HData) (r : Option (Res Unit)),
      (∀ m, canCreate m = false → fi m = fs m) →
      writeAllD w canCreate disk os fs n d = (fs', r) → r ≠ some (.ok ()) →
      ∃ pre o post, os = pre ++ o :: post ∧ ∃ f0 r0, writeAll (converterFormats w fuel) canCreate (pre ++ [o]) fi d = (f0, r0) ∧
        StopsAt canCreate fs f0 fs' o r0 r ∧
        (∀ p ∈ pre, p ≠ o → ∃ b0 b, f0 p = some b0 ∧ fs' p = some b ∧ Passed (pathExt p) b0 b) ∧
        ∀ m, m ∉ pre → m ≠ o → fs' m = fs m ∧ f0 m = fi m
  | [], fs, fi, fs', n, d, r, _, h, hr => by
    unfold writeAllD at h
    exact absurd (congrArg Prod.snd h).symm hr
  | o :: os, fs, fi, fs', n, d, r, hsame, h, hne => by
    unfold writeAllD at h
    rcases packFileD_cases w fuel canCreate disk fs n o d with ⟨hc, e⟩ | ⟨hc, b0, r0, e0, b, n', r1, e, hr⟩
    · rw [e] at h
      cases h
      refine ⟨[], o, os, rfl, fi, .err (.other "create"), ?_, ⟨.inl rfl, ?_⟩, by simp, fun m _ _ => ⟨rfl, rfl⟩⟩
      · show writeAll _ _ [o] _ _ = _
        unfold writeAll PackFile
        rw [if_pos hc]
      · rw [if_pos hc]
        exact ⟨rfl, hsame o hc⟩
    · have hset : ∀ (g : Fs) (t : Bytes) m, m ≠ o → g.set o t m = g m := by
        intro g t m hm; unfold Fs.set; rw [if_neg hm]
      have hown : ∀ (g : Fs) (t : Bytes), g.set o t o = some t := by
        intro g t; unfold Fs.set; rw [if_pos rfl]
      have stop : fs' = fs.set o b → (∀ x, writeAll (converterFormats w fuel) canCreate [o] fi d = (fi.set o b0, x) →
            (r = some x ∨ r = none ∨ r = some (.err (.other "write")))) → Begun (pathExt o) b0 b →
          ∃ pre p post, o :: os = pre ++ p :: post ∧ ∃ f0 r0, writeAll (converterFormats w fuel) canCreate (pre ++ [p]) fi d = (f0, r0) ∧
            StopsAt canCreate fs f0 fs' p r0 r ∧
            (∀ q ∈ pre, q ≠ p → ∃ b0 b, f0 q = some b0 ∧ fs' q = some b ∧ Passed (pathExt q) b0 b) ∧
            ∀ m, m ∉ pre → m ≠ p → fs' m = fs m ∧ f0 m = fi m := by
        intro hf hx hb
        have hw : ∃ x, writeAll (converterFormats w fuel) canCreate [o] fi d = (fi.set o b0, x) := by
          unfold writeAll
          rw [e0]
          cases r0 with
          | ok d' => exact ⟨_, rfl⟩
          | err x => exact ⟨_, rfl⟩
          | panic => exact ⟨_, rfl⟩
        obtain ⟨x, hw⟩ := hw
        refine ⟨[], o, os, rfl, fi.set o b0, x, hw, ⟨hx x hw, ?_⟩, by simp, fun m _ hm => ⟨by rw [hf, hset _ _ _ hm], hset _ _ _ hm⟩⟩
        rw [if_neg (by rw [hc]; simp)]
        exact ⟨b0, b, hown _ _, by rw [hf, hown], hb⟩
      rw [e] at h
      rcases hr with ⟨rfl, hp⟩ | ⟨hk, hb⟩
      · cases r0 with
        | err x =>
          cases h
          refine stop rfl (fun y hy => .inl ?_) ⟨b, hp, List.prefix_refl _⟩
          unfold writeAll at hy
          rw [e0] at hy
          cases hy; rfl
        | panic =>
          cases h
          refine stop rfl (fun y hy => .inl ?_) ⟨b, hp, List.prefix_refl _⟩
          unfold writeAll at hy
          rw [e0] at hy
          cases hy; rfl
        | ok d' =>
          simp only [] at h
          obtain ⟨pre, p, post, g1, f0, r0, g2, g3, g4, g5⟩ := writeAllD_stops os (fs.set o b) (fi.set o b0) fs' n' d' r
            (fun m hm => by
              have : m ≠ o := by rintro rfl; rw [hc] at hm; cases hm
              rw [hset _ _ _ this, hset _ _ _ this, hsame m hm]) h hne
          refine ⟨o :: pre, p, post, by rw [g1]; rfl, f0, r0, ?_, ⟨g3.1, ?_⟩, fun q hq hqp => ?_, fun m hm hmp => ?_⟩
          · show writeAll _ _ (o :: (pre ++ [p])) _ _ = _
            unfold writeAll
            rw [e0]
            exact g2
          · have := g3.2
            by_cases hcp : canCreate p = false
            · rw [if_pos hcp] at this ⊢
              have hpo : p ≠ o := by rintro rfl; rw [hc] at hcp; cases hcp
              rw [hset _ _ _ hpo] at this
              exact this
            · rw [if_neg hcp] at this ⊢
              exact this
          · by_cases hqo : q ∈ pre
            · exact g4 q hqo hqp
            · obtain rfl : q = o := (List.mem_cons.mp hq).resolve_right hqo
              obtain ⟨k1, k2⟩ := g5 q hqo hqp
              exact ⟨b0, b, by rw [k2, hown], by rw [k1, hown], hp⟩
          · simp only [List.mem_cons, not_or] at hm
            obtain ⟨k1, k2⟩ := g5 m hm.2 hmp
            rw [k1, k2, hset _ _ _ hm.1, hset _ _ _ hm.1]
            exact ⟨rfl, rfl⟩
      · rcases hk with rfl | rfl
        · cases h
          exact stop rfl (fun _ _ => .inr (.inl rfl)) hb
        · cases h
          exact stop rfl (fun _ _ => .inr (.inr rfl)) hb

/-! ## The conversion -/

/-- Up to the outputs the run does not write. -/
theorem converterD_cases (w : World) (fuel : Nat) (orders : Nat → List Str) (canCreate : Str → Bool) (disk : Nat → Fate) (fs : Fs) (a : Args) :
    (∃ x, (∀ f r, x = some (f, r) → f = fs ∧ r ≠ .ok ()) ∧
      (∀ out, converter w fuel orders canCreate fs { a with output := out } = x) ∧
      converterD w fuel orders canCreate disk fs a = x.map fun p => (p.1, some p.2)) ∨
    ∃ d, (∀ out, converter w fuel orders canCreate fs { a with output := out } =
        some (writeAll (converterFormats w fuel) canCreate (splitByte 0x2C out) fs d)) ∧
      converterD w fuel orders canCreate disk fs a = some (writeAllD w canCreate disk (splitByte 0x2C a.output) fs 0 d) := by
  have bad : ∀ e : Res Unit, e ≠ .ok () → ∀ f r, some (fs, e) = some (f, r) → f = fs ∧ r ≠ .ok () := by
    intro e he f r h
    have h := Option.some.inj h
    have h1 := congrArg Prod.fst h
    have h2 := congrArg Prod.snd h
    exact ⟨h1.symm, fun h => he (h2.trans h)⟩
  have finish : ∀ lineQ,
      (∃ x : Option (Fs × Res Unit), (∀ f r, x = some (f, r) → f = fs ∧ r ≠ .ok ()) ∧
        (∀ out, (DumpFile (converterFormats w fuel) fs a.input (ruleText a.rule) (operations w orders lineQ a.lineReplace)).map (fun r => match r with
          | .ok d => writeAll (converterFormats w fuel) canCreate (splitByte 0x2C out) fs d
          | .err e => (fs, .err e)
          | .panic => (fs, .panic)) = x) ∧
        (DumpFile (converterFormats w fuel) fs a.input (ruleText a.rule) (operations w orders lineQ a.lineReplace)).map (fun r => match r with
          | .ok d => writeAllD w canCreate disk (splitByte 0x2C a.output) fs 0 d
          | .err e => (fs, some (.err e))
          | .panic => (fs, some .panic)) = x.map fun p => (p.1, some p.2)) ∨
      ∃ d, (∀ out, (DumpFile (converterFormats w fuel) fs a.input (ruleText a.rule) (operations w orders lineQ a.lineReplace)).map (fun r => match r with
          | .ok d => writeAll (converterFormats w fuel) canCreate (splitByte 0x2C out) fs d
          | .err e => (fs, .err e)
          | .panic => (fs, .panic)) = some (writeAll (converterFormats w fuel) canCreate (splitByte 0x2C out) fs d)) ∧
        (DumpFile (converterFormats w fuel) fs a.input (ruleText a.rule) (operations w orders lineQ a.lineReplace)).map (fun r => match r with
          | .ok d => writeAllD w canCreate disk (splitByte 0x2C a.output) fs 0 d
          | .err e => (fs, some (.err e))
          | .panic => (fs, some .panic)) = some (writeAllD w canCreate disk (splitByte 0x2C a.output) fs 0 d) := by
    intro lineQ
    cases DumpFile (converterFormats w fuel) fs a.input (ruleText a.rule) (operations w orders lineQ a.lineReplace) with
    | none => exact .inl ⟨none, fun f r h => (by cases h), fun _ => rfl, rfl⟩
    | some r =>
      cases r with
      | ok d => exact .inr ⟨d, fun _ => rfl, rfl⟩
      | err e => exact .inl ⟨some (fs, .err e), bad _ (by intro h; cases h), fun _ => rfl, rfl⟩
      | panic => exact .inl ⟨some (fs, .panic), bad _ (by intro h; cases h), fun _ => rfl, rfl⟩
  by_cases hl : a.line ≠ []
  · cases hq : NewDb w (converterFormats w fuel) fs a.line with
    | err e =>
      refine .inl ⟨some (fs, .err e), bad _ (by intro h; cases h), fun out => ?_, ?_⟩
      · unfold converter; simp only []; rw [if_pos hl, hq]
      · unfold converterD; simp only []; rw [if_pos hl, hq]; rfl
    | panic =>
      refine .inl ⟨some (fs, .panic), bad _ (by intro h; cases h), fun out => ?_, ?_⟩
      · unfold converter; simp only []; rw [if_pos hl, hq]
      · unfold converterD; simp only []; rw [if_pos hl, hq]; rfl
    | ok q =>
      rcases finish (some q) with ⟨x, h1, h2, h3⟩ | ⟨d, h1, h2⟩
      · refine .inl ⟨x, h1, fun out => ?_, ?_⟩
        · unfold converter; simp only []; rw [if_pos hl, hq]; exact h2 out
        · unfold converterD; simp only []; rw [if_pos hl, hq]; exact h3
      · refine .inr ⟨d, fun out => ?_, ?_⟩
        · unfold converter; simp only []; rw [if_pos hl, hq]; exact h1 out
        · unfold converterD; simp only []; rw [if_pos hl, hq]; exact h2
  · rcases finish none with ⟨x, h1, h2, h3⟩ | ⟨d, h1, h2⟩
    · refine .inl ⟨x, h1, fun out => ?_, ?_⟩
      · unfold converter; simp only []; rw [if_neg hl]; exact h2 out
      · unfold converterD; simp only []; rw [if_neg hl]; exact h3
    · refine .inr ⟨d, fun out => ?_, ?_⟩
      · unfold converter; simp only []; rw [if_neg hl]; exact h1 out
      · unfold converterD; simp only []; rw [if_neg hl]; exact h2

/-- **C107 (a sound system).** If every write succeeds, the run is the one of the other properties. -/
theorem C107_ideal (w : World) (fuel : Nat) (orders : Nat → List Str) (canCreate : Str → Bool) (disk : Nat → Fate) (fs : Fs) (a : Args)
    (hd : ∀ n, disk n = .all) : converterD w fuel orders canCreate disk fs a =
      (converter w fuel orders canCreate fs a).map fun p => (p.1, some p.2) := by
  rcases converterD_cases w fuel orders canCreate disk fs a with ⟨x, _, h2, h3⟩ | ⟨d, h1, h2⟩
  · rw [h3, ← h2 a.output]
  · rw [h2, show converter w fuel orders canCreate fs a = _ from h1 a.output, writeAllD_all (fuel := fuel) hd]
    rfl

/-- **C107 (reported as done).** Whatever becomes of the single writes: if a conversion ends without an error, then so does it
on a sound system; every `.ipdb` output has exactly the bytes it has there, every `.scan` output all its rows (its header lines
may be cut short), every `.memip` output the beginnings of its lines; and no other file has changed. -/
theorem C107_reported (w : World) (fuel : Nat) (orders : Nat → List Str) (canCreate : Str → Bool) (disk : Nat → Fate) (fs fs' : Fs) (a : Args)
    (h : converterD w fuel orders canCreate disk fs a = some (fs', some (.ok ()))) :
    ∃ f0, converter w fuel orders canCreate fs a = some (f0, .ok ()) ∧
      (∀ o ∈ splitByte 0x2C a.output, ∃ b0 b, f0 o = some b0 ∧ fs' o = some b ∧ Passed (pathExt o) b0 b) ∧
      ∀ m, m ∉ splitByte 0x2C a.output → fs' m = fs m := by
  rcases converterD_cases w fuel orders canCreate disk fs a with ⟨x, h1, h2, h3⟩ | ⟨d, h1, h2⟩
  · rw [h3] at h
    cases x with
    | none => cases h
    | some p =>
      have h := Option.some.inj h
      rcases p with ⟨f, r⟩
      have := congrArg Prod.snd h
      exact absurd (Option.some.inj this) (h1 f r rfl).2
  · rw [h2] at h
    obtain ⟨f0, k1, k2, k3⟩ := writeAllD_ok (fuel := fuel) _ fs fs fs' 0 d (Option.some.inj h)
    refine ⟨f0, ?_, k2, fun m hm => (k3 m hm).1⟩
    rw [show converter w fuel orders canCreate fs a = _ from h1 a.output, k1]

/-- **C107 (stopped).** Whatever becomes of the single writes, and whenever the process is killed: if a conversion does not end
without an error, then either it has not changed any file (and ends like the run on a sound system), or it has stopped at an
output `o`.  Against the run on a sound system with the outputs up to this one: each `.ipdb` output before it has the same bytes
(`.scan` and `.memip` outputs up to the cuts of `C107_reported`); it has itself the beginning of such a content (it is as before if
it could not be created); and every other file is as it was. -/
theorem C107_stopped (w : World) (fuel : Nat) (orders : Nat → List Str) (canCreate : Str → Bool) (disk : Nat → Fate) (fs fs' : Fs) (a : Args)
    (r : Option (Res Unit)) (h : converterD w fuel orders canCreate disk fs a = some (fs', r)) (hr : r ≠ some (.ok ())) :
    (fs' = fs ∧ ∃ r0, r = some r0 ∧ converter w fuel orders canCreate fs a = some (fs, r0)) ∨
    ∃ pre o post, splitByte 0x2C a.output = pre ++ o :: post ∧ ∃ f0 r0,
      converter w fuel orders canCreate fs { a with output := joinByte 0x2C (pre ++ [o]) } = some (f0, r0) ∧
      (r = some r0 ∨ r = none ∨ r = some (.err (.other "write"))) ∧
      (if canCreate o = false then fs' o = fs o
        else ∃ b0 b, f0 o = some b0 ∧ fs' o = some b ∧ Begun (pathExt o) b0 b) ∧
      (∀ p ∈ pre, p ≠ o → ∃ b0 b, f0 p = some b0 ∧ fs' p = some b ∧ Passed (pathExt p) b0 b) ∧
      ∀ m, m ∉ pre → m ≠ o → fs' m = fs m := by
  rcases converterD_cases w fuel orders canCreate disk fs a with ⟨x, h1, h2, h3⟩ | ⟨d, h1, h2⟩
  · left
    rw [h3] at h
    cases x with
    | none => cases h
    | some p =>
      rcases p with ⟨f, r0⟩
      have h := Option.some.inj h
      have e1 : f = fs' := congrArg Prod.fst h
      have e2 : some r0 = r := congrArg Prod.snd h
      obtain ⟨rfl, _⟩ := h1 f r0 rfl
      exact ⟨e1.symm, r0, e2.symm, h2 a.output⟩
  · right
    rw [h2] at h
    obtain ⟨pre, o, post, g1, f0, r0, g2, g3, g4, g5⟩ := writeAllD_stops (fuel := fuel) _ fs fs fs' 0 d r (fun _ _ => rfl) (Option.some.inj h) hr
    refine ⟨pre, o, post, g1, f0, r0, ?_, g3.1, ?_, g4, fun m hm hmo => (g5 m hm hmo).1⟩
    · rw [h1, splitByte_joinByte (by simp) (fun x hx => mem_outputs_no_comma a.output x (by
        rw [g1]
        rcases List.mem_append.mp hx with h | h
        · simp [h]
        · simp [List.mem_singleton.mp h])), g2]
    · have := g3.2
      by_cases hc : canCreate o = false
      · rw [if_pos hc] at this ⊢; exact this.1
      · rw [if_neg hc] at this ⊢; exact this

end Uip.Program
