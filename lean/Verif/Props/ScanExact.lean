import Verif.Spec.ScanAny
import Verif.Proof.Plain
import Verif.Props.ExportAny
import Verif.Props.AddrText
import Verif.Props.Scanner
/-!
# Property C125: what dumping any `.scan` text gives
-/
namespace Uip.Plain
open Uip Spec Spec.AddrText Spec.ScanAny Uip.Export

/-! ## Pieces -/

theorem between_split {c : UInt8} {s : Str} {parts : List Str} : splitByte c s = parts ↔ Between c s parts := by
  constructor
  · rintro rfl
    exact ⟨splitByte_ne_nil _ _, splitByte_not_mem c s, (joinByte_splitByte c s).symm⟩
  · rintro ⟨h1, h2, rfl⟩
    exact splitByte_joinByte h1 h2

theorem lastIP_last {n : IPNet} (hw : WFNet n) : ∃ last, LastIP n = .ok last ∧ (IsAllMask last = true ↔ Last n) := by
  obtain ⟨last, h1, h2, _, h5⟩ := LastIP_spec hw.1
  refine ⟨last, h1, ?_⟩
  have hal := Nat.dvd_of_mod_eq_zero (Aligned_iff.mp hw.2)
  rw [Nat.div_mul_cancel hal] at h5
  have hp := Nat.two_pow_pos (8 * n.ip.length - pfx n)
  rw [IsAllMask_iff, h5, h2]
  unfold Last netEnd hostBits
  have h256 : (256 : Nat) ^ 4 = 2 ^ 32 := by decide
  have h256' : (256 : Nat) ^ 16 = 2 ^ 128 := by decide
  rcases hw.1.1 with h | h
  · rw [if_pos h, addrNum_4 h, h, h256]
    rw [h] at hp
    omega
  · rw [if_neg (by omega), addrNum_16 h, h, h256']
    rw [h] at hp
    omega

theorem record_column : ∀ (fs vs : List Str) (m : GoMap Str) (f : Str), vs.length = fs.length →
    (f ∈ fs → ∃ v, mapGet ((fs.zip vs).foldl (fun m p => mapSet m p.1 p.2) m) f = some v ∧ Column fs vs f v) ∧
    (f ∉ fs → mapGet ((fs.zip vs).foldl (fun m p => mapSet m p.1 p.2) m) f = mapGet m f) := by
  intro fs
  induction fs with
  | nil => intro vs m f _; exact ⟨fun h => (nomatch h), fun _ => rfl⟩
  | cons x fs ih =>
    intro vs m f hl
    cases vs with
    | nil => cases hl
    | cons y vs =>
      rw [List.zip_cons_cons, List.foldl_cons]
      obtain ⟨h1, h2⟩ := ih vs (mapSet m x y) f (by simpa using hl)
      by_cases hf : f ∈ fs
      · refine ⟨fun _ => ?_, fun h => absurd (List.mem_cons_of_mem _ hf) h⟩
        obtain ⟨v, e, i, k1, k2, k3⟩ := h1 hf
        refine ⟨v, e, i + 1, by simpa using k1, by simpa using k2, fun j hj => ?_⟩
        cases j with
        | zero => omega
        | succ j => simpa using k3 j (by omega)
      · rw [h2 hf]
        by_cases hx : x = f
        · subst hx
          refine ⟨fun _ => ⟨y, by simp [mapSet, mapGet], 0, rfl, rfl, fun j hj => ?_⟩, fun h => absurd (List.mem_cons_self ..) h⟩
          cases j with
          | zero => omega
          | succ j =>
            intro hc
            simp only [List.getElem?_cons_succ] at hc
            exact hf (List.mem_of_getElem? hc)
        · refine ⟨fun h => ?_, fun _ => by simp [mapSet, mapGet, hx]⟩
          rcases List.mem_cons.mp h with h | h
          · exact absurd h.symm hx
          · exact absurd h hf

/-- The value that the map of a line yields for a field of a rule. -/
theorem value_for {fields vals : List Str} (hl : vals.length = fields.length) (f : Str) :
    ValueFor fields vals f (match mapGet (fieldToMap fields) f with
      | some v => (mapGet (record fields vals) v).getD []
      | none => (mapGet (record fields vals) []).getD []) := by
  have key := fun f => record_column fields vals [] f hl
  unfold record
  rw [fieldToMap_get]
  by_cases hf : f ∈ fields
  · rw [if_pos hf]
    obtain ⟨v, e, h⟩ := (key f).1 hf
    simp only [e, Option.getD_some]
    exact .column h
  · rw [if_neg hf]
    simp only
    by_cases h0 : [] ∈ fields
    · obtain ⟨v, e, h⟩ := (key []).1 h0
      rw [e]
      exact .nameless hf h
    · rw [(key []).2 h0]
      exact .none hf h0 rfl

/-- The values of a line under a rule. -/
theorem ruled_values (rule : Str) {fields vals : List Str} (hl : vals.length = fields.length) :
    ∃ out, rowValues (ParseRule rule) (Select (fieldToMap fields) (match ParseRule rule with | none => fields | some e => e.fields))
      (record fields vals) = .ok out ∧
      Ruled rule fields vals (match ParseRule rule with | none => fields | some e => e.fields) out := by
  by_cases h : rule = []
  · refine ⟨[], ?_, .inl ⟨h, ?_, rfl⟩⟩ <;> · unfold ParseRule; rw [if_pos h]; try rfl
  · cases hs : splitByte 0x7C rule with
    | nil => exact absurd hs (splitByte_ne_nil _ _)
    | cons g parts =>
      have hp : ParseRule rule = some ⟨splitByte 0x2C g, parts.filterMap (parseGroup (splitByte 0x2C g))⟩ := by
        unfold ParseRule
        rw [if_neg h, hs]
      have hb := between_split.mp hs
      rw [hp]
      simp only [rowValues]
      have hr := remapKey_spec ⟨splitByte 0x2C g, parts.filterMap (parseGroup (splitByte 0x2C g))⟩ (fieldToMap fields) (record fields vals)
      simp only at hr
      unfold Exporter.Export
      rw [hr]
      simp only [Res.ok_bind, Res.pure_eq]
      refine ⟨_, rfl, .inr ⟨h, g, parts, _, hb, between_split.mp rfl, List.length_map _, ?_,
        parts_do parts _ (List.length_map _) fun p hp => hb.2.1 p (List.mem_cons_of_mem _ hp)⟩⟩
      intro i f v hf hv
      rw [List.getElem?_map, hf] at hv
      rw [← Option.some.inj hv]
      exact value_for hl f

/-! ## Lines -/

theorem parse_reads {t : Traversal} {l : Str} {n : IPNet} {vals : List Str} (h : RowReads t.fields.length l n vals) :
    parseLine t l = .ok (n, record t.fields vals) := by
  obtain ⟨h1, a, b, h2, h3, h4⟩ := h
  unfold parseLine
  rw [between_split.mpr h2]
  simp only [(C111_cidr a n).mpr h3, between_split.mpr h4]
  rw [if_neg (by omega)]
  rfl

theorem parse_unread {t : Traversal} {l : Str} (h : ¬ ∃ n vals, RowReads t.fields.length l n vals) : ∃ e, parseLine t l = .err e := by
  unfold parseLine
  split
  · rename_i a b hs
    split
    · exact ⟨_, rfl⟩
    · rename_i n hn
      by_cases hl : (splitByte 0x2C b).length = t.fields.length
      · exact absurd ⟨n, splitByte 0x2C b, hl, a, b, between_split.mp hs, (C111_cidr a n).mp hn, between_split.mp rfl⟩ h
      · rw [if_pos hl]; exact ⟨_, rfl⟩
  · exact ⟨_, rfl⟩

theorem read_wf {count : Nat} {l : Str} {n : IPNet} {vals : List Str} (h : RowReads count l n vals) : WFNet n := by
  obtain ⟨_, _, _, _, ⟨_, _, _, _, _, h, _⟩, _⟩ := h
  exact h

/-- The outcomes of reading the rows. -/
theorem dumpLoop_cases (rule : Str) (t : Traversal) : ∀ (ls : List Str),
    (Broken t.fields.length ls ∧ ∃ e, dumpLoop t (ParseRule rule)
      (Select (fieldToMap t.fields) (match ParseRule rule with | none => t.fields | some e => e.fields)) ls = .err e) ∨
    (∃ body ips, Counting t.fields.length ls body ∧ dumpLoop t (ParseRule rule)
      (Select (fieldToMap t.fields) (match ParseRule rule with | none => t.fields | some e => e.fields)) ls = .ok ips ∧
      Rows rule t.fields (match ParseRule rule with | none => t.fields | some e => e.fields) body ips) := by
  intro ls
  induction ls with
  | nil => exact .inr ⟨[], [], .inl ⟨rfl, fun l h => (nomatch h)⟩, rfl, .nil⟩
  | cons l ls ih =>
    by_cases hr : ∃ n vals, RowReads t.fields.length l n vals
    · obtain ⟨n, vals, hr⟩ := hr
      obtain ⟨out, hv, hru⟩ := ruled_values rule hr.1
      obtain ⟨last, hlast, hall⟩ := lastIP_last (read_wf hr)
      by_cases hm : IsAllMask last = true
      · refine .inr ⟨[l], [⟨n, out⟩], .inr ⟨[], l, ls, rfl, rfl, fun l h => (nomatch h), n, vals, hr, hall.mp hm⟩, ?_, .cons hr hru .nil⟩
        simp only [dumpLoop, parse_reads hr, Res.ok_bind, hv, hlast, hm, if_true]
      · have hnl : ¬ Last n := fun h => hm (hall.mpr h)
        have hq : ∀ {pre : List Str}, Quiet t.fields.length pre → Quiet t.fields.length (l :: pre) := by
          intro pre hpre x hx
          rcases List.mem_cons.mp hx with rfl | hx
          · exact ⟨n, vals, hr, hnl⟩
          · exact hpre x hx
        rcases ih with ⟨⟨pre, x, post, e, hpre, hx⟩, err, hres⟩ | ⟨body, ips, hb, hres, hrows⟩
        · refine .inl ⟨⟨l :: pre, x, post, by rw [e]; rfl, hq hpre, hx⟩, err, ?_⟩
          simp only [dumpLoop, parse_reads hr, Res.ok_bind, hv, hlast, hm]
          rw [hres]
          rfl
        · refine .inr ⟨l :: body, ⟨n, out⟩ :: ips, ?_, ?_, .cons hr hru hrows⟩
          · rcases hb with ⟨rfl, hb⟩ | ⟨pre, x, post, e1, e2, hpre, hx⟩
            · exact .inl ⟨rfl, hq hb⟩
            · exact .inr ⟨l :: pre, x, post, by rw [e1]; rfl, by rw [e2]; rfl, hq hpre, hx⟩
          · simp only [dumpLoop, parse_reads hr, Res.ok_bind, hv, hlast, hm]
            rw [hres]
            rfl
    · obtain ⟨e, he⟩ := parse_unread hr
      exact .inl ⟨⟨[], l, ls, rfl, fun l h => (nomatch h), hr⟩, e, by simp only [dumpLoop, he, Res.err_bind]⟩

theorem counting_broken {count : Nat} {ls body : List Str} (h : Counting count ls body) : ¬ Broken count ls := by
  rintro ⟨pre, l, post, rfl, hq, hn⟩
  rcases h with ⟨_, h⟩ | ⟨pre', l', post', e, hb, hq', n, vals, hr, hlast⟩
  · obtain ⟨n, vals, hr, _⟩ := h l (by simp)
    exact hn ⟨n, vals, hr⟩
  · clear hb
    induction pre generalizing pre' with
    | nil =>
      cases pre' with
      | nil =>
        rw [List.nil_append, List.nil_append] at e
        injection e with e1 e2
        exact hn ⟨n, vals, e1 ▸ hr⟩
      | cons x pre' =>
        rw [List.nil_append, List.cons_append] at e
        injection e with e1 e2
        obtain ⟨n', vals', hr', _⟩ := hq' x (by simp)
        exact hn ⟨n', vals', e1 ▸ hr'⟩
    | cons y pre ih =>
      cases pre' with
      | nil =>
        rw [List.cons_append, List.nil_append] at e
        injection e with e1 e2
        obtain ⟨n', vals', hr', hl'⟩ := hq y (by simp)
        subst e1
        obtain ⟨_, a, b, k1, k2, _⟩ := hr
        obtain ⟨_, a', b', k1', k2', _⟩ := hr'
        have hs := between_split.mpr k1
        rw [between_split.mpr k1'] at hs
        injection hs with hs1 hs2
        subst hs1
        have hc := (C111_cidr _ _).mpr k2
        rw [(C111_cidr _ _).mpr k2'] at hc
        injection hc with hc
        subst hc
        exact hl' hlast
      | cons x pre' =>
        rw [List.cons_append, List.cons_append] at e
        injection e with e1 e2
        exact ih (fun z hz => hq z (List.mem_cons_of_mem _ hz)) pre' e2 (fun z hz => hq' z (List.mem_cons_of_mem _ hz))

/-! ## The first lines -/

theorem skip5_ok {s t : Str} : skip5 s = .ok t ↔ ∃ p : Str, p.length = 5 ∧ s = p ++ t := by
  unfold skip5
  by_cases h : s.length < 5
  · rw [if_pos h]
    exact ⟨fun h => (nomatch h), fun ⟨p, h1, h2⟩ => by rw [h2, List.length_append] at h; omega⟩
  · rw [if_neg h]
    constructor
    · intro e
      exact ⟨s.take 5, by rw [List.length_take]; omega, by rw [← Res.ok.inj e, List.take_append_drop]⟩
    · rintro ⟨p, h1, rfl⟩
      rw [← h1, List.drop_left]

variable {dec : Str → Option (Option VersionInfo)}

/-- What follows the first lines of a text. -/
theorem head_cases (rule : Str) (data : Str) :
    (Crashes dec (scanLines data).1 ∧ dump dec data (ParseRule rule) = .panic) ∨
    (BadVersion dec (scanLines data).1 ∧ ∃ e, dump dec data (ParseRule rule) = .err e) ∨
    (∃ v fields rows, Head dec (scanLines data).1 v fields rows ∧
      dump dec data (ParseRule rule) = (do
        let ips ← dumpLoop ⟨rows, fields, some v⟩ (ParseRule rule)
          (Select (fieldToMap fields) (match ParseRule rule with | none => fields | some e => e.fields)) rows
        return ⟨match ParseRule rule with | none => fields | some e => e.fields, v, ips⟩)) := by
  unfold dump newDumper
  generalize (scanLines data).1 = ls
  match ls with
  | [] => exact .inl ⟨.few (by decide), by cases ParseRule rule <;> rfl⟩
  | [_] => exact .inl ⟨.few (by simp), by cases ParseRule rule <;> rfl⟩
  | t :: w :: rest =>
    cases h1 : skip5 w with
    | panic =>
      refine .inl ⟨.second ?_, by simp only [readHeader, h1, Res.panic_bind]⟩
      unfold skip5 at h1
      split at h1
      · assumption
      · cases h1
    | err e => unfold skip5 at h1; split at h1 <;> cases h1
    | ok j =>
      obtain ⟨p, hp, rfl⟩ := skip5_ok.mp h1
      cases h2 : dec j with
      | none => exact .inr (.inl ⟨.mk hp h2, .other "json", by simp only [readHeader, h1, Res.ok_bind, h2, Res.err_bind]⟩)
      | some o =>
        cases o with
        | none =>
          refine .inl ⟨.null hp h2, ?_⟩
          cases rest with
          | nil => simp only [readHeader, h1, Res.ok_bind, h2]; cases ParseRule rule <;> rfl
          | cons l2 rest =>
            simp only [readHeader, h1, Res.ok_bind, h2]
            cases h3 : skip5 l2 with
            | panic => rfl
            | err e => unfold skip5 at h3; split at h3 <;> cases h3
            | ok b => rfl
        | some v =>
          cases rest with
          | nil =>
            refine .inr (.inr ⟨v, [], [], .two hp h2, ?_⟩)
            simp only [readHeader, h1, Res.ok_bind, h2, Traversal.Dump]
            cases ParseRule rule <;> rfl
          | cons l2 rows =>
            cases h3 : skip5 l2 with
            | panic =>
              refine .inl ⟨.third hp h2 ?_, by simp only [readHeader, h1, Res.ok_bind, h2, h3, Res.panic_bind]⟩
              unfold skip5 at h3
              split at h3
              · assumption
              · cases h3
            | err e => unfold skip5 at h3; split at h3 <;> cases h3
            | ok f =>
              obtain ⟨q, hq, rfl⟩ := skip5_ok.mp h3
              refine .inr (.inr ⟨v, splitByte 0x2C f, rows, .more hp h2 hq (between_split.mp rfl), ?_⟩)
              simp only [readHeader, h1, Res.ok_bind, h2, h3, Traversal.Dump]
              cases ParseRule rule <;> rfl

theorem append5 {p p' j j' : Str} (h : p.length = 5) (h' : p'.length = 5) (e : p ++ j = p' ++ j') : p = p' ∧ j = j' :=
  List.append_inj e (by omega)

/-- There is only one way to read the first lines. -/
theorem head_one {ls : List Str} {v v' : VersionInfo} {fields fields' rows rows' : List Str} (h : Head dec ls v fields rows)
    (h' : Head dec ls v' fields' rows') : v' = v ∧ fields' = fields ∧ rows' = rows := by
  cases h with
  | two h1 h2 =>
    generalize hls : [_, _] = ls at h'
    cases h' with
    | two k1 k2 =>
      injection hls with _ e; injection e with e _
      obtain ⟨_, rfl⟩ := append5 h1 k1 e
      rw [h2] at k2
      injection k2 with k2; injection k2 with k2
      exact ⟨k2.symm, rfl, rfl⟩
    | more => injection hls with _ e; injection e with _ e; cases e
  | more h1 h2 h3 h4 =>
    generalize hls : _ :: _ :: _ :: _ = ls at h'
    cases h' with
    | two => injection hls with _ e; injection e with _ e; cases e
    | more k1 k2 k3 k4 =>
      injection hls with _ e; injection e with e e'; injection e' with e' e''
      obtain ⟨_, rfl⟩ := append5 h1 k1 e
      obtain ⟨_, rfl⟩ := append5 h3 k3 e'
      rw [h2] at k2
      injection k2 with k2; injection k2 with k2
      exact ⟨k2.symm, by rw [← between_split.mpr h4, between_split.mpr k4], e''.symm⟩

theorem head_not {ls : List Str} {v : VersionInfo} {fields rows : List Str} (h : Head dec ls v fields rows) :
    ¬ Crashes dec ls ∧ ¬ BadVersion dec ls := by
  constructor
  · intro hc
    cases h with
    | two h1 h2 =>
      generalize hls : [_, _] = ls at hc
      cases hc with
      | few k => rw [← hls] at k; exact absurd k (by simp)
      | second k => injection hls with _ e; injection e with e _; rw [← e, List.length_append] at k; omega
      | null k1 k2 =>
        injection hls with _ e; injection e with e _
        obtain ⟨_, rfl⟩ := append5 h1 k1 e
        rw [h2] at k2; cases k2
      | third => injection hls with _ e; injection e with _ e; cases e
    | more h1 h2 h3 h4 =>
      generalize hls : _ :: _ :: _ :: _ = ls at hc
      cases hc with
      | few k => rw [← hls] at k; simp only [List.length_cons] at k; omega
      | second k => injection hls with _ e; injection e with e _; rw [← e, List.length_append] at k; omega
      | null k1 k2 =>
        injection hls with _ e; injection e with e _
        obtain ⟨_, rfl⟩ := append5 h1 k1 e
        rw [h2] at k2; cases k2
      | third _ _ k =>
        injection hls with _ e; injection e with _ e; injection e with e _
        rw [← e, List.length_append] at k; omega
  · intro hb
    cases h with
    | two h1 h2 =>
      generalize hls : [_, _] = ls at hb
      cases hb with
      | mk k1 k2 =>
        injection hls with _ e; injection e with e _
        obtain ⟨_, rfl⟩ := append5 h1 k1 e
        rw [h2] at k2; cases k2
    | more h1 h2 h3 h4 =>
      generalize hls : _ :: _ :: _ :: _ = ls at hb
      cases hb with
      | mk k1 k2 =>
        injection hls with _ e; injection e with e _
        obtain ⟨_, rfl⟩ := append5 h1 k1 e
        rw [h2] at k2; cases k2

theorem bad_not_crash {ls : List Str} (h : BadVersion dec ls) : ¬ Crashes dec ls := by
  intro hc
  cases h with
  | mk h1 h2 =>
    generalize hls : _ :: _ :: _ = ls at hc
    cases hc with
    | few k => rw [← hls] at k; simp only [List.length_cons] at k; omega
    | second k => injection hls with _ e; injection e with e _; rw [← e, List.length_append] at k; omega
    | null k1 k2 =>
      injection hls with _ e; injection e with e _
      obtain ⟨_, rfl⟩ := append5 h1 k1 e
      rw [h2] at k2; cases k2
    | third k1 k2 _ =>
      injection hls with _ e; injection e with e _
      obtain ⟨_, rfl⟩ := append5 h1 k1 e
      rw [h2] at k2; cases k2

theorem rule_fields (rule : Str) (fields : List Str) :
    RuleFields rule fields (match ParseRule rule with | none => fields | some e => e.fields) := by
  by_cases h : rule = []
  · refine .inl ⟨h, ?_⟩
    unfold ParseRule; rw [if_pos h]
  · cases hs : splitByte 0x7C rule with
    | nil => exact absurd hs (splitByte_ne_nil _ _)
    | cons g parts =>
      refine .inr ⟨h, g, parts, between_split.mp hs, ?_⟩
      unfold ParseRule
      rw [if_neg h, hs]
      exact between_split.mp rfl

/-- All outcomes at once. -/
theorem dump_any (rule data : Str) :
    (Crashes dec (scanLines data).1 ∧ dump dec data (ParseRule rule) = .panic) ∨
    ((BadVersion dec (scanLines data).1 ∨ ∃ v fields rows, Head dec (scanLines data).1 v fields rows ∧ Broken fields.length rows) ∧
      ∃ e, dump dec data (ParseRule rule) = .err e) ∨
    (∃ v fields rows body d, Head dec (scanLines data).1 v fields rows ∧ Counting fields.length rows body ∧
      dump dec data (ParseRule rule) = .ok d ∧ d.version = v ∧ RuleFields rule fields d.fields ∧
      Rows rule fields d.fields body d.ips) := by
  rcases head_cases (dec := dec) rule data with h | ⟨h1, h2⟩ | ⟨v, fields, rows, h1, h2⟩
  · exact .inl h
  · exact .inr (.inl ⟨.inl h1, h2⟩)
  · rcases dumpLoop_cases rule ⟨rows, fields, some v⟩ rows with ⟨k1, e, k2⟩ | ⟨body, ips, k1, k2, k3⟩
    · refine .inr (.inl ⟨.inr ⟨v, fields, rows, h1, k1⟩, e, ?_⟩)
      simp only at k2
      rw [h2, k2]
      rfl
    · refine .inr (.inr ⟨v, fields, rows, body, ⟨_, v, ips⟩, h1, k1, ?_, rfl, rule_fields rule fields, k3⟩)
      simp only at k2
      rw [h2, k2]
      rfl

/-! ## C125 -/

/-- **C125 (crashes).** Dumping a text crashes exactly if its first lines do not have the form expected. -/
theorem C125_crash_iff (rule data : Str) (ls : List Str) (long : Bool) (hls : Lines.LinesOf data ls long) :
    dump dec data (ParseRule rule) = .panic ↔ Crashes dec ls := by
  rw [← show (scanLines data).1 = ls by rw [Scanner.scanLines_of hls]]
  rcases dump_any (dec := dec) rule data with ⟨h1, h2⟩ | ⟨h1, e, h2⟩ | ⟨v, fields, rows, body, d, h1, _, h2, _⟩
  · exact ⟨fun _ => h1, fun _ => h2⟩
  · refine ⟨fun h => (by rw [h] at h2; cases h2), fun h => ?_⟩
    rcases h1 with h1 | ⟨v, fields, rows, h1, _⟩
    · exact absurd h (bad_not_crash h1)
    · exact absurd h (head_not h1).1
  · exact ⟨fun h => (by rw [h] at h2; cases h2), fun h => absurd h (head_not h1).1⟩

/-- **C125 (errors).** It returns an error exactly if the second line has a JSON text that is no version, or if some row does not
read while those before it read and do not have the last address. -/
theorem C125_error_iff (rule data : Str) (ls : List Str) (long : Bool) (hls : Lines.LinesOf data ls long) :
    (∃ e, dump dec data (ParseRule rule) = .err e) ↔
      BadVersion dec ls ∨ ∃ v fields rows, Head dec ls v fields rows ∧ Broken fields.length rows := by
  rw [← show (scanLines data).1 = ls by rw [Scanner.scanLines_of hls]]
  rcases dump_any (dec := dec) rule data with ⟨h1, h2⟩ | ⟨h1, h2⟩ | ⟨v, fields, rows, body, d, h1, h3, h2, _⟩
  · refine ⟨fun ⟨e, h⟩ => (by rw [h] at h2; cases h2), fun h => ?_⟩
    rcases h with h | ⟨v, fields, rows, h, _⟩
    · exact absurd h1 (bad_not_crash h)
    · exact absurd h1 (head_not h).1
  · exact ⟨fun _ => h1, fun _ => h2⟩
  · refine ⟨fun ⟨e, h⟩ => (by rw [h] at h2; cases h2), fun h => ?_⟩
    rcases h with h | ⟨v', fields', rows', h, hb⟩
    · exact absurd h (head_not h1).2
    · obtain ⟨_, rfl, rfl⟩ := head_one h1 h
      exact absurd hb (counting_broken h3)

/-- **C125 (results).** Otherwise it succeeds: the version is that of the second line, the fields are those of the third or of the
rule, and the rows are those of the lines that count, with the values that the rule leaves. -/
theorem C125_rows (rule data : Str) (ls : List Str) (long : Bool) (hls : Lines.LinesOf data ls long) :
    ((∃ d, dump dec data (ParseRule rule) = .ok d) ↔ ∃ v fields rows body, Head dec ls v fields rows ∧ Counting fields.length rows body) ∧
    ∀ d, dump dec data (ParseRule rule) = .ok d → ∃ v fields rows body, Head dec ls v fields rows ∧ Counting fields.length rows body ∧
      d.version = v ∧ RuleFields rule fields d.fields ∧ Rows rule fields d.fields body d.ips := by
  rw [← show (scanLines data).1 = ls by rw [Scanner.scanLines_of hls]]
  rcases dump_any (dec := dec) rule data with ⟨h1, h2⟩ | ⟨h1, e, h2⟩ | ⟨v, fields, rows, body, d, h1, h3, h2, h4⟩
  · rw [h2]
    exact ⟨⟨fun ⟨d, h⟩ => (nomatch h), fun ⟨v, fields, rows, body, h, _⟩ => absurd h1 (head_not h).1⟩, fun d h => (nomatch h)⟩
  · rw [h2]
    refine ⟨⟨fun ⟨d, h⟩ => (nomatch h), fun ⟨v, fields, rows, body, h, hc⟩ => ?_⟩, fun d h => (nomatch h)⟩
    rcases h1 with h1 | ⟨v', fields', rows', h1, hb⟩
    · exact absurd h1 (head_not h).2
    · obtain ⟨_, rfl, rfl⟩ := head_one h h1
      exact absurd hb (counting_broken hc)
  · rw [h2]
    refine ⟨⟨fun _ => ⟨v, fields, rows, body, h1, h3⟩, fun _ => ⟨d, rfl⟩⟩, fun d' h => ?_⟩
    rw [← Res.ok.inj h]
    exact ⟨v, fields, rows, body, h1, h3, h4⟩

/-! ## Examples -/

section
def anyV : VersionInfo := ⟨1, 2, 3, gs "v", [], []⟩
def anyDec (s : Str) : Option (Option VersionInfo) := if s = gs "null" then some none else if s = gs "{}" then some (some anyV) else none

def anyText : Str := gs "#\n#### {}\n#### a,b,a\n10.0.0.0/8\tx,y,z\r\n0.0.0.0/0\tu,v,w\nnonsense"

/-- Two columns have one name: the last one counts.  The second row contains 255.255.255.255, so the third line is not read. -/
example : (match dump anyDec anyText (ParseRule (gs "c,a,b|b=y:a,c")) with
    | .ok d => decide (d = ⟨[gs "c", gs "a", gs "b"], anyV,
        [⟨⟨[10, 0, 0, 0], [255, 0, 0, 0]⟩, [[], gs "z", []]⟩, ⟨⟨[0, 0, 0, 0], [0, 0, 0, 0]⟩, [[], gs "w", gs "v"]⟩]⟩)
    | _ => false) = true := by decide +kernel

/-- The lines of this text. -/
theorem any_lines : Lines.LinesOf anyText [gs "#", gs "#### {}", gs "#### a,b,a", gs "10.0.0.0/8\tx,y,z", gs "0.0.0.0/0\tu,v,w", gs "nonsense"] false :=
  (Scanner.C124_used _ _ _).mp (by decide +kernel)

/-- The hypotheses of `C125_rows` are met and its conclusion says something. -/
example : ∃ d v fields rows body, dump anyDec anyText (ParseRule (gs "c,a")) = .ok d ∧
    Head anyDec [gs "#", gs "#### {}", gs "#### a,b,a", gs "10.0.0.0/8\tx,y,z", gs "0.0.0.0/0\tu,v,w", gs "nonsense"] v fields rows ∧
    Counting fields.length rows body ∧ Rows (gs "c,a") fields d.fields body d.ips ∧ d.ips.length = 2 := by
  have h : ∃ d, dump anyDec anyText (ParseRule (gs "c,a")) = .ok d ∧ d.ips.length = 2 := by
    cases h : dump anyDec anyText (ParseRule (gs "c,a")) with
    | ok d =>
      refine ⟨d, rfl, ?_⟩
      have : (match dump anyDec anyText (ParseRule (gs "c,a")) with | .ok d => d.ips.length | _ => 0) = 2 := by decide +kernel
      rw [h] at this
      exact this
    | err e =>
      have : (match dump anyDec anyText (ParseRule (gs "c,a")) with | .ok d => d.ips.length | _ => 0) = 2 := by decide +kernel
      rw [h] at this
      cases this
    | panic =>
      have : (match dump anyDec anyText (ParseRule (gs "c,a")) with | .ok d => d.ips.length | _ => 0) = 2 := by decide +kernel
      rw [h] at this
      cases this
  obtain ⟨d, h1, h2⟩ := h
  obtain ⟨v, fields, rows, body, k1, k2, _, _, k3⟩ := (C125_rows _ _ _ _ any_lines).2 d h1
  exact ⟨d, v, fields, rows, body, h1, k1, k2, k3, h2⟩

/-- A text without a third line is taken as data without fields and rows; one that ends before crashes; `null` crashes. -/
example : ∃ d, dump anyDec (gs "#\n#### {}\n") none = .ok d ∧ d.fields = [] ∧ d.ips = [] := ⟨_, rfl, rfl, rfl⟩
example : dump anyDec (gs "#\n") (ParseRule []) = .panic :=
  (C125_crash_iff [] _ [gs "#"] false ((Scanner.C124_used _ _ _).mp (by decide +kernel))).mpr (.few (by decide))
example : dump anyDec (gs "#\n#### null\n#### a\n") (ParseRule []) = .panic :=
  (C125_crash_iff [] _ [gs "#", gs "#### null", gs "#### a"] false ((Scanner.C124_used _ _ _).mp (by decide +kernel))).mpr
    (.null (p := gs "#### ") (j := gs "null") (by decide) (by decide +kernel))
example : ∃ e, dump anyDec (gs "#\n#### [\n") (ParseRule []) = .err e :=
  (C125_error_iff [] _ [gs "#", gs "#### ["] false ((Scanner.C124_used _ _ _).mp (by decide +kernel))).mpr
    (.inl (.mk (p := gs "#### ") (j := gs "[") (by decide) (by decide +kernel)))
/-- A row with too few values, after one that reads. -/
example : ∃ e, dump anyDec (gs "#\n#### {}\n#### a,b\n1.0.0.0/8\tx\n") (ParseRule []) = .err e :=
  (C125_error_iff [] _ [gs "#", gs "#### {}", gs "#### a,b", gs "1.0.0.0/8\tx"] false ((Scanner.C124_used _ _ _).mp (by decide +kernel))).mpr
    (.inr ⟨anyV, [gs "a", gs "b"], [gs "1.0.0.0/8\tx"],
      .more (p := gs "#### ") (j := gs "{}") (q := gs "#### ") (f := gs "a,b") (by decide) (by decide +kernel) (by decide)
        (between_split.mp (by decide +kernel)), [], gs "1.0.0.0/8\tx", [], rfl, fun l h => (nomatch h), by
        rintro ⟨n, vals, h1, a, b, h2, _, h4⟩
        have e := between_split.mpr h2
        rw [show splitByte 0x09 (gs "1.0.0.0/8\tx") = [gs "1.0.0.0/8", gs "x"] by decide +kernel] at e
        injection e with _ e
        injection e with e _
        have e' := between_split.mpr h4
        rw [← e, show splitByte 0x2C (gs "x") = [gs "x"] by decide +kernel] at e'
        rw [← e'] at h1
        exact absurd h1 (by decide)⟩)
end

end Uip.Plain
