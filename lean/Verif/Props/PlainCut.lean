import Verif.Props.Plain
import Verif.Props.Json
/-!
# Property C46, exactly: what dumping a cut `.scan` text does, for every cut

The text is a title of `now.length + 20` bytes, the version after a mark of five bytes, the field names after a mark of five
bytes, and a line per row.
-/
namespace Uip.Plain
open Uip Uip.Spec Uip.Export

/-! ## Lines of a cut text -/

/-- A line as the scanner accepts it. -/
def GoodLine (l : Str) : Prop := (0x0A : UInt8) ∉ l ∧ l.getLast? ≠ some 0x0D ∧ l.length < 65536

theorem scan_cut {p : Str} (h0 : p ≠ []) (hp : GoodLine p) : ∀ ls : List Str, (∀ l ∈ ls, GoodLine l) →
    scanLines (unlines ls ++ p) = (ls ++ [p], false) := by
  intro ls
  induction ls with
  | nil =>
    intro _
    show scanPieces (splitByte 0x0A p) = _
    rw [splitByte_noSep hp.1]
    simp only [scanPieces]
    rw [if_neg (by have := hp.2.2; unfold maxToken; omega), if_neg h0, dropCR_of hp.2.1]
    rfl
  | cons l ls ih =>
    intro h
    obtain ⟨h1, h2, h3⟩ := h l (by simp)
    have ih := ih (fun x hx => h x (by simp [hx]))
    unfold scanLines at ih ⊢
    have e : unlines (l :: ls) ++ p = l ++ 0x0A :: (unlines ls ++ p) := by simp [unlines]
    rw [e, splitByte_append h1]
    obtain ⟨q', ps, hq'⟩ : ∃ q ps, splitByte 0x0A (unlines ls ++ p) = q :: ps := by
      cases e : splitByte 0x0A (unlines ls ++ p) with
      | nil => exact absurd e (splitByte_ne_nil _ _)
      | cons q ps => exact ⟨q, ps, rfl⟩
    rw [hq'] at ih ⊢
    rw [scanPieces, if_neg (by unfold maxToken; omega), ih, dropCR_of h2]
    rfl

/-- The lines of a text cut somewhere. -/
theorem cut_lines : ∀ (ls : List Str) (cut : Str), cut <+: unlines ls →
    ∃ k p, k ≤ ls.length ∧ cut = unlines (ls.take k) ++ p ∧ (p = [] ∨ ∃ l, ls[k]? = some l ∧ p <+: l) := by
  intro ls
  induction ls with
  | nil =>
    intro cut h
    have : cut = [] := List.prefix_nil.mp h
    exact ⟨0, [], Nat.le_refl _, by rw [this]; rfl, .inl rfl⟩
  | cons l ls ih =>
    intro cut h
    have e : unlines (l :: ls) = (l ++ [0x0A]) ++ unlines ls := by simp [unlines]
    rw [e] at h
    by_cases hl : cut.length ≤ l.length
    · refine ⟨0, cut, Nat.zero_le _, by simp [unlines], .inr ⟨l, rfl, ?_⟩⟩
      rw [List.append_assoc] at h
      exact List.prefix_of_prefix_length_le h (List.prefix_append ..) hl
    · have h2 : l ++ [0x0A] <+: cut := List.prefix_of_prefix_length_le (List.prefix_append ..) h (by simp; omega)
      obtain ⟨c, rfl⟩ := h2
      rw [List.prefix_append_right_inj] at h
      obtain ⟨k, p, h1, h2, h3⟩ := ih c h
      refine ⟨k + 1, p, by simp; omega, ?_, ?_⟩
      · rw [h2, List.take_succ_cons]; simp [unlines]
      · simpa using h3

/-! ## The lines of a packed text -/

def titleLine (now : Str) : Str := gs "#### scan dump " ++ now ++ gs " ####"
def versionLine (ver : Str) : Str := gs "#### " ++ ver
def fieldsLine (fields : List Str) : Str := gs "#### " ++ joinByte 0x2C fields

theorem mark_length : (gs "#### ").length = 5 := by rw [gs_mark]; rfl
theorem titleLine_length (now : Str) : (titleLine now).length = now.length + 20 := by
  unfold titleLine
  rw [List.length_append, List.length_append, gs_title, gs_title_end]
  simp only [List.length_cons, List.length_nil]
  omega

theorem packed_lines (ver now : Str) (fields : List Str) (rs : List IpRaw) :
    header ver now fields ++ unlines (rs.map rowLine) =
      unlines (titleLine now :: versionLine ver :: fieldsLine fields :: rs.map rowLine) := by
  rw [header_lines]; simp [unlines, titleLine, versionLine, fieldsLine]

theorem header_length (ver now : Str) (fields : List Str) :
    (header ver now fields).length = now.length + 33 + ver.length + (joinByte 0x2C fields).length := by
  rw [header_lines]
  have := titleLine_length now
  unfold titleLine at this
  simp only [unlines, List.flatMap_cons, List.flatMap_nil, List.length_append, List.length_cons, List.length_nil, mark_length] at this ⊢
  omega

theorem skip5_mark (s : Str) : skip5 (gs "#### " ++ s) = .ok s := by
  rw [gs_mark]; unfold skip5; rw [if_neg (by simp)]; rfl

/-- A prefix of a marked line: short, or the mark and a prefix of the rest. -/
theorem mark_prefix {p s : Str} (h : p <+: gs "#### " ++ s) : p.length < 5 ∨ ∃ q, p = gs "#### " ++ q ∧ q <+: s := by
  by_cases hl : p.length < 5
  · exact .inl hl
  · right
    have : gs "#### " <+: p := List.prefix_of_prefix_length_le (List.prefix_append ..) h (by rw [mark_length]; omega)
    obtain ⟨q, rfl⟩ := this
    exact ⟨q, rfl, (List.prefix_append_right_inj _).mp h⟩

/-! ## The last row, cut -/

theorem joinByte_cut : ∀ (vs : List Str), vs ≠ [] → (∀ v ∈ vs, (0x2C : UInt8) ∉ v) → ∀ q, q <+: joinByte 0x2C vs →
    vs.length ≤ q.count 0x2C + 1 → ∃ l, l <+: vs.getLastD [] ∧ q = joinByte 0x2C (vs.dropLast ++ [l])
  | [], h, _, _, _, _ => absurd rfl h
  | [v], _, _, q, h, _ => ⟨q, h, rfl⟩
  | v :: w :: r, _, hc, q, h, hn => by
    have e : joinByte 0x2C (v :: w :: r) = (v ++ [0x2C]) ++ joinByte 0x2C (w :: r) := by simp [joinByte]
    rw [e] at h
    have hv : (0x2C : UInt8) ∉ v := hc v (by simp)
    by_cases hl : q.length ≤ v.length
    · exfalso
      rw [List.append_assoc] at h
      have : q <+: v := List.prefix_of_prefix_length_le h (List.prefix_append ..) hl
      have : q.count 0x2C = 0 := List.count_eq_zero.mpr fun hm => hv (this.subset hm)
      rw [this] at hn
      simp at hn
    · have h2 : v ++ [0x2C] <+: q := List.prefix_of_prefix_length_le (List.prefix_append ..) h (by simp; omega)
      obtain ⟨c, rfl⟩ := h2
      rw [List.prefix_append_right_inj] at h
      have hcount : (v ++ [0x2C] ++ c).count 0x2C = c.count 0x2C + 1 := by
        rw [List.count_append, List.count_append, List.count_eq_zero.mpr hv]
        simp; omega
      rw [hcount] at hn
      obtain ⟨l, h3, h4⟩ := joinByte_cut (w :: r) (by simp) (fun x hx => hc x (List.mem_cons_of_mem _ hx)) c h (by simpa using hn)
      refine ⟨l, by simpa using h3, ?_⟩
      rw [h4]
      cases hr : (w :: r).dropLast ++ [l] with
      | nil => simp at hr
      | cons a b =>
        have : (v :: w :: r).dropLast ++ [l] = v :: a :: b := by rw [← hr]; rfl
        rw [this]
        simp [joinByte]

/-! ## Outcomes -/

section
variable {dec : Str → Option (Option VersionInfo)} {ver now : Str} {v : VersionInfo} {d : IpData} {e : Option Exporter}

/-- The field names a dump is made of. -/
def exportFields (e : Option Exporter) (fields : List Str) : List Str := (e.map (·.fields)).getD fields

theorem dump_title {p : Str} (hnow : (0x0A : UInt8) ∉ now) (hp : p <+: titleLine now) : dump dec p e = .panic := by
  have hnl : (0x0A : UInt8) ∉ p := by
    intro h
    have h := hp.subset h
    unfold titleLine at h
    rw [gs_title, gs_title_end] at h
    simp only [List.mem_append, hnow, or_false] at h
    revert h; decide
  have : newDumper dec p = .ok ⟨[], [], none⟩ := by
    unfold newDumper scanLines
    rw [splitByte_noSep hnl]
    simp only [scanPieces]
    split
    · rfl
    · split <;> rfl
  unfold dump
  rw [this]
  rfl

/-- What a dump does with the lines after the fields. -/
def dumpRows (e : Option Exporter) (fields : List Str) (v : VersionInfo) (lines : List Str) : Res IpData :=
  (dumpLoop ⟨[], fields, none⟩ e (Select (fieldToMap fields) (exportFields e fields)) lines).bind fun ips =>
    .ok ⟨exportFields e fields, v, ips⟩

theorem parseLine_congr {t t' : Traversal} (h : t.fields = t'.fields) (l : Str) : parseLine t l = parseLine t' l := by
  unfold parseLine; rw [h]

theorem dumpLoop_congr {t t' : Traversal} (h : t.fields = t'.fields) (fm : List (Str × Str)) : ∀ ls,
    dumpLoop t e fm ls = dumpLoop t' e fm ls
  | [] => rfl
  | l :: ls => by simp only [dumpLoop, parseLine_congr h, dumpLoop_congr h fm ls]

theorem Dump_eq (ls fields : List Str) : Traversal.Dump ⟨ls, fields, some v⟩ e = dumpRows e fields v ls := by
  unfold Traversal.Dump dumpRows exportFields
  cases e <;> simp only [Option.map_none, Option.getD_none, Option.map_some, Option.getD_some] <;>
    rw [dumpLoop_congr (t := ⟨ls, fields, some v⟩) (t' := ⟨[], fields, none⟩) rfl] <;> rfl

theorem dump_of_lines {data : Str} {ls : List Str} (h : (scanLines data).1 = ls) :
    dump dec data e = (readHeader dec ls).bind fun t => t.Dump e := by
  unfold dump newDumper
  rw [h]; rfl

theorem dump_two {data T p : Str} (h : (scanLines data).1 = [T, p]) :
    (skip5 p = .panic → dump dec data e = .panic) ∧
    (∀ b, skip5 p = .ok b → dec b = none → dump dec data e = .err (.other "json")) ∧
    (∀ b v, skip5 p = .ok b → dec b = some (some v) → dump dec data e = .ok ⟨exportFields e [], v, []⟩) := by
  rw [dump_of_lines h]
  unfold readHeader
  refine ⟨fun hs => by simp only [hs]; rfl, fun b hs hd => ?_, fun b w hs hd => ?_⟩
  · simp only [hs, Res.ok_bind, hd]; rfl
  · simp only [hs, Res.ok_bind, hd]
    show Traversal.Dump ⟨[], [], some w⟩ e = _
    rw [Dump_eq]; rfl

theorem dump_more {data T p : Str} {ls : List Str} (hdec : dec ver = some (some v)) (h : (scanLines data).1 = T :: versionLine ver :: p :: ls) :
    dump dec data e = (skip5 p).bind fun b => dumpRows e (splitByte 0x2C b) v ls := by
  rw [dump_of_lines h]
  unfold readHeader versionLine
  simp only [skip5_mark, Res.ok_bind, hdec]
  cases hs : skip5 p with
  | ok b =>
    show Traversal.Dump ⟨ls, splitByte 0x2C b, some v⟩ e = _
    rw [Dump_eq]; rfl
  | err x => rfl
  | panic => rfl

theorem rowValues_ok (fields : List Str) (r : IpRaw) :
    ∃ vs, rowValues e (Select (fieldToMap fields) (exportFields e fields)) (record fields (r.values.map noCommas)) = .ok vs := by
  cases e with
  | none => exact ⟨[], rfl⟩
  | some e =>
    simp only [exportFields, rowValues, Option.map_some, Option.getD_some, Exporter.Export, remapKey_spec, Res.ok_bind, Res.pure_eq]
    exact ⟨_, rfl⟩

/-- A whole row at the front of the lines. -/
theorem dumpLoop_row (hd : ScanOK d) {r : IpRaw} (hr : r ∈ d.ips) {t : Traversal} (ht : t.fields = d.fields) (ls : List Str) :
    ∃ o, ReadBack r.cidr o.cidr ∧
      rowValues e (Select (fieldToMap d.fields) (exportFields e d.fields)) (record d.fields (r.values.map noCommas)) = .ok o.values ∧
      dumpLoop t e (Select (fieldToMap d.fields) (exportFields e d.fields)) (rowLine r :: ls) =
        if EndsFamily r.cidr then .ok [o]
        else (dumpLoop t e (Select (fieldToMap d.fields) (exportFields e d.fields)) ls).bind fun rs => .ok (o :: rs) := by
  obtain ⟨n', hp, he⟩ := parseLine_rowLine hd hr ht
  have hrb := readBack (hd.wf r hr) hp
  obtain ⟨vs, hvs⟩ := rowValues_ok (e := e) d.fields r
  obtain ⟨last, hlast, _⟩ := LastIP_spec hrb.wf.1
  have hiff := endsFamily_iff hrb.wf hrb.same hrb.v4.mpr hrb.v4.mp (hd.wf r hr).1.1 hlast
  refine ⟨⟨n', vs⟩, hrb, hvs, ?_⟩
  simp only [dumpLoop, he, Res.ok_bind, hvs, hlast]
  by_cases hend : EndsFamily r.cidr
  · rw [if_pos (hiff.mpr hend), if_pos hend]
  · rw [if_neg (fun h => hend (hiff.mp h)), if_neg hend]; rfl

/-- Nothing after a row that ends its family matters. -/
theorem dumpLoop_ended (hd : ScanOK d) {t : Traversal} (ht : t.fields = d.fields) (l1 l2 : List Str) : ∀ rs : List IpRaw,
    (∀ r ∈ rs, r ∈ d.ips) → (∃ r ∈ rs, EndsFamily r.cidr) →
    dumpLoop t e (Select (fieldToMap d.fields) (exportFields e d.fields)) (rs.map rowLine ++ l1) =
      dumpLoop t e (Select (fieldToMap d.fields) (exportFields e d.fields)) (rs.map rowLine ++ l2)
  | [], _, h => by obtain ⟨r, hr, _⟩ := h; cases hr
  | r :: rs, hm, h => by
    have hr := hm r (by simp)
    obtain ⟨o, h1, h2, h3⟩ := dumpLoop_row (e := e) hd hr ht (rs.map rowLine ++ l1)
    obtain ⟨o', h1', h2', h3'⟩ := dumpLoop_row (e := e) hd hr ht (rs.map rowLine ++ l2)
    have ho : o = o' := by
      have e1 := h1.parsed; rw [h1'.parsed] at e1
      have e2 := h2; rw [h2'] at e2
      obtain ⟨a, b⟩ := o; obtain ⟨a', b'⟩ := o'
      simp only [Option.some.injEq] at e1
      have e2 := Res.ok.inj e2
      simp only at e1 e2
      rw [e1, e2]
    subst ho
    simp only [List.map_cons, List.cons_append]
    rw [h3, h3']
    by_cases hend : EndsFamily r.cidr
    · rw [if_pos hend, if_pos hend]
    · rw [if_neg hend, if_neg hend]
      rw [dumpLoop_ended hd ht l1 l2 rs (fun x hx => hm x (by simp [hx]))]
      obtain ⟨x, hx, hxe⟩ := h
      rcases List.mem_cons.mp hx with rfl | hx
      · exact absurd hxe hend
      · exact ⟨x, hx, hxe⟩

/-- A line that cannot be read, after rows that do not end their family. -/
theorem dumpLoop_bad (hd : ScanOK d) {t : Traversal} (ht : t.fields = d.fields) {p : Str} (hbad : ∃ er, parseLine t p = .err er)
    (ls : List Str) : ∀ rs : List IpRaw, (∀ r ∈ rs, r ∈ d.ips) → (∀ r ∈ rs, ¬ EndsFamily r.cidr) →
    ∃ er, dumpLoop t e (Select (fieldToMap d.fields) (exportFields e d.fields)) (rs.map rowLine ++ p :: ls) = .err er
  | [], _, _ => by
    obtain ⟨er, h⟩ := hbad
    exact ⟨er, by simp only [List.map_nil, List.nil_append, dumpLoop, h, Res.err_bind]⟩
  | r :: rs, hm, h => by
    obtain ⟨o, h1, h2, h3⟩ := dumpLoop_row (e := e) hd (hm r (by simp)) ht (rs.map rowLine ++ p :: ls)
    obtain ⟨er, h4⟩ := dumpLoop_bad hd ht hbad ls rs (fun x hx => hm x (by simp [hx])) (fun x hx => h x (by simp [hx]))
    refine ⟨er, ?_⟩
    simp only [List.map_cons, List.cons_append]
    rw [h3, if_neg (h r (by simp)), h4]; rfl

theorem parseLine_bad {t : Traversal} {p : Str} (h : (0x09 : UInt8) ∉ p ∨ p.count 0x2C + 1 < t.fields.length) :
    ∃ er, parseLine t p = .err er := by
  unfold parseLine
  split
  · rename_i a b hab
    rcases h with h | h
    · rw [splitByte_noSep h] at hab; cases hab
    · split
      · exact ⟨_, rfl⟩
      · rw [if_pos]
        · exact ⟨_, rfl⟩
        · rw [splitByte_length]
          have hsub : b.Sublist p := splitByte_mem (c := 0x09) (by rw [hab]; simp)
          have := hsub.count_le 0x2C
          omega
  · exact ⟨_, rfl⟩

/-- A row whose last value is cut to its first bytes. -/
def cutLast (r : IpRaw) (n : Nat) : IpRaw := { r with values := r.values.dropLast ++ [(r.values.getLastD []).take n] }

theorem noCommas_take (s : Str) (n : Nat) : noCommas (s.take n) = (noCommas s).take n := by
  unfold noCommas; rw [List.map_take]

theorem rowLine_cut (hd : ScanOK d) {r : IpRaw} (hr : r ∈ d.ips) {p : Str} (hp : p <+: rowLine r) (ht : (0x09 : UInt8) ∈ p)
    (hc : d.fields.length ≤ p.count 0x2C + 1) : ∃ n, p = rowLine (cutLast r n) := by
  have hne : r.values ≠ [] := by
    intro h
    have := hd.len r hr
    rw [h] at this
    exact hd.fields_ne (List.eq_nil_of_length_eq_zero this.symm)
  have htab : (0x09 : UInt8) ∉ IPNetString r.cidr := netString_plain (hd.wf r hr) (.inl rfl)
  have hcom : (0x2C : UInt8) ∉ IPNetString r.cidr := netString_plain (hd.wf r hr) (by simp)
  have e : rowLine r = (IPNetString r.cidr ++ [0x09]) ++ joinByte 0x2C (r.values.map noCommas) := by simp [rowLine]
  rw [e] at hp
  by_cases hl : p.length ≤ (IPNetString r.cidr).length
  · rw [List.append_assoc] at hp
    have : p <+: IPNetString r.cidr := List.prefix_of_prefix_length_le hp (List.prefix_append ..) hl
    exact absurd (this.subset ht) htab
  · have h2 : IPNetString r.cidr ++ [0x09] <+: p := List.prefix_of_prefix_length_le (List.prefix_append ..) hp (by simp; omega)
    obtain ⟨q, rfl⟩ := h2
    rw [List.prefix_append_right_inj] at hp
    have hcount : (IPNetString r.cidr ++ [0x09] ++ q).count 0x2C = q.count 0x2C := by
      rw [List.count_append, List.count_append, List.count_eq_zero.mpr hcom]
      simp
    rw [hcount] at hc
    obtain ⟨l, h3, h4⟩ := joinByte_cut (r.values.map noCommas) (by simpa using hne)
      (by
        intro s hs h
        obtain ⟨w, _, rfl⟩ := List.mem_map.mp hs
        rcases mem_noCommas h with h | h
        · exact absurd h (by decide)
        · exact h.1 rfl) q hp (by rw [List.length_map, hd.len r hr]; exact hc)
    refine ⟨l.length, ?_⟩
    have hlast : (r.values.map noCommas).getLastD [] = noCommas (r.values.getLastD []) := by
      have : ∀ (l : List Str) (a : Str), (l.map noCommas).getLastD (noCommas a) = noCommas (l.getLastD a) := by
        intro l
        induction l with
        | nil => intro a; rfl
        | cons x l ih => intro a; simp only [List.map_cons, List.getLastD_cons]; exact ih x
      exact this r.values []
    rw [hlast] at h3
    have hl' : l = noCommas ((r.values.getLastD []).take l.length) := by
      rw [noCommas_take]; exact List.prefix_iff_eq_take.mp h3
    unfold rowLine cutLast
    simp only [List.map_append, List.map_dropLast, List.map_cons, List.map_nil, ← hl']
    rw [h4]; simp

theorem cutLast_ok (hd : ScanOK d) {r : IpRaw} (hr : r ∈ d.ips) (n : Nat) (rs : List IpRaw) (hrs : ∀ x ∈ rs, x ∈ d.ips) :
    ScanOK { d with ips := rs ++ [cutLast r n] } := by
  have hne : r.values ≠ [] := by
    intro h
    have := hd.len r hr
    rw [h] at this
    exact hd.fields_ne (List.eq_nil_of_length_eq_zero this.symm)
  have hlast : r.values.getLastD [] ∈ r.values := by
    rw [List.getLastD_eq_getLast?, List.getLast?_eq_some_getLast hne]
    exact List.getLast_mem hne
  have hsplit : r.values = r.values.dropLast ++ [r.values.getLastD []] := by
    rw [List.getLastD_eq_getLast?, List.getLast?_eq_some_getLast hne]
    exact (List.dropLast_concat_getLast hne).symm
  have key : ∀ x, x ∈ rs ++ [cutLast r n] → x ∈ d.ips ∨ x = cutLast r n := by
    intro x hx
    rcases List.mem_append.mp hx with h | h
    · exact .inl (hrs x h)
    · exact .inr (List.mem_singleton.mp h)
  refine ⟨hd.fields_ne, hd.nodup, hd.fields, hd.fieldsLine, ?_, ?_, ?_, ?_⟩
  · intro x hx
    rcases key x hx with h | rfl
    · exact hd.wf x h
    · exact hd.wf r hr
  · intro x hx
    rcases key x hx with h | rfl
    · exact hd.len x h
    · have := hd.len r hr
      have h2 : 0 < r.values.length := List.length_pos_iff.mpr hne
      simp only [cutLast, List.length_append, List.length_dropLast, List.length_cons, List.length_nil]
      omega
  · intro x hx w hw
    rcases key x hx with h | rfl
    · exact hd.values x h w hw
    · rcases List.mem_append.mp hw with h | h
      · exact hd.values r hr w (List.dropLast_subset _ h)
      · rw [List.mem_singleton.mp h]
        intro b hb
        exact hd.values r hr _ hlast b (List.mem_of_mem_take hb)
  · intro x hx
    rcases key x hx with h | rfl
    · exact hd.short x h
    · have h1 := hd.short r hr
      have h2 : ∀ (l : List Str) (a b : Str), a.length ≤ b.length → (joinByte 0x2C (l ++ [a])).length ≤ (joinByte 0x2C (l ++ [b])).length := by
        intro l a b hab
        induction l with
        | nil => exact hab
        | cons x l ih =>
          cases hl1 : l ++ [a] with
          | nil => simp at hl1
          | cons y z =>
            cases hl2 : l ++ [b] with
            | nil => simp at hl2
            | cons y' z' =>
              simp only [List.cons_append, hl1, hl2, joinByte, List.length_append, List.length_cons] at ih ⊢
              omega
      have h3 := h2 r.values.dropLast ((r.values.getLastD []).take n) (r.values.getLastD []) (by rw [List.length_take]; omega)
      rw [← hsplit] at h3
      simp only [cutLast]
      omega

end

/-! ## C46 -/

/-- What dumping a text cut inside its header does: `n` bytes are left, `now` and `ver` are the texts of the time and of the
version. -/
def HeaderCut (now ver : Str) (fields : List Str) (v : VersionInfo) (e : Option Exporter) (n : Nat) (got : Res IpData) : Prop :=
  -- before the version: the program crashes
  (n < now.length + 26 → got = .panic) ∧
  -- inside the version: refused
  (now.length + 26 ≤ n → n < now.length + 26 + ver.length → ∃ er, got = .err er) ∧
  -- after the version: accepted, without rows
  (now.length + 26 + ver.length ≤ n → n ≤ now.length + 27 + ver.length → got = .ok ⟨exportFields e [], v, []⟩) ∧
  -- inside the mark of the fields: crash
  (now.length + 27 + ver.length < n → n < now.length + 32 + ver.length → got = .panic) ∧
  -- inside the fields: accepted, without rows, with the fields that are left
  (now.length + 32 + ver.length ≤ n →
    got = .ok ⟨exportFields e (splitByte 0x2C ((joinByte 0x2C fields).take (n - (now.length + 32 + ver.length)))), v, []⟩)

section
variable {enc : VersionInfo → Str} {dec : Str → Option (Option VersionInfo)} {now : Str} {v : VersionInfo} {d : HData}

theorem prefix_mark_good {p s : Str} (h : p <+: gs "#### " ++ s) (h1 : (0x0A : UInt8) ∉ s) (h2 : (0x0D : UInt8) ∉ s)
    (h3 : s.length + 5 < 65536) : GoodLine p := by
  have hm : ∀ b, b = 0x0A ∨ b = 0x0D → b ∉ p := by
    intro b hb hm
    rcases List.mem_append.mp (h.subset hm) with hm | hm
    · rw [gs_mark] at hm; rcases hb with rfl | rfl <;> revert hm <;> decide
    · rcases hb with rfl | rfl
      · exact h1 hm
      · exact h2 hm
  refine ⟨hm _ (.inl rfl), fun hl => hm _ (.inr rfl) (List.mem_of_getLast? hl), ?_⟩
  have := h.length_le
  rw [List.length_append, mark_length] at this
  omega

/-- **C46.** What dumping a packed text does for every cut inside the header: a crash before the version is reached, an error
inside the version, an empty data set from the end of the version on (except inside the mark of the field line: a crash).
`hcut` asks that the JSON decoder refuses a version cut short (`C102_cut` for Go's). -/
theorem C46_header_exact (hw : d.WF) (hd : ScanOK d.view) (hver : LineOK (enc d.version)) (hcr : (0x0D : UInt8) ∉ enc d.version)
    (hnow : LineOK now) (hdec : dec (enc d.version) = some (some v))
    (hcut : ∀ p q, p ++ q = enc d.version → q ≠ [] → dec p = none) (e : Option Exporter) :
    ∃ text d', pack enc now d = .ok (text, d') ∧
      ∀ cut, cut <+: text → cut.length ≤ (header (enc d.version) now d.fields).length →
        HeaderCut now (enc d.version) d.fields v e cut.length (dump dec cut e) := by
  obtain ⟨d', hp, _⟩ := pack_text (enc := enc) (now := now) hw
  refine ⟨_, d', hp, fun cut hc hlen => ?_⟩
  rw [header_length] at hlen
  have hgood := header_ok hd hver hnow (rs := d.view.ips) (fun r h => h)
  have hT : GoodLine (titleLine now) := hgood _ (by simp [titleLine])
  have hV : GoodLine (versionLine (enc d.version)) := hgood _ (by simp [versionLine])
  have hF : GoodLine (fieldsLine d.fields) := hgood (gs "#### " ++ joinByte 0x2C d.view.fields) (by simp)
  have hfn : ∀ b, b = 0x0A ∨ b = 0x0D → b ∉ joinByte 0x2C d.fields := by
    intro b hb h
    rcases mem_joinByte h with h | ⟨s, hs, h⟩
    · rcases hb with rfl | rfl <;> exact absurd h (by decide)
    · refine hd.fields s hs _ h ?_
      rcases hb with rfl | rfl <;> decide
  have hfl : (joinByte 0x2C d.fields).length + 5 < 65536 := hd.fieldsLine
  have lenT := titleLine_length now
  have lenV : (versionLine (enc d.version)).length = (enc d.version).length + 5 := by
    unfold versionLine; rw [List.length_append, mark_length]; omega
  have lenF : (fieldsLine d.fields).length = (joinByte 0x2C d.fields).length + 5 := by
    unfold fieldsLine; rw [List.length_append, mark_length]; omega
  rw [packed_lines] at hc
  obtain ⟨k, p, hk, rfl, hpl⟩ := cut_lines _ _ hc
  have hfields : splitByte 0x2C (joinByte 0x2C d.fields) = d.fields :=
    splitByte_joinByte (c := 0x2C) hd.fields_ne (fun s hs h => hd.fields s hs _ h (by decide))
  match k with
  | 0 =>
    have hpt : p <+: titleLine now := by
      rcases hpl with rfl | ⟨l, hl, hpl⟩
      · exact List.nil_prefix
      · simp only [List.getElem?_cons_zero, Option.some.injEq] at hl; rw [hl]; exact hpl
    have hl := hpt.length_le
    simp only [List.take_zero, unlines, List.flatMap_nil, List.nil_append] at hlen ⊢
    refine ⟨fun _ => dump_title hnow.1 hpt, ?_, ?_, ?_, ?_⟩ <;> intros <;> omega
  | 1 =>
    have hln : (unlines (List.take 1 (titleLine now :: versionLine (enc d.version) :: fieldsLine d.fields :: d.view.ips.map rowLine)) ++ p).length =
        now.length + 21 + p.length := by
      simp [unlines, lenT]; omega
    have hpv : p <+: gs "#### " ++ enc d.version := by
      rcases hpl with rfl | ⟨l, hl, hpl⟩
      · exact List.nil_prefix
      · simp only [List.getElem?_cons_succ, List.getElem?_cons_zero, Option.some.injEq] at hl
        subst hl; exact hpl
    rw [show List.take 1 (titleLine now :: versionLine (enc d.version) :: fieldsLine d.fields :: d.view.ips.map rowLine) = [titleLine now] from rfl] at hln hlen ⊢
    rw [hln]
    have hpl' := hpv.length_le
    rw [List.length_append, mark_length] at hpl'
    by_cases hp0 : p = []
    · subst hp0
      have : dump dec (unlines [titleLine now] ++ []) e = .panic := by
        rw [List.append_nil]
        unfold dump newDumper
        rw [scan_unlines _ (by intro l hl; rw [List.mem_singleton.mp hl]; exact hT)]
        rfl
      rw [this]
      refine ⟨fun _ => rfl, ?_, ?_, ?_, ?_⟩ <;> intros <;> simp only [List.length_nil] at * <;> omega
    · have hsc := scan_cut hp0 (prefix_mark_good hpv hver.1 hcr (by have := hver.2.2; omega)) [titleLine now]
        (by intro l hl; rw [List.mem_singleton.mp hl]; exact hT)
      have hd2 := dump_two (dec := dec) (e := e) (T := titleLine now) (p := p) (data := unlines [titleLine now] ++ p) (by rw [hsc]; rfl)
      rcases mark_prefix hpv with hs | ⟨q, rfl, hq⟩
      · have : skip5 p = .panic := by unfold skip5; rw [if_pos hs]
        rw [hd2.1 this]
        refine ⟨fun _ => rfl, ?_, ?_, ?_, ?_⟩ <;> intros <;> omega
      ·
        rw [List.length_append, mark_length] at hpl' ⊢
        obtain ⟨s, hs⟩ := hq
        have hsl := congrArg List.length hs
        rw [List.length_append] at hsl
        by_cases hs0 : s = []
        · subst hs0
          rw [List.append_nil] at hs
          subst hs
          rw [hd2.2.2 _ v (skip5_mark _) hdec]
          refine ⟨?_, ?_, fun _ _ => rfl, ?_, ?_⟩ <;> intros <;> omega
        · have := List.length_pos_iff.mpr hs0
          rw [hd2.2.1 _ (skip5_mark _) (hcut q s hs hs0)]
          refine ⟨?_, fun _ _ => ⟨_, rfl⟩, ?_, ?_, ?_⟩ <;> intros <;> omega
  | 2 =>
    have hln : (unlines [titleLine now, versionLine (enc d.version)] ++ p).length = now.length + 27 + (enc d.version).length + p.length := by
      simp [unlines, lenT, lenV]; omega
    have hpf : p <+: gs "#### " ++ joinByte 0x2C d.fields := by
      rcases hpl with rfl | ⟨l, hl, hpl⟩
      · exact List.nil_prefix
      · simp only [List.getElem?_cons_succ, List.getElem?_cons_zero, Option.some.injEq] at hl
        subst hl; exact hpl
    rw [show List.take 2 (titleLine now :: versionLine (enc d.version) :: fieldsLine d.fields :: d.view.ips.map rowLine) =
      [titleLine now, versionLine (enc d.version)] from rfl] at hlen ⊢
    rw [hln]
    have hgl : ∀ l ∈ [titleLine now, versionLine (enc d.version)], GoodLine l := by
      intro l hl
      rcases List.mem_cons.mp hl with rfl | hl
      · exact hT
      · rw [List.mem_singleton.mp hl]; exact hV
    by_cases hp0 : p = []
    · subst hp0
      have hd2 := dump_two (dec := dec) (e := e) (T := titleLine now) (p := versionLine (enc d.version))
        (data := unlines [titleLine now, versionLine (enc d.version)]) (by rw [scan_unlines _ hgl])
      rw [List.append_nil, hd2.2.2 _ v (skip5_mark _) hdec]
      refine ⟨?_, ?_, fun _ _ => rfl, ?_, ?_⟩ <;> intros <;> simp only [List.length_nil] at * <;> omega
    · have hpp := List.length_pos_iff.mpr hp0
      have hsc := scan_cut hp0 (prefix_mark_good hpf (hfn _ (.inl rfl)) (hfn _ (.inr rfl)) hfl) _ hgl
      have hd2 := dump_more (dec := dec) (e := e) (v := v) (ver := enc d.version) (T := titleLine now) (p := p) (ls := []) hdec
        (data := unlines [titleLine now, versionLine (enc d.version)] ++ p) (by rw [hsc]; rfl)
      rw [hd2]
      rcases mark_prefix hpf with hs | ⟨q, rfl, hq⟩
      · have : skip5 p = .panic := by unfold skip5; rw [if_pos hs]
        rw [this]
        refine ⟨?_, ?_, ?_, fun _ _ => rfl, ?_⟩ <;> intros <;> omega
      · rw [skip5_mark]
        rw [List.length_append, mark_length] at hpp ⊢
        refine ⟨?_, ?_, ?_, ?_, fun _ => ?_⟩
        · intros; omega
        · intros; omega
        · intros; omega
        · intros; omega
        · have hq' : (joinByte 0x2C d.fields).take (now.length + 27 + (enc d.version).length + (5 + q.length) - (now.length + 32 + (enc d.version).length)) = q := by
            rw [show now.length + 27 + (enc d.version).length + (5 + q.length) - (now.length + 32 + (enc d.version).length) = q.length from by omega]
            exact (List.prefix_iff_eq_take.mp hq).symm
          rw [hq']
          rfl
  | k + 3 =>
    have hln : now.length + 33 + (enc d.version).length + (joinByte 0x2C d.fields).length +
        (unlines ((d.view.ips.map rowLine).take k) ++ p).length =
        (unlines (List.take (k + 3) (titleLine now :: versionLine (enc d.version) :: fieldsLine d.fields :: d.view.ips.map rowLine)) ++ p).length := by
      have e1 : List.take (k + 3) (titleLine now :: versionLine (enc d.version) :: fieldsLine d.fields :: d.view.ips.map rowLine) =
        titleLine now :: versionLine (enc d.version) :: fieldsLine d.fields :: (d.view.ips.map rowLine).take k := rfl
      rw [e1]
      have : unlines (titleLine now :: versionLine (enc d.version) :: fieldsLine d.fields :: (d.view.ips.map rowLine).take k) =
        unlines [titleLine now, versionLine (enc d.version), fieldsLine d.fields] ++ unlines ((d.view.ips.map rowLine).take k) := by simp [unlines]
      rw [this, List.append_assoc, List.length_append (as := unlines [_, _, _])]
      have : (unlines [titleLine now, versionLine (enc d.version), fieldsLine d.fields]).length =
          now.length + 33 + (enc d.version).length + (joinByte 0x2C d.fields).length := by
        have : (fieldsLine d.fields).length = (joinByte 0x2C d.fields).length + 5 := lenF
        simp [unlines, lenT, lenV, this]; omega
      rw [this]
    have hz : (unlines ((d.view.ips.map rowLine).take k) ++ p).length = 0 := by omega
    have hz := List.eq_nil_of_length_eq_zero hz
    have hkz : unlines ((d.view.ips.map rowLine).take k) = [] ∧ p = [] := List.append_eq_nil_iff.mp hz
    have htk : (d.view.ips.map rowLine).take k = [] := by
      cases h : (d.view.ips.map rowLine).take k with
      | nil => rfl
      | cons a l => rw [h] at hkz; simp [unlines] at hkz
    have e1 : List.take (k + 3) (titleLine now :: versionLine (enc d.version) :: fieldsLine d.fields :: d.view.ips.map rowLine) =
        titleLine now :: versionLine (enc d.version) :: fieldsLine d.fields :: (d.view.ips.map rowLine).take k := rfl
    rw [← hln, hz, e1, htk, hkz.2, List.append_nil]
    have hgl : ∀ l ∈ [titleLine now, versionLine (enc d.version), fieldsLine d.fields], GoodLine l := by
      intro l hl
      rcases List.mem_cons.mp hl with rfl | hl
      · exact hT
      · rcases List.mem_cons.mp hl with rfl | hl
        · exact hV
        · rw [List.mem_singleton.mp hl]; exact hF
    have hd2 := dump_more (dec := dec) (e := e) (v := v) (ver := enc d.version) (T := titleLine now) (p := fieldsLine d.fields) (ls := []) hdec
      (data := unlines [titleLine now, versionLine (enc d.version), fieldsLine d.fields]) (by rw [scan_unlines _ hgl])
    rw [hd2]
    have : skip5 (fieldsLine d.fields) = .ok (joinByte 0x2C d.fields) := skip5_mark _
    rw [this]
    refine ⟨?_, ?_, ?_, ?_, fun _ => ?_⟩
    · intros; simp only [List.length_nil] at *; omega
    · intros; simp only [List.length_nil] at *; omega
    · intros; simp only [List.length_nil] at *; omega
    · intros; simp only [List.length_nil] at *; omega
    · rw [List.take_of_length_le (by simp only [List.length_nil]; omega)]
      rfl

end

/-- What dumping a text cut inside its rows does.  `before` are the rows whose lines are whole, `p` is what is left of the
line of the next row (`next`), `full` is what dumping the whole text gives. -/
def RowsCut (fields : List Str) (v : VersionInfo) (before : List IpRaw) (next : Option IpRaw) (p : Str) (full got : Res IpData) : Prop :=
  -- a row before the cut ends its family: the cut does not matter
  ((∃ x ∈ before, EndsFamily x.cidr) → got = full) ∧
  ((∀ x ∈ before, ¬ EndsFamily x.cidr) →
    -- between two lines: accepted, with the rows before the cut
    (p = [] → ∃ out, got = .ok ⟨fields, v, out⟩ ∧ Rel2 RowBack before out) ∧
    -- before the tab, or with a comma missing: refused
    (p ≠ [] → (0x09 : UInt8) ∉ p ∨ p.count 0x2C + 1 < fields.length → ∃ er, got = .err er) ∧
    -- inside the last value: accepted, with that value cut
    (p ≠ [] → (0x09 : UInt8) ∈ p → fields.length ≤ p.count 0x2C + 1 →
      ∃ r n out, next = some r ∧ p = rowLine (cutLast r n) ∧ got = .ok ⟨fields, v, out⟩ ∧ Rel2 RowBack (before ++ [cutLast r n]) out))

section
variable {enc : VersionInfo → Str} {dec : Str → Option (Option VersionInfo)} {now : Str} {v : VersionInfo} {d : HData}

theorem Rel2.append_back {α β : Type} {R : α → β → Prop} {l1 l2 : List α} {m1 m2 : List β} (h1 : Rel2 R l1 m1) (h2 : Rel2 R l2 m2) :
    Rel2 R (l1 ++ l2) (m1 ++ m2) := by
  induction h1 with
  | nil => exact h2
  | cons h _ ih => exact .cons h ih

theorem untilEnd_none {rs : List IpRaw} (h : ∀ x ∈ rs, ¬ EndsFamily x.cidr) : untilEnd rs = rs := by
  induction rs with
  | nil => rfl
  | cons r rs ih => rw [untilEnd, if_neg (h r (by simp)), ih fun x hx => h x (by simp [hx])]

theorem untilEnd_concat {rs : List IpRaw} (h : ∀ x ∈ rs, ¬ EndsFamily x.cidr) (r : IpRaw) : untilEnd (rs ++ [r]) = rs ++ [r] := by
  induction rs with
  | nil => simp only [List.nil_append, untilEnd]; split <;> rfl
  | cons a rs ih => rw [List.cons_append, untilEnd, if_neg (h a (by simp)), ih fun x hx => h x (by simp [hx])]

/-- Dumping whole lines under the rule of all fields. -/
theorem dumpRows_packed {d : IpData} (hd : ScanOK d) {rs : List IpRaw} (hrs : ∀ r ∈ rs, r ∈ d.ips) :
    ∃ out, dumpRows (some ⟨d.fields, []⟩) d.fields v (rs.map rowLine) = .ok ⟨d.fields, v, out⟩ ∧ Rel2 RowBack (untilEnd rs) out := by
  obtain ⟨out, h1, h2⟩ := dumpLoop_packed hd (t := ⟨[], d.fields, none⟩) rfl (e := some ⟨d.fields, []⟩)
    (fm := Select (fieldToMap d.fields) (exportFields (some ⟨d.fields, []⟩) d.fields)) (fun r _ => rowValues_ok d.fields r) rs hrs
  refine ⟨out, ?_, h2.imp_mem fun r hr o ho h => ?_⟩
  · unfold dumpRows
    rw [h1]; rfl
  · have hrm : r ∈ d.ips := by
      have : ∀ l : List IpRaw, r ∈ untilEnd l → r ∈ l := by
        intro l
        induction l with
        | nil => intro h; cases h
        | cons a l ih =>
          intro h
          simp only [untilEnd] at h
          split at h
          · simp at h; simp [h]
          · rcases List.mem_cons.mp h with h | h
            · simp [h]
            · exact List.mem_cons_of_mem _ (ih h)
      exact hrs r (this _ hr)
    refine ⟨h.1.wf, h.1.same, ?_, h.1.eq⟩
    have h2 := h.2
    have he : (⟨d.fields, []⟩ : Exporter).Export (Select (fieldToMap d.fields) d.fields) (record d.fields (r.values.map noCommas)) =
        .ok (r.values.map noCommas) := export_all hd.nodup (by rw [List.length_map, hd.len r hrm])
    simp only [rowValues, exportFields, Option.map_some, Option.getD_some] at h2
    rw [he] at h2
    exact (Res.ok.inj h2).symm

/-- **C46.** What dumping a packed text under the rule naming its fields does, for every cut after the header. -/
theorem C46_rows_exact (hw : d.WF) (hd : ScanOK d.view) (hr : DefaultsOK d.fields) (hver : LineOK (enc d.version)) (hnow : LineOK now)
    (hdec : dec (enc d.version) = some (some v)) :
    ∃ text d', pack enc now d = .ok (text, d') ∧
      ∀ cut, cut <+: text → (header (enc d.version) now d.fields).length ≤ cut.length →
        ∃ k p, cut = header (enc d.version) now d.fields ++ unlines ((d.view.ips.take k).map rowLine) ++ p ∧
          (p = [] ∨ ∃ r, d.view.ips[k]? = some r ∧ p <+: rowLine r) ∧
          RowsCut d.fields v (d.view.ips.take k) d.view.ips[k]? p (dump dec text (ParseRule (ruleText d.fields [])))
            (dump dec cut (ParseRule (ruleText d.fields []))) := by
  obtain ⟨d', hp, _⟩ := pack_text (enc := enc) (now := now) hw
  refine ⟨_, d', hp, fun cut hc hlen => ?_⟩
  have hparse : ParseRule (ruleText d.fields []) = some ⟨d.fields, []⟩ := parse_ruleText hr (by intro g hg; cases hg)
  rw [hparse]
  -- the lines left
  have hpre : header (enc d.version) now d.fields <+: cut := List.prefix_of_prefix_length_le (List.prefix_append ..) hc hlen
  obtain ⟨c, rfl⟩ := hpre
  rw [List.prefix_append_right_inj] at hc
  obtain ⟨k, p, hk, rfl, hpl⟩ := cut_lines _ _ hc
  have hpl : p = [] ∨ ∃ r, d.view.ips[k]? = some r ∧ p <+: rowLine r := by
    rcases hpl with h | ⟨l, hl, h⟩
    · exact .inl h
    · rw [List.getElem?_map] at hl
      cases hg : d.view.ips[k]? with
      | none => rw [hg] at hl; cases hl
      | some r =>
        rw [hg] at hl
        simp only [Option.map_some, Option.some.injEq] at hl
        exact .inr ⟨r, rfl, by rw [hl]; exact h⟩
  refine ⟨k, p, by rw [List.map_take, List.append_assoc], hpl, ?_⟩
  have htake : ∀ x ∈ d.view.ips.take k, x ∈ d.view.ips := fun x h => List.mem_of_mem_take h
  have hskip : skip5 (fieldsLine d.fields) = .ok (joinByte 0x2C d.fields) := skip5_mark _
  have hfields : splitByte 0x2C (joinByte 0x2C d.fields) = d.fields :=
    splitByte_joinByte (c := 0x2C) hd.fields_ne (fun s hs h => hd.fields s hs _ h (by decide))
  -- dumps in terms of their row lines
  have hwhole : ∀ rs : List IpRaw, (∀ x ∈ rs, x ∈ d.view.ips) →
      dump dec (header (enc d.version) now d.fields ++ unlines (rs.map rowLine)) (some ⟨d.fields, []⟩) =
        dumpRows (some ⟨d.fields, []⟩) d.fields v (rs.map rowLine) := by
    intro rs hrs
    have hgood : ∀ l ∈ titleLine now :: versionLine (enc d.version) :: fieldsLine d.fields :: rs.map rowLine, GoodLine l :=
      header_ok hd hver hnow (rs := rs) hrs
    have e1 : (scanLines (header (enc d.version) now d.fields ++ unlines (rs.map rowLine))).1 =
        titleLine now :: versionLine (enc d.version) :: fieldsLine d.fields :: rs.map rowLine := by
      rw [packed_lines, scan_unlines _ hgood]
    rw [dump_more hdec e1, hskip]
    show dumpRows _ (splitByte 0x2C (joinByte 0x2C d.fields)) _ _ = _
    rw [hfields]
  have hcutd : p ≠ [] → dump dec (header (enc d.version) now d.fields ++ (unlines ((d.view.ips.map rowLine).take k) ++ p)) (some ⟨d.fields, []⟩) =
      dumpRows (some ⟨d.fields, []⟩) d.fields v ((d.view.ips.take k).map rowLine ++ [p]) := by
    intro hp0
    rcases hpl with h | ⟨r, hrk, hpr⟩
    · exact absurd h hp0
    · have hrm : r ∈ d.view.ips := List.mem_of_getElem? hrk
      have hcr : (0x0D : UInt8) ∉ rowLine r := by
        intro h
        unfold rowLine at h
        rcases List.mem_append.mp h with h | h
        · exact netString_plain (hd.wf r hrm) (by simp) h
        · rcases List.mem_cons.mp h with h | h
          · exact absurd h (by decide)
          · rcases mem_joinByte h with h | ⟨s, hs, h⟩
            · exact absurd h (by decide)
            · obtain ⟨w, hw, rfl⟩ := List.mem_map.mp hs
              rcases mem_noCommas h with h | h
              · exact absurd h (by decide)
              · exact hd.values r hrm w hw _ h.2 (by decide)
      have hline := rowLine_ok hd hrm
      have hgp : GoodLine p := ⟨fun h => hline.1 (hpr.subset h), fun h => hcr (hpr.subset (List.mem_of_getLast? h)), by
        have := hpr.length_le; have := hline.2.2; omega⟩
      have hgood : ∀ l ∈ titleLine now :: versionLine (enc d.version) :: fieldsLine d.fields :: (d.view.ips.take k).map rowLine, GoodLine l :=
        header_ok hd hver hnow (rs := d.view.ips.take k) htake
      have e1 : (scanLines (header (enc d.version) now d.fields ++ (unlines ((d.view.ips.map rowLine).take k) ++ p))).1 =
          titleLine now :: versionLine (enc d.version) :: fieldsLine d.fields :: ((d.view.ips.take k).map rowLine ++ [p]) := by
        rw [← List.append_assoc, ← List.map_take, packed_lines, scan_cut hp0 hgp _ hgood]
        rfl
      rw [dump_more hdec e1, hskip]
      show dumpRows _ (splitByte 0x2C (joinByte 0x2C d.fields)) _ _ = _
      rw [hfields]
  have hcut0 : p = [] → dump dec (header (enc d.version) now d.fields ++ (unlines ((d.view.ips.map rowLine).take k) ++ p)) (some ⟨d.fields, []⟩) =
      dumpRows (some ⟨d.fields, []⟩) d.fields v ((d.view.ips.take k).map rowLine) := by
    intro hp0
    rw [hp0, List.append_nil, ← List.map_take, hwhole _ htake]
  have hall : dump dec (header (enc d.version) now d.fields ++ unlines (d.view.ips.map rowLine)) (some ⟨d.fields, []⟩) =
      dumpRows (some ⟨d.fields, []⟩) d.fields v ((d.view.ips.take k).map rowLine ++ (d.view.ips.drop k).map rowLine) := by
    rw [hwhole _ (fun x h => h), ← List.map_append, List.take_append_drop]
  constructor
  · intro hend
    rw [hall]
    have hx : ∀ l, dumpRows (some ⟨d.fields, []⟩) d.fields v ((d.view.ips.take k).map rowLine ++ l) =
        dumpRows (some ⟨d.fields, []⟩) d.fields v ((d.view.ips.take k).map rowLine ++ (d.view.ips.drop k).map rowLine) := by
      intro l
      unfold dumpRows
      have := dumpLoop_ended (e := some ⟨d.fields, []⟩) hd (t := ⟨[], d.fields, none⟩) rfl l ((d.view.ips.drop k).map rowLine) (d.view.ips.take k) htake hend
      rw [show d.view.fields = d.fields from rfl] at this
      rw [this]
    by_cases hp0 : p = []
    · rw [hcut0 hp0]
      have := hx []
      rw [List.append_nil] at this
      exact this
    · rw [hcutd hp0]; exact hx [p]
  · intro hno
    refine ⟨fun hp0 => ?_, fun hp0 hbad => ?_, fun hp0 htab hcom => ?_⟩
    · obtain ⟨out, h1, h2⟩ := dumpRows_packed (v := v) hd htake
      rw [untilEnd_none hno] at h2
      exact ⟨out, by rw [hcut0 hp0]; exact h1, h2⟩
    · rw [hcutd hp0]
      obtain ⟨er, her⟩ := dumpLoop_bad (e := some ⟨d.fields, []⟩) hd (t := ⟨[], d.fields, none⟩) rfl (parseLine_bad hbad) [] (d.view.ips.take k) htake hno
      refine ⟨er, ?_⟩
      unfold dumpRows
      rw [show d.view.fields = d.fields from rfl] at her
      rw [her]; rfl
    · rw [hcutd hp0]
      rcases hpl with h | ⟨r, hrk, hpr⟩
      · exact absurd h hp0
      · have hrm : r ∈ d.view.ips := List.mem_of_getElem? hrk
        obtain ⟨n, hn⟩ := rowLine_cut hd hrm hpr htab hcom
        obtain ⟨out, h1, h2⟩ := dumpRows_packed (v := v) (cutLast_ok hd hrm n (d.view.ips.take k) htake) (rs := d.view.ips.take k ++ [cutLast r n]) (fun x h => h)
        rw [untilEnd_concat hno] at h2
        refine ⟨r, n, out, hrk, hn, ?_, h2⟩
        rw [List.map_append, List.map_cons, List.map_nil, ← hn] at h1
        exact h1

end

/-- **C46, with Go's JSON.** Packing to `.scan` and cutting the text anywhere: what dumping under the rule naming the fields of the
data does, without any assumption on the JSON library. -/
theorem C46_exact (nilLangs nilExtra : Bool) {d : HData} {now : Str} (hw : d.WF) (hd : ScanOK d.view)
    (hr : DefaultsOK d.fields) (hnow : LineOK now) (h1 : Json.IsInt64 d.version.ipType) (h2 : Json.IsInt64 d.version.build)
    (h3 : Json.IsText d.version.version) (h4 : ∀ s ∈ d.version.languages, Json.IsText s) (h5 : ∀ s ∈ d.version.extraInfo, Json.IsText s)
    (h6 : (Json.marshalVersion nilLangs nilExtra d.version).length + 30 < 65536) :
    ∃ text d', pack (Json.marshalVersion nilLangs nilExtra) now d = .ok (text, d') ∧ ∀ cut, cut <+: text →
      (cut.length ≤ (header (Json.marshalVersion nilLangs nilExtra d.version) now d.fields).length ∧
        HeaderCut now (Json.marshalVersion nilLangs nilExtra d.version) d.fields d.version (ParseRule (ruleText d.fields [])) cut.length
          (dump Json.unmarshalVersion cut (ParseRule (ruleText d.fields [])))) ∨
      ∃ k p, cut = header (Json.marshalVersion nilLangs nilExtra d.version) now d.fields ++ unlines ((d.view.ips.take k).map rowLine) ++ p ∧
        (p = [] ∨ ∃ r, d.view.ips[k]? = some r ∧ p <+: rowLine r) ∧
        RowsCut d.fields d.version (d.view.ips.take k) d.view.ips[k]? p
          (dump Json.unmarshalVersion text (ParseRule (ruleText d.fields [])))
          (dump Json.unmarshalVersion cut (ParseRule (ruleText d.fields []))) := by
  have hver := Json.C102_line_ok h6
  have hdec := Json.C102_round_trip nilLangs nilExtra h1 h2 h3 h4 h5
  have hcr : (0x0D : UInt8) ∉ Json.marshalVersion nilLangs nilExtra d.version := fun h =>
    absurd (Json.C102_one_line nilLangs nilExtra d.version _ h) (by decide)
  obtain ⟨text, d', hp, hA⟩ := C46_header_exact hw hd hver hcr hnow hdec (fun p q => Json.C102_cut nilLangs nilExtra d.version)
    (ParseRule (ruleText d.fields []))
  obtain ⟨text', d'', hp', hB⟩ := C46_rows_exact hw hd hr hver hnow hdec
  rw [hp] at hp'
  have e := Res.ok.inj hp'
  simp only [Prod.mk.injEq] at e
  obtain ⟨rfl, rfl⟩ := e
  refine ⟨text, d', hp, fun cut hc => ?_⟩
  by_cases hl : cut.length ≤ (header (Json.marshalVersion nilLangs nilExtra d.version) now d.fields).length
  · exact .inl ⟨hl, hA cut hc hl⟩
  · exact .inr (hB cut hc (by omega))

/-- The data set of the examples meets the hypotheses; its second row cut inside the last value is still read. -/
example : demoH.WF ∧ ScanOK demoH.view ∧ DefaultsOK demoH.fields ∧ LineOK demoNow ∧ Json.IsInt64 demoH.version.ipType ∧
    Json.IsInt64 demoH.version.build ∧ (Json.marshalVersion true true demoH.version).length + 30 < 65536 ∧
    (∀ x ∈ demoH.view.ips.take 1, ¬ EndsFamily x.cidr) ∧
    gs "11.0.0.0/8\tCN,a" = rowLine (cutLast ⟨⟨[11, 0, 0, 0], [255, 0, 0, 0]⟩, [gs "CN", gs "a,b"]⟩ 1) ∧
    gs "11.0.0.0/8\tCN,a" <+: rowLine ⟨⟨[11, 0, 0, 0], [255, 0, 0, 0]⟩, [gs "CN", gs "a,b"]⟩ := by decide +kernel
/-- One cut of each kind, evaluated. -/
example : (match pack (Json.marshalVersion true true) demoNow demoH with
    | .ok (text, _) => [35, 60, 117, 119, 130, 145, 151, 190].map fun n => match dump Json.unmarshalVersion (text.take n) (ParseRule (ruleText demoH.fields [])) with
      | .ok d => 10 + d.ips.length
      | .err _ => 1
      | .panic => 0
    | _ => []) = [0, 1, 10, 0, 10, 1, 11, 13] := by decide +kernel

end Uip.Plain
