import Verif.Props.Writing
/-!
# C107: a database whose writing was cut short does not open
-/
namespace Uip.Program
open Uip Uip.Spec Uip.Operate

/-- An `.ipdb` output holds the converted table: it opens and answers as in `C64`. -/
def AnswersTable (w : World) (fuel : Nat) (D : IpData) (fs : Fs) (o : Str) : Prop :=
  ∃ q, NewDb w (serverFormats w fuel) fs o = .ok q ∧
    (∀ ip x, ValidIP ip → Supports D.version ip → x ∈ D.ips → Covers x.cidr (addrNum ip) →
      ∃ x' n, Settled D x x' ∧ Covers n (addrNum ip) ∧ OneRecord D n x'.values ∧
        q.query ip = .ok (converted D x'.values, maskFor n ip)) ∧
    (∀ ip, (¬ ValidIP ip ∨ ¬ Supports D.version ip ∨ ∀ x ∈ D.ips, ¬ Covers x.cidr (addrNum ip)) →
      q.query ip = .err .databaseError)

/-- The outputs of one run on a sound system, and what opening their beginnings gives. -/
theorem sound_run (w : World) (fuel : Nat) (orders : Nat → List Str) (canCreate : Str → Bool) (fs : Fs) (a : Args)
    (cap : Nat → Nat) (D : IpData) (hin : Dumps w fuel fs a cap D) (ht : Table D) (hline : a.line = [])
    (hord : CarrierOrders NormalizedMap D orders)
    (hcont : ∀ f ∈ D.fields, f ≠ gs "continent" → Ipdb.asciiLower f ≠ gs "continent")
    (hmeta : Ipdb.MetaRoundTrip w.encMeta w.decMeta (Ipdb.buildMeta w.now D.version (addField D.fields fDistrict)))
    (out : Str) (hos : ∀ o ∈ splitByte 0x2C out, canCreate o = true ∧ pathExt o = gs ".ipdb") :
    ∃ fs0, converter w fuel orders canCreate fs { a with output := out } = some (fs0, .ok ()) ∧
      ∀ o ∈ splitByte 0x2C out, ∃ f0 b0, converter w fuel orders canCreate fs { a with output := o } = some (f0, .ok ()) ∧
        f0 o = some b0 ∧ fs0 o = some b0 ∧ (b0.length < 2 ^ 32 → ∀ fs' : Fs,
          (fs' o = some b0 → AnswersTable w fuel D fs' o) ∧
          (∀ k, k < b0.length → fs' o = some (b0.take k) → ∀ q, NewDb w (serverFormats w fuel) fs' o ≠ .ok q)) := by
  have hlast : TextLast (splitByte 0x2C out) := by
    have : ∀ l : List Str, (∀ o ∈ l, pathExt o = gs ".ipdb") → TextLast l := by
      intro l
      induction l with
      | nil => intro _; exact List.Pairwise.nil
      | cons x l ih =>
        intro h
        refine List.Pairwise.cons (fun y _ e => ?_) (ih fun o ho => h o (by simp [ho]))
        rw [h x (by simp)] at e
        exact absurd e (by decide)
    exact this _ fun o ho => (hos o ho).2
  have hpw : (splitByte 0x2C out).Pairwise fun x y => pathExt x = gs ".ipdb" → pathExt y ≠ gs ".scan" := by
    have : ∀ l : List Str, (∀ o ∈ l, pathExt o = gs ".ipdb") → l.Pairwise fun x y => pathExt x = gs ".ipdb" → pathExt y ≠ gs ".scan" := by
      intro l
      induction l with
      | nil => intro _; exact List.Pairwise.nil
      | cons x l ih =>
        intro h
        refine List.Pairwise.cons (fun y hy _ => ?_) (ih fun o ho => h o (by simp [ho]))
        rw [h y (by simp [hy])]
        decide
    exact this _ fun o ho => (hos o ho).2
  obtain ⟨fs0, d, hd, e0, _, hall⟩ := C89_convert w fuel orders canCreate fs { a with output := out } cap D hin ht hline hord hcont
    (fun o ho => ⟨(hos o ho).1, .inl (hos o ho).2⟩) hlast hmeta
  have hown : ∀ o ∈ splitByte 0x2C out, ∃ f, converter w fuel orders canCreate fs { a with output := o } = some (f, .ok ()) := by
    intro o ho
    obtain ⟨f, b, e, _⟩ := C64_convert w fuel orders canCreate fs { a with output := o } cap D hin ht hline hord
      (mem_outputs_no_comma _ _ ho) (hos o ho).2 (hos o ho).1 hmeta
    exact ⟨f, e⟩
  obtain ⟨fs1, e1, hsame, _⟩ := C89_alone w fuel orders canCreate fs { a with output := out } (.inl hlast) (.inl hpw) hown
  have : fs1 = fs0 := by
    rw [e0] at e1
    exact (congrArg Prod.fst (Option.some.inj e1)).symm
  subst this
  refine ⟨fs1, e0, fun o ho => ?_⟩
  obtain ⟨f, hf⟩ := hown o ho
  obtain ⟨b, hb, hcb, _⟩ := hall o ho
  refine ⟨f, b, hf, by rw [← hsame o ho f hf]; exact hb, hb, fun hl fs' => ⟨fun h => ?_, fun k hk h q => ?_⟩⟩
  · obtain ⟨b', hb', hq⟩ := end_ipdb (fuel := fuel) ht hd hmeta (o := o) (hos o ho).2
    have : b' = b := Res.ok.inj (hb'.symm.trans hcb)
    subst this
    exact hq hl fs' h
  · obtain ⟨c, hver⟩ := hd.version
    obtain ⟨h', _, e⟩ := Ipdb.packH_spec (enc := w.encMeta) (now := w.now) (d0 := d) (d := d) rfl rfl rfl (Ipdb.Conv.refl _ _) hd.wf
    have hp : Ipdb.pack w.encMeta w.now d.view = .ok b := by
      unfold content Convert.alone Convert.PackWriter at hcb
      rw [if_pos (hos o ho).2] at hcb
      simp only [e] at hcb
      cases hp : Ipdb.pack w.encMeta w.now d.view with
      | ok t => rw [hp] at hcb; exact hcb
      | err x => rw [hp] at hcb; cases hcb
      | panic => rw [hp] at hcb; cases hcb
    have hcut := Ipdb.C19_truncated (dec := w.decMeta) hd.rowsOK
      (by show Ipdb.MetaRoundTrip w.encMeta w.decMeta (Ipdb.buildMeta w.now d.version d.fields); rw [hd.fields, hver]; exact hmeta) hp hl k hk
    unfold NewDb
    rw [h]
    simp only []
    rw [(hos o ho).2]
    intro hq
    unfold NewDbFromBytes at hq
    rw [knows_server w fuel] at hq
    obtain ⟨x, h1, _⟩ := Res.bind_eq_ok.mp hq
    obtain ⟨y, h2, _⟩ := Res.bind_eq_ok.mp h1
    rw [hcut] at h2
    split at h2 <;> cases h2

/-- **C107 (databases).** A conversion of a table to `.ipdb` outputs, whatever becomes of the single writes and whenever the
process is killed: each output is untouched, or it is complete (its bytes are those of a run of its own on a sound system) and
answers every address as in `C64`, or it does not open.  If the conversion ends without an error, all are complete. -/
theorem C107_refused (w : World) (fuel : Nat) (orders : Nat → List Str) (canCreate : Str → Bool) (disk : Nat → Fate) (fs fs' : Fs) (a : Args)
    (cap : Nat → Nat) (D : IpData) (hin : Dumps w fuel fs a cap D) (ht : Table D) (hline : a.line = [])
    (hord : CarrierOrders NormalizedMap D orders)
    (hcont : ∀ f ∈ D.fields, f ≠ gs "continent" → Ipdb.asciiLower f ≠ gs "continent")
    (hmeta : Ipdb.MetaRoundTrip w.encMeta w.decMeta (Ipdb.buildMeta w.now D.version (addField D.fields fDistrict)))
    (hos : ∀ o ∈ splitByte 0x2C a.output, canCreate o = true ∧ pathExt o = gs ".ipdb") (r : Option (Res Unit))
    (h : converterD w fuel orders canCreate disk fs a = some (fs', r)) :
    ∀ o ∈ splitByte 0x2C a.output, ∃ f0 b0, converter w fuel orders canCreate fs { a with output := o } = some (f0, .ok ()) ∧
      f0 o = some b0 ∧ (b0.length < 2 ^ 32 →
        (fs' o = fs o ∧ r ≠ some (.ok ())) ∨ (fs' o = some b0 ∧ AnswersTable w fuel D fs' o) ∨
        (r ≠ some (.ok ()) ∧ ∀ q, NewDb w (serverFormats w fuel) fs' o ≠ .ok q)) := by
  have passed : ∀ {o : Str} {b0 b : Bytes}, pathExt o = gs ".ipdb" → Passed (pathExt o) b0 b → b = b0 := by
    intro o b0 b he hp
    rcases hp with h | ⟨h, _⟩ | ⟨h, _⟩
    · exact h
    · rw [he] at h; exact absurd h (by decide)
    · rw [he] at h; exact absurd h (by decide)
  obtain ⟨fsA, eA, hA⟩ := sound_run w fuel orders canCreate fs a cap D hin ht hline hord hcont hmeta a.output hos
  by_cases hr : r = some (.ok ())
  · subst hr
    obtain ⟨f0, e0, k1, _⟩ := C107_reported w fuel orders canCreate disk fs fs' a h
    have : fsA = f0 := congrArg Prod.fst (Option.some.inj (eA.symm.trans e0))
    subst this
    intro o ho
    obtain ⟨f, b0, g1, g2, g3, g4⟩ := hA o ho
    obtain ⟨c0, c, k2, k3, k4⟩ := k1 o ho
    have : c0 = b0 := Option.some.inj (k2.symm.trans g3)
    subst this
    have := passed (hos o ho).2 k4
    subst this
    exact ⟨f, c, g1, g2, fun hl => .inr (.inl ⟨k3, (g4 hl fs').1 k3⟩)⟩
  · intro o ho
    obtain ⟨f, b0, g1, g2, _, g4⟩ := hA o ho
    refine ⟨f, b0, g1, g2, fun hl => ?_⟩
    rcases C107_stopped w fuel orders canCreate disk fs fs' a r h hr with ⟨rfl, _⟩ | ⟨pre, p, post, hsp, f0, r0, k1, _, k3, k4, k5⟩
    · exact .inl ⟨rfl, hr⟩
    · have hjoin : splitByte 0x2C (joinByte 0x2C (pre ++ [p])) = pre ++ [p] :=
        splitByte_joinByte (by simp) (fun x hx => mem_outputs_no_comma a.output x (by
          rw [hsp]
          rcases List.mem_append.mp hx with h | h
          · simp [h]
          · simp [List.mem_singleton.mp h]))
      have hmem : ∀ x ∈ pre ++ [p], x ∈ splitByte 0x2C a.output := by
        intro x hx
        rw [hsp]
        rcases List.mem_append.mp hx with h | h
        · simp [h]
        · simp [List.mem_singleton.mp h]
      obtain ⟨fsB, eB, hB⟩ := sound_run w fuel orders canCreate fs a cap D hin ht hline hord hcont hmeta (joinByte 0x2C (pre ++ [p]))
        (by rw [hjoin]; exact fun x hx => hos x (hmem x hx))
      rw [hjoin] at hB
      have : fsB = f0 := congrArg Prod.fst (Option.some.inj (eB.symm.trans k1))
      subst this
      by_cases hop : o = p
      · subst hop
        obtain ⟨f', b', m1, m2, m3, m4⟩ := hB o (by simp)
        have : f = f' := congrArg Prod.fst (Option.some.inj (g1.symm.trans m1))
        subst this
        have : b' = b0 := Option.some.inj (m2.symm.trans g2)
        subst this
        rw [if_neg (by rw [(hos o ho).1]; simp)] at k3
        obtain ⟨c0, c, n1, n2, c', n3, n4⟩ := k3
        have : c0 = b' := Option.some.inj (n1.symm.trans m3)
        subst this
        have := passed (hos o ho).2 n3
        subst this
        have hc : c = c'.take c.length := List.prefix_iff_eq_take.mp n4
        by_cases hlen : c.length < c'.length
        · exact .inr (.inr ⟨hr, (g4 hl fs').2 c.length hlen (by rw [← hc]; exact n2)⟩)
        · rw [List.take_of_length_le (by omega)] at hc
          subst hc
          exact .inr (.inl ⟨n2, (g4 hl fs').1 n2⟩)
      · by_cases hpre : o ∈ pre
        · obtain ⟨f', b', m1, m2, m3, m4⟩ := hB o (by simp [hpre])
          have : f = f' := congrArg Prod.fst (Option.some.inj (g1.symm.trans m1))
          subst this
          have : b' = b0 := Option.some.inj (m2.symm.trans g2)
          subst this
          obtain ⟨c0, c, n1, n2, n3⟩ := k4 o hpre hop
          have : c0 = b' := Option.some.inj (n1.symm.trans m3)
          subst this
          have := passed (hos o ho).2 n3
          subst this
          exact .inr (.inl ⟨n2, (g4 hl fs').1 n2⟩)
        · exact .inl ⟨k5 o hpre hop, hr⟩

/-- The hypotheses of `C107_refused` are met. -/
example : ∀ f ∈ exTable.fields, f ≠ gs "continent" → Ipdb.asciiLower f ≠ gs "continent" := by decide +kernel

example (disk : Nat → Fate) (fs' : Fs) (r : Option (Res Unit))
    (h : converterD exWorld 0 (fun _ => exKeys) (fun _ => true) disk exFs exArgs = some (fs', r)) :
    ∃ f0 b0, converter exWorld 0 (fun _ => exKeys) (fun _ => true) exFs { exArgs with output := gs "b.ipdb" } = some (f0, .ok ()) ∧
      f0 (gs "b.ipdb") = some b0 ∧ (b0.length < 2 ^ 32 →
        (fs' (gs "b.ipdb") = exFs (gs "b.ipdb") ∧ r ≠ some (.ok ())) ∨ (fs' (gs "b.ipdb") = some b0 ∧ AnswersTable exWorld 0 exTable fs' (gs "b.ipdb")) ∨
        (r ≠ some (.ok ()) ∧ ∀ q, NewDb exWorld (serverFormats exWorld 0) fs' (gs "b.ipdb") ≠ .ok q)) := by
  have hsp : splitByte 0x2C exArgs.output = [gs "b.ipdb"] := by decide +kernel
  exact C107_refused exWorld 0 (fun _ => exKeys) (fun _ => true) disk exFs fs' exArgs id exTable (ex_dumps 0) ex_table rfl ex_orders
    (by decide +kernel) (ex_meta _ _) (by rw [hsp]; intro o ho; rw [List.mem_singleton.mp ho]; exact ⟨rfl, by decide +kernel⟩) r h
    (gs "b.ipdb") (by rw [hsp]; simp)

end Uip.Program
