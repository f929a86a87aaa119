import Verif.Props.AwdbQueryExact
import Verif.Props.Clients
import Verif.Props.Check
/-!
# Property C108: an .awdb file behind the query library and the HTTP server, exactly

C67 is about packed .ipdb files, which never crash a request.  Here is the whole truth about .awdb files: when they open, what a
request is answered, and which requests crash their handler (`net/http` then closes the connection and goes on).
-/
namespace Uip.Program
open Uip Uip.Spec Uip.Spec.Awdb

/-- `google4` is the address of `net.ParseIP("8.8.8.8")`. -/
theorem google_probe : google4 = goIPv4 8 8 8 8 := by decide +kernel

theorem serves4 (r : Awdb.Reader) : r.version.HasIpV4 = true ↔ r.md.ipVersion ≠ 6 := by
  unfold Awdb.Reader.version Awdb.Metadata.IpType VersionInfo.HasIpV4
  simp only []
  by_cases h4 : r.md.ipVersion = 4
  · rw [if_pos h4]; simp [h4]; decide
  · rw [if_neg h4]
    by_cases h6 : r.md.ipVersion = 6
    · rw [if_pos h6]; simp [h6]; decide
    · rw [if_neg h6]; simp [h6]; decide

/-- Find, exactly. -/
theorem find_exact (r : Awdb.Reader) (a : IP) :
    (∀ e, r.Find a = .err e ↔ r.LookupNetwork a = .err e) ∧
    ((∃ x, r.Find a = .ok x) ↔ ∃ net record texts, r.LookupNetwork a = .ok (net, record) ∧ TextRecord record texts) ∧
    (r.Find a = .panic ↔ r.LookupNetwork a = .panic ∨
      ∃ net record, r.LookupNetwork a = .ok (net, record) ∧ ¬ ∃ texts, TextRecord record texts) := by
  unfold Awdb.Reader.Find
  cases hl : r.LookupNetwork a with
  | err e => simp
  | panic => simp
  | ok x =>
    obtain ⟨net, record⟩ := x
    simp only [Res.ok_bind]
    rcases Awdb.toStrings_cases record with ⟨m, texts, h1, h2, h3⟩ | ⟨h1, h2⟩
    · rw [h1]
      refine ⟨fun e => by simp, ⟨fun _ => ⟨net, record, texts, rfl, h2⟩, fun _ => ⟨_, rfl⟩⟩, ⟨fun h => (nomatch h), ?_⟩⟩
      rintro (h | ⟨net', record', h4, h5⟩)
      · cases h
      · cases Res.ok.inj h4
        exact absurd ⟨texts, h2⟩ h5
    · rw [h1]
      refine ⟨fun e => by simp, ⟨fun ⟨x, h⟩ => (nomatch h), ?_⟩, ⟨fun _ => .inr ⟨net, record, rfl, h2⟩, fun _ => rfl⟩⟩
      rintro ⟨net', record', texts', h4, h5⟩
      cases Res.ok.inj h4
      exact absurd ⟨texts', h5⟩ h2

/-- C108: when a file named .awdb opens.  A file for IPv6 only opens as soon as its bytes do; any other is first asked for 8.8.8.8:
it is refused with the error of that lookup, and crashes the program if there is no record of texts. -/
theorem C108_open (w : World) (fuel : Nat) (fs : Fs) (name : Str) (b : Bytes) (hf : fs name = some b) (hn : gs ".awdb" <:+ name) :
    (∀ q, NewDb w (serverFormats w fuel) fs name = .ok q ↔ ∃ r, q = .awdb r ∧ Awdb.FromBytes b = .ok r ∧
      (r.md.ipVersion ≠ 6 → ∃ net record texts, r.LookupNetwork google4 = .ok (net, record) ∧ TextRecord record texts)) ∧
    (∀ e, NewDb w (serverFormats w fuel) fs name = .err e ↔ Awdb.FromBytes b = .err e ∨
      ∃ r, Awdb.FromBytes b = .ok r ∧ r.md.ipVersion ≠ 6 ∧ r.LookupNetwork google4 = .err e) ∧
    (NewDb w (serverFormats w fuel) fs name = .panic ↔ Awdb.FromBytes b = .panic ∨
      ∃ r, Awdb.FromBytes b = .ok r ∧ r.md.ipVersion ≠ 6 ∧ (r.LookupNetwork google4 = .panic ∨
        ∃ net record, r.LookupNetwork google4 = .ok (net, record) ∧ ¬ ∃ texts, TextRecord record texts)) := by
  rw [(C93_go w fuel fs name).2.2.1 b hf hn, google_probe]
  unfold Awdb.open_
  cases hr : Awdb.FromBytes b with
  | err e => simp
  | panic => simp
  | ok r =>
    simp only [Res.ok_bind]
    have hx := find_exact r (goIPv4 8 8 8 8)
    unfold Awdb.Reader.check
    by_cases h6 : r.md.ipVersion = 6
    · have : ¬ r.version.HasIpV4 = true := fun h => (serves4 r).mp h h6
      rw [if_neg this]
      simp only [Res.ok_bind, Res.pure_eq, Res.ok.injEq, reduceCtorEq, false_or, false_iff, not_exists]
      refine ⟨fun q => ⟨fun h => ⟨r, h.symm, rfl, fun h => absurd h6 h⟩, ?_⟩, fun e r' => ?_, fun r' => ?_⟩
      · rintro ⟨r', rfl, h, _⟩; rw [h]
      · rintro ⟨h, h', _⟩; rw [← h] at h'; exact h' h6
      · rintro ⟨h, h', _⟩; rw [← h] at h'; exact h' h6
    · rw [if_pos ((serves4 r).mpr h6)]
      cases hfd : r.Find (goIPv4 8 8 8 8) with
      | err e =>
        rw [hfd] at hx
        simp only [Res.err_bind, Res.err.injEq, reduceCtorEq, false_or, false_iff] at hx ⊢
        refine ⟨fun q h => ?_, fun e' => ⟨?_, ?_⟩, ?_⟩
        · obtain ⟨r', _, h1, h2⟩ := h
          cases Res.ok.inj h1
          obtain ⟨net, record, texts, h3, h4⟩ := h2 h6
          exact absurd (hx.2.1.mpr ⟨net, record, texts, h3, h4⟩) (fun ⟨x, h⟩ => by cases h)
        · rintro rfl; exact ⟨r, rfl, h6, (hx.1 _).mp rfl⟩
        · rintro ⟨r', h1, _, h2⟩
          cases Res.ok.inj h1
          exact (hx.1 _).mpr h2
        · rintro ⟨r', h1, _, h2⟩
          cases Res.ok.inj h1
          exact hx.2.2 h2
      | panic =>
        rw [hfd] at hx
        simp only [Res.panic_bind, reduceCtorEq, false_or, false_iff, true_iff] at hx ⊢
        refine ⟨fun q h => ?_, fun e' h => ?_, ⟨r, rfl, h6, hx.2.2⟩⟩
        · obtain ⟨r', _, h1, h2⟩ := h
          cases Res.ok.inj h1
          obtain ⟨net, record, texts, h3, h4⟩ := h2 h6
          exact absurd (hx.2.1.mpr ⟨net, record, texts, h3, h4⟩) (fun ⟨x, h⟩ => by cases h)
        · obtain ⟨r', h1, _, h2⟩ := h
          cases Res.ok.inj h1
          exact hx.1 _ h2
      | ok x =>
        rw [hfd] at hx
        simp only [Res.ok_bind, Res.pure_eq, Res.ok.injEq, reduceCtorEq, false_or, false_iff] at hx ⊢
        refine ⟨fun q => ⟨?_, ?_⟩, fun e' h => ?_, fun h => ?_⟩
        · rintro rfl; exact ⟨r, rfl, rfl, fun _ => hx.2.1.mp ⟨x, rfl⟩⟩
        · rintro ⟨r', rfl, h, _⟩; rw [h]
        · obtain ⟨r', h1, _, h2⟩ := h
          subst h1
          exact hx.1 _ h2
        · obtain ⟨r', h1, _, h2⟩ := h
          subst h1
          exact hx.2.2 h2

/-- C108: the answer of the query library to a text, with the prefix length of the network it is the answer for. -/
theorem C108_query (r : Awdb.Reader) (text : Str) :
    (∀ i p, Db.QueryStr ParseIP (OpenDb.awdb r).query text = .ok (i, p) ↔ ∃ ip net record texts, ParseIP text = some ip ∧
      r.LookupNetwork ip = .ok (net, record) ∧ TextRecord record texts ∧ i = queryInfo texts ∧ p = (maskSize net.mask).1) ∧
    ((∃ e, Db.QueryStr ParseIP (OpenDb.awdb r).query text = .err e) ↔
      ∀ ip, ParseIP text = some ip → ∃ e, r.LookupNetwork ip = .err e) ∧
    (Db.QueryStr ParseIP (OpenDb.awdb r).query text = .panic ↔ ∃ ip, ParseIP text = some ip ∧ (r.LookupNetwork ip = .panic ∨
      ∃ net record, r.LookupNetwork ip = .ok (net, record) ∧ ¬ ∃ texts, TextRecord record texts)) := by
  unfold Db.QueryStr
  cases hp : ParseIP text with
  | none => simp
  | some ip =>
    have hq : Db.Query (OpenDb.awdb r).query ip = r.Query ip := by
      rfl
    simp only [hq]
    obtain ⟨h1, h2, h3⟩ := Awdb.C56_exact r ip
    refine ⟨fun i p => ?_, ?_, ?_⟩
    · rw [h2]
      constructor
      · rintro ⟨net, record, texts, g1, g2, g3, g4⟩
        exact ⟨ip, net, record, texts, rfl, g1, g2, g3, g4⟩
      · rintro ⟨ip', net, record, texts, g0, g1, g2, g3, g4⟩
        cases g0
        exact ⟨net, record, texts, g1, g2, g3, g4⟩
    · constructor
      · rintro ⟨e, h⟩ ip' g0
        cases g0
        exact ⟨e, (h1 e).mp h⟩
      · intro h
        obtain ⟨e, g⟩ := h ip rfl
        exact ⟨e, (h1 e).mpr g⟩
    · rw [h3]
      constructor
      · intro h; exact ⟨ip, rfl, h⟩
      · rintro ⟨ip', g0, h⟩
        cases g0
        exact h

/-- C108: what the server answers to a request for `/text`: 200 and the record of texts of the address, 404 if the text is no
address or the lookup fails, and no answer at all (the handler crashes) exactly if the lookup crashes or finds no record of texts. -/
theorem C108_serve (w : World) (enc : IpInfo → Bytes) (encV : VersionInfo → Bytes) (r : Awdb.Reader) (text : Str)
    (ht : text ≠ gs "version") :
    (∀ ip net record texts, ParseIP text = some ip → r.LookupNetwork ip = .ok (net, record) → TextRecord record texts →
      serve w enc encV (.awdb r) (0x2F :: text) = .ok ⟨200, enc (queryInfo texts)⟩) ∧
    ((∀ ip, ParseIP text = some ip → ∃ e, r.LookupNetwork ip = .err e) →
      serve w enc encV (.awdb r) (0x2F :: text) = .ok ⟨404, []⟩) ∧
    (serve w enc encV (.awdb r) (0x2F :: text) = .panic ↔ ∃ ip, ParseIP text = some ip ∧ (r.LookupNetwork ip = .panic ∨
      ∃ net record, r.LookupNetwork ip = .ok (net, record) ∧ ¬ ∃ texts, TextRecord record texts)) := by
  have hne : ¬ (0x2F :: text = gs "/version") := by
    intro h
    have : gs "/version" = 0x2F :: gs "version" := by decide +kernel
    rw [this] at h
    exact ht (List.cons.inj h).2
  unfold serve
  rw [if_neg hne]
  unfold serveQuery
  simp only []
  obtain ⟨h1, h2, h3⟩ := C108_query r text
  refine ⟨fun ip net record texts g1 g2 g3 => ?_, fun h => ?_, ?_⟩
  · rw [(h1 _ _).mpr ⟨ip, net, record, texts, g1, g2, g3, rfl, rfl⟩]
  · obtain ⟨e, he⟩ := h2.mpr h
    rw [he]
  · rw [← h3]
    rcases Db.QueryStr ParseIP (OpenDb.awdb r).query text with ⟨i, m⟩ | e | _ <;> simp

/-- The file `demo4` (a record for every address below 128.0.0.0, none above) opens under the name x.awdb; asked for 1.2.3.4 the
server sends the record, for hello 404, and the request for 200.0.0.1 crashes. -/
theorem demo4_served (w : World) (fuel : Nat) (enc : IpInfo → Bytes) (encV : VersionInfo → Bytes) :
    ∃ r, NewDb w (serverFormats w fuel) (fun _ => some Awdb.demo4.bytes) (gs "x.awdb") = .ok (.awdb r) ∧
      (∃ i : IpInfo, serve w enc encV (.awdb r) (0x2F :: gs "1.2.3.4") = .ok ⟨200, enc i⟩ ∧ i.asn = gs "4837") ∧
      serve w enc encV (.awdb r) (0x2F :: gs "hello") = .ok ⟨404, []⟩ ∧
      serve w enc encV (.awdb r) (0x2F :: gs "200.0.0.1") = .panic := by
  have answers : ∀ a, Awdb.demo4.Asks a → treeWalk Awdb.demo4.nodes (Awdb.demo4.path a) 0 0 = (17, 1) →
      ∃ r, Awdb.FromBytes Awdb.demo4.bytes = .ok r ∧ ∃ q p, r.Query a = .ok (q, p) ∧ q.asn = gs "4837" := by
    intro a h1 h2
    obtain ⟨r, g1, _, g2, _⟩ := Awdb.C63_lookup Awdb.demo4 Awdb.demo4_ok a h1 17 1 h2
    obtain ⟨net, g3, _⟩ := g2 0 _ _ Awdb.demo4_stored (by decide +kernel)
    obtain ⟨m, g4, g5, _⟩ := Awdb.toStrings_record Awdb.demoRecord
    refine ⟨r, g1, _, _, by unfold Awdb.Reader.Query Awdb.Reader.Find; rw [g3, Res.ok_bind]; simp only [g4, Res.ok_bind]; rfl, ?_⟩
    simp only [g5]
    decide +kernel
  obtain ⟨r, h1, h2⟩ := Awdb.C56_files_panic Awdb.demo4 Awdb.demo4_ok (goIPv4 200 0 0 1) (by decide +kernel) 1 (by decide +kernel)
  obtain ⟨r', h3, q, p, h4, h5⟩ := answers (goIPv4 1 2 3 4) (by decide +kernel) (by decide +kernel)
  obtain ⟨r'', h6, q', p', h7, _⟩ := answers google4 (by decide +kernel) (by decide +kernel)
  rw [h1] at h3 h6
  cases Res.ok.inj h3
  cases Res.ok.inj h6
  obtain ⟨net, record, texts, g1, g2, rfl, _⟩ := ((Awdb.C56_exact r _).2.1 _ _).mp h4
  obtain ⟨net', record', texts', g1', g2', _⟩ := ((Awdb.C56_exact r _).2.1 _ _).mp h7
  refine ⟨r, (((C108_open w fuel (fun _ => some Awdb.demo4.bytes) (gs "x.awdb") Awdb.demo4.bytes rfl (by decide +kernel)).1 (.awdb r)).mpr ⟨r, rfl, h1, fun _ => ⟨net', record', texts', g1', g2'⟩⟩), ?_, ?_, ?_⟩
  · exact ⟨_, (C108_serve w enc encV r _ (by decide +kernel)).1 _ _ _ _ (by decide +kernel) g1 g2, h5⟩
  · exact (C108_serve w enc encV r _ (by decide +kernel)).2.1 (fun ip h => absurd h (by
      rw [show ParseIP (gs "hello") = none by decide +kernel]; exact fun h => by cases h))
  · exact (C108_serve w enc encV r _ (by decide +kernel)).2.2.mpr ⟨goIPv4 200 0 0 1, by decide +kernel, (Awdb.C56_exact r _).2.2.mp h2⟩

example (w : World) (fuel : Nat) : ∃ r, NewDb w (serverFormats w fuel) (fun _ => some Awdb.demo4.bytes) (gs "x.awdb") = .ok (.awdb r) ∧
    serve w (fun _ => []) (fun _ => []) (.awdb r) (0x2F :: gs "200.0.0.1") = .panic := by
  obtain ⟨r, h1, _, _, h2⟩ := demo4_served w fuel (fun _ => []) (fun _ => [])
  exact ⟨r, h1, h2⟩

end Uip.Program
