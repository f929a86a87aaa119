import Verif.Props.AwdbFile
/-!
# Property C56, exactly: what Query of an awdb database gives

For every database, address and record, of whatever shape.
-/
namespace Uip.Spec.Awdb
open Uip Uip.Awdb

/-- The record is a map of texts: `texts` gives, for every key, the text stored under it. -/
def TextRecord (record : Option Val) (texts : Str → Option Str) : Prop :=
  ∃ m, record = some (.map m) ∧ ∀ key, mapGet m key = (texts key).map .bytes

/-- The attributes Query takes from a map of texts, the empty text where the key is missing. -/
def queryInfo (texts : Str → Option Str) : IpInfo :=
  { country := (texts (gs "country")).getD [], province := (texts (gs "province")).getD [], city := (texts (gs "city")).getD [],
    isp := (texts (gs "isp")).getD [], asn := (texts (gs "asnumber")).getD [], continent := (texts (gs "continent")).getD [],
    line := (texts (gs "line")).getD [], district := [] }

end Uip.Spec.Awdb

namespace Uip.Awdb
open Uip Uip.Spec Uip.Spec.Awdb

theorem mem_mapRange {α : Type} : ∀ (m : GoMap α) (k : Str) (v : α), (k, v) ∈ mapRange m ↔ mapGet m k = some v
  | [], _, _ => by simp [mapRange, mapGet]
  | (k', v') :: m, k, v => by
    rw [mapRange, mapGet, List.mem_cons, List.mem_filter, mem_mapRange m k v]
    by_cases h : k' = k
    · subst h; simp [eq_comm]
    · simp [h, Ne.symm h, eq_comm]

/-- Reading the texts: all of them, or a crash at the first value that is not one. -/
theorem strings_mapM : ∀ (l : List (Str × Val)),
    (∃ t, Res.mapM (fun p : Str × Val => (do let b ← asBytes p.2; return (p.1, b) : Res (Str × Bytes))) l = .ok t ∧
      l = t.map fun p => (p.1, Val.bytes p.2)) ∨
    (Res.mapM (fun p : Str × Val => (do let b ← asBytes p.2; return (p.1, b) : Res (Str × Bytes))) l = .panic ∧
      ∃ p ∈ l, ∀ b, p.2 ≠ .bytes b)
  | [] => .inl ⟨[], rfl, rfl⟩
  | (k, v) :: l => by
    have key : (∃ b, v = .bytes b) ∨ (asBytes v = .panic ∧ ∀ b, v ≠ .bytes b) := by
      cases v <;> first
        | exact .inl ⟨_, rfl⟩
        | exact .inr ⟨rfl, fun b h => by cases h⟩
    rcases key with ⟨b, rfl⟩ | ⟨hp, hn⟩
    · rcases strings_mapM l with ⟨t, h1, h2⟩ | ⟨h1, p, hp, h2⟩
      · exact .inl ⟨(k, b) :: t, by rw [Res.mapM, h1]; rfl, by rw [List.map_cons, ← h2]⟩
      · exact .inr ⟨by rw [Res.mapM, h1]; rfl, p, List.mem_cons_of_mem _ hp, h2⟩
    · exact .inr ⟨by simp only [Res.mapM, hp, Res.panic_bind], (k, v), List.mem_cons_self, hn⟩

/-- The conversion of a record, exactly. -/
theorem toStrings_cases (record : Option Val) :
    (∃ m texts, toStrings record = .ok m ∧ TextRecord record texts ∧ ∀ key, mapGet m key = texts key) ∨
    (toStrings record = .panic ∧ ¬ ∃ texts, TextRecord record texts) := by
  match record with
  | none => exact .inr ⟨rfl, fun ⟨_, m, h, _⟩ => by cases h⟩
  | some (.map m) =>
    rcases strings_mapM (mapRange m) with ⟨t, h1, h2⟩ | ⟨h1, p, hp, h2⟩
    · refine .inl ⟨t, mapGet t, h1, ⟨m, rfl, fun key => ?_⟩, fun _ => rfl⟩
      rw [← mapGet_mapRange m key, h2]
      clear h1 h2
      induction t with
      | nil => rfl
      | cons q t ih =>
        rw [List.map_cons, mapGet, mapGet]
        split
        · rfl
        · exact ih
    · refine .inr ⟨h1, fun ⟨texts, m', hm, ht⟩ => ?_⟩
      cases hm
      have := (mem_mapRange m p.1 p.2).mp hp
      rw [ht] at this
      obtain ⟨b, _, hb⟩ := Option.map_eq_some_iff.mp this
      exact h2 b hb.symm
  | some (.bool _) | some (.int _) | some (.uint _) | some (.big _) | some (.f32 _) | some (.f64 _) | some (.bytes _)
  | some (.slice _) => exact .inr ⟨rfl, fun ⟨_, m, h, _⟩ => by cases h⟩

/-- **C56 (exactly).** For every database and every address: a lookup that fails makes Query fail in the same way; a
lookup that finds a map of texts is answered, with the texts of its keys and the prefix of the network; a lookup that
succeeds in any other way — no record, a record that is not a map, a value that is not a text — makes Query crash. -/
theorem C56_exact (r : Reader) (a : IP) :
    (∀ e, r.Query a = .err e ↔ r.LookupNetwork a = .err e) ∧
    (∀ q p, r.Query a = .ok (q, p) ↔ ∃ net record texts, r.LookupNetwork a = .ok (net, record) ∧ TextRecord record texts ∧
      q = queryInfo texts ∧ p = (maskSize net.mask).1) ∧
    (r.Query a = .panic ↔ r.LookupNetwork a = .panic ∨
      ∃ net record, r.LookupNetwork a = .ok (net, record) ∧ ¬ ∃ texts, TextRecord record texts) := by
  have uniq : ∀ {record t1 t2}, TextRecord record t1 → TextRecord record t2 → t1 = t2 := by
    rintro record t1 t2 ⟨m, h1, h2⟩ ⟨m', h3, h4⟩
    rw [h1] at h3
    cases h3
    funext key
    have := (h2 key).symm.trans (h4 key)
    cases e1 : t1 key <;> cases e2 : t2 key <;> rw [e1, e2] at this <;> simp at this ⊢
    exact this
  unfold Reader.Query Reader.Find
  cases hl : r.LookupNetwork a with
  | err e => simp
  | panic => simp
  | ok x =>
    obtain ⟨net, record⟩ := x
    simp only [Res.ok_bind]
    rcases toStrings_cases record with ⟨m, texts, h1, h2, h3⟩ | ⟨h1, h2⟩
    · rw [h1]
      simp only [Res.ok_bind, Res.pure_eq]
      have hq : ({ country := strAt m (gs "country"), province := strAt m (gs "province"), city := strAt m (gs "city"),
                    isp := strAt m (gs "isp"), asn := strAt m (gs "asnumber"), continent := strAt m (gs "continent"),
                    line := strAt m (gs "line") } : IpInfo) = queryInfo texts := by
        simp only [strAt, h3]; rfl
      rw [hq]
      refine ⟨fun e => by simp, fun q p => ?_, ?_⟩
      · constructor
        · intro h
          cases Res.ok.inj h
          exact ⟨net, record, texts, rfl, h2, rfl, rfl⟩
        · rintro ⟨net', record', texts', h4, h5, rfl, rfl⟩
          cases Res.ok.inj h4
          rw [uniq h2 h5]
      · constructor
        · intro h; cases h
        · rintro (h | ⟨net', record', h4, h5⟩)
          · cases h
          · cases Res.ok.inj h4
            exact absurd ⟨texts, h2⟩ h5
    · rw [h1]
      simp only [Res.panic_bind]
      refine ⟨fun e => by simp, fun q p => ?_, ?_⟩
      · constructor
        · intro h; cases h
        · rintro ⟨net', record', texts', h4, h5, _⟩
          cases Res.ok.inj h4
          exact absurd ⟨texts', h5⟩ h2
      · exact ⟨fun _ => .inr ⟨net, record, rfl, h2⟩, fun _ => trivial⟩

/-- A record of texts, and one with a number in it. -/
example : TextRecord (some (.map [(gs "city", .bytes (gs "上海"))])) (fun k => if gs "city" = k then some (gs "上海") else none) ∧
    ¬ ∃ texts, TextRecord (some (.map [(gs "city", .bytes (gs "上海")), (gs "n", .uint 7)])) texts := by
  constructor
  · refine ⟨_, rfl, fun key => ?_⟩
    simp only [mapGet]
    split <;> rfl
  · rintro ⟨texts, m, h, ht⟩
    cases h
    have := ht (gs "n")
    rw [show mapGet [(gs "city", Val.bytes (gs "上海")), (gs "n", .uint 7)] (gs "n") = some (.uint 7) from rfl] at this
    obtain ⟨b, _, hb⟩ := Option.map_eq_some_iff.mp this.symm
    cases hb

/-- In the file `demo4` the second case and (for an address without a record) the third one occur. -/
example : ∃ r, FromBytes demo4.bytes = .ok r ∧ (∃ q p, r.Query [1, 2, 3, 4] = .ok (q, p) ∧ q.asn = gs "4837") ∧
    r.Query [200, 0, 0, 1] = .panic := by
  obtain ⟨r, h1, h2⟩ := C56_files_panic demo4 demo4_ok [200, 0, 0, 1] (by decide +kernel) 1 (by decide +kernel)
  obtain ⟨r', h3, _, h4, _⟩ := C63_lookup demo4 demo4_ok [1, 2, 3, 4] (by decide +kernel) 17 1 (by decide +kernel)
  rw [h1] at h3
  cases Res.ok.inj h3
  obtain ⟨net, h5, _⟩ := h4 0 _ _ demo4_stored (by decide +kernel)
  obtain ⟨m, h6, h7, h8⟩ := toStrings_record demoRecord
  refine ⟨r, h1, ⟨_, _, by unfold Reader.Query Reader.Find; rw [h5, Res.ok_bind]; simp only [h6, Res.ok_bind]; rfl, ?_⟩, h2⟩
  simp only [h7]
  decide +kernel

end Uip.Awdb
