import Verif.Model.Clients
import Verif.Props.Readers
import Verif.Props.Registry
import Verif.Props.Converter
/-!
# Properties C93-C94: opening files by name, the command line programs

`fs name` is the content of a file (`none`: cannot be read); the Java reader gets it in pieces, as the operating system
hands them out.
-/
namespace Uip.Program
open Uip Uip.Spec Uip.Ipdb

/-! ## C93: which files are opened, and as what -/

theorem pathExtLoop_suffix : ∀ (s tail : Str), pathExtLoop s tail ≠ [] → ∃ p, s.reverse ++ tail = p ++ pathExtLoop s tail := by
  intro s
  induction s with
  | nil => intro tail h; exact absurd rfl h
  | cons c s ih =>
    intro tail h
    rw [pathExtLoop] at h ⊢
    split at h
    · exact absurd rfl h
    · rename_i h1
      rw [if_neg h1]
      split at h
      · rename_i h2
        rw [if_pos h2]
        exact ⟨s.reverse, by rw [List.reverse_cons, List.append_assoc]; rfl⟩
      · rename_i h2
        rw [if_neg h2]
        obtain ⟨p, hp⟩ := ih (c :: tail) h
        exact ⟨p, by rw [← hp, List.reverse_cons, List.append_assoc]; rfl⟩

/-- The extension is `.x`, for an `x` without dots and slashes, exactly if the name ends in `.x`. -/
theorem pathExt_iff (name x : Str) (h1 : (0x2E : UInt8) ∉ x) (h2 : (0x2F : UInt8) ∉ x) :
    pathExt name = 0x2E :: x ↔ ∃ p, name = p ++ 0x2E :: x := by
  constructor
  · intro h
    obtain ⟨p, hp⟩ := pathExtLoop_suffix name.reverse [] (by unfold pathExt at h; rw [h]; simp)
    refine ⟨p, ?_⟩
    rw [List.reverse_reverse, List.append_nil] at hp
    unfold pathExt at h
    rw [h] at hp
    exact hp
  · rintro ⟨p, rfl⟩
    exact C59_extension p x h1 h2

theorem ends_ipdb (name : Str) : pathExt name = gs ".ipdb" ↔ gs ".ipdb" <:+ name := by
  have h := pathExt_iff name (gs "ipdb") (by decide +kernel) (by decide +kernel)
  rw [show gs ".ipdb" = 0x2E :: gs "ipdb" by decide +kernel, h]
  constructor
  · rintro ⟨p, rfl⟩; exact ⟨p, rfl⟩
  · rintro ⟨p, rfl⟩; exact ⟨p, rfl⟩

theorem ends_awdb (name : Str) : pathExt name = gs ".awdb" ↔ gs ".awdb" <:+ name := by
  have h := pathExt_iff name (gs "awdb") (by decide +kernel) (by decide +kernel)
  rw [show gs ".awdb" = 0x2E :: gs "awdb" by decide +kernel, h]
  constructor
  · rintro ⟨p, rfl⟩; exact ⟨p, rfl⟩
  · rintro ⟨p, rfl⟩; exact ⟨p, rfl⟩

theorem knows_awdb (w : World) (fuel : Nat) : (serverFormats w fuel).GetQueryFormat (gs ".awdb") = some fun b => do
    let r ← Awdb.open_ b
    return .awdb r := by
  have hne : gs ".ipdb" ≠ gs ".awdb" := by decide +kernel
  unfold serverFormats ipdbInit awdbInit
  simp only [Registry.RegisterDumpFormat, Registry.RegisterQueryFormat, Registry.RegisterPackFormat, Registry.GetQueryFormat,
    mapGet_mapSet, if_pos, if_neg hne]
  rfl

/-- **C93 (Go).** A file that cannot be read ends the program; a name ending in `.ipdb` is opened as ipdb, one ending in
`.awdb` as awdb, from exactly the bytes of the file; any other name is refused. -/
theorem C93_go (w : World) (fuel : Nat) (fs : Fs) (name : Str) :
    (fs name = none → NewDb w (serverFormats w fuel) fs name = .panic) ∧
    (∀ b, fs name = some b → gs ".ipdb" <:+ name → NewDb w (serverFormats w fuel) fs name =
      (Ipdb.newQuerier w.decMeta b >>= fun q => (OpenDb.ipdb q).buildCache (splitByte 0x0A w.warm))) ∧
    (∀ b, fs name = some b → gs ".awdb" <:+ name → NewDb w (serverFormats w fuel) fs name =
      (Awdb.open_ b >>= fun r => .ok (.awdb r))) ∧
    (∀ b, fs name = some b → ¬ gs ".ipdb" <:+ name → ¬ gs ".awdb" <:+ name →
      NewDb w (serverFormats w fuel) fs name = .err .unsupportedFormat) := by
  refine ⟨fun h => ?_, fun b h he => ?_, fun b h he => ?_, fun b h h1 h2 => ?_⟩
  · unfold NewDb; rw [h]
  · unfold NewDb NewDbFromBytes
    rw [h]
    simp only []
    rw [(ends_ipdb name).mpr he, knows_server w fuel]
    simp only [Res.bind_assoc]
    rfl
  · unfold NewDb NewDbFromBytes
    rw [h]
    simp only []
    rw [(ends_awdb name).mpr he, knows_awdb w fuel]
    simp only [Res.bind_assoc]
    rfl
  · unfold NewDb NewDbFromBytes
    rw [h]
    simp only []
    have := (C59_builtin w fuel (pathExt name)).1
    cases hg : (serverFormats w fuel).GetQueryFormat (pathExt name) with
    | none => rfl
    | some c =>
      rw [hg] at this
      rcases this.mp rfl with h' | h'
      · exact absurd ((ends_ipdb name).mp h') h1
      · exact absurd ((ends_awdb name).mp h') h2

end Uip.Program

namespace Uip.Java
open Uip Uip.Spec Uip.Ipdb

theorem readAll_eq : ∀ (cs : List Bytes) (out : Bytes), readAll cs out = out ++ cs.flatten := by
  intro cs
  induction cs with
  | nil => intro out; simp [readAll]
  | cons c cs ih => intro out; rw [readAll, ih]; simp

theorem lastIndexOf_none {c : UInt8} : ∀ {s : Str}, c ∉ s → lastIndexOf c s = -1 := by
  intro s
  induction s with
  | nil => intro _; rfl
  | cons x s ih =>
    intro h
    rw [List.mem_cons, not_or] at h
    rw [lastIndexOf, ih h.2, if_neg (by omega), if_neg (Ne.symm h.1)]

theorem lastIndexOf_split {c : UInt8} {t : Str} (ht : c ∉ t) : ∀ (p : Str), lastIndexOf c (p ++ c :: t) = p.length := by
  intro p
  induction p with
  | nil => rw [List.nil_append, lastIndexOf, lastIndexOf_none ht, if_neg (by omega), if_pos rfl]; rfl
  | cons x p ih =>
    rw [List.cons_append, lastIndexOf, ih, if_pos (by omega), List.length_cons]; omega

/-- The last dot of a name. -/
theorem last_dot {c : UInt8} : ∀ {s : Str}, c ∈ s → ∃ p t, s = p ++ c :: t ∧ c ∉ t := by
  intro s
  induction s with
  | nil => intro h; cases h
  | cons x s ih =>
    intro h
    by_cases hs : c ∈ s
    · obtain ⟨p, t, rfl, ht⟩ := ih hs
      exact ⟨x :: p, t, rfl, ht⟩
    · rcases List.mem_cons.mp h with rfl | h
      · exact ⟨[], s, rfl, hs⟩
      · exact absurd h hs

/-- **C93 (Java).** A name without a dot crashes `create`, whatever the files; otherwise a file that cannot be read is an
error, a name ending in `.ipdb` is opened from exactly the bytes of the file, however the operating system hands them out,
and any other name is refused. -/
theorem C93_java (dec : Bytes → Option MetaData) (utf8 : Bytes → Str) (ips : List Bytes) (open_ : Str → Option (List Bytes)) (name : Str) :
    ((0x2E : UInt8) ∉ name → createFile dec utf8 ips open_ name = .panic) ∧
    ((0x2E : UInt8) ∈ name → open_ name = none → createFile dec utf8 ips open_ name = .err (.other "read file")) ∧
    (∀ chunks, open_ name = some chunks → gs ".ipdb" <:+ name →
      createFile dec utf8 ips open_ name = create dec utf8 ips chunks.flatten) ∧
    (∀ chunks, open_ name = some chunks → (0x2E : UInt8) ∈ name → ¬ gs ".ipdb" <:+ name →
      createFile dec utf8 ips open_ name = .err .unsupportedFormat) := by
  have hgs : gs ".ipdb" = 0x2E :: gs "ipdb" := by decide +kernel
  have hdot : (0x2E : UInt8) ∉ gs "ipdb" := by decide +kernel
  have hsub : ∀ p t : Str, (0x2E : UInt8) ∉ t → substring (p ++ 0x2E :: t) (lastIndexOf 0x2E (p ++ 0x2E :: t)) = .ok (0x2E :: t) := by
    intro p t ht
    rw [lastIndexOf_split ht, substring, if_pos ⟨by omega, by rw [List.length_append]; omega⟩, Int.toNat_natCast, List.drop_left]
  refine ⟨fun h => ?_, fun h ho => ?_, fun chunks ho he => ?_, fun chunks ho h he => ?_⟩
  · unfold createFile
    rw [lastIndexOf_none h, substring, if_neg (by omega)]; rfl
  · obtain ⟨p, t, rfl, ht⟩ := last_dot h
    unfold createFile
    rw [hsub p t ht, Res.ok_bind, ho]
  · obtain ⟨p, rfl⟩ := he
    unfold createFile
    rw [hgs] at ho ⊢
    rw [hsub p _ hdot, Res.ok_bind, ho]
    simp only []
    rw [readAll_eq, List.nil_append, ← hgs]
    unfold createFormat getQueryFormat formats registerQueryFormat
    rw [mapSet, mapGet, if_pos rfl]
    rfl
  · obtain ⟨p, t, rfl, ht⟩ := last_dot h
    unfold createFile
    rw [hsub p t ht, Res.ok_bind, ho]
    simp only []
    unfold createFormat getQueryFormat formats registerQueryFormat
    rw [mapSet, mapGet, if_neg (fun e => he ⟨p, by rw [e]⟩)]
    rfl

end Uip.Java

namespace Uip.Rust
open Uip Uip.Spec Uip.Ipdb

/-- **C93 (Rust).** The name plays no role: the bytes of the file are opened as ipdb. -/
theorem C93_rust (dec : Bytes → Option MetaData) (fs : Str → Option Bytes) (name : Str) :
    (fs name = none → fromFile dec fs name = .err (.other "read file")) ∧
    (∀ b, fs name = some b → fromFile dec fs name = Reader dec b) := by
  refine ⟨fun h => ?_, fun b h => ?_⟩ <;> unfold fromFile <;> rw [h]
  rfl

end Uip.Rust

namespace Uip.Program
open Uip Uip.Spec Uip.Ipdb

/-- **C93 (one file, three readers).** A packed table below 2 GiB, stored under a name ending in `.ipdb`, is opened by name
by the Go, the Java and the Rust reader, and what each of them answers is what it answers for the packed bytes.  Under any
other name with a dot Go and Java refuse it, while Rust opens it all the same. -/
theorem C93_three_readers (w : World) (fuel : Nat) (fs : Fs) (open_ : Str → Option (List Bytes)) (name : Str) {ipd : IpData}
    {decJ decR : Bytes → Option MetaData} {utf8 : Bytes → Str} (ips : List Bytes) (b : Bytes) (chunks : List Bytes)
    (h : RowsOK ipd) (hval : ValuesOK ipd) (hd : DisjointRows (rowsOf ipd)) (h2 : 2 ≤ ipd.fields.length)
    (hj : MetaRoundTrip w.encMeta w.decMeta (buildMeta w.now ipd.version ipd.fields))
    (hJ : MetaRoundTripInt w.encMeta decJ (buildMeta w.now ipd.version ipd.fields))
    (hR : MetaRoundTripInt w.encMeta decR (buildMeta w.now ipd.version ipd.fields))
    (hb : pack w.encMeta w.now ipd = .ok b) (hl : b.length < 2 ^ 31) (hf : fs name = some b) (ho : open_ name = some chunks)
    (hc : chunks.flatten = b) :
    (gs ".ipdb" <:+ name → ∃ g j r, NewDb w (serverFormats w fuel) fs name = .ok g ∧
      Java.createFile decJ utf8 ips open_ name = .ok j ∧ Rust.fromFile decR fs name = .ok r ∧
      NewDbFromBytes w (serverFormats w fuel) (gs ".ipdb") b = .ok g ∧ Java.create decJ utf8 ips b = .ok j ∧ Rust.Reader decR b = .ok r) ∧
    (¬ gs ".ipdb" <:+ name → ¬ gs ".awdb" <:+ name → (0x2E : UInt8) ∈ name →
      NewDb w (serverFormats w fuel) fs name = .err .unsupportedFormat ∧
      Java.createFile decJ utf8 ips open_ name = .err .unsupportedFormat ∧ ∃ r, Rust.fromFile decR fs name = .ok r) := by
  obtain ⟨_, _, _, r, _, _, hr⟩ := rust_create h hR hb hl
  constructor
  · intro he
    obtain ⟨b', e1, k⟩ := opened_packed (knows_server w fuel) h hval hd h2 hj
    rw [hb] at e1
    cases e1
    obtain ⟨g, hg, _⟩ := k (by omega)
    obtain ⟨_, _, _, _, _, _, _, j, hj', _⟩ := java_create (utf8 := utf8) h hJ hb hl ips
    refine ⟨g, j, r, ?_, ?_, ?_, hg, hj', hr⟩
    · unfold NewDb; rw [hf]; simp only []; rw [(ends_ipdb name).mpr he]; exact hg
    · rw [(Java.C93_java decJ utf8 ips open_ name).2.2.1 chunks ho he, hc]; exact hj'
    · rw [(Rust.C93_rust decR fs name).2 b hf]; exact hr
  · intro h1 h2 h3
    refine ⟨(C93_go w fuel fs name).2.2.2 b hf h1 h2, (Java.C93_java decJ utf8 ips open_ name).2.2.2 chunks ho h3 h1, r, ?_⟩
    rw [(Rust.C93_rust decR fs name).2 b hf]; exact hr

/-- Names: `data.v2/city.ipdb` is opened, `data.v2/city` and `city.ipdb.gz` are not. -/
example : gs ".ipdb" <:+ gs "data.v2/city.ipdb" ∧ ¬ gs ".ipdb" <:+ gs "data.v2/city" ∧ ¬ gs ".ipdb" <:+ gs "city.ipdb.gz" ∧
    ¬ gs ".awdb" <:+ gs "city.ipdb.gz" ∧ (0x2E : UInt8) ∈ gs "city.ipdb.gz" := by decide +kernel

/-- A packed table meets the hypotheses. -/
example (open_ : Str → Option (List Bytes)) :
    RowsOK demo ∧ ValuesOK demo ∧ DisjointRows (rowsOf demo) ∧ 2 ≤ demo.fields.length ∧
    ∃ b, pack encMeta 0 demo = .ok b ∧ b.length < 2 ^ 31 := by
  obtain ⟨b, hp, hl⟩ := demo_packed
  exact ⟨by decide +kernel, by decide +kernel, by decide +kernel, by decide +kernel, b, hp, by omega⟩

/-! ## C94: the programs -/

theorem dtoi_other {c : UInt8} {s : Str} (h : ¬ (0x30 ≤ c ∧ c ≤ 0x39)) : dtoi (c :: s) = none := by
  unfold dtoi
  rw [dtoiLoop, if_neg h]; rfl

/-- A text that begins with `v` is no address. -/
theorem parse_v (s : Str) : ParseIP (0x76 :: s) = none := by
  have h4 : parseIPv4 (0x76 :: s) = none := by
    unfold parseIPv4
    rw [parseIPv4Loop]
    simp only [octetStart]
    rw [if_pos trivial, if_neg (by simp)]
    simp only []
    rw [dtoi_other (by decide)]
  have h6 : parseIPv6 (0x76 :: s) = none := by
    have hx : xtoi (0x76 :: s) = none := by
      unfold xtoi
      rw [xtoiLoop, show hexVal 0x76 = none by decide]; rfl
    have hl : leadEllipsis (0x76 :: s) = (none, 0x76 :: s) := by
      unfold leadEllipsis
      rfl
    unfold parseIPv6
    rw [hl, if_neg (by simp)]
    simp only []
    rw [parseIPv6Loop, hx]
  unfold ParseIP
  rw [h4, h6]
  split <;> rfl

/-- **C94 (simple).** The program shows, for a file that opens: the version if the second argument begins with `v`, else the
record of the address it denotes, or the error.  No text that denotes an address begins with `v`, so every address is
looked up. -/
theorem C94_simple (w : World) (fuel : Nat) (fs : Fs) (file text : Str) (rest : List Str) (q : OpenDb)
    (ho : NewDb w (serverFormats w fuel) fs file = .ok q) :
    (∀ ip info mask, ParseIP text = some ip → q.query ip = .ok (info, mask) →
      simpleMain w fuel fs (file :: text :: rest) = .ok (.info info)) ∧
    (∀ ip e, ParseIP text = some ip → q.query ip = .err e → simpleMain w fuel fs (file :: text :: rest) = .ok (.failed e)) ∧
    (∀ s, text = 0x76 :: s → simpleMain w fuel fs (file :: text :: rest) = .ok (.version (q.versionInfo w))) ∧
    (ParseIP text = none → text.head? ≠ some 0x76 → ∃ e, simpleMain w fuel fs (file :: text :: rest) = .ok (.failed e)) := by
  have hv : gs "v" = [0x76] := by decide +kernel
  have hnot : ∀ ip, ParseIP text = some ip → (gs "v").isPrefixOf text = false := by
    intro ip hp
    rw [hv]
    cases text with
    | nil => rfl
    | cons c s =>
      by_cases hc : c = 0x76
      · subst hc; rw [parse_v] at hp; cases hp
      · simp [List.isPrefixOf, Ne.symm hc]
  unfold simpleMain simple
  simp only [ho]
  refine ⟨fun ip info mask h1 h2 => ?_, fun ip e h1 h2 => ?_, fun s h1 => ?_, fun h1 h2 => ?_⟩
  · rw [hnot ip h1]
    simp only [Bool.false_eq_true, if_false]
    unfold Db.QueryStr Db.Query
    simp only [h1, h2]
  · rw [hnot ip h1]
    simp only [Bool.false_eq_true, if_false]
    unfold Db.QueryStr Db.Query
    simp only [h1, h2]
  · subst h1
    rw [hv]
    simp [List.isPrefixOf]
  · have hn : (gs "v").isPrefixOf text = false := by
      rw [hv]
      cases text with
      | nil => rfl
      | cons c s => simp only [List.head?_cons, ne_eq, Option.some.injEq] at h2; simp [List.isPrefixOf, Ne.symm h2]
    rw [hn]
    simp only [Bool.false_eq_true, if_false]
    unfold Db.QueryStr
    simp only [h1]
    exact ⟨_, rfl⟩

/-- **C94 (starting).** Both Go programs end with a panic if an argument is missing or the file cannot be read, and with a
logged error if its name or content is refused; otherwise the server answers from the database that `NewDb` opened. -/
theorem C94_start (w : World) (fuel : Nat) (fs : Fs) (file : Str) (arg : Str) (rest : List Str) :
    (simpleMain w fuel fs [] = .panic ∧ simpleMain w fuel fs [file] = .panic ∧ serverMain w fuel fs [] = .panic ∧
      serverMain w fuel fs [file] = .panic) ∧
    (fs file = none → simpleMain w fuel fs (file :: arg :: rest) = .panic ∧ serverMain w fuel fs (file :: arg :: rest) = .panic) ∧
    (∀ e, NewDb w (serverFormats w fuel) fs file = .err e → simpleMain w fuel fs (file :: arg :: rest) = .ok (.failed e) ∧
      serverMain w fuel fs (file :: arg :: rest) = .ok (.failed e)) ∧
    (∀ q, NewDb w (serverFormats w fuel) fs file = .ok q → serverMain w fuel fs (file :: arg :: rest) = .ok (.serving q)) := by
  refine ⟨⟨rfl, rfl, rfl, rfl⟩, fun h => ?_, fun e h => ?_, fun q h => ?_⟩
  · have := (C93_go w fuel fs file).1 h
    unfold simpleMain simple serverMain
    simp only [this]
    exact ⟨trivial, trivial⟩
  · unfold simpleMain simple serverMain
    simp only [h]
    exact ⟨trivial, trivial⟩
  · unfold serverMain
    simp only [h]

/-- **C94 (the server and the program agree).** `/version` is answered with the version.  For every other path `/text` the
server sends the record exactly when the program shows it for `text`, and 404 exactly when the program shows an error or, for
a text beginning with `v`, the version. -/
theorem C94_server_agrees (w : World) (fuel : Nat) (fs : Fs) (file : Str) (rest : List Str) (enc : IpInfo → Bytes)
    (encV : VersionInfo → Bytes) (q : OpenDb) (ho : NewDb w (serverFormats w fuel) fs file = .ok q) (hq : ∀ a, q.query a ≠ .panic) :
    serve w enc encV q (gs "/version") = .ok ⟨200, encV (q.versionInfo w)⟩ ∧
    ∀ text, text ≠ gs "version" → ∃ shown, simpleMain w fuel fs (file :: text :: rest) = .ok shown ∧
      serve w enc encV q (0x2F :: text) = .ok (match shown with
        | .info i => ⟨200, enc i⟩
        | _ => ⟨404, []⟩) := by
  refine ⟨if_pos rfl, fun text ht => ?_⟩
  have hne : (0x2F :: text) ≠ gs "/version" := by
    intro e
    apply ht
    rw [show gs "/version" = 0x2F :: gs "version" by decide +kernel] at e
    exact (List.cons.inj e).2
  unfold serve
  rw [if_neg hne]
  obtain ⟨s1, s2, s3, s4⟩ := C94_simple w fuel fs file text rest q ho
  obtain ⟨t1, t2, t3⟩ := C67_serve enc q text
  cases hp : ParseIP text with
  | some ip =>
    cases ha : q.query ip with
    | ok r => exact ⟨_, s1 ip r.1 r.2 hp ha, t1 ip r.1 r.2 hp ha⟩
    | err e => exact ⟨_, s2 ip e hp ha, t3 ip e hp ha⟩
    | panic => exact absurd ha (hq ip)
  | none =>
    by_cases hv : text.head? = some 0x76
    · cases text with
      | nil => cases hv
      | cons c s =>
        injection hv with hv
        subst hv
        exact ⟨_, s3 s rfl, t2 hp⟩
    · obtain ⟨e, he⟩ := s4 hp hv
      exact ⟨_, he, t2 hp⟩

/-- **C94 (packed tables).** Over a packed table stored under a name ending in `.ipdb`: the program shows the record of every
address with a row, given in its printed form, and reports an error for every other text that does not begin with `v`. -/
theorem C94_packed (w : World) (fuel : Nat) (fs : Fs) (file : Str) (rest : List Str) {ipd : IpData} (h : RowsOK ipd)
    (hval : ValuesOK ipd) (hd : DisjointRows (rowsOf ipd)) (h2 : 2 ≤ ipd.fields.length)
    (hj : MetaRoundTrip w.encMeta w.decMeta (buildMeta w.now ipd.version ipd.fields)) (b : Bytes)
    (hb : pack w.encMeta w.now ipd = .ok b) (hl : b.length < 2 ^ 32) (hf : fs file = some b) (he : gs ".ipdb" <:+ file) :
    (∀ ip row, ValidIP ip → Supports ipd.version ip → row ∈ ipd.ips → Covers row.cidr (addrNum ip) →
      simpleMain w fuel fs (file :: IPString ip :: rest) = .ok (.info (infoOf ipd.fields row.values))) ∧
    (∀ text, text.head? ≠ some 0x76 →
      (∀ ip, ParseIP text = some ip → ¬ ∃ row ∈ ipd.ips, Supports ipd.version ip ∧ Covers row.cidr (addrNum ip)) →
      ∃ e, simpleMain w fuel fs (file :: text :: rest) = .ok (.failed e)) := by
  obtain ⟨b', e1, k⟩ := opened_packed (knows_server w fuel) h hval hd h2 hj
  rw [hb] at e1
  cases e1
  obtain ⟨q, o, np, a1, a2⟩ := k hl
  have ho : NewDb w (serverFormats w fuel) fs file = .ok q := by
    unfold NewDb; rw [hf]; simp only []; rw [(ends_ipdb file).mpr he]; exact o
  refine ⟨fun ip row g1 g2 g3 g4 => ?_, fun text hv hn => ?_⟩
  · obtain ⟨r, p1, p2, p3⟩ := C62_address_num ip g1
    have hvr : ValidIP r := .inr p2
    have hs : Supports ipd.version r := by
      unfold Supports at g2 ⊢
      have : (To4 r).isSome = (To4 ip).isSome := by
        rw [Bool.eq_iff_iff, To4_isSome_iff hvr, To4_isSome_iff g1, p3]
      rw [this]; exact g2
    exact (C94_simple w fuel fs file _ rest q ho).1 r _ _ p1 (a1 r row hvr hs g3 (by rw [p3]; exact g4))
  · cases hp : ParseIP text with
    | none => exact (C94_simple w fuel fs file text rest q ho).2.2.2 hp hv
    | some ip =>
      refine ⟨_, (C94_simple w fuel fs file text rest q ho).2.1 ip _ hp (a2 ip ?_)⟩
      have := hn ip hp
      by_cases hs : Supports ipd.version ip
      · right; right
        exact fun row hr hc => this ⟨row, hr, hs, hc⟩
      · exact .inr (.inl hs)

end Uip.Program

namespace Uip.Rust
open Uip Uip.Spec Uip.Ipdb

/-- **C94 (the Rust program).** With fewer than two arguments it prints how to call it.  Over a packed table below 2 GiB, under
any name, it prints for a text that denotes an address the attributes of the address's row, and an error for a text that
denotes none or an address the table's family or length excludes. -/
theorem C94_rust {enc : MetaData → Bytes} {dec : Bytes → Option MetaData} {utf8 : Bytes → Str} {now : Int} {ipd : IpData} {bytes : Bytes}
    (parse : Str → Option Bytes) (fs : Str → Option Bytes) (prog name text : Str) (rest : List Str)
    (h : RowsOK ipd) (hval : ValuesOK ipd) (htx : TextValues ipd)
    (hj : MetaRoundTripInt enc dec (buildMeta now ipd.version ipd.fields)) (hu : KeepsTexts utf8)
    (hp : pack enc now ipd = .ok bytes) (hl : bytes.length < 2 ^ 31) (hf : fs name = some bytes) :
    (main dec parse utf8 fs [prog] = .ok .usage ∧ main dec parse utf8 fs [prog, name] = .ok .usage) ∧
    (∀ a m, parse text = some a → TakesLen ipd.version a → rowOf (keptRows (rowsOf ipd)) (addrNum a) = some m →
      main dec parse utf8 fs (prog :: name :: text :: rest) = .ok (.info text (rustInfo ipd.fields m.2))) ∧
    (parse text = none → ∃ e, main dec parse utf8 fs (prog :: name :: text :: rest) = .ok (.queryError text e)) ∧
    (∀ a, parse text = some a → ¬ TakesLen ipd.version a →
      ∃ e, main dec parse utf8 fs (prog :: name :: text :: rest) = .ok (.queryError text e)) := by
  obtain ⟨q, hq, hans⟩ := C69_rust_answer h hval htx hj hu hp hl
  obtain ⟨q', hq', hrej⟩ := C69_rust_rejects (utf8 := utf8) h hj hp hl
  rw [hq] at hq'
  cases hq'
  have hopen : fromFile dec fs name = .ok q := by rw [(C93_rust dec fs name).2 bytes hf]; exact hq
  refine ⟨⟨rfl, rfl⟩, fun a m h1 h2 h3 => ?_, fun h1 => ?_, fun a h1 h2 => ?_⟩
  · unfold main
    simp only [hopen, queryStr, h1, hans a m h2 h3]
  · unfold main
    simp only [hopen, queryStr, h1]
    exact ⟨_, rfl⟩
  · unfold main
    simp only [hopen, queryStr, h1, hrej a h2]
    exact ⟨_, rfl⟩

end Uip.Rust
