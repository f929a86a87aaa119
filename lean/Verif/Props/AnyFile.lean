import Verif.Proof.Ipdb.AnyAnswer
import Verif.Props.Readers
import Verif.Props.IpdbExact
/-!
# C114: the three readers on well-formed ipdb files of any origin

Vocabulary: `Verif/Spec/{IpdbFile,AnyFile,Info,Readers}.lean`.
-/
namespace Uip.Ipdb
open Uip Uip.Spec

/-- **C114.** Every well-formed file, whoever wrote it, is opened by the Go, the Java and the Rust reader (if their JSON
libraries read the same metadata from it), and every address that has a complete record gets from Go and Java what the
columns of the language CN say, wherever they are, and from Rust what the first columns say: so from all three the same
if CN comes first. The exceptions are that the Java line is the last of the asn and line columns, and that Rust drops a
continent that is not one of the codes. -/
theorem C114_readers {decG decJ decR : Bytes → Option MetaData} {utf8J utf8R : Bytes → Str} {file : Bytes} {m : MetaData} {off : Nat}
    (hG : decG (jsonBlock file) = some m) (hJ : decJ (jsonBlock file) = some m) (hR : decR (jsonBlock file) = some m)
    (huJ : KeepsTexts utf8J) (huR : KeepsTexts utf8R) (hw : WellFormed m file) (hcn : Chinese m off)
    (hc : (m.fields.filter fun f => decide (f = gs "continent_code")).length ≤ 1) (ips : List Bytes) :
    ∃ g j r, newQuerier decG file = .ok g ∧ Java.create decJ utf8J ips file = .ok j ∧ Rust.Reader decR file = .ok r ∧
      ∀ a rec depth, Taken m a → HasRecord m file a rec depth → Complete m rec →
        g.Query a = .ok (fileInfo m.fields (columns m off rec), if addrNum a / 2 ^ 32 = 0xffff then depth - 96 else depth) ∧
        (∃ ja, Java.query utf8J j a = .ok ja ∧
          javaTexts ja = { fileInfo m.fields (columns m off rec) with line := attr [gs "asn", gs "line"] m.fields (columns m off rec) }) ∧
        Rust.query utf8R r a = .ok { fileInfo m.fields (columns m 0 rec) with
          continent := spellCode (attr [gs "continent_code"] m.fields (columns m 0 rec)) } := by
  obtain ⟨hfirst, hin⟩ := hcn
  obtain ⟨N, hp⟩ := parts hw
  obtain ⟨g, hg, hgm, hgd, hgf, hgn, hgc⟩ := go_open_any hp hw.fields hfirst hG
  obtain ⟨j, hj, hjm, hjd, hjf, hjc, hjr⟩ := java_open_any hp hJ
  obtain ⟨r, hr, hrm, hrd, hrf, hrn, hrv, _⟩ := rust_open_any hp hR
  have hcre : ∃ q, Java.create decJ utf8J ips file = .ok q ∧ ∀ a, Java.query utf8J q a = Java.query utf8J j a := by
    unfold Java.create
    rw [hj, Res.ok_bind]
    split
    · exact ⟨_, rfl, fun a => java_cached utf8J j hjc ips a⟩
    · exact ⟨_, rfl, fun a => rfl⟩
  obtain ⟨q, hq, hqe⟩ := hcre
  refine ⟨⟨g, []⟩, q, r, ?_, hq, hr, ?_⟩
  · unfold newQuerier; rw [hg]; rfl
  intro a rec depth ha hrec hcomp
  obtain ⟨⟨s, hs⟩, hcols⟩ := hcomp
  have hk : 0 < m.languages.length := by
    apply List.length_pos_iff.mpr
    intro hc
    rw [hc] at hfirst
    cases hfirst
  have hf : 0 < m.fields.length := List.length_pos_iff.mpr hw.fields
  have hge : m.fields.length ≤ (splitByte 0x09 rec).length := by
    rw [hcols]; exact Nat.le_mul_of_pos_right _ hk
  have hclen : ∀ k, k + m.fields.length ≤ m.fields.length * m.languages.length → (columns m k rec).length = m.fields.length := by
    intro k hk'
    unfold columns; rw [List.length_take, List.length_drop]; omega
  have hcl := hclen off hin
  have hcl0 := hclen 0 (by rw [Nat.zero_add]; exact Nat.le_mul_of_pos_right _ hk)
  have hlen := hp.length
  have hsm := hp.sm
  refine ⟨?_, ?_, ?_⟩
  · obtain ⟨node, hfind⟩ := go_find0 hg hgm hgd hgn hgf hp ha hrec
    rw [Query_find0 hfind, hgm, hfirst]
    simp only []
    have hdec : g.decodeInfo rec off = .ok (spelled m.fields (columns m off rec)) := by
      unfold Reader.decodeInfo spelled
      simp only []
      rw [hgm, if_neg (by omega), if_neg (by omega), hgc]
      show (match Offset FieldContinentCode m.fields with
        | none => Res.ok (columns m off rec)
        | some i => match (columns m off rec)[i]? with
          | none => .panic
          | some v => .ok ((columns m off rec).set i (continentName v))) = _
      cases ho : Offset FieldContinentCode m.fields with
      | none => rfl
      | some i =>
        have hi := (List.getElem?_eq_some_iff.mp (Offset_some ho)).1
        simp only []
        rw [List.getElem?_eq_getElem (by omega)]
        simp only []
        refine congrArg Res.ok ?_
        apply List.ext_getElem? 
        intro k
        rw [List.getElem?_modify, List.getElem?_set]
        by_cases hik : i = k
        · subst hik
          rw [if_pos rfl, if_pos (by omega), List.getElem?_eq_getElem (by omega)]
          simp
        · rw [if_neg hik]
          cases (columns m off rec)[k]? <;> simp [hik]
    rw [hdec, Res.ok_bind, go_info hcl hc]
    have hv : ValidIP a := by
      rcases ha with ⟨h, _⟩ | ⟨h, _⟩
      · exact .inl h
      · exact .inr h
    have := To4_isSome_iff hv
    by_cases hx : (To4 a).isSome = true
    · rw [if_pos hx, if_pos (this.mp hx)]
    · rw [if_neg hx, if_neg (fun hy => hx (this.mpr hy))]
  · rw [hqe a]
    obtain ⟨a16, o, rest, h1, h2, h3, h4, h5, h6⟩ := record_at hp hrec
    have hfind := java_find0_any hjm hjd hjr ha h1 (walk_readDepth h2 h4) (by omega)
    obtain ⟨s1, s2, s3⟩ := at_size h5 h6
    have hres : j.resolveNode utf8J ((N + o : Nat) : Int) (gs "CN") = .ok (some ((columns m off rec).map some)) := by
      unfold Java.JReader.resolveNode
      rw [hjm, hfirst]
      simp only []
      have e : Java.i32 (Java.i32 (((N + o : Nat) : Int) - j.nodeCount) + Java.i32 (j.nodeCount * 8)) = ((8 * N + o : Nat) : Int) := by
        rw [hjr.nodes, Java.i32_id (x := ((N + o : Nat) : Int) - N) (by omega) (by omega),
          Java.i32_id (x := (N : Int) * 8) (by omega) (by omega), Java.i32_id (by omega) (by omega)]
        omega
      rw [e, hjf, hjd, if_neg (by omega), if_neg (by omega), Int.toNat_natCast, s2, if_neg (by omega), s3, hs, huJ s, ← hs]
      have hsp : Java.split rec (m.fields.length * m.languages.length) = splitByte 0x09 rec := by
        unfold Java.split
        rw [if_neg (by have := Nat.mul_pos hf hk; omega)]
        exact splitPos_eq _ _ (by omega)
      have hcopy : Java.copyStrings (splitByte 0x09 rec) off m.fields.length = .ok ((columns m off rec).map some) := by
        unfold Java.copyStrings
        rw [if_neg (by omega)]
        show Res.ok ((columns m off rec).map some ++ List.replicate (m.fields.length - (columns m off rec).length) none) = _
        rw [hcl, Nat.sub_self]
        simp
      rw [hsp, hcopy]
      rfl
    obtain ⟨ja, hja, hjt⟩ := java_info hcl
    refine ⟨ja, ?_, hjt⟩
    rw [java_query_ok utf8J hjc hfind hres, hjm, hja]
  · obtain ⟨a16, o, rest, h1, h2, h3, h4, h5, h6⟩ := record_at hp hrec
    have hfind := rust_find0_any hrm hrd hrn hp.small hrv ha h1 (walk_readDepth h2 h4) (by omega)
    obtain ⟨s1, s2, s3⟩ := at_size h5 h6
    have hres : r.resolveNode utf8R ((N + o : Nat) : Int) (gs "CN") = .ok (splitByte 0x09 rec) := by
      unfold Rust.RReader.resolveNode
      rw [hrm, hfirst]
      simp only []
      have e : Rust.i32 (Rust.i32 (((N + o : Nat) : Int) - r.nodeCount) + Rust.i32 (r.nodeCount * 8)) = ((8 * N + o : Nat) : Int) := by
        rw [show @Rust.i32 = @Java.i32 from rfl, hrn, Java.i32_id (x := ((N + o : Nat) : Int) - N) (by omega) (by omega),
          Java.i32_id (x := (N : Int) * 8) (by omega) (by omega), Java.i32_id (by omega) (by omega)]
        omega
      rw [e, hrf, hrd, if_neg (by omega), if_neg (by omega), Int.toNat_natCast, s2, if_neg (by omega), s3, hs, huR s, ← hs]
    unfold Rust.query
    rw [hfind, Res.ok_bind, hres, Res.ok_bind, hrm, rust_take]
    exact rust_info hcl0 hc

/-! ## A file of another origin: two languages, three fields -/

/-- Metadata in two languages. -/
def twoLang : MetaData :=
  { build := 0, ipVersion := 2, languages := [(gs "CN", 0), (gs "EN", 3)], nodeCount := 1, totalSize := 39,
    fields := [gs "country_name", gs "asn", gs "continent_code"], version := [], extra := [] }

/-- The body: every address from 8000:: on has a record, the others have none. -/
def twoLangBody : Bytes := [0, 0, 0, 1, 0, 0, 0, 2, 0] ++ [0, 28] ++ gs "中国\t4134\tAS\tChina\t4134\tAS"

def twoLangFile : Bytes := Exact.fileOf twoLang twoLangBody

theorem twoLang_body : fileBody twoLangFile = twoLangBody := by decide +kernel

theorem twoLang_wellFormed : WellFormed twoLang twoLangFile := by
  refine ⟨by decide +kernel, by decide +kernel, by decide, by decide, ?_, by decide⟩
  rw [twoLang_body]
  intro i b v hi hv
  have hi0 : i = 0 := by have : (i : Int) < 1 := hi; omega
  subst hi0
  have h1 : child twoLangBody 0 false = some 1 := by decide +kernel
  have h2 : child twoLangBody 0 true = some 2 := by decide +kernel
  cases b
  · rw [h1] at hv; cases hv; decide
  · rw [h2] at hv; cases hv; decide

/-- `C114_readers` on that file: all its hypotheses hold, of an address with a record too, and Go answers with the
Chinese columns and the prefix length 1. -/
example : ∃ g j r, newQuerier decMeta twoLangFile = .ok g ∧ Java.create decMeta id [[1, 1, 1, 1]] twoLangFile = .ok j ∧
    Rust.Reader decMeta twoLangFile = .ok r ∧
    g.Query (List.replicate 16 255) = .ok ({ country := gs "中国", asn := gs "4134", continent := gs "亚洲" }, 1) ∧
    (∃ ja, Java.query id j (List.replicate 16 255) = .ok ja ∧
      javaTexts ja = { country := gs "中国", asn := gs "4134", continent := gs "亚洲", line := gs "4134" }) ∧
    Rust.query id r (List.replicate 16 255) = .ok { country := gs "中国", asn := gs "4134", continent := gs "亚洲" } := by
  have hdec : decMeta (jsonBlock twoLangFile) = some twoLang := by decide +kernel
  obtain ⟨g, j, r, h1, h2, h3, h4⟩ := C114_readers (off := 0) (utf8J := id) (utf8R := id) hdec hdec hdec (fun _ => rfl) (fun _ => rfl)
    twoLang_wellFormed ⟨by decide +kernel, by decide⟩ (by decide +kernel) [[1, 1, 1, 1]]
  have h5 := h4 (List.replicate 16 255) (gs "中国\t4134\tAS\tChina\t4134\tAS") 1
    (.inr ⟨rfl, by show twoLang.ipVersion &&& 2 = 2; decide, fun h => absurd h (by decide +kernel)⟩)
    ⟨List.replicate 16 255, 2, 0, 28, [], rfl, by rw [twoLang_body]; decide +kernel, by decide,
      by rw [twoLang_body]; decide +kernel, by decide +kernel⟩
    ⟨⟨_, rfl⟩, by decide +kernel⟩
  have e : columns twoLang 0 (gs "中国\t4134\tAS\tChina\t4134\tAS") = [gs "中国", gs "4134", gs "AS"] := by decide +kernel
  rw [e] at h5
  obtain ⟨h6, ⟨ja, h7, h8⟩, h9⟩ := h5
  refine ⟨g, j, r, h1, h2, h3, ?_, ⟨ja, h7, ?_⟩, ?_⟩
  · rw [h6]; decide +kernel
  · rw [h8]; decide +kernel
  · rw [h9]; decide +kernel

/-- The same with the Chinese columns behind the English ones. -/
def lastLang : MetaData := { twoLang with languages := [(gs "CN", 3), (gs "EN", 0)] }
def lastLangBody : Bytes := [0, 0, 0, 1, 0, 0, 0, 2, 0] ++ [0, 28] ++ gs "China\t4134\tAS\t中国\t4134\tAS"
def lastLangFile : Bytes := Exact.fileOf lastLang lastLangBody

theorem lastLang_body : fileBody lastLangFile = lastLangBody := by decide +kernel

theorem lastLang_wellFormed : WellFormed lastLang lastLangFile := by
  refine ⟨by decide +kernel, by decide +kernel, by decide, by decide, ?_, by decide⟩
  rw [lastLang_body]
  intro i b v hi hv
  have hi0 : i = 0 := by have : (i : Int) < 1 := hi; omega
  subst hi0
  have h1 : child lastLangBody 0 false = some 1 := by decide +kernel
  have h2 : child lastLangBody 0 true = some 2 := by decide +kernel
  cases b
  · rw [h1] at hv; cases hv; decide
  · rw [h2] at hv; cases hv; decide

/-- **C114, the order of the languages.** There the Go and the Java reader answer in Chinese, and the Rust reader, asked
for Chinese too, in English. -/
theorem C114_language : ∃ g j r, newQuerier decMeta lastLangFile = .ok g ∧ Java.create decMeta id [] lastLangFile = .ok j ∧
    Rust.Reader decMeta lastLangFile = .ok r ∧
    g.Query (List.replicate 16 255) = .ok ({ country := gs "中国", asn := gs "4134", continent := gs "亚洲" }, 1) ∧
    (∃ ja, Java.query id j (List.replicate 16 255) = .ok ja ∧
      javaTexts ja = { country := gs "中国", asn := gs "4134", continent := gs "亚洲", line := gs "4134" }) ∧
    Rust.query id r (List.replicate 16 255) = .ok { country := gs "China", asn := gs "4134", continent := gs "亚洲" } := by
  have hdec : decMeta (jsonBlock lastLangFile) = some lastLang := by decide +kernel
  obtain ⟨g, j, r, h1, h2, h3, h4⟩ := C114_readers (off := 3) (utf8J := id) (utf8R := id) hdec hdec hdec (fun _ => rfl) (fun _ => rfl)
    lastLang_wellFormed ⟨by decide +kernel, by decide⟩ (by decide +kernel) []
  have h5 := h4 (List.replicate 16 255) (gs "China\t4134\tAS\t中国\t4134\tAS") 1
    (.inr ⟨rfl, by show lastLang.ipVersion &&& 2 = 2; decide, fun h => absurd h (by decide +kernel)⟩)
    ⟨List.replicate 16 255, 2, 0, 28, [], rfl, by rw [lastLang_body]; decide +kernel, by decide,
      by rw [lastLang_body]; decide +kernel, by decide +kernel⟩
    ⟨⟨_, rfl⟩, by decide +kernel⟩
  have e : columns lastLang 3 (gs "China\t4134\tAS\t中国\t4134\tAS") = [gs "中国", gs "4134", gs "AS"] := by decide +kernel
  have e0 : columns lastLang 0 (gs "China\t4134\tAS\t中国\t4134\tAS") = [gs "China", gs "4134", gs "AS"] := by decide +kernel
  rw [e, e0] at h5
  obtain ⟨h6, ⟨ja, h7, h8⟩, h9⟩ := h5
  refine ⟨g, j, r, h1, h2, h3, ?_, ⟨ja, h7, ?_⟩, ?_⟩
  · rw [h6]; decide +kernel
  · rw [h8]; decide +kernel
  · rw [h9]; decide +kernel

/-! ## Where they differ -/

/-- An IPv6 file with one node, the columns country and city, and this body. -/
def oddFile (body : Bytes) : Bytes :=
  Exact.fileOf { Exact.smallMeta with totalSize := body.length, fields := [gs "country_name", gs "city_name"] } body

/-- The three answers for an address. -/
def answers (file : Bytes) (a : IP) : Option (Res (IpInfo × Nat) × Res Java.JInfo × Res IpInfo) :=
  match newQuerier decMeta file, Java.create decMeta id [] file, Rust.Reader decMeta file with
  | .ok g, .ok j, .ok r => some (g.Query a, Java.query id j a, Rust.query id r a)
  | _, _, _ => none

/-- **C114.** The conditions are needed. (1) On a record with too few columns the Go reader fails, the Java reader
answers, and the Rust reader panics. (2) On a record with more columns the last Java value runs on to the end of the
record. (3) For an address whose number is the node count the file has no record, and Go reports one; the Java and the
Rust reader answer with whatever is at the start of the records. (4) For an address whose path through the table does not
end, the Java reader answers with bytes of the table. -/
theorem C114_differ :
    answers (oddFile ([0, 0, 0, 1, 0, 0, 0, 2] ++ [0, 0, 2, 67, 78])) (List.replicate 16 255) =
      some (.err .databaseError, .ok { country := some (gs "CN") }, .panic) ∧
    answers (oddFile ([0, 0, 0, 1, 0, 0, 0, 2] ++ [0, 0, 5, 65, 9, 66, 9, 67])) (List.replicate 16 255) =
      some (.ok ({ country := gs "A", city := gs "B" }, 1), .ok { country := some (gs "A"), city := some (gs "B\tC") },
        .ok { country := gs "A", city := gs "B" }) ∧
    answers (oddFile ([0, 0, 0, 1, 0, 0, 0, 2] ++ [0, 3, 65, 9, 66])) (List.replicate 16 0) =
      some (.err .databaseError, .ok { country := some (gs "A"), city := some (gs "B") },
        .ok { country := gs "A", city := gs "B" }) ∧
    answers (oddFile ([0, 0, 0, 0, 0, 0, 0, 0] ++ [3, 65, 9, 66])) (List.replicate 16 0) =
      some (.err .databaseError, .ok { country := some (gs "A"), city := some (gs "B") }, .err .dataNotExists) := by
  refine ⟨?_, ?_, ?_, ?_⟩ <;> decide +kernel

end Uip.Ipdb
