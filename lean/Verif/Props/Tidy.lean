import Verif.Proof.Ipdb.Tidy
import Verif.Props.AnyFile
/-!
# C115: which ipdb files can crash the Java and the Rust reader

Vocabulary: `Verif/Spec/{IpdbFile,AnyFile,Tidy}.lean`.  A crash (`.panic`) is a panic in Rust and an exception that is
none of the library's in Java.
-/
namespace Uip.Ipdb
open Uip Uip.Spec

/-- **C115, Rust.** On a file below 2 GiB (damaged, cut or hostile as it may be) the Rust reader does not crash, neither
when it opens the file nor for any address, provided that: the four length bytes do not say -4 to -1, and if the sizes in
the file add up then its table fits and every number that is not a node leads to a readable record.  `dec` and `utf8` are
any JSON decoder (whose total size is an `i32`) and any reading of texts. -/
theorem C115_rust_safe {dec : Bytes → Option MetaData} {utf8 : Bytes → Str} {file : Bytes} (hsm : file.length < 2 ^ 31)
    (hL : file.length < 4 ∨ jsonLength file < 2 ^ 32 - 4)
    (hz : ∀ m, dec (jsonBlock file) = some m → -2 ^ 31 ≤ m.totalSize ∧ m.totalSize < 2 ^ 31)
    (ht : ∀ m, dec (jsonBlock file) = some m → AddsUp m file → Tidy utf8 m file) :
    Rust.Reader dec file ≠ .panic ∧ ∀ r, Rust.Reader dec file = .ok r → ∀ a, Rust.query utf8 r a ≠ .panic := by
  obtain ⟨h1, h2⟩ := rust_open_tidy hsm hL hz ht
  refine ⟨h1, fun r hr a => ?_⟩
  obtain ⟨m, N, htidy, hp, hm, hd, hfs, hn, hv⟩ := h2 r hr
  unfold Rust.query
  rcases rust_find0_cases hd hn hp.small hp.pos hv a with ⟨e, he⟩ | ⟨v, i, b, hi, hc, hge, hf⟩
  · rw [he]; simp
  · rw [hf, Res.ok_bind]
    rw [hd] at hc
    have hcount := hp.count
    have hrec := htidy.records i b v (by omega) hc (by omega)
    rw [hcount, show ((v : Int) + 7 * (N : Int)).toNat = v + 7 * N by omega] at hrec
    exact rust_resolve_tidy hp htidy hm hd hfs hn (htidy.numbers i b v (by omega) hc) hrec

/-- **C115, Java.** The same for the Java reader, with its cache of any addresses, provided that: the total size the
metadata gives (also when it is read from a block that the file cuts short, which Java fills with zeros) is not negative,
if the sizes in the file add up then its table fits and every number that is not a node leads to a readable record, and
the same holds for node 0, whose record Java reads for an address whose path does not end. -/
theorem C115_java_safe {dec : Bytes → Option MetaData} {utf8 : Bytes → Str} {file : Bytes} (hsm : file.length < 2 ^ 31)
    (hz : ∀ k m, dec (jsonBlock file ++ List.replicate k 0) = some m → 0 ≤ m.totalSize ∧ m.totalSize < 2 ^ 31)
    (ht : ∀ m, dec (jsonBlock file) = some m → AddsUp m file → Tidy utf8 m file ∧ Readable utf8 m file (7 * m.nodeCount).toNat)
    (ips : List Bytes) :
    Java.create dec utf8 ips file ≠ .panic ∧ ∀ j, Java.create dec utf8 ips file = .ok j → ∀ a, Java.query utf8 j a ≠ .panic := by
  obtain ⟨h1, h2⟩ := java_open_tidy (utf8 := utf8) hsm (fun m h1 h2 => (ht m h1 h2).1) hz
  have query : ∀ r, Java.Reader dec file = .ok r → ∀ a, Java.query utf8 r a ≠ .panic := by
    intro r hr a
    obtain ⟨m, N, htidy, hp, hm, hd, hfs, hc, hready⟩ := h2 r hr
    have hcount := hp.count
    have hdec : dec (jsonBlock file) = some m ∧ AddsUp m file := by
      have hadd : AddsUp m file := by
        have := hp.length
        have := hp.total
        unfold AddsUp
        omega
      refine ⟨?_, hadd⟩
      unfold Java.Reader at hr
      simp only [] at hr
      split at hr
      · cases hr
      · have hL := hp.length
        have hsm := hp.sm
        have e0 : (val (file.take 4) : Int) = (jsonLength file : Int) := rfl
        have e3 : Java.copyOfRange file 4 ((jsonLength file : Int) + 4) = .ok (jsonBlock file) := by
          unfold Java.copyOfRange
          rw [if_neg (by omega)]
          have : ((jsonLength file : Int) + 4 - 4).toNat = jsonLength file := by omega
          rw [this]
          have hl : (jsonBlock file).length = jsonLength file := by
            unfold jsonBlock; rw [List.length_take, List.length_drop]; omega
          show Res.ok (jsonBlock file ++ List.replicate (jsonLength file - (jsonBlock file).length) 0) = _
          rw [hl]
          simp
        rw [e0, Java.i32_id (x := (jsonLength file : Int)) (by omega) (by omega),
          Java.i32_id (x := (jsonLength file : Int) + 4) (by omega) (by omega), e3] at hr
        simp only [] at hr
        cases hx : dec (jsonBlock file) with
        | none => rw [hx] at hr; cases hr
        | some m' =>
          rw [hx] at hr
          simp only [] at hr
          split at hr
          · cases hr
          · obtain ⟨body, _, hr⟩ := Res.bind_eq_ok.mp hr
            have : m' = m := by
              split at hr
              · obtain ⟨_, _, hr⟩ := Res.bind_eq_ok.mp hr
                obtain ⟨_, _, hr⟩ := Res.bind_eq_ok.mp hr
                cases Res.ok.inj hr
                exact hm
              · cases Res.ok.inj hr
                exact hm
            rw [this]
    have hq : ∀ (v : Nat), r.find0 a = .ok (v : Int) → v < 2 ^ 31 → Readable utf8 m file (v + 7 * N) →
        Java.query utf8 r a ≠ .panic := by
      intro v hf hv hread
      have := java_resolve_tidy (utf8 := utf8) hp htidy hm hd hfs hready.nodes hv hread
      unfold Java.query Java.JReader.query
      rw [hf, Res.ok_bind, hc]
      simp only [Option.bind_none, if_true, Res.pure_eq] at this ⊢
      generalize (r.resolveNode utf8 (↑v) (gs "CN") >>= _ : Res (Int × Java.JInfo)) = x at this ⊢
      cases x with
      | ok y => simp
      | err e => simp
      | panic => exact absurd rfl this
    rcases java_find0_cases hready hp.pos a with ⟨e, he⟩ | h0 | ⟨v, i, b, hi, hch, hge, hf⟩
    · rw [java_query_err utf8 he]; simp
    · refine hq 0 h0 (by decide) ?_
      have := (ht m hdec.1 hdec.2).2
      rw [hcount] at this
      rw [show 0 + 7 * N = (7 * (N : Int)).toNat by omega]
      exact this
    · rw [hd] at hch
      have hrec := htidy.records i b v (by omega) hch (by omega)
      rw [hcount, show ((v : Int) + 7 * (N : Int)).toNat = v + 7 * N by omega] at hrec
      exact hq v hf (htidy.numbers i b v (by omega) hch) hrec
  unfold Java.create
  cases hr : Java.Reader dec file with
  | panic => exact absurd hr h1
  | err e => exact ⟨by simp, fun j hj => by cases hj⟩
  | ok r =>
    rw [Res.ok_bind]
    obtain ⟨m, N, _, _, _, _, _, hc, _⟩ := h2 r hr
    split
    · refine ⟨by simp, fun j hj a => ?_⟩
      cases Res.ok.inj hj
      rw [java_cached utf8 r hc ips a]
      exact query r hr a
    · refine ⟨by simp, fun j hj a => ?_⟩
      cases Res.ok.inj hj
      exact query r hr a

/-! ## A file that meets the conditions -/

/-- Two fields and one node. -/
def tidyMeta : MetaData :=
  { Exact.smallMeta with totalSize := 13, fields := [gs "country_name", gs "city_name"] }

/-- Damaged: the records of half of the addresses would be far behind the end of the file. -/
def tidyBody : Bytes := [0, 16, 0, 0, 0, 0, 0, 1] ++ [0, 3, 65, 9, 66]

def tidyFile : Bytes := Exact.fileOf tidyMeta tidyBody

/-- A decoder that takes these metadata only. -/
def tidyDec (b : Bytes) : Option MetaData := if b = encMeta tidyMeta then some tidyMeta else none

theorem tidy_body : fileBody tidyFile = tidyBody := by decide +kernel

theorem tidy_file : Tidy id tidyMeta tidyFile := by
  have h1 : child tidyBody 0 false = some 1048576 := by decide +kernel
  have h2 : child tidyBody 0 true = some 1 := by decide +kernel
  refine ⟨by decide, by decide, ?_, ?_, ?_⟩
  · rw [tidy_body]
    intro i b v hi hv
    have hi0 : i = 0 := by have : (i : Int) < 1 := hi; omega
    subst hi0
    cases b
    · rw [h1] at hv; cases hv; decide
    · rw [h2] at hv; cases hv; decide
  · intro off h
    have : mapGet tidyMeta.languages (gs "CN") = some 0 := by decide +kernel
    rw [this] at h
    cases h
    decide
  · rw [tidy_body]
    intro i b v hi hv _
    have hi0 : i = 0 := by have : (i : Int) < 1 := hi; omega
    subst hi0
    cases b
    · rw [h1] at hv; cases hv
      refine .inr ⟨?_, by decide⟩
      have : tidyFile.length ≤ 1048576 := by decide +kernel
      exact Nat.le_trans this (by decide)
    · rw [h2] at hv; cases hv
      left
      rw [tidy_body]
      refine ⟨by decide, ?_⟩
      intro hi lo rec rest hcut hlen
      have e : tidyBody.drop (((1 : Nat) : Int) + 7 * tidyMeta.nodeCount).toNat = [0, 3, 65, 9, 66] := by decide +kernel
      rw [e] at hcut
      injection hcut with h1 hcut
      injection hcut with h2 hcut
      subst h1 h2
      have hl : rec.length = 3 := by rw [← hlen]; decide
      have : rec = [65, 9, 66] := by
        match rec, hl with
        | [x, y, z], _ =>
          injection hcut with h1 hcut
          injection hcut with h2 hcut
          injection hcut with h3 hcut
          rw [h1, h2, h3]
      subst this
      intro off hoff
      have : mapGet tidyMeta.languages (gs "CN") = some 0 := by decide +kernel
      rw [this] at hoff
      cases hoff
      decide +kernel

theorem tidy_zero : Readable id tidyMeta tidyFile (7 * tidyMeta.nodeCount).toNat := by
  left
  rw [tidy_body]
  refine ⟨by decide, ?_⟩
  intro hi lo rec rest hcut hlen
  have e : tidyBody.drop (7 * tidyMeta.nodeCount).toNat = [1, 0, 3, 65, 9, 66] := by decide +kernel
  rw [e] at hcut
  injection hcut with h1 hcut
  injection hcut with h2 hcut
  subst h1 h2
  have := (congrArg List.length hcut).trans List.length_append
  rw [← hlen] at this
  have : 256 + rest.length = 4 := this.symm
  omega

/-- `C115_rust_safe` and `C115_java_safe` on that file: their hypotheses hold, both readers open it, and there are
addresses that are answered and addresses that are refused. -/
example : (∀ r, Rust.Reader tidyDec tidyFile = .ok r → ∀ a, Rust.query id r a ≠ .panic) ∧
    (∀ j, Java.create tidyDec id [[1, 1, 1, 1]] tidyFile = .ok j → ∀ a, Java.query id j a ≠ .panic) ∧
    answers tidyFile (List.replicate 16 255) = some (.err .databaseError, .ok { country := some (gs "A"), city := some (gs "B") },
      .ok { country := gs "A", city := gs "B" }) ∧
    answers tidyFile (List.replicate 16 0) = some (.err .databaseError, .err .databaseError, .err .databaseError) := by
  have hdec : ∀ m, tidyDec (jsonBlock tidyFile) = some m → m = tidyMeta := by
    intro m h
    unfold tidyDec at h
    split at h
    · exact (Option.some.inj h).symm
    · cases h
  have hm : ∀ b m, tidyDec b = some m → 0 ≤ m.totalSize ∧ m.totalSize < 2 ^ 31 := by
    intro b m h
    unfold tidyDec at h
    split at h
    · rw [← Option.some.inj h]; decide
    · cases h
  have hl : tidyFile.length < 2 ^ 31 := Nat.lt_trans (show tidyFile.length < 1000 by decide +kernel) (by decide)
  refine ⟨?_, ?_, by decide +kernel, by decide +kernel⟩
  · refine (C115_rust_safe hl (.inr (Nat.lt_trans (show jsonLength tidyFile < 1000 by decide +kernel) (by decide))) ?_ ?_).2
    · intro m h
      obtain ⟨h1, h2⟩ := hm _ _ h
      exact ⟨by omega, h2⟩
    · intro m h _
      rw [hdec m h]
      exact tidy_file
  · refine (C115_java_safe hl (fun k m h => hm _ _ h) ?_ _).2
    intro m h _
    rw [hdec m h]
    exact ⟨tidy_file, tidy_zero⟩

/-! ## The conditions are needed -/

/-- A file with these metadata, its total size being right, and this body. -/
def sized (m : MetaData) (body : Bytes) : Bytes := Exact.fileOf { m with totalSize := body.length } body

/-- **C115.** Each condition is needed. (1) Length bytes that say -4, -3, -2 or -1 crash the Rust reader at opening, whatever the
decoder. (2) A negative total size crashes the Java reader at opening. (3) A table that is longer than the body crashes
all three readers; so does (4) a record of which only one length byte is in the file. (5) A record with too few columns
crashes the Java reader (if a column is the continent) and the Rust reader, (6) a number from 2^31 on and (7) an empty
table crash both, (8) an address whose path does not end crashes the Java reader when what stands at node 0 is no
record, and (9) so does any address when the columns of CN are said to start behind the record. In (5) to (9) the Go
reader does not crash. -/
theorem C115_needed :
    (∀ dec, ∀ b ∈ [(252 : UInt8), 253, 254, 255], Rust.Reader dec [255, 255, 255, b] = .panic) ∧
    Java.Reader (fun _ => some { Exact.smallMeta with totalSize := -1 }) [0, 0, 0, 2, 1] = .panic ∧
    answers (sized { Exact.smallMeta with nodeCount := 2 } [0, 0, 0, 1, 0, 0, 0, 1]) (List.replicate 16 0) =
      some (.panic, .panic, .panic) ∧
    answers (sized Exact.smallMeta [0, 0, 0, 2, 0, 0, 0, 2, 0, 0]) (List.replicate 16 0) = some (.panic, .panic, .panic) ∧
    answers (sized { Exact.smallMeta with fields := [gs "country_name", gs "continent_code"] }
      ([0, 0, 0, 1, 0, 0, 0, 1] ++ [0, 2, 67, 78])) (List.replicate 16 0) = some (.err .databaseError, .panic, .panic) ∧
    answers (sized Exact.smallMeta [255, 255, 255, 255, 0, 0, 0, 0]) (List.replicate 16 0) = some (.ok ({}, 0), .panic, .panic) ∧
    answers (sized { Exact.smallMeta with nodeCount := 0 } []) (List.replicate 16 0) = some (.ok ({}, 0), .panic, .panic) ∧
    answers (sized Exact.smallMeta [0, 0, 0, 0, 0, 0, 0, 0]) (List.replicate 16 0) =
      some (.ok ({}, 0), .panic, .err .dataNotExists) ∧
    answers (sized { Exact.smallMeta with languages := [(gs "CN", 7)] } ([0, 0, 0, 1, 0, 0, 0, 1] ++ [0, 2, 67, 78]))
      (List.replicate 16 0) = some (.err .databaseError, .panic, .ok { country := gs "CN" }) := by
  refine ⟨fun dec b hb => ?_, ?_, ?_, ?_, ?_, ?_, ?_, ?_, ?_⟩
  · have e : -4 ≤ Rust.i32 (val (([255, 255, 255, b] : Bytes).take 4)) ∧ Rust.i32 (val (([255, 255, 255, b] : Bytes).take 4)) < 0 := by
      revert b; decide +kernel
    unfold Rust.Reader Rust.MetaDataNew
    rw [if_neg (show ¬ ([255, 255, 255, b] : Bytes).length < 4 from Nat.lt_irrefl 4)]
    simp only []
    generalize Rust.i32 (val (([255, 255, 255, b] : Bytes).take 4)) = k at e ⊢
    rw [if_pos (by omega), if_pos e.1]
    rfl
  all_goals decide +kernel

end Uip.Ipdb
