import Verif.Spec.Tidy
import Verif.Proof.Ipdb.AnyAnswer
/-!
# The Java and the Rust reader do not crash on tidy files
-/
namespace Uip.Ipdb
open Uip Uip.Spec
open Uip.Java (i32_id)

variable {utf8 : Bytes → Str} {m : MetaData} {file : Bytes} {N : Nat} {dec : Bytes → Option MetaData}

theorem tidy_parts (h : Tidy utf8 m file) (hs : AddsUp m file)
    (hsm : file.length < 2 ^ 31) : ∃ N, Parts m file N := by
  obtain ⟨N, hN⟩ := Int.eq_ofNat_of_zero_le (Int.le_of_lt h.count)
  have h2 := h.table
  have h3 := h.count
  have hs' : (file.length : Int) = 4 + jsonLength file + m.totalSize := hs
  have hb : (fileBody file).length = file.length - (4 + jsonLength file) := List.length_drop ..
  have ht : m.totalSize = (fileBody file).length := by omega
  refine ⟨N, ⟨hN, by omega, by omega, ht, by omega, hsm, by omega, by omega, ?_⟩⟩
  intro n hn b hb2
  have hlt : 8 * n + 4 * b + 4 ≤ (fileBody file).length := by omega
  refine ⟨val (((fileBody file).drop (n * 8 + b * 4)).take 4), ?_, ?_⟩
  · unfold readNode
    simp only []
    rw [if_neg (by omega)]
  · have hc : child (fileBody file) n (b == 1) = some (val (((fileBody file).drop (n * 8 + b * 4)).take 4)) := by
      have : (b == 1).toNat = b := by
        have : b = 0 ∨ b = 1 := by omega
        rcases this with rfl | rfl <;> rfl
      unfold child
      simp only [this]
      rw [if_pos (by omega), Nat.mul_comm 8, Nat.mul_comm 4]
    exact h.numbers n (b == 1) _ (by omega) hc

/-- Opening in Java: no crash, and what is opened has its sizes right. -/
theorem java_open_tidy (hsm : file.length < 2 ^ 31) (ht : ∀ m, dec (jsonBlock file) = some m → AddsUp m file → Tidy utf8 m file)
    (hz : ∀ k m, dec (jsonBlock file ++ List.replicate k 0) = some m → 0 ≤ m.totalSize ∧ m.totalSize < 2 ^ 31) :
    Java.Reader dec file ≠ .panic ∧ ∀ r, Java.Reader dec file = .ok r →
      ∃ m N, Tidy utf8 m file ∧ Parts m file N ∧ r.md = m ∧ r.data = fileBody file ∧ r.fileSize = file.length ∧
        r.resultCache = none ∧ Java.Ready r N := by
  by_cases h5 : file.length < 5
  · have : Java.Reader dec file = .err .fileSize := by
      unfold Java.Reader; simp only []; rw [if_pos (by omega)]
    rw [this]
    exact ⟨by simp, fun r hr => by cases hr⟩
  have hL : jsonLength file < 2 ^ 32 := by
    have := val_lt (file.take 4)
    rw [List.length_take, Nat.min_eq_left (by omega)] at this
    exact this
  by_cases hbig : 2 ^ 31 ≤ jsonLength file + 4
  · have : Java.Reader dec file = .err .metaData := by
      unfold Java.Reader
      simp only []
      rw [if_neg (by omega)]
      have e0 : (val (file.take 4) : Int) = (jsonLength file : Int) := rfl
      have hc : Java.copyOfRange file 4 (Java.i32 (Java.i32 (val (file.take 4)) + 4)) = .panic := by
        unfold Java.copyOfRange
        rw [if_pos]
        left
        rw [e0]
        unfold Java.i32
        omega
      rw [hc]
    rw [this]
    exact ⟨by simp, fun r hr => by cases hr⟩
  have e1 : Java.i32 (val (file.take 4)) = jsonLength file := by
    show Java.i32 (jsonLength file : Nat) = _
    rw [i32_id (by omega) (by omega)]
  have e2 : Java.i32 ((jsonLength file : Int) + 4) = jsonLength file + 4 := i32_id (by omega) (by omega)
  have e3 : Java.copyOfRange file 4 ((jsonLength file : Int) + 4) =
      .ok (jsonBlock file ++ List.replicate (jsonLength file - (jsonBlock file).length) 0) := by
    unfold Java.copyOfRange
    rw [if_neg (by omega)]
    have : ((jsonLength file : Int) + 4 - 4).toNat = jsonLength file := by omega
    rw [this]
    rfl
  cases hdec : dec (jsonBlock file ++ List.replicate (jsonLength file - (jsonBlock file).length) 0) with
  | none =>
    have : Java.Reader dec file = .err .metaData := by
      unfold Java.Reader
      simp only []
      rw [if_neg (by omega), e1, e2, e3]
      simp only [hdec]
    rw [this]
    exact ⟨by simp, fun r hr => by cases hr⟩
  | some m =>
    have hm := hz _ _ hdec
    by_cases hs : (file.length : Int) = 4 + jsonLength file + m.totalSize
    · have hl : (jsonBlock file).length = jsonLength file := by
        unfold jsonBlock; rw [List.length_take, List.length_drop]; omega
      rw [hl, Nat.sub_self, List.replicate_zero, List.append_nil] at hdec
      obtain ⟨N, hp⟩ := tidy_parts (ht m hdec hs) hs hsm
      obtain ⟨r, hr, h1, h2, h3, h4, h6⟩ := java_open_any hp hdec
      rw [hr]
      refine ⟨by simp, fun r' hr' => ?_⟩
      cases hr'
      exact ⟨m, N, ht m hdec hs, hp, h1, h2, h3, h4, h6⟩
    · have : Java.Reader dec file = .err .fileSize := by
        unfold Java.Reader
        simp only []
        rw [if_neg (by omega), e1, e2, e3]
        simp only [hdec]
        rw [if_pos]
        unfold Java.i32
        omega
      rw [this]
      exact ⟨by simp, fun r hr => by cases hr⟩

/-- Opening in Rust. -/
theorem rust_open_tidy (hsm : file.length < 2 ^ 31) (hL : file.length < 4 ∨ jsonLength file < 2 ^ 32 - 4)
    (hz : ∀ m, dec (jsonBlock file) = some m → -2 ^ 31 ≤ m.totalSize ∧ m.totalSize < 2 ^ 31)
    (ht : ∀ m, dec (jsonBlock file) = some m → AddsUp m file → Tidy utf8 m file) :
    Rust.Reader dec file ≠ .panic ∧ ∀ r, Rust.Reader dec file = .ok r →
      ∃ m N, Tidy utf8 m file ∧ Parts m file N ∧ r.md = m ∧ r.data = fileBody file ∧ r.fileSize = file.length ∧ r.nodeCount = N ∧
      (r.isIPv4 = true → ∃ v4 : Nat, v4offsetLoop (fileBody file) N 96 0 0 = .ok v4 ∧ r.v4offset = v4 ∧
        r.ipv4BitsCache ≠ [] ∧ Java.initCache (fileBody file) N v4 = .ok r.ipv4BitsCache) := by
  have bad : ∀ e, Rust.MetaDataNew dec file = .err e → Rust.Reader dec file = .err e := by
    intro e he; unfold Rust.Reader; rw [he]; rfl
  have done : ∀ e, Rust.Reader dec file = .err e → Rust.Reader dec file ≠ .panic ∧ ∀ r, Rust.Reader dec file = .ok r →
      ∃ m N, Tidy utf8 m file ∧ Parts m file N ∧ r.md = m ∧ r.data = fileBody file ∧ r.fileSize = file.length ∧ r.nodeCount = N ∧
      (r.isIPv4 = true → ∃ v4 : Nat, v4offsetLoop (fileBody file) N 96 0 0 = .ok v4 ∧ r.v4offset = v4 ∧
        r.ipv4BitsCache ≠ [] ∧ Java.initCache (fileBody file) N v4 = .ok r.ipv4BitsCache) := by
    intro e he
    rw [he]
    exact ⟨by simp, fun r hr => by cases hr⟩
  by_cases h4 : file.length < 4
  · exact done _ (bad _ (by unfold Rust.MetaDataNew; rw [if_pos h4]))
  have hL' : jsonLength file < 2 ^ 32 - 4 := by rcases hL with h | h <;> omega
  by_cases hneg : 2 ^ 31 ≤ jsonLength file
  · refine done _ (bad .fileSize ?_)
    unfold Rust.MetaDataNew
    simp only []
    have e0 : Rust.i32 (val (file.take 4) : Nat) = (jsonLength file : Int) - 2 ^ 32 := by
      show Rust.i32 (jsonLength file : Nat) = _
      unfold Rust.i32
      omega
    rw [if_neg h4, e0, if_pos (by omega), if_neg (by omega)]
  have e1 : Rust.i32 (val (file.take 4) : Nat) = jsonLength file := by
    show Rust.i32 (jsonLength file : Nat) = _
    rw [show @Rust.i32 = @Java.i32 from rfl, i32_id (by omega) (by omega)]
  by_cases hshort : file.length < 4 + jsonLength file
  · refine done _ (bad .fileSize ?_)
    unfold Rust.MetaDataNew
    simp only []
    rw [if_neg h4, e1, if_neg (by omega), if_pos (by omega)]
  cases hdec : dec (jsonBlock file) with
  | none =>
    refine done _ (bad .metaData ?_)
    unfold Rust.MetaDataNew
    simp only []
    rw [if_neg h4, e1, if_neg (by omega), if_neg (by omega), Int.toNat_natCast]
    show (match dec (jsonBlock file) with
      | none => _
      | some m => _) = _
    rw [hdec]
  | some m =>
    have hm := hz m hdec
    by_cases hs : (file.length : Int) = 4 + jsonLength file + m.totalSize
    · obtain ⟨N, hp⟩ := tidy_parts (ht m hdec hs) hs hsm
      obtain ⟨r, hr, h1, h2, h3, h5, h6, _⟩ := rust_open_any hp hdec
      rw [hr]
      refine ⟨by simp, fun r' hr' => ?_⟩
      cases hr'
      exact ⟨m, N, ht m hdec hs, hp, h1, h2, h3, h5, h6⟩
    · have hnew : Rust.MetaDataNew dec file = .ok (m, jsonLength file) := by
        unfold Rust.MetaDataNew
        simp only []
        rw [if_neg h4, e1, if_neg (by omega), if_neg (by omega), Int.toNat_natCast]
        show (match dec (jsonBlock file) with
          | none => _
          | some m => _) = _
        rw [hdec]
      refine done .fileSize ?_
      unfold Rust.Reader
      rw [hnew, Res.ok_bind]
      simp only []
      rw [if_pos]
      unfold Rust.i32
      omega

/-! ## Reading a record -/

theorem record_cut {data : Bytes} {p : Nat} (h1 : p + 2 ≤ data.length) (h2 : p + 2 + val ((data.drop p).take 2) ≤ data.length) :
    ∃ (hi lo : UInt8) (rest : Bytes), data.drop p = hi :: lo :: (data.drop (p + 2)).take (val ((data.drop p).take 2)) ++ rest ∧
      hi.toNat * 256 + lo.toNat = ((data.drop (p + 2)).take (val ((data.drop p).take 2))).length := by
  have hl2 : ((data.drop p).take 2).length = 2 := by
    rw [List.length_take, List.length_drop]; omega
  obtain ⟨hi, lo, hb⟩ : ∃ hi lo, (data.drop p).take 2 = [hi, lo] := by
    match hx : (data.drop p).take 2, hl2 with
    | [x, y], _ => exact ⟨x, y, rfl⟩
  have hval : val [hi, lo] = hi.toNat * 256 + lo.toNat := by simp [val]
  rw [hb] at h2 ⊢
  refine ⟨hi, lo, (data.drop (p + 2)).drop (val [hi, lo]), ?_, ?_⟩
  · have h3 := List.take_append_drop 2 (data.drop p)
    rw [hb, List.drop_drop] at h3
    rw [← h3]
    show _ = hi :: lo :: (_ ++ _)
    rw [List.take_append_drop]
    rfl
  · rw [List.length_take, List.length_drop, ← hval]; omega

theorem splitPos_length : ∀ (n : Nat) (s : Str), min n (splitByte 0x09 s).length ≤ (Java.splitPos n s).length := by
  have cut : ∀ s : Str, (s.dropWhile (· != 0x09) = [] ∧ splitByte 0x09 s = [s]) ∨
      ∃ x r, s.dropWhile (· != 0x09) = x :: r ∧ (splitByte 0x09 s).length = (splitByte 0x09 r).length + 1 := by
    intro s
    induction s with
    | nil => left; exact ⟨rfl, rfl⟩
    | cons b s ih =>
      by_cases hb : b = 0x09
      · subst hb
        right
        refine ⟨0x09, s, by simp, ?_⟩
        rw [splitByte, if_pos rfl]; simp
      · rcases ih with ⟨h1, h2⟩ | ⟨x, r, h1, h2⟩
        · left
          refine ⟨by simp [hb, h1], ?_⟩
          rw [splitByte, if_neg hb, h2]
        · right
          refine ⟨x, r, by simp [hb, h1], ?_⟩
          rw [splitByte, if_neg hb, ← h2]
          cases hs : splitByte 0x09 s with
          | nil => exact absurd hs (splitByte_ne_nil s)
          | cons => rfl
  intro n
  induction n with
  | zero => intro s; simp
  | succ n ih =>
    intro s
    cases n with
    | zero => simp only [Java.splitPos, List.length_singleton]; omega
    | succ n =>
      rcases cut s with ⟨h1, h2⟩ | ⟨x, r, h1, h2⟩
      · simp only [Java.splitPos, h1, h2, List.length_singleton]; omega
      · have := ih r
        simp only [Java.splitPos, h1, h2, List.length_cons]
        omega

theorem java_info_some : ∀ (fs cols : List Str) (info : Java.JInfo), cols.length ≤ fs.length →
    Java.buildInfo fs (cols.map some) info ≠ .panic := by
  intro fs
  induction fs with
  | nil =>
    intro cols info h
    cases cols with
    | nil => simp [Java.buildInfo]
    | cons => simp at h
  | cons f fs ih =>
    intro cols info h
    cases cols with
    | nil => simp [Java.buildInfo]
    | cons v vs =>
      simp only [List.map_cons, Java.buildInfo]
      have : ∃ i, Java.setAttr info f (some v) = .ok i := by
        unfold Java.setAttr
        simp only []
        repeat' split
        all_goals exact ⟨_, rfl⟩
      obtain ⟨i, hi⟩ := this
      rw [hi, Res.ok_bind]
      exact ih vs i (by simpa using h)

theorem java_resolve_tidy {r : Java.JReader} (hp : Parts m file N) (ht : Tidy utf8 m file) (hm : r.md = m) (hd : r.data = fileBody file)
    (hfs : r.fileSize = file.length) (hn : r.nodeCount = N) {v : Nat} (hv : v < 2 ^ 31) (hread : Readable utf8 m file (v + 7 * N)) :
    (r.resolveNode utf8 v (gs "CN") >>= fun o => match o with
      | none => (.err .ipFormat : Res (Int × Java.JInfo))
      | some parts => Java.buildInfo r.md.fields parts {} >>= fun info => .ok ((v : Int), info)) ≠ .panic := by
  have hlen := hp.length
  have hsm := hp.sm
  have htab := hp.table
  have hpos := hp.pos
  unfold Java.JReader.resolveNode
  rw [hm]
  cases hl : mapGet m.languages (gs "CN") with
  | none => simp
  | some off =>
    obtain ⟨hoff, hall⟩ := ht.inside off hl
    obtain ⟨off, rfl⟩ := Int.eq_ofNat_of_zero_le hoff
    simp only []
    have e : Java.i32 (Java.i32 ((v : Int) - r.nodeCount) + Java.i32 (r.nodeCount * 8)) = ((v + 7 * N : Nat) : Int) := by
      rw [hn, i32_id (x := (v : Int) - N) (by omega) (by omega), i32_id (x := (N : Int) * 8) (by omega) (by omega)]
      rcases hread with ⟨h1, _⟩ | ⟨_, h1⟩
      · rw [i32_id (by omega) (by omega)]; omega
      · rw [i32_id (by omega) (by omega)]; omega
    rw [e, hfs, hd]
    rcases hread with ⟨h1, h2⟩ | ⟨h1, _⟩
    · rw [if_neg (by omega), if_neg (by omega), Int.toNat_natCast]
      split
      · simp
      · rename_i hsz
        obtain ⟨hi, lo, rest, hcut, hsize⟩ := record_cut (data := fileBody file) (p := v + 7 * N) h1 (by omega)
        have hcols := h2 hi lo _ rest hcut hsize _ hl
        generalize ((fileBody file).drop (v + 7 * N + 2)).take (val (((fileBody file).drop (v + 7 * N)).take 2)) = rec at hcols ⊢
        have hk : 0 < m.languages.length := by
          apply List.length_pos_iff.mpr
          intro hc
          rw [hc] at hl
          cases hl
        have hparts : ∃ cols : List Str, Java.copyStrings (Java.split (utf8 rec) (m.fields.length * m.languages.length)) off m.fields.length =
            .ok (cols.map some) ∧ cols.length = m.fields.length := by
          unfold Java.copyStrings
          have hsl : off + m.fields.length ≤ (Java.split (utf8 rec) (m.fields.length * m.languages.length)).length := by
            unfold Java.split
            split
            · rename_i h0
              omega
            · have h3 := splitPos_length (m.fields.length * m.languages.length) (utf8 rec)
              omega
          rw [if_neg (by omega)]
          refine ⟨((Java.split (utf8 rec) (m.fields.length * m.languages.length)).drop off).take m.fields.length, ?_, ?_⟩
          · have : ((List.drop ((off : Int)).toNat (Java.split (utf8 rec) (m.fields.length * m.languages.length))).take m.fields.length).length = m.fields.length := by
              rw [Int.toNat_natCast, List.length_take, List.length_drop]
              omega
            simp only [this, Nat.sub_self, List.replicate_zero, List.append_nil]
            rfl
          · rw [List.length_take, List.length_drop]; omega
        obtain ⟨cols, hc1, hc2⟩ := hparts
        rw [hc1]
        simp only [Res.ok_bind, Res.pure_eq]
        have := java_info_some m.fields cols {} (by omega)
        cases hb : Java.buildInfo m.fields (cols.map some) {} with
        | panic => exact absurd hb this
        | ok x => simp
        | err e => simp
    · rw [if_pos (by omega)]; simp

theorem rust_info_some : ∀ (fs cols : List Str) (info : IpInfo), fs.length ≤ cols.length →
    Rust.buildInfo fs cols info ≠ .panic := by
  intro fs
  induction fs with
  | nil => intro cols info _; simp [Rust.buildInfo]
  | cons f fs ih =>
    intro cols info h
    cases cols with
    | nil => simp at h
    | cons v vs =>
      simp only [Rust.buildInfo, List.head?_cons, List.tail_cons]
      have : ∃ i, Rust.setAttr info f (some v) = .ok i := by
        unfold Rust.setAttr
        simp only [Res.ofOption_some, Res.ok_bind]
        repeat' split
        all_goals exact ⟨_, rfl⟩
      obtain ⟨i, hi⟩ := this
      rw [hi, Res.ok_bind]
      exact ih vs i (by simpa using h)

theorem rust_resolve_tidy {r : Rust.RReader} (hp : Parts m file N) (ht : Tidy utf8 m file) (hm : r.md = m) (hd : r.data = fileBody file)
    (hfs : r.fileSize = file.length) (hn : r.nodeCount = N) {v : Nat} (hv : v < 2 ^ 31) (hread : Readable utf8 m file (v + 7 * N)) :
    (r.resolveNode utf8 v (gs "CN") >>= fun vs => Rust.buildInfo r.md.fields vs {}) ≠ .panic := by
  have hlen := hp.length
  have hsm := hp.sm
  have htab := hp.table
  have hpos := hp.pos
  unfold Rust.RReader.resolveNode
  rw [hm]
  cases hl : mapGet m.languages (gs "CN") with
  | none => simp
  | some off =>
    simp only []
    have e : Rust.i32 (Rust.i32 ((v : Int) - r.nodeCount) + Rust.i32 (r.nodeCount * 8)) = ((v + 7 * N : Nat) : Int) := by
      rw [show @Rust.i32 = @Java.i32 from rfl, hn, i32_id (x := (v : Int) - N) (by omega) (by omega), i32_id (x := (N : Int) * 8) (by omega) (by omega)]
      rcases hread with ⟨h1, _⟩ | ⟨_, h1⟩
      · rw [i32_id (by omega) (by omega)]; omega
      · rw [i32_id (by omega) (by omega)]; omega
    rw [e, hfs, hd]
    rcases hread with ⟨h1, h2⟩ | ⟨h1, _⟩
    · rw [if_neg (by omega), if_neg (by omega), Int.toNat_natCast]
      split
      · simp
      · rename_i hsz
        obtain ⟨hi, lo, rest, hcut, hsize⟩ := record_cut (data := fileBody file) (p := v + 7 * N) h1 (by omega)
        have hcols := h2 hi lo _ rest hcut hsize _ hl
        have hoff := (ht.inside off hl).1
        simp only [Res.ok_bind]
        exact rust_info_some _ _ _ (by omega)
    · rw [if_pos (by omega)]; simp

/-! ## Finding -/

/-- The walk of an address that does not end finds no node. -/
theorem java_findNode_none {r : Java.JReader} (h : Java.Ready r N) {a a16 : Bytes} (ha : To16 a = some a16)
    (h4 : a.length = 4 → r.isIPv4 = true) {n d : Nat}
    (hw : Ipdb.readDepth r.data N a16 128 0 0 = .ok (n, d)) (hlt : n < N) :
    r.findNode a = .ok none := by
  unfold To16 at ha
  split at ha
  · rename_i hl
    injection ha with ha
    subst ha
    obtain ⟨v4, hv, hvr, c, hc, hci⟩ := h.v4 (h4 hl)
    obtain ⟨d', hwa⟩ := Java.v4_full hl hv hw
    obtain ⟨c', hc', _, hidx⟩ := Java.initCache_go h.small v4
    rw [hci] at hc'; cases hc'
    obtain ⟨idx, hi, hget⟩ := hidx a hl
    have hadd := readDepth_add (data := r.data) (nc := N) (ip := a) 12 20 v4 0
    rw [show 12 + 20 = 32 from rfl, hwa] at hadd
    obtain ⟨⟨m, i⟩, h12, h20⟩ := Res.bind_eq_ok.mp hadd.symm
    have hg := hget _ _ h12
    unfold Java.JReader.findNode
    rw [hc]
    simp only [hl, Nat.reduceMul, if_true, hi, Res.ok_bind, hg, Res.ofOption_some, Res.pure_eq, h.nodes]
    have hb := readDepth_bounds _ _ _ _ _ h12
    by_cases hm : (m : Int) ≥ N
    · rw [readDepth_stop hm] at h20
      cases h20
      omega
    · simp only [hm, decide_false, Bool.false_eq_true, if_false]
      have : i = 12 := by omega
      subst this
      rw [Java.readDepth_go h.small _ _ _ _ _ h20, Res.ok_bind, if_neg (by omega)]
  · split at ha
    · rename_i hl
      injection ha with ha
      subst ha
      unfold Java.JReader.findNode
      have := Java.readDepth_go h.small _ _ _ _ _ hw
      rw [show ((0 : Nat) : Int) = 0 from rfl] at this
      have e32 : ¬ (a.length * 8 = 32) := by omega
      have e128 : a.length * 8 = 128 := by omega
      have hN : ¬ ((n : Int) ≥ (N : Int)) := by omega
      cases hcc : r.ipv4BitsCache with
      | none =>
        simp only [e32, if_false, Res.ok_bind, Bool.false_eq_true, h.nodes, Nat.sub_zero]
        rw [e128, this, Res.ok_bind, if_neg hN]; rfl
      | some c =>
        simp only [e32, if_false, Res.ok_bind, Bool.false_eq_true, h.nodes, Nat.sub_zero]
        rw [e128, this, Res.ok_bind, if_neg hN]; rfl
    · cases ha

/-- What a node search gives: no node, or a number of the table. -/
theorem java_findNode_cases {r : Java.JReader} (h : Java.Ready r N) (hpos : 0 < N) {a : Bytes} (hl : a.length = 4 ∨ a.length = 16)
    (h4 : a.length = 4 → r.isIPv4 = true) :
    r.findNode a = .ok none ∨ ∃ (v i : Nat) (b : Bool), i < N ∧ child r.data i b = some v ∧ N ≤ v ∧ r.findNode a = .ok (some (v : Int)) := by
  obtain ⟨a16, h16⟩ : ∃ a16, To16 a = some a16 := by
    unfold To16
    rcases hl with hl | hl
    · rw [if_pos hl]; exact ⟨_, rfl⟩
    · rw [if_neg (by omega), if_pos hl]; exact ⟨_, rfl⟩
  have h16l : a16.length = 16 := by
    unfold To16 at h16
    split at h16
    · rename_i hx
      cases h16
      rw [List.length_append, hx]; rfl
    · split at h16
      · rename_i hx; cases h16; exact hx
      · cases h16
  obtain ⟨⟨n, d⟩, hw⟩ := Java.readDepth_total h.small (ip := a16) 128 0 0 (by omega)
  by_cases hge : N ≤ n
  · right
    have hf := Java.findNode_walk h h16 h4 hw hge
    rw [readDepth_trieWalk _ _ _ (by rw [bits_length, h16l]; decide)] at hw
    cases ht : trieWalk r.data N (((bits a16).drop 0).take 128) 0 0 with
    | none => rw [ht] at hw; cases hw
    | some x =>
      rw [ht] at hw
      cases Res.ok.inj hw
      rcases Exact.trieWalk_from _ _ _ _ _ ht with h0 | ⟨i, b, hi, hc⟩
      · omega
      · exact ⟨n, i, b, by omega, hc, hge, hf⟩
  · left
    exact java_findNode_none h h16 h4 hw (by omega)

theorem java_find0_cases {r : Java.JReader} (h : Java.Ready r N) (hpos : 0 < N) (a : Bytes) :
    (∃ e, r.find0 a = .err e) ∨ r.find0 a = .ok 0 ∨
      ∃ (v i : Nat) (b : Bool), i < N ∧ child r.data i b = some v ∧ N ≤ v ∧ r.find0 a = .ok (v : Int) := by
  unfold Java.JReader.find0
  split
  · exact .inl ⟨_, rfl⟩
  · split
    · exact .inl ⟨_, rfl⟩
    · split
      · exact .inl ⟨_, rfl⟩
      · rename_i h1 h2 h3
        have hl : a.length = 4 ∨ a.length = 16 := by omega
        rcases java_findNode_cases h hpos hl (by
          intro hx
          cases hi : r.isIPv4 with
          | true => rfl
          | false => exact absurd ⟨hx, hi⟩ h2) with hf | ⟨v, i, b, h5, h6, h7, hf⟩
        · rw [hf]; exact .inr (.inl rfl)
        · rw [hf]; exact .inr (.inr ⟨v, i, b, h5, h6, h7, rfl⟩)

theorem rust_findNode_none {r : Rust.RReader} {j : Java.JReader} (h1 : j.nodeCount = r.nodeCount) (h2 : j.data = r.data)
    (h3 : j.v4offset = r.v4offset) (h4 : j.ipv4BitsCache = if r.ipv4BitsCache = [] then none else some r.ipv4BitsCache)
    {a : Bytes} (h : j.findNode a = .ok none) : r.findNode a = .err .dataNotExists := by
  unfold Java.JReader.findNode at h
  unfold Rust.RReader.findNode
  simp only [] at h ⊢
  rw [h4] at h
  rw [h1, h2, h3] at h
  have fin : ∀ (node : Int) (i : Nat) (hit : Bool),
      (if hit = true then (pure (some node) : Res (Option Int)) else do
        let node ← Java.readDepth r.data r.nodeCount a (a.length * 8 - i) node i
        if node ≥ r.nodeCount then pure (some node) else pure none) = .ok none →
      (if hit = true then (pure node : Res Int) else do
        let node ← Rust.readDepth r.data r.nodeCount a (a.length * 8 - i) node i
        if node ≥ r.nodeCount then pure node else .err .dataNotExists) = .err .dataNotExists := by
    intro node i hit hx
    cases hit with
    | true =>
      rw [if_pos rfl] at hx
      have := Res.ok.inj hx
      cases this
    | false =>
      rw [if_neg (by decide)] at hx ⊢
      rw [Java.rust_readDepth]
      obtain ⟨m, hm, hx⟩ := Res.bind_eq_ok.mp hx
      rw [hm, Res.ok_bind]
      split at hx
      · exact absurd (Res.ok.inj hx) (by simp)
      · rename_i hc
        rw [if_neg hc]
  by_cases hc : r.ipv4BitsCache = []
  · rw [if_pos hc] at h
    simp only [Res.ok_bind] at h
    rw [if_neg (by rw [hc]; simp), Res.ok_bind]
    exact fin _ _ _ h
  · rw [if_neg hc] at h
    simp only [] at h
    have hcl : r.ipv4BitsCache.length > 0 := List.length_pos_iff.mpr hc
    by_cases hb : a.length * 8 = 32
    · rw [if_pos hb] at h
      rw [if_pos ⟨hcl, hb⟩]
      obtain ⟨x, hx, h⟩ := Res.bind_eq_ok.mp h
      obtain ⟨idx, hidx, hx⟩ := Res.bind_eq_ok.mp hx
      rw [show @Rust.bytesToIndex = @Java.bytesToIndex from rfl, hidx, Res.ok_bind]
      rw [hx, Res.ok_bind]
      exact fin _ _ _ h
    · rw [if_neg hb, Res.ok_bind] at h
      rw [if_neg (by omega), Res.ok_bind]
      exact fin _ _ _ h

theorem rust_find0_cases {r : Rust.RReader} (hd : r.data = fileBody file)
    (hn : r.nodeCount = N) (hsmall : Java.Small (fileBody file) N) (hpos : 0 < N)
    (hv : r.isIPv4 = true → ∃ v4 : Nat, v4offsetLoop (fileBody file) N 96 0 0 = .ok v4 ∧ r.v4offset = v4 ∧
        r.ipv4BitsCache ≠ [] ∧ Java.initCache (fileBody file) N v4 = .ok r.ipv4BitsCache) (a : Bytes) :
    (∃ e, r.find0 a = .err e) ∨
      ∃ (v i : Nat) (b : Bool), i < N ∧ child r.data i b = some v ∧ N ≤ v ∧ r.find0 a = .ok (v : Int) := by
  let j : Java.JReader := { md := r.md, fileSize := r.fileSize, nodeCount := r.nodeCount, data := r.data, v4offset := r.v4offset, ipv4BitsCache := if r.ipv4BitsCache = [] then none else some r.ipv4BitsCache, resultCache := none }
  have hj : Java.Ready j N := by
    refine ⟨hn, ?_, fun hj => ?_⟩
    · show Java.Small r.data N; rw [hd]; exact hsmall
    · obtain ⟨v4, h1, h2, h3, h4⟩ := hv hj
      refine ⟨v4, ?_, h2, r.ipv4BitsCache, if_neg h3, ?_⟩
      · show v4offsetLoop r.data N 96 0 0 = _; rw [hd]; exact h1
      · show Java.initCache r.data N v4 = _; rw [hd]; exact h4
  unfold Rust.RReader.find0
  split
  · exact .inl ⟨_, rfl⟩
  · split
    · exact .inl ⟨_, rfl⟩
    · split
      · exact .inl ⟨_, rfl⟩
      · rename_i h1 h2 h3
        have hl : a.length = 4 ∨ a.length = 16 := by omega
        rcases java_findNode_cases hj hpos hl (by
          intro hx
          show r.isIPv4 = true
          cases hi : r.isIPv4 with
          | true => rfl
          | false => exact absurd ⟨hx, hi⟩ h2) with hf | ⟨v, i, b, h5, h6, h7, hf⟩
        · exact .inl ⟨_, rust_findNode_none (r := r) (j := j) rfl rfl rfl rfl hf⟩
        · exact .inr ⟨v, i, b, h5, h6, h7, rust_findNode (r := r) (j := j) rfl rfl rfl rfl hf⟩

end Uip.Ipdb
