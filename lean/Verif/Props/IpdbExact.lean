import Verif.Proof.Ipdb.Exact
import Verif.Proof.Ipdb.ReaderOpen
import Verif.Spec.IpdbFile
import Verif.Props.Ipdb
/-!
# C22, C100: the Go ipdb reader with machine integers and slice capacities
-/
namespace Uip.Ipdb.Exact
open Uip Uip.Spec

/-- The querier with capacity that corresponds to one without. -/
def liftQ (spare : Bytes) (q : Ipdb.Querier) : Querier := ⟨lift spare q.r, q.queryCache⟩

/-- The column of the language CN, if there is one, is a 64-bit integer and leaves room for the fields. -/
def ColumnFits (m : MetaData) : Prop :=
  ∀ off, mapGet m.languages (gs "CN") = some off → -2 ^ 63 ≤ off ∧ off + m.fields.length < 2 ^ 63

theorem QueryInternal_ref {dec : Bytes → Option MetaData} {data : Bytes} {q : Ipdb.Querier} (hs : data.length < 2 ^ 62)
    (h : Ipdb.newReaderFromBytes dec data = .ok q.r) (hc : ColumnFits q.r.md) (spare : Bytes) (a : IP) (u : Bool) :
    Ref id (q.QueryInternal a u) ((liftQ spare q).QueryInternal a u) := by
  have hf := find0_ref hs h spare a
  have key : ∀ (x : Nat × Bytes × Nat),
      Ref id (match (if u then cacheGet q.queryCache x.1 else none) with
        | some v => .ok (x.1, v, x.2.2)
        | none => match mapGet q.r.md.languages (gs "CN") with
          | none => .err .noSupportLanguage
          | some off => q.r.decodeInfo x.2.1 off >>= fun values =>
              .ok (x.1, buildInfo q.r.md.fields values {}, x.2.2))
        (match (if u then cacheGet q.queryCache x.1 else none) with
        | some v => .ok (x.1, v, x.2.2)
        | none => match mapGet q.r.md.languages (gs "CN") with
          | none => .err .noSupportLanguage
          | some off => (lift spare q.r).decodeInfo x.2.1 off >>= fun values =>
              .ok (x.1, buildInfo q.r.md.fields values {}, x.2.2)) := by
    intro x
    cases (if u then cacheGet q.queryCache x.1 else none) with
    | some v => exact Ref.ok rfl
    | none =>
      cases hm : mapGet q.r.md.languages (gs "CN") with
      | none => exact Ref.err
      | some off => exact Ref.bind (decodeInfo_ref q.r spare _ (hc off hm)) (fun v _ => Ref.ok rfl)
  unfold Ipdb.Querier.QueryInternal Querier.QueryInternal
  have e : (liftQ spare q).r = lift spare q.r := rfl
  rw [e]
  cases hx : q.r.find0 a with
  | panic => exact Ref.panic
  | ok x => rw [hf.1 x hx]; exact key x
  | err er => rw [hf.2 er hx]; exact key (0, [], 0)

theorem Query_ref {dec : Bytes → Option MetaData} {data : Bytes} {q : Ipdb.Querier} (hs : data.length < 2 ^ 62)
    (h : Ipdb.newReaderFromBytes dec data = .ok q.r) (hc : ColumnFits q.r.md) (spare : Bytes) (a : IP) :
    Ref id (q.Query a) ((liftQ spare q).Query a) := by
  unfold Ipdb.Querier.Query Querier.Query
  exact Ref.bind (QueryInternal_ref hs h hc spare a true) (fun x _ => Ref.ok rfl)

theorem BuildCache_ref {dec : Bytes → Option MetaData} {data : Bytes} (hs : data.length < 2 ^ 62) (spare : Bytes) :
    ∀ (ips : List IP) (q : Ipdb.Querier), Ipdb.newReaderFromBytes dec data = .ok q.r → ColumnFits q.r.md →
      Ref (liftQ spare) (q.BuildCache ips) ((liftQ spare q).BuildCache ips) := by
  intro ips
  induction ips with
  | nil => intro q _ _; exact Ref.ok rfl
  | cons ip ips ih =>
    intro q h hc
    have hq := QueryInternal_ref hs h hc spare ip false
    unfold Ipdb.Querier.BuildCache Querier.BuildCache
    cases hx : q.QueryInternal ip false with
    | panic => exact Ref.panic
    | err e => rw [hq.2 e hx]; exact ih q h hc
    | ok x =>
      rw [hq.1 x hx]
      exact ih { q with queryCache := (x.1, x.2.1) :: q.queryCache } h hc

/-- C100: for every file that opens when there is no spare capacity, it opens with any, and every query that
does not crash without spare capacity has the same answer with any. -/
theorem C100_same_answers {dec : Bytes → Option MetaData} {file : Bytes} (hd : Int64s dec file) (hs : file.length < 2 ^ 62)
    {q : Ipdb.Querier} (h : Ipdb.newQuerier dec file = .ok q) (hc : ColumnFits q.r.md) (spare : Bytes) :
    ∃ q', newQuerier dec ⟨file, spare⟩ = .ok q' ∧
      (∀ a, q.Query a ≠ .panic → q'.Query a = q.Query a) ∧
      ∀ ips w, q.BuildCache ips = .ok w → ∃ w', q'.BuildCache ips = .ok w' ∧
        ∀ a, q.Query a ≠ .panic → w'.Query a = q.Query a := by
  have h0 : Ipdb.Exact.newQuerier dec ⟨file, spare⟩ = .ok (liftQ spare q) ∧ Ipdb.newReaderFromBytes dec file = .ok q.r := by
    unfold Ipdb.newQuerier at h
    simp only [Res.bind_eq_ok, Res.pure_eq, Res.ok.injEq] at h
    obtain ⟨r, h1, rfl⟩ := h
    refine ⟨?_, h1⟩
    unfold newQuerier
    rw [(newReader_ref hd (by omega)).1 r h1]
    rfl
  refine ⟨_, h0.1, fun a ha => Ref.id_iff.mp (Query_ref hs h0.2 hc spare a) ha, fun ips w hw => ?_⟩
  refine ⟨_, (BuildCache_ref hs spare ips q h0.2 hc).1 w hw, fun a ha => ?_⟩
  have hr : w.r = q.r := ((BuildCache_spec _ _ (Opened.new h).sound.1).1 _ hw).1
  have hq := C16_build_cache (.new h) hw a
  rw [← hq]
  refine Ref.id_iff.mp (Query_ref hs (by rw [hr]; exact h0.2) (by rw [hr]; exact hc) spare a) ?_
  rw [hq]; exact ha

theorem packed_int64 {enc : MetaData → Bytes} {dec : Bytes → Option MetaData} {now : Int} {ipd : IpData}
    {file : Bytes} (h : RowsOK ipd) (hj : MetaRoundTrip enc dec (buildMeta now ipd.version ipd.fields))
    (hp : pack enc now ipd = .ok file) (hl : file.length < 2 ^ 32) (k : Nat) (hk : k ≤ file.length) :
    Int64s dec (file.take k) := by
  obtain ⟨md, data, N, hlay⟩ := pack_layout h hp hl
  have hlen := hlay.length
  have hnd := hlay.nodes
  have hdec : dec (enc md) = some md := by rw [hlay.meta']; exact hj N data.length (by omega) (by omega)
  have hmt : md.totalSize = data.length := by rw [hlay.meta']
  have htl : (file.take k).length = k := by rw [List.length_take]; omega
  intro h4 m hm
  rw [htl] at h4
  have ht4 : (file.take k).take 4 = file.take 4 := by rw [List.take_take, Nat.min_eq_left (by omega)]
  unfold jsonBlock at hm
  unfold jsonLength at h4 hm
  rw [ht4, hlay.takeLen] at h4 hm
  have : ((file.take k).drop 4).take (enc md).length = enc md := by
    rw [List.drop_take, List.take_take, Nat.min_eq_left (by omega)]
    exact hlay.takeMeta
  rw [this, hdec] at hm
  cases hm
  rw [hmt]; omega

/-- C100 for packed files: whatever the spare capacity, the file opens and every query, before and after any
warm-up, answers as on the slice without spare capacity (so C11 to C18 hold of it). -/
theorem C100_packed {enc : MetaData → Bytes} {dec : Bytes → Option MetaData} {now : Int} {ipd : IpData}
    (h : RowsOK ipd) (hj : MetaRoundTrip enc dec (buildMeta now ipd.version ipd.fields)) (hf : ipd.fields.length < 2 ^ 62) :
    ∃ file, pack enc now ipd = .ok file ∧ (file.length < 2 ^ 32 →
      ∃ q, Ipdb.newQuerier dec file = .ok q ∧ ∀ spare, ∃ q', newQuerier dec ⟨file, spare⟩ = .ok q' ∧
        (∀ a, q'.Query a = q.Query a) ∧
        ∀ ips, ∃ w, q'.BuildCache ips = .ok w ∧ ∀ a, w.Query a = q.Query a) := by
  obtain ⟨file, h1, h2⟩ := C22_packed h hj
  refine ⟨file, h1, fun hl => ?_⟩
  obtain ⟨q, h3, h4⟩ := h2 hl
  obtain ⟨file', h1', h5⟩ := opens h hj
  have : file' = file := by rw [h1] at h1'; exact (Res.ok.inj h1').symm
  subst this
  obtain ⟨r, _, h7, h8⟩ := h5 hl
  have hq : q = ⟨r, []⟩ := by rw [h7] at h3; exact (Res.ok.inj h3).symm
  subst hq
  refine ⟨_, h7, fun spare => ?_⟩
  have hc : ColumnFits r.md := by
    intro off hoff
    rw [h8.langs] at hoff
    cases hoff
    have : r.md.fields.length = ipd.fields.length := by rw [h8.fields_eq]; simp [covertFields]
    omega
  obtain ⟨q', e1, e2, e3⟩ := C100_same_answers (by have := packed_int64 h hj h1 hl file'.length (Nat.le_refl _); rwa [List.take_length] at this) (by omega) h7 hc spare
  refine ⟨q', e1, fun a => e2 a (h4 a), fun ips => ?_⟩
  obtain ⟨w, hw⟩ := C16_build_cache_total (.new h7) (ips := ips) (fun a _ => h4 a)
  obtain ⟨w', hw1, hw2⟩ := e3 ips w hw
  exact ⟨w', hw1, fun a => hw2 a (h4 a)⟩

/-- C100: a cut packed file (as left by a crash) is refused whatever is in the spare capacity; when even the four
length bytes are cut the reader takes the missing ones from the spare capacity (and refuses the file), and
panics only if there are none. -/
theorem C100_cut {enc : MetaData → Bytes} {dec : Bytes → Option MetaData} {now : Int} {ipd : IpData}
    {file : Bytes} (h : RowsOK ipd) (hj : MetaRoundTrip enc dec (buildMeta now ipd.version ipd.fields))
    (hp : pack enc now ipd = .ok file) (hl : file.length < 2 ^ 32) (k : Nat) (hk : k < file.length) (spare : Bytes) :
    newQuerier dec ⟨file.take k, spare⟩ = if k + spare.length < 4 then .panic else .err .fileSize := by
  have htl : (file.take k).length = k := by rw [List.length_take]; omega
  have hb := C19_truncated h hj hp hl k hk
  by_cases hk4 : k < 4
  · unfold newQuerier newReaderFromBytes Buf.slice
    simp only [htl]
    by_cases hs : k + spare.length < 4
    · rw [if_pos hs, if_neg (by omega)]; rfl
    · rw [if_neg hs, if_pos (by omega)]
      simp only [Res.ok_bind]
      rw [if_pos (by omega)]
      rfl
  · rw [if_neg hk4] at hb
    rw [if_neg (by omega)]
    have href := newReader_ref (spare := spare) (packed_int64 h hj hp hl k (by omega)) (by omega)
    unfold Ipdb.newQuerier at hb
    unfold newQuerier
    cases hx : Ipdb.newReaderFromBytes dec (file.take k) with
    | ok r => rw [hx] at hb; cases hb
    | panic => rw [hx] at hb; cases hb
    | err e => rw [hx] at hb; cases hb; rw [href.2 _ hx]; rfl

theorem trieWalk_some {data : Bytes} {nc : Int} (hb : 8 * nc ≤ data.length) : ∀ (p : List Bool) (s d : Nat),
    ∃ x, trieWalk data nc p s d = some x := by
  intro p
  induction p with
  | nil => intro s d; exact ⟨_, rfl⟩
  | cons b p ih =>
    intro s d
    unfold trieWalk
    split
    · exact ⟨_, rfl⟩
    · have : child data s b = some (val ((data.drop (8 * s + 4 * b.toNat)).take 4)) := by
        unfold child
        simp only []
        rw [if_pos]
        cases b <;> simp only [Bool.toNat_false, Bool.toNat_true] <;> omega
      rw [this]
      exact ih _ _

theorem base_query_no_panic {dec : Bytes → Option MetaData} {file : Bytes} {r : Ipdb.Reader}
    (h : Ipdb.newReaderFromBytes dec file = .ok r) (hsane : Sane r.md file) (a : IP) :
    Ipdb.Querier.Query ⟨r, []⟩ a ≠ .panic := by
  obtain ⟨_, _, hdata, _, hnc, hfs, hco, hsize⟩ := newReader_data h
  have hbody : fileBody file = r.data := hdata.symm
  have hbl : 8 * r.nodeCount ≤ r.data.length := by
    have := hsane.table
    rw [hdata, List.length_drop, hnc]; omega
  have hrec := hsane.records
  rw [hbody, ← hnc, ← hfs] at hrec
  have hcnt := hsane.count
  rw [← hnc] at hcnt
  have hoff : ∀ i, r.continentOffset = some i → i < r.md.fields.length := by
    intro i hi
    rw [hco] at hi
    exact (List.getElem?_eq_some_iff.mp (Offset_some hi)).1
  have hdi : ∀ body off mask, mapGet r.md.languages (gs "CN") = some off →
      (r.decodeInfo body off >>= fun values => (.ok (buildInfo r.md.fields values {}, mask) : Res (IpInfo × Nat))) ≠ .panic := by
    intro body off mask ho
    have := decodeInfo_no_panic (r := r) (hsane.column off ho).1 hoff body
    cases hd : r.decodeInfo body off with
    | ok v => simp
    | err e => simp
    | panic => exact absurd hd this
  have key : ∀ ip bc, ((bc = 32 ∧ ip.length = 4 ∧ r.md.HasIPv4 = true) ∨ (bc = 128 ∧ ip.length = 16)) →
      (r.search ip bc >>= fun p => r.resolve p.1 >>= fun b => (.ok (p.1, b, p.2) : Res (Nat × Bytes × Nat))) ≠ .panic := by
    intro ip bc hip
    obtain ⟨path, k, hw⟩ := find0_walk h hip
    obtain ⟨⟨n, e⟩, hx⟩ := trieWalk_some hbl path 0 0
    rw [hw, hx]
    simp only []
    split
    · rename_i hgt
      have hres : r.resolve n ≠ .panic := by
        rcases trieWalk_from _ _ _ _ _ hx with rfl | ⟨i, b, hi, hch⟩
        · omega
        · have := hrec i b n hi hch hgt
          unfold Ipdb.Reader.resolve
          simp only []
          split
          · simp
          · rw [if_neg (by omega)]
            split <;> simp
      simp only [Res.ok_bind]
      cases hr : r.resolve n with
      | panic => exact absurd hr hres
      | ok b => simp
      | err e => simp
    · simp
  have hf : r.find0 a ≠ .panic := by
    unfold Ipdb.Reader.find0
    cases h4 : To4 a with
    | some ip =>
      simp only []
      by_cases hh : r.md.HasIPv4 = true
      · rw [hh]; exact key ip 32 (.inl ⟨rfl, (To4_eq_some h4).2.1, hh⟩)
      · simp only [Bool.not_eq_true] at hh
        rw [hh]; simp
    | none =>
      simp only []
      cases h6 : To16 a with
      | some ip =>
        simp only []
        split
        · simp
        · refine key ip 128 (.inr ⟨rfl, ?_⟩)
          unfold To16 at h6
          split at h6
          · cases h6; rename_i hl4; simp [hl4, v4InV6Prefix]
          · split at h6
            · cases h6; assumption
            · cases h6
      | none => simp
  cases hx : r.find0 a with
  | panic => exact absurd hx hf
  | ok x =>
    obtain ⟨n, b, m⟩ := x
    rw [Query_find0 hx]
    cases hm : mapGet r.md.languages (gs "CN") with
    | none => simp
    | some off => exact hdi _ _ _ hm
  | err e =>
    rw [Query_find0_err hx]
    cases hm : mapGet r.md.languages (gs "CN") with
    | none => simp
    | some off => exact hdi _ _ _ hm

/-- C22: no file whose metadata agrees with it makes the reader crash: not when it is opened, not when it is
warmed up with any addresses, not when any address, of whatever length, is asked for; whatever the spare
capacity of the slice. -/
theorem C22_sane {dec : Bytes → Option MetaData} {file spare : Bytes} (h4 : 4 ≤ file.length + spare.length)
    (hs : file.length < 2 ^ 62) (hd : Int64s dec file) (hsane : ∀ m, dec (jsonBlock file) = some m → Sane m file) :
    newQuerier dec ⟨file, spare⟩ ≠ .panic ∧ ∀ q, newQuerier dec ⟨file, spare⟩ = .ok q →
      (∀ a, q.Query a ≠ .panic) ∧ ∀ ips, ∃ w, q.BuildCache ips = .ok w ∧ ∀ a, w.Query a = q.Query a := by
  by_cases hf4 : file.length < 4
  · have : newQuerier dec ⟨file, spare⟩ = .err .fileSize := by
      unfold newQuerier newReaderFromBytes Buf.slice
      simp only []
      rw [if_pos (by omega)]
      simp only [Res.ok_bind]
      rw [if_pos (by omega)]
      rfl
    rw [this]
    exact ⟨by simp, fun q hq => by cases hq⟩
  · have hbase : Ipdb.newQuerier dec file ≠ .panic := by
      have h1 := C22_open (fun b => if b = jsonBlock file then dec b else none) file (by omega) (by
        intro b m hm
        split at hm
        · rename_i e; subst e; exact (hsane m hm).table
        · cases hm)
      have h2 : Ipdb.newReaderFromBytes (fun b => if b = jsonBlock file then dec b else none) file =
          Ipdb.newReaderFromBytes dec file := by
        unfold Ipdb.newReaderFromBytes
        simp only []
        have : (file.drop 4).take (val (file.take 4)) = jsonBlock file := rfl
        rw [this, if_pos rfl]
      unfold Ipdb.newQuerier at h1 ⊢
      rwa [h2] at h1
    have href := newReader_ref (spare := spare) hd (by omega)
    cases hq : Ipdb.newQuerier dec file with
    | panic => exact absurd hq hbase
    | err e =>
      have : newQuerier dec ⟨file, spare⟩ = .err e := by
        unfold Ipdb.newQuerier at hq
        unfold newQuerier
        cases hx : Ipdb.newReaderFromBytes dec file with
        | ok r => rw [hx] at hq; cases hq
        | panic => rw [hx] at hq; cases hq
        | err e' => rw [hx] at hq; cases hq; rw [href.2 _ hx]; rfl
      rw [this]
      exact ⟨by simp, fun q hq => by cases hq⟩
    | ok q =>
      have hr : Ipdb.newReaderFromBytes dec file = .ok q.r ∧ q = ⟨q.r, []⟩ := by
        unfold Ipdb.newQuerier at hq
        simp only [Res.bind_eq_ok, Res.pure_eq, Res.ok.injEq] at hq
        obtain ⟨r, h1, rfl⟩ := hq
        exact ⟨h1, rfl⟩
      have hsm := hsane _ (newReader_data hr.1).2.2.2.1
      have hnp : ∀ a, q.Query a ≠ .panic := by rw [hr.2]; exact base_query_no_panic hr.1 hsm
      obtain ⟨q', e1, e2, e3⟩ := C100_same_answers hd hs hq (fun off ho => by
        have := hsm.column off ho; omega) spare
      rw [e1]
      refine ⟨by simp, fun q2 hq2 => ?_⟩
      cases hq2
      refine ⟨fun a => by rw [e2 a (hnp a)]; exact hnp a, fun ips => ?_⟩
      obtain ⟨w, hw⟩ := C16_build_cache_total (.new hq) (ips := ips) (fun a _ => hnp a)
      obtain ⟨w', hw1, hw2⟩ := e3 ips w hw
      exact ⟨w', hw1, fun a => by rw [hw2 a (hnp a), e2 a (hnp a)]⟩

/-- C22: a file of less than four bytes, read with `os.ReadFile`, is refused (the missing length bytes are read
from the spare capacity). -/
theorem C22_short_file (dec : Bytes → Option MetaData) (file : Bytes) (h : file.length < 4) :
    newQuerier dec (readFile file) = .err .fileSize := by
  unfold newQuerier newReaderFromBytes Buf.slice readFile
  simp only []
  rw [if_pos (by rw [List.length_replicate]; omega)]
  simp only [Res.ok_bind]
  rw [if_pos (by omega)]
  rfl

/-- The file with this metadata and body. -/
def fileOf (m : MetaData) (body : Bytes) : Bytes := intToBE32 (encMeta m).length ++ encMeta m ++ body

/-- Metadata of an IPv6 database with one node. -/
def smallMeta : MetaData :=
  { build := 0, ipVersion := 2, languages := [(gs "CN", 0)], nodeCount := 1, totalSize := 8,
    fields := [gs "country_name"], version := [], extra := [] }

/-- A file that is opened, and then crashes when the address is asked for. -/
def CrashesOn (file : Bytes) (a : IP) : Prop :=
  ∃ q, newQuerier decMeta (readFile file) = .ok q ∧ q.Query a = .panic

private theorem crashes_of {file : Bytes} {a : IP} (h : (match newQuerier decMeta (readFile file) with
    | .ok q => decide (q.Query a = .panic)
    | _ => false) = true) : CrashesOn file a := by
  cases hq : newQuerier decMeta (readFile file) with
  | ok q => rw [hq] at h; exact ⟨q, hq, by simpa using h⟩
  | err e => rw [hq] at h; cases h
  | panic => rw [hq] at h; cases h

/-- C22 is false in general, also of files read with `os.ReadFile`; each condition of `C22_sane` is needed: a
node table larger than the body makes opening (an IPv4 database) or asking (an IPv6 one) crash; a negative node
count, a negative column and a record at the very end of the body make asking crash. -/
theorem C22_crashes :
    newQuerier decMeta (readFile (fileOf { smallMeta with ipVersion := 1, nodeCount := 200 } [0, 0, 0, 150, 0, 0, 0, 150])) = .panic ∧
    CrashesOn (fileOf { smallMeta with nodeCount := 200 } [0, 0, 0, 150, 0, 0, 0, 150]) (List.replicate 16 1) ∧
    CrashesOn (fileOf { smallMeta with nodeCount := -1, totalSize := 0 } []) (List.replicate 16 1) ∧
    CrashesOn (fileOf { smallMeta with languages := [(gs "CN", -1)] } [0, 0, 0, 1, 0, 0, 0, 1]) (List.replicate 16 1) ∧
    CrashesOn (fileOf { smallMeta with version := List.replicate 500 97 } [0, 0, 0, 2, 0, 0, 0, 2]) (List.replicate 16 1) := by
  refine ⟨by decide +kernel, crashes_of (by decide +kernel), crashes_of (by decide +kernel), crashes_of (by decide +kernel),
    crashes_of (by decide +kernel)⟩

/-- A file that meets the hypotheses of `C22_sane` (and is opened): one node, one record. -/
example : ∃ file, 4 ≤ file.length ∧ file.length < 2 ^ 62 ∧ Int64s decMeta file ∧
    (∀ m, decMeta (jsonBlock file) = some m → Sane m file) ∧
    ∃ q, newQuerier decMeta (readFile file) = .ok q ∧ q.Query (List.replicate 16 255) = .ok ({ country := gs "CN" }, 1) := by
  refine ⟨fileOf { smallMeta with totalSize := 13 } [0, 0, 0, 1, 0, 0, 0, 2, 0, 0, 2, 67, 78], by decide +kernel, by decide +kernel, ?_, ?_, ?_⟩
  · intro _ m hm
    have e : decMeta (jsonBlock (fileOf { smallMeta with totalSize := 13 } [0, 0, 0, 1, 0, 0, 0, 2, 0, 0, 2, 67, 78])) =
      some { smallMeta with totalSize := 13 } := by decide +kernel
    rw [e] at hm
    cases hm
    decide
  · intro m hm
    have e : decMeta (jsonBlock (fileOf { smallMeta with totalSize := 13 } [0, 0, 0, 1, 0, 0, 0, 2, 0, 0, 2, 67, 78])) =
      some { smallMeta with totalSize := 13 } := by decide +kernel
    rw [e] at hm
    cases hm
    have eb : fileBody (fileOf { smallMeta with totalSize := 13 } [0, 0, 0, 1, 0, 0, 0, 2, 0, 0, 2, 67, 78]) =
      [0, 0, 0, 1, 0, 0, 0, 2, 0, 0, 2, 67, 78] := by decide +kernel
    refine ⟨by decide, by decide, ?_, ?_⟩
    · intro off ho
      have e2 : mapGet smallMeta.languages (gs "CN") = some 0 := by decide +kernel
      have : some 0 = some off := by rw [← e2]; exact ho
      cases this
      decide
    · rw [eb]
      intro i b v hi hv hgt
      have hi0 : i = 0 := by have : (i : Int) < 1 := hi; omega
      subst hi0
      left
      have h1 : child [0, 0, 0, 1, 0, 0, 0, 2, 0, 0, 2, 67, 78] 0 false = some 1 := by decide
      have h2 : child [0, 0, 0, 1, 0, 0, 0, 2, 0, 0, 2, 67, 78] 0 true = some 2 := by decide
      cases b
      · rw [h1] at hv; cases hv; exact absurd hgt (by decide)
      · rw [h2] at hv; cases hv; decide
  · have h : (match newQuerier decMeta (readFile (fileOf { smallMeta with totalSize := 13 } [0, 0, 0, 1, 0, 0, 0, 2, 0, 0, 2, 67, 78])) with
      | .ok q => decide (q.Query (List.replicate 16 255) = .ok ({ country := gs "CN" }, 1))
      | _ => false) = true := by decide +kernel
    cases hq : newQuerier decMeta (readFile (fileOf { smallMeta with totalSize := 13 } [0, 0, 0, 1, 0, 0, 0, 2, 0, 0, 2, 67, 78])) with
    | ok q => rw [hq] at h; exact ⟨q, rfl, by simpa using h⟩
    | err e => rw [hq] at h; cases h
    | panic => rw [hq] at h; cases h

/-- `C100_packed` and `C100_cut` are met by the demo table. -/
example : RowsOK demo ∧ demo.fields.length < 2 ^ 62 ∧
    MetaRoundTrip encMeta decMeta (buildMeta 0 demo.version demo.fields) ∧ ∃ b, pack encMeta 0 demo = .ok b :=
  ⟨by decide +kernel, by decide, fun _ _ _ _ => dec_encMeta _, by
    obtain ⟨b, h, _⟩ := opens (enc := encMeta) (dec := decMeta) (now := 0) (ipd := demo) (by decide +kernel) (fun _ _ _ _ => dec_encMeta _)
    exact ⟨b, h⟩⟩

end Uip.Ipdb.Exact
