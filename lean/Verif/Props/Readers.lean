import Verif.Props.Ipdb
import Verif.Proof.Ipdb.ReaderEnd
/-!
# Properties C60-C61, C68-C70: the Java and Rust readers on packed files

Vocabulary: `Verif/Spec/{Table,Info,Readers}.lean`.  `dec` is the JSON library of the reader (Gson,
serde_json), with the hypothesis that the metadata Go wrote comes back (`MetaRoundTripInt`: node count and size
fit a signed 32-bit number); `utf8` is the decoding of bytes to text and back, the identity on texts.  Files
are below 2 GiB, the limit of signed 32-bit sizes.
-/
namespace Uip.Ipdb
open Uip Uip.Spec

/-- As `MetaRoundTrip`, for counts that fit a signed 32-bit number. -/
def MetaRoundTripInt (enc : MetaData → Bytes) (dec : Bytes → Option MetaData) (md : MetaData) : Prop :=
  ∀ N S : Nat, N < 2 ^ 31 → S < 2 ^ 31 →
    dec (enc { md with nodeCount := N, totalSize := S }) = some { md with nodeCount := N, totalSize := S }

/-- Bytes to text and back is the identity on texts. -/
def KeepsTexts (utf8 : Bytes → Str) : Prop := ∀ s : String, utf8 (gs s) = gs s

section
variable {enc : MetaData → Bytes} {dec decJ : Bytes → Option MetaData} {utf8 : Bytes → Str} {now : Int} {ipd : IpData}
  {bytes : Bytes}

theorem layout_dec {md data N} (hj : MetaRoundTripInt enc decJ (buildMeta now ipd.version ipd.fields))
    (h : Layout enc now ipd bytes md data N) (hl : bytes.length < 2 ^ 31) : decJ (enc md) = some md := by
  have hlen := h.length
  have hnd := h.nodes
  rw [h.meta']
  exact hj N data.length (by omega) (by omega)

theorem java_create (h : RowsOK ipd) (hj : MetaRoundTripInt enc decJ (buildMeta now ipd.version ipd.fields))
    (hp : pack enc now ipd = .ok bytes) (hl : bytes.length < 2 ^ 31) (ips : List Bytes) :
    ∃ md data N r, Layout enc now ipd bytes md data N ∧ JOpen ipd bytes md data N r ∧ r.resultCache = none ∧
      ∃ q, Java.create decJ utf8 ips bytes = .ok q ∧ ∀ a, Java.query utf8 q a = Java.query utf8 r a := by
  obtain ⟨md, data, N, hlay⟩ := pack_layout h hp (by omega)
  obtain ⟨r, hr, h1, h2, h3, h4, h5⟩ := java_open hlay (layout_dec hj hlay hl) hl
  refine ⟨md, data, N, r, hlay, ⟨h1, h2, h3, h5⟩, h4, ?_⟩
  unfold Java.create
  rw [hr, Res.ok_bind]
  split
  · exact ⟨_, rfl, fun a => java_cached utf8 r h4 ips a⟩
  · exact ⟨_, rfl, fun a => rfl⟩

theorem rust_create (h : RowsOK ipd) (hj : MetaRoundTripInt enc decJ (buildMeta now ipd.version ipd.fields))
    (hp : pack enc now ipd = .ok bytes) (hl : bytes.length < 2 ^ 31) :
    ∃ md data N r, Layout enc now ipd bytes md data N ∧ ROpen ipd bytes md data N r ∧ Rust.Reader decJ bytes = .ok r := by
  obtain ⟨md, data, N, hlay⟩ := pack_layout h hp (by omega)
  obtain ⟨r, hr, h1, h2, h3, h4, h5, _⟩ := rust_open hlay (layout_dec hj hlay hl) hl
  exact ⟨md, data, N, r, hlay, ⟨h1, h2, h3, h4, by rw [h2]; exact h5⟩, hr⟩

/-! ## C68: what the Java reader answers -/

/-- C68: a packed file below 2 GiB opens in the Java reader, whatever addresses its cache is warmed with, and
every address of an accepted length covered by a kept row gets exactly the attributes of that row: null where
there is no column, the continent spelled out, the line from the last column named asn or line. -/
theorem C68_java_answer (h : RowsOK ipd) (hval : ValuesOK ipd) (htx : TextValues ipd)
    (hj : MetaRoundTripInt enc decJ (buildMeta now ipd.version ipd.fields)) (hu : KeepsTexts utf8)
    (hp : pack enc now ipd = .ok bytes) (hl : bytes.length < 2 ^ 31) (ips : List Bytes) :
    ∃ q, Java.create decJ utf8 ips bytes = .ok q ∧
      ∀ a m, TakesLen ipd.version a → rowOf (keptRows (rowsOf ipd)) (addrNum a) = some m →
        Java.query utf8 q a = .ok (javaInfo ipd.fields m.2) := by
  obtain ⟨md, data, N, r, hlay, hr, hc, q, hq, hqe⟩ := java_create (utf8 := utf8) h hj hp hl ips
  refine ⟨q, hq, fun a m ha hm => ?_⟩
  rw [hqe a]
  exact java_covered h hval htx hlay hr hc hu ha hm

/-- C68: an address of a family the file does not hold, or of a wrong length, is an error. -/
theorem C68_java_rejects (h : RowsOK ipd)
    (hj : MetaRoundTripInt enc decJ (buildMeta now ipd.version ipd.fields))
    (hp : pack enc now ipd = .ok bytes) (hl : bytes.length < 2 ^ 31) (ips : List Bytes) :
    ∃ q, Java.create decJ utf8 ips bytes = .ok q ∧
      ∀ a, ¬ TakesLen ipd.version a → Java.query utf8 q a =
        .err (if a.length = 16 then .noSupportIPv6 else if a.length = 4 then .noSupportIPv4 else .ipFormat) := by
  obtain ⟨md, data, N, r, hlay, hr, hc, q, hq, hqe⟩ := java_create (utf8 := utf8) h hj hp hl ips
  refine ⟨q, hq, fun a ha => ?_⟩
  rw [hqe a]
  exact java_query_err utf8 (java_find0_err hlay hr ha)

/-- C68: the warm-up cache of the Java reader changes no answer, on any file and for any warm-up list. -/
theorem C68_java_cache_transparent (dec : Bytes → Option MetaData) (utf8 : Bytes → Str) (ips : List Bytes) (file : Bytes)
    (r q : Java.JReader) (hr : Java.Reader dec file = .ok r) (hq : Java.create dec utf8 ips file = .ok q) (a : Bytes) :
    Java.query utf8 q a = Java.query utf8 r a := by
  have hc : r.resultCache = none := by
    unfold Java.Reader at hr
    simp only [] at hr
    split at hr
    · cases hr
    · split at hr
      · split at hr
        · cases hr
        · split at hr
          · cases hr
          · obtain ⟨body, _, hr⟩ := Res.bind_eq_ok.mp hr
            split at hr
            · obtain ⟨_, _, hr⟩ := Res.bind_eq_ok.mp hr
              obtain ⟨_, _, hr⟩ := Res.bind_eq_ok.mp hr
              rw [← Res.ok.inj hr]
            · rw [← Res.ok.inj hr]
      · cases hr
  unfold Java.create at hq
  rw [hr, Res.ok_bind] at hq
  split at hq
  · rw [← Res.ok.inj hq]; exact java_cached utf8 r hc ips a
  · rw [← Res.ok.inj hq]

/-! ## C69: what the Rust reader answers -/

/-- C69: a packed file below 2 GiB opens in the Rust reader, and every address of an accepted length covered by
a kept row gets exactly the attributes of that row, the continent only if it is stored as a code. -/
theorem C69_rust_answer (h : RowsOK ipd) (hval : ValuesOK ipd) (htx : TextValues ipd)
    (hj : MetaRoundTripInt enc decJ (buildMeta now ipd.version ipd.fields)) (hu : KeepsTexts utf8)
    (hp : pack enc now ipd = .ok bytes) (hl : bytes.length < 2 ^ 31) :
    ∃ q, Rust.Reader decJ bytes = .ok q ∧
      ∀ a m, TakesLen ipd.version a → rowOf (keptRows (rowsOf ipd)) (addrNum a) = some m →
        Rust.query utf8 q a = .ok (rustInfo ipd.fields m.2) := by
  obtain ⟨md, data, N, r, hlay, hr, hq⟩ := rust_create h hj hp hl
  exact ⟨r, hq, fun a m ha hm => rust_covered h hval htx hlay hr hl hu ha hm⟩

/-- C69: an address of a family the file does not hold, or of a wrong length, is an error. -/
theorem C69_rust_rejects (h : RowsOK ipd)
    (hj : MetaRoundTripInt enc decJ (buildMeta now ipd.version ipd.fields))
    (hp : pack enc now ipd = .ok bytes) (hl : bytes.length < 2 ^ 31) :
    ∃ q, Rust.Reader decJ bytes = .ok q ∧
      ∀ a, ¬ TakesLen ipd.version a → Rust.query utf8 q a =
        .err (if a.length = 16 then .noSupportIPv6 else if a.length = 4 then .noSupportIPv4 else .ipFormat) := by
  obtain ⟨md, data, N, r, hlay, hr, hq⟩ := rust_create h hj hp hl
  refine ⟨r, hq, fun a ha => ?_⟩
  unfold Rust.query
  rw [rust_find0_err hlay hr.md ha]; rfl

/-- C69: asking for a 32-bit integer is asking for the four bytes it stands for. -/
theorem C69_rust_u32 (utf8 : Bytes → Str) (r : Rust.RReader) (b0 b1 b2 b3 : UInt8) :
    Rust.queryU32 utf8 r (UInt32.ofNat (addrNum [b0, b1, b2, b3] % 2 ^ 32)) = Rust.query utf8 r [b0, b1, b2, b3] := by
  have hn : addrNum [b0, b1, b2, b3] % 2 ^ 32 = b0.toNat * 2 ^ 24 + b1.toNat * 2 ^ 16 + b2.toNat * 2 ^ 8 + b3.toNat := by
    have h0 := b0.toNat_lt; have h1 := b1.toNat_lt; have h2 := b2.toNat_lt; have h3 := b3.toNat_lt
    rw [addrNum_4 (by rfl)]
    simp only [val, List.length_cons, List.length_nil, Nat.reduceAdd, Nat.reducePow]
    omega
  rw [hn]
  have h0 := b0.toNat_lt; have h1 := b1.toNat_lt; have h2 := b2.toNat_lt; have h3 := b3.toNat_lt
  unfold Rust.queryU32
  congr 1
  have e : (UInt32.ofNat (b0.toNat * 2 ^ 24 + b1.toNat * 2 ^ 16 + b2.toNat * 2 ^ 8 + b3.toNat)).toNat =
      b0.toNat * 2 ^ 24 + b1.toNat * 2 ^ 16 + b2.toNat * 2 ^ 8 + b3.toNat := by
    rw [UInt32.toNat_ofNat']; omega
  congr 1
  · apply UInt8.toNat_inj.mp
    rw [UInt32.toNat_toUInt8, UInt32.toNat_shiftRight, e, show UInt32.toNat 24 % 32 = 24 from rfl, Nat.shiftRight_eq_div_pow]; omega
  congr 1
  · apply UInt8.toNat_inj.mp
    rw [UInt32.toNat_toUInt8, UInt32.toNat_shiftRight, e, show UInt32.toNat 16 % 32 = 16 from rfl, Nat.shiftRight_eq_div_pow]; omega
  congr 1
  · apply UInt8.toNat_inj.mp
    rw [UInt32.toNat_toUInt8, UInt32.toNat_shiftRight, e, show UInt32.toNat 8 % 32 = 8 from rfl, Nat.shiftRight_eq_div_pow]; omega
  congr 1
  apply UInt8.toNat_inj.mp
  rw [UInt32.toNat_toUInt8, e]; omega

/-! ## C60, C61: agreement with the Go reader -/

/-- C60: the Java and the Go reader agree on every covered address that both accept, in every attribute but
the line; the line too when the last of the asn and line columns is a line column or there is none.
(Without this the claim is false: `C60_java_line_is_asn`.) -/
theorem C60_java_agrees (h : RowsOK ipd) (hval : ValuesOK ipd) (htx : TextValues ipd)
    (hg : MetaRoundTrip enc dec (buildMeta now ipd.version ipd.fields))
    (hj : MetaRoundTripInt enc decJ (buildMeta now ipd.version ipd.fields)) (hu : KeepsTexts utf8)
    (hp : pack enc now ipd = .ok bytes) (hl : bytes.length < 2 ^ 31) (ips : List Bytes) :
    ∃ g q, newQuerier dec bytes = .ok g ∧ Java.create decJ utf8 ips bytes = .ok q ∧
      ∀ a m, TakesLen ipd.version a → Supports ipd.version a → rowOf (keptRows (rowsOf ipd)) (addrNum a) = some m →
        ∃ go mask ja, g.Query a = .ok (go, mask) ∧ Java.query utf8 q a = .ok ja ∧
          { javaTexts ja with line := go.line } = go ∧
          (attr (asnNames ++ lineNames) ipd.fields m.2 = attr lineNames ipd.fields m.2 → javaTexts ja = go) := by
  obtain ⟨q, hq, hans⟩ := C68_java_answer h hval htx hj hu hp hl ips
  obtain ⟨bytes', hp', hgo⟩ := C14_overlapping_rows h hval hg
  rw [hp] at hp'; cases hp'
  obtain ⟨g, hg1, hg2⟩ := hgo (by omega)
  refine ⟨g, q, hg1, hq, fun a m ha hs hm => ?_⟩
  have hv : ValidIP a := by rcases ha with ⟨h, _⟩ | ⟨h, _⟩; exact .inl h; exact .inr h
  have h1 := hg2 a hv hs
  rw [hm] at h1
  have hcont : ((attr? continentNames ipd.fields m.2).map spellContinent).getD [] =
      spellContinent (attr continentNames ipd.fields m.2) := by
    rw [attr_eq_attr?]
    cases attr? continentNames ipd.fields m.2 with
    | none => show [] = spellContinent []; decide
    | some v => rfl
  refine ⟨_, _, _, h1, hans a m ha hm, ?_, ?_⟩
  · unfold javaTexts javaInfo infoOf
    simp only [hcont, attr_eq_attr?]
  · intro hline
    unfold javaTexts javaInfo infoOf
    simp only [hcont, attr_eq_attr?] at hline ⊢
    rw [hline]

/-- C61: the Rust and the Go reader agree on every covered address that both accept when the stored continent
is a code, or empty.  (Without this the claim is false: `C61_rust_loses_continent`.) -/
theorem C61_rust_agrees (h : RowsOK ipd) (hval : ValuesOK ipd) (htx : TextValues ipd)
    (hg : MetaRoundTrip enc dec (buildMeta now ipd.version ipd.fields))
    (hj : MetaRoundTripInt enc decJ (buildMeta now ipd.version ipd.fields)) (hu : KeepsTexts utf8)
    (hp : pack enc now ipd = .ok bytes) (hl : bytes.length < 2 ^ 31) :
    ∃ g q, newQuerier dec bytes = .ok g ∧ Rust.Reader decJ bytes = .ok q ∧
      ∀ a m, TakesLen ipd.version a → Supports ipd.version a → rowOf (keptRows (rowsOf ipd)) (addrNum a) = some m →
        ∃ go mask ru, g.Query a = .ok (go, mask) ∧ Rust.query utf8 q a = .ok ru ∧
          { ru with continent := go.continent } = go ∧
          (attr continentNames ipd.fields m.2 ∈ [] :: continentTable.map (·.1) → ru = go) := by
  obtain ⟨q, hq, hans⟩ := C69_rust_answer h hval htx hj hu hp hl
  obtain ⟨bytes', hp', hgo⟩ := C14_overlapping_rows h hval hg
  rw [hp] at hp'; cases hp'
  obtain ⟨g, hg1, hg2⟩ := hgo (by omega)
  refine ⟨g, q, hg1, hq, fun a m ha hs hm => ?_⟩
  have hv : ValidIP a := by rcases ha with ⟨h, _⟩ | ⟨h, _⟩; exact .inl h; exact .inr h
  have h1 := hg2 a hv hs
  rw [hm] at h1
  refine ⟨_, _, _, h1, hans a m ha hm, rfl, fun hc => ?_⟩
  unfold rustInfo infoOf
  simp only [IpInfo.mk.injEq, true_and, and_true]
  unfold spellCode spellContinent
  have : ∀ v ∈ ([] : Str) :: continentTable.map (·.1),
      (match continentTable.find? (fun p => decide (p.1 = v)) with | some p => p.2 | none => []) =
      (match continentTable.find? (fun p => decide (p.1 = v)) with | some p => p.2 | none => v) := by decide
  exact this _ hc

/-! ## C70: addresses without a row -/

/-- C70: in a small file (below 512 KiB) the Java reader never reports an address without a row as missing: it
answers with empty attributes, or throws an unchecked exception if a column after the first is the continent. -/
theorem C70_java_uncovered (h : RowsOK ipd)
    (hj : MetaRoundTripInt enc decJ (buildMeta now ipd.version ipd.fields)) (hu : KeepsTexts utf8)
    (hp : pack enc now ipd = .ok bytes) (hl : bytes.length < 2 ^ 19) (ips : List Bytes) :
    ∃ q, Java.create decJ utf8 ips bytes = .ok q ∧
      ∀ a, TakesLen ipd.version a → rowOf (keptRows (rowsOf ipd)) (addrNum a) = none →
        ((∃ f ∈ ipd.fields.tail, f ∈ continentNames) → Java.query utf8 q a = .panic) ∧
        ((∀ f ∈ ipd.fields.tail, f ∉ continentNames) → ∃ i, Java.query utf8 q a = .ok i ∧ javaTexts i = {}) := by
  obtain ⟨md, data, N, r, hlay, hr, hc, q, hq, hqe⟩ := java_create (utf8 := utf8) h hj hp (by omega) ips
  refine ⟨q, hq, fun a ha hm => ?_⟩
  have := hlay.length
  have := hlay.nodes
  rw [hqe a]
  exact java_uncovered h.fields hlay hr hc hu ha hm (by omega)

/-- C70: in a small file (below 512 KiB) the Rust reader panics on an address without a row if a column after the
first has a name it knows, and answers with empty attributes otherwise. -/
theorem C70_rust_uncovered (h : RowsOK ipd)
    (hj : MetaRoundTripInt enc decJ (buildMeta now ipd.version ipd.fields)) (hu : KeepsTexts utf8)
    (hp : pack enc now ipd = .ok bytes) (hl : bytes.length < 2 ^ 19) :
    ∃ q, Rust.Reader decJ bytes = .ok q ∧
      ∀ a, TakesLen ipd.version a → rowOf (keptRows (rowsOf ipd)) (addrNum a) = none →
        ((∃ f ∈ ipd.fields.tail, f ∈ countryNames ++ provinceNames ++ cityNames ++ ispNames ++ asnNames ++ lineNames ++
            districtNames ++ continentNames) → Rust.query utf8 q a = .panic) ∧
        ((∀ f ∈ ipd.fields.tail, f ∉ countryNames ++ provinceNames ++ cityNames ++ ispNames ++ asnNames ++ lineNames ++
            districtNames ++ continentNames) → Rust.query utf8 q a = .ok {}) := by
  obtain ⟨md, data, N, r, hlay, hr, hq⟩ := rust_create h hj hp (by omega)
  refine ⟨r, hq, fun a ha hm => ?_⟩
  have := hlay.length
  have := hlay.nodes
  exact rust_uncovered h.fields hlay hr (by omega) hu ha hm (by omega)

end

/-! ## Examples -/

theorem demo_size19 : packedSize demo < 2 ^ 19 := by decide +kernel

theorem demo_texts : TextValues demo := by
  intro r hr v hv
  simp only [demo, List.mem_cons, List.not_mem_nil, or_false] at hr
  rcases hr with rfl | rfl | rfl <;>
    (simp only [List.mem_cons, List.not_mem_nil, or_false] at hv
     rcases hv with rfl | rfl | rfl | rfl <;> exact ⟨_, rfl⟩)

theorem demo_packed : ∃ bytes, pack encMeta 0 demo = .ok bytes ∧ bytes.length < 2 ^ 19 := by
  obtain ⟨bytes, h1, _⟩ := opens (enc := encMeta) (dec := decMeta) (now := 0) (ipd := demo) (by decide +kernel) (fun _ _ _ _ => dec_encMeta _)
  refine ⟨bytes, h1, ?_⟩
  have := demo_size19
  unfold packedSize at this; rw [h1] at this; exact this

/-- C60 is false in general: 1.2.3.4 of `demo` has no line, the Java reader answers with its AS number. -/
theorem C60_java_line_is_asn : ∃ bytes g q, pack encMeta 0 demo = .ok bytes ∧ newQuerier decMeta bytes = .ok g ∧
    Java.create decMeta id [[1, 1, 1, 1]] bytes = .ok q ∧
    ∃ go mask ja, g.Query [1, 2, 3, 4] = .ok (go, mask) ∧ go.line = [] ∧
      Java.query id q [1, 2, 3, 4] = .ok ja ∧ ja.line = some (gs "4134") ∧ ja.country = some (gs "中国") ∧ ja.district = none := by
  obtain ⟨bytes, hp, hl⟩ := demo_packed
  have hm : rowOf (keptRows (rowsOf demo)) (addrNum [1, 2, 3, 4]) =
      some (⟨[1, 0, 0, 0], [255, 0, 0, 0]⟩, [gs "中国", gs "亚洲", gs "北京", gs "4134"]) := by decide +kernel
  obtain ⟨g, q, h1, h2, h3⟩ := C60_java_agrees (utf8 := id) (dec := decMeta) (decJ := decMeta) (by decide +kernel)
    (by decide +kernel) demo_texts (fun _ _ _ _ => dec_encMeta _) (fun _ _ _ _ => dec_encMeta _) (fun _ => rfl) hp (by omega) [[1, 1, 1, 1]]
  obtain ⟨q', h2', hans⟩ := C68_java_answer (utf8 := id) (decJ := decMeta) (by decide +kernel)
    (by decide +kernel) demo_texts (fun _ _ _ _ => dec_encMeta _) (fun _ => rfl) hp (by omega) [[1, 1, 1, 1]]
  rw [h2] at h2'; cases h2'
  obtain ⟨bytes', hp', hgo⟩ := C14_overlapping_rows (enc := encMeta) (dec := decMeta) (now := 0) (ipd := demo) (by decide +kernel)
    (by decide +kernel) (fun _ _ _ _ => dec_encMeta _)
  rw [hp] at hp'; cases hp'
  obtain ⟨g', hg1, hg2⟩ := hgo (by omega)
  rw [h1] at hg1; cases hg1
  have hg3 := hg2 [1, 2, 3, 4] (by decide) (by decide)
  rw [hm] at hg3
  have hj3 := hans [1, 2, 3, 4] _ (by decide) hm
  exact ⟨bytes, g, q, hp, h1, h2, _, _, _, hg3, by decide +kernel, hj3, by decide +kernel, by decide +kernel, by decide +kernel⟩

/-- C61 is false in general: the continent of 1.2.3.4 in `demo` is written out, the Rust reader answers with none;
the continent of 2.0.0.1 is a code, which it spells out. -/
theorem C61_rust_loses_continent : ∃ bytes g q, pack encMeta 0 demo = .ok bytes ∧ newQuerier decMeta bytes = .ok g ∧
    Rust.Reader decMeta bytes = .ok q ∧
    (∃ go mask ru, g.Query [1, 2, 3, 4] = .ok (go, mask) ∧ go.continent = gs "亚洲" ∧
      Rust.query id q [1, 2, 3, 4] = .ok ru ∧ ru.continent = [] ∧ ru.country = gs "中国" ∧ ru.asn = gs "4134") ∧
    (∃ ru, Rust.query id q [2, 0, 0, 1] = .ok ru ∧ ru.continent = gs "欧洲") := by
  obtain ⟨bytes, hp, hl⟩ := demo_packed
  have hm : rowOf (keptRows (rowsOf demo)) (addrNum [1, 2, 3, 4]) =
      some (⟨[1, 0, 0, 0], [255, 0, 0, 0]⟩, [gs "中国", gs "亚洲", gs "北京", gs "4134"]) := by decide +kernel
  have hm2 : rowOf (keptRows (rowsOf demo)) (addrNum [2, 0, 0, 1]) =
      some (⟨[2, 0, 0, 0], [255, 255, 0, 0]⟩, [gs "法国", gs "EU", gs "", gs "3215"]) := by decide +kernel
  obtain ⟨q, h2, hans⟩ := C69_rust_answer (utf8 := id) (decJ := decMeta) (by decide +kernel)
    (by decide +kernel) demo_texts (fun _ _ _ _ => dec_encMeta _) (fun _ => rfl) hp (by omega)
  obtain ⟨bytes', hp', hgo⟩ := C14_overlapping_rows (enc := encMeta) (dec := decMeta) (now := 0) (ipd := demo) (by decide +kernel)
    (by decide +kernel) (fun _ _ _ _ => dec_encMeta _)
  rw [hp] at hp'; cases hp'
  obtain ⟨g, hg1, hg2⟩ := hgo (by omega)
  have hg3 := hg2 [1, 2, 3, 4] (by decide) (by decide)
  rw [hm] at hg3
  exact ⟨bytes, g, q, hp, hg1, h2, ⟨_, _, _, hg3, by decide +kernel, hans [1, 2, 3, 4] _ (by decide) hm, by decide +kernel,
    by decide +kernel, by decide +kernel⟩, ⟨_, hans [2, 0, 0, 1] _ (by decide) hm2, by decide +kernel⟩⟩

/-- C61 holds of `demo` at 2.0.0.1, C60 wherever there is a line column. -/
example : attr continentNames demo.fields [gs "法国", gs "EU", gs "", gs "3215"] ∈ [] :: continentTable.map (·.1) := by decide +kernel
example : attr (asnNames ++ lineNames) [gs "asn", gs "line"] [gs "4134", gs "telecom"] =
    attr lineNames [gs "asn", gs "line"] [gs "4134", gs "telecom"] := by decide +kernel

/-- C70 on `demo`: 9.9.9.9 has no row. -/
example : ∃ bytes q, pack encMeta 0 demo = .ok bytes ∧ Java.create decMeta id [] bytes = .ok q ∧
    Java.query id q [9, 9, 9, 9] = .panic := by
  obtain ⟨bytes, hp, hl⟩ := demo_packed
  obtain ⟨q, h1, h2⟩ := C70_java_uncovered (utf8 := id) (decJ := decMeta) (by decide +kernel) (fun _ _ _ _ => dec_encMeta _)
    (fun _ => rfl) hp hl []
  exact ⟨bytes, q, hp, h1, (h2 [9, 9, 9, 9] (by decide) (by decide +kernel)).1 (by decide +kernel)⟩

/-! ## C71: versions -/

/-- C71: both readers report the family, build time and extra information that were packed; the Java reader the
version, or a text made of the build time if it is empty, the Rust reader the version as it is. -/
theorem C71_versions {enc : MetaData → Bytes} {decJ : Bytes → Option MetaData} {utf8 : Bytes → Str} {now : Int} {ipd : IpData}
    {bytes : Bytes} (h : RowsOK ipd) (hj : MetaRoundTripInt enc decJ (buildMeta now ipd.version ipd.fields))
    (hp : pack enc now ipd = .ok bytes) (hl : bytes.length < 2 ^ 31) (ips : List Bytes) (dec10 : Int → Str) :
    ∃ j r, Java.create decJ utf8 ips bytes = .ok j ∧ Rust.Reader decJ bytes = .ok r ∧
      (ipd.version.ipType ∈ [IpV4, IpV6, IpAll] →
        (Java.version dec10 j).ipType = ipd.version.ipType ∧ (Rust.version r).ipType = ipd.version.ipType) ∧
      (Java.version dec10 j).extraInfo = ipd.version.extraInfo ∧ (Rust.version r).extraInfo = ipd.version.extraInfo ∧
      (Java.version dec10 j).build = now ∧ (Rust.version r).build = now ∧
      (Java.version dec10 j).languages = [gs "CN"] ∧ (Rust.version r).languages = [gs "CN"] ∧
      (Java.version dec10 j).version = (if ipd.version.version = [] then gs "ipip.net-" ++ dec10 now else ipd.version.version) ∧
      (Rust.version r).version = ipd.version.version ∧
      (Java.hasIpV4 (Java.version dec10 j) = true ↔ ipd.version.ipType ≠ IpV6) ∧
      (Java.hasIpV6 (Java.version dec10 j) = true ↔ ipd.version.ipType ≠ IpV4) ∧
      (Rust.has_ipv4 (Rust.version r) = true ↔ ipd.version.ipType ≠ IpV6) ∧
      (Rust.has_ipv6 (Rust.version r) = true ↔ ipd.version.ipType ≠ IpV4) := by
  obtain ⟨md, data, N, hlay⟩ := pack_layout h hp (by omega)
  obtain ⟨j, hjr, h1, _⟩ := java_open hlay (layout_dec hj hlay hl) hl
  obtain ⟨r, hr, g1, _⟩ := rust_open hlay (layout_dec hj hlay hl) hl
  have hmd : md = { buildMeta now ipd.version ipd.fields with nodeCount := N, totalSize := (data.length : Nat) } := hlay.meta'
  have hty : ∀ t : Int, t ∈ [IpV4, IpV6, IpAll] → ∀ v : VersionInfo, v.ipType = t → ((ipVersion v : Nat) : Int) = t := by
    intro t ht v hv
    simp only [List.mem_cons, List.not_mem_nil, or_false] at ht
    unfold ipVersion
    rw [hv]
    rcases ht with rfl | rfl | rfl <;> decide
  have hcr : ∃ q, Java.create decJ utf8 ips bytes = .ok q ∧ q.md = j.md := by
    unfold Java.create
    rw [hjr, Res.ok_bind]
    split
    · exact ⟨_, rfl, rfl⟩
    · exact ⟨_, rfl, rfl⟩
  obtain ⟨q, hq, hqm⟩ := hcr
  have hmj : q.md = md := hqm.trans h1
  have ev : (ipVersion ipd.version &&& 1 ≠ 0) ↔ ipd.version.ipType ≠ IpV6 := ver1_ne _
  have ev2 : (ipVersion ipd.version &&& 2 ≠ 0) ↔ ipd.version.ipType ≠ IpV4 := by
    rw [← ver2]
    unfold ipVersion
    split
    · simp
    · split <;> simp
  have ej : Java.version dec10 q = ⟨ipVersion ipd.version, N, now,
      if ipd.version.version = [] then gs "ipip.net-" ++ dec10 now else ipd.version.version, [gs "CN"], ipd.version.extraInfo⟩ := by
    unfold Java.version; rw [hmj, hmd]; rfl
  have er : Rust.version r = ⟨ipVersion ipd.version, N, now, ipd.version.version, [gs "CN"], ipd.version.extraInfo⟩ := by
    unfold Rust.version; rw [g1, hmd]; rfl
  refine ⟨q, r, hq, hr, ?_⟩
  rw [ej, er]
  refine ⟨fun ht => ⟨hty _ ht _ rfl, hty _ ht _ rfl⟩, rfl, rfl, rfl, rfl, rfl, rfl, rfl, rfl, ?_, ?_, ?_, ?_⟩
  · unfold Java.hasIpV4; rw [bne_iff_ne]; exact ev
  · unfold Java.hasIpV6; rw [bne_iff_ne]; exact ev2
  · unfold Rust.has_ipv4; rw [bne_iff_ne]; exact ev
  · unfold Rust.has_ipv6; rw [bne_iff_ne]; exact ev2

/-! ## C72: texts of addresses -/

theorem indexOf_mem {c : UInt8} : ∀ s : Str, (c ∈ s → 0 ≤ Java.indexOf c s) ∧ (c ∉ s → Java.indexOf c s = -1) := by
  intro s
  induction s with
  | nil => exact ⟨by simp, fun _ => rfl⟩
  | cons b s ih =>
    unfold Java.indexOf
    by_cases hb : b = c
    · subst hb; simp
    · rw [if_neg hb]
      constructor
      · intro h
        have := ih.1 (by simpa [Ne.symm hb] using h)
        rw [if_neg (by omega)]; omega
      · intro h
        have := ih.2 (by intro hc; exact h (by simp [hc]))
        rw [if_pos (by omega)]

theorem indexOf_pos {c : UInt8} {s : Str} : Java.indexOf c s > 0 ↔ c ∈ s ∧ s.head? ≠ some c := by
  cases s with
  | nil => simp [Java.indexOf]
  | cons b s =>
    by_cases hb : b = c
    · subst hb; simp [Java.indexOf]
    · have hi := indexOf_mem (c := c) s
      unfold Java.indexOf
      rw [if_neg hb]
      by_cases hs : c ∈ s
      · have := hi.1 hs
        rw [if_neg (by omega)]
        simp [hs, hb]; omega
      · have := hi.2 hs
        rw [if_pos (by omega)]
        simp [hs, Ne.symm hb]

/-- C72: the Java reader given the text of an IPv6 address (with a colon, not at the start), or of an IPv4 address (no
colon, a dot not at the start), answers as for the address it denotes; an address that does not parse is an error.
(False for texts that begin with a colon: `C72_java_text_colon`.) -/
theorem C72_java_text (v4 v6 : Str → Option Bytes) (utf8 : Bytes → Str) (r : Java.JReader) (s : Str) :
    ((0x3A : UInt8) ∈ s → s.head? ≠ some 0x3A → Java.queryText v4 v6 utf8 r s =
      (match v6 s with | some ip => Java.query utf8 r ip | none => .err .ipFormat)) ∧
    ((0x3A : UInt8) ∉ s → (0x2E : UInt8) ∈ s → s.head? ≠ some 0x2E → Java.queryText v4 v6 utf8 r s =
      (match v4 s with | some ip => Java.query utf8 r ip | none => .err .ipFormat)) ∧
    ((0x3A : UInt8) ∉ s → (0x2E : UInt8) ∉ s → Java.queryText v4 v6 utf8 r s = .err .ipFormat) := by
  have hne : ∀ c : UInt8, c ∈ s → s ≠ [] := by rintro c hc rfl; cases hc
  unfold Java.queryText
  refine ⟨fun h1 h2 => ?_, fun h1 h2 h3 => ?_, fun h1 h2 => ?_⟩
  · rw [if_neg (hne _ h1), if_pos (indexOf_pos.mpr ⟨h1, h2⟩)]
    cases v6 s <;> rfl
  · rw [if_neg (hne _ h2), if_neg (by rw [indexOf_pos]; exact fun hc => h1 hc.1), if_pos (indexOf_pos.mpr ⟨h2, h3⟩)]
    cases v4 s <;> rfl
  · by_cases hs : s = []
    · rw [if_pos hs]
    · rw [if_neg hs, if_neg (by rw [indexOf_pos]; exact fun hc => h1 hc.1), if_neg (by rw [indexOf_pos]; exact fun hc => h2 hc.1)]

/-- C72: the text of an IPv6 address that begins with a colon, such as `::1`, is refused by every reader (the IPv4 parser
does not accept it either). -/
theorem C72_java_text_colon (v4 v6 : Str → Option Bytes) (utf8 : Bytes → Str) (r : Java.JReader) (s : Str)
    (hv4 : v4 (0x3A :: s) = none) : Java.queryText v4 v6 utf8 r (0x3A :: s) = .err .ipFormat := by
  unfold Java.queryText
  rw [if_neg (by simp), if_neg (by simp [Java.indexOf])]
  split
  · rw [hv4]
  · rfl

example : (0x3A : UInt8) ∈ gs "2001::1" ∧ (gs "2001::1").head? ≠ some 0x3A := by decide
example : (0x3A : UInt8) ∉ gs "1.2.3.4" ∧ (0x2E : UInt8) ∈ gs "1.2.3.4" ∧ (gs "1.2.3.4").head? ≠ some 0x2E := by decide

end Uip.Ipdb
