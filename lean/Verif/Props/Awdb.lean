import Verif.Proof.Awdb.File
import Verif.Proof.Awdb.Networks
/-!
# Properties C50-C54, C58: the awdb decoder, search tree and reader

Vocabulary: `Verif/Spec/Awdb.lean`.  `decodeAny buf 513 off` is the call `decoder.decode(off, &interface{}, 0)`: 513 levels
are allowed.
-/
namespace Uip.Awdb
open Uip Uip.Spec Uip.Spec.Awdb

/-! ## C50 -/

/-- **C50.** For each record size, every node of a table laid out as the format prescribes is read back exactly, left
(`false`) and right (`true`) record, whatever stands around it. -/
theorem C50_records (rs : Nat) (hs : rs = 24 ∨ rs = 28 ∨ rs = 32) (nodes : List (Nat × Nat)) (i l r : Nat)
    (hi : nodes[i]? = some (l, r)) (hl : l < 2 ^ rs) (hr : r < 2 ^ rs) :
    child (treeBytes rs nodes) rs i false = .ok l ∧ child (treeBytes rs nodes) rs i true = .ok r :=
  ⟨child_tree hs hi hl hr false, child_tree hs hi hl hr true⟩

/-- The shared nibble. -/
example : nodeBytes 28 (0xABCDEF1, 0x7654321) = [0xBC, 0xDE, 0xF1, 0xA7, 0x65, 0x43, 0x21] ∧
    child (treeBytes 28 [(1, 2), (0xABCDEF1, 0x7654321)]) 28 1 false = .ok 0xABCDEF1 ∧
    child (treeBytes 28 [(1, 2), (0xABCDEF1, 0x7654321)]) 28 1 true = .ok 0x7654321 := by decide +kernel

/-! ## C51 -/

/-- **C51.** A value that stands in the buffer as the format describes (any type, any size class, parts and keys
written in place or by pointers, at most 512 levels below the top) is decoded to its value, with the offset after it. -/
theorem C51_decode (buf : Bytes) (off : Nat) (d : Doc) (e : Nat) (h : Stored buf 513 off d e) :
    decodeAny buf 513 off = .ok (d.val, e) := decode_stored buf 513 off d e h

/-- **C51 (encoding).** The bytes of any value, wherever they stand, are decoded to the value and the offset after
them. -/
theorem C51_encode_decode (d : Doc) (hf : d.AllFit) (hl : d.levels ≤ 513) (before after : Bytes) :
    decodeAny (before ++ d.enc ++ after) 513 before.length = .ok (d.val, before.length + d.enc.length) := by
  refine C51_decode _ _ _ _ (enc_stored d _ _ _ ?_ hf hl)
  unfold At
  rw [List.append_assoc, List.drop_left]
  exact List.prefix_append _ _

/-- **C51 (metadata).** The metadata struct gets what the metadata map says. -/
theorem C51_metadata (buf : Bytes) (l : List (Str × Doc)) (e : Nat) (md : Metadata) (h : Stored buf 513 0 (.map l) e)
    (hm : metaOf l {} = some md) : decodeMeta buf = .ok md := decodeMeta_stored h hm

/-- A map with a nested array, numbers of several lengths and a negative number. -/
def sampleDoc : Doc := .map [(gs "a", .str (gs "xyz")), (gs "b", .array [.uint16 2 513, .uint64 3 70000, .int32 4 (-2), .bool true]),
  (gs "a", .double 7)]

theorem sampleDoc_fits : sampleDoc.AllFit ∧ sampleDoc.levels ≤ 513 := by
  constructor
  · simp only [sampleDoc, Doc.AllFit, Doc.AllFit.fitPairs, Doc.AllFit.fitAll, Doc.Fits, SizeOK, List.length_cons, List.length_nil]
    refine ⟨by omega, by decide +kernel, by decide +kernel, by decide +kernel, ⟨by omega, by omega, by omega, Or.inl ⟨trivial, by omega, by omega⟩, trivial, trivial⟩,
      by decide +kernel, by omega, trivial⟩
  · decide +kernel

example : sampleDoc.enc = [0xE3, 0x41, 0x61, 0x43, 0x78, 0x79, 0x7A, 0x41, 0x62, 0x04, 0x04, 0xA2, 2, 1, 0x03, 0x02, 1, 0x11, 0x70,
    0x04, 0x01, 0xFF, 0xFF, 0xFF, 0xFE, 0x01, 0x07, 0x41, 0x61, 0x68, 0, 0, 0, 0, 0, 0, 0, 7] := by decide +kernel

/-- A value behind a pointer, with a key behind a pointer. -/
example : Stored [0x20, 2, 0xE1, 0x20, 6, 0xA0, 0x41, 0x61] 513 0 (.map [(gs "a", .uint16 0 0)]) 2 := by
  refine Or.inl ⟨2, 6, by omega, by decide +kernel, by decide +kernel, Or.inr ⟨by simp [Doc.Fits, SizeOK], by decide +kernel, 5, 6, ⟨by unfold SizeOK; decide +kernel, Or.inr ⟨6, by omega, by decide +kernel, by decide +kernel, by decide +kernel⟩⟩, ?_, rfl⟩⟩
  exact Or.inr ⟨by simp [Doc.Fits], [0xA0], by decide +kernel, by decide +kernel, rfl⟩

/-! ## C52, C53 -/

/-- The decoder reads a pointer to `p` at `off`: a control byte of type 1 and its pointer bytes. -/
def PointsTo (buf : Bytes) (off p : Nat) : Prop :=
  ∃ size o o', decodeCtrlData buf off = .ok (1, size, o) ∧ decodePointer buf size o = .ok (p, o')

/-- A chain of pointers that never ends. -/
def EndlessChain (buf : Bytes) (f : Nat → Nat) : Prop := ∀ i, PointsTo buf (f i) (f (i + 1))

theorem step_pointsTo {buf : Bytes} {off p : Nat} : step buf off = some p ↔ PointsTo buf off p := by
  unfold step PointsTo
  constructor
  · intro h
    split at h
    · rename_i t size o hc
      split at h
      · rename_i ht
        subst ht
        split at h
        · rename_i p' o' hp
          cases h
          exact ⟨size, o, o', hc, hp⟩
        · cases h
      · cases h
    · cases h
  · rintro ⟨size, o, o', h1, h2⟩
    simp only [h1, if_true, h2]

theorem key_panic_chain {buf : Bytes} {off : Nat} : decodeKey buf off = .panic ↔ ∃ f, f 0 = off ∧ EndlessChain buf f := by
  unfold decodeKey
  rw [key_panic]
  constructor
  · intro h
    have hall := steps_endless h
    refine ⟨fun i => (steps buf i off).getD 0, rfl, fun i => ?_⟩
    rw [← step_pointsTo]
    have h1 := hall i
    have h2 := hall (i + 1)
    simp only []
    cases hs : steps buf i off with
    | none => rw [hs] at h1; cases h1
    | some p =>
      rw [steps_add, hs, Option.bind_some, steps] at h2
      rw [steps_add, hs, Option.bind_some, steps]
      cases hp : step buf p with
      | none => rw [hp] at h2; cases h2
      | some q => simp [steps, hp]
  · rintro ⟨f, rfl, hf⟩
    have : ∀ n i, steps buf n (f i) = some (f (i + n)) := by
      intro n
      induction n with
      | zero => intro i; rfl
      | succ n ih =>
        intro i
        rw [steps, step_pointsTo.mpr (hf i), Option.bind_some, ih, Nat.add_right_comm, Nat.add_assoc]
    rw [this]; rfl

theorem no_chain_key {buf : Bytes} (h : ¬ ∃ f, EndlessChain buf f) (o : Nat) : decodeKey buf o ≠ .panic := fun hp => by
  obtain ⟨f, _, hf⟩ := key_panic_chain.mp hp
  exact h ⟨f, hf⟩

/-- **C52.** Decoding arbitrary bytes at any offset into an untyped target, or into the metadata struct, returns a value
or an error, unless the buffer holds an endless chain of pointers (which then overflows the stack where a map key is
expected: `C53_endless_chain_never_returns`).  In particular there is no out-of-range read. -/
theorem C52_no_panic (buf : Bytes) (h : ¬ ∃ f, EndlessChain buf f) :
    (∀ off, decodeAny buf 513 off ≠ .panic) ∧ decodeMeta buf ≠ .panic :=
  ⟨decodeAny_ne_panic (no_chain_key h) 513, decodeMeta_ne_panic (no_chain_key h)⟩

/-- **C52 (buffers without pointers to pointers).** The format forbids a pointer to a pointer; then nothing panics. -/
theorem C52_plain_pointers (buf : Bytes) (h : ∀ off p, PointsTo buf off p → ∀ q, ¬ PointsTo buf p q) :
    (∀ off, decodeAny buf 513 off ≠ .panic) ∧ decodeMeta buf ≠ .panic :=
  C52_no_panic buf fun ⟨f, hf⟩ => h _ _ (hf 0) _ (hf 1)

/-- **C52 (backward pointers).** If every pointer points to an earlier place, nothing panics. -/
theorem C52_backward_pointers (buf : Bytes) (h : ∀ off p, PointsTo buf off p → p < off) :
    (∀ off, decodeAny buf 513 off ≠ .panic) ∧ decodeMeta buf ≠ .panic := by
  refine C52_no_panic buf fun ⟨f, hf⟩ => ?_
  have : ∀ i, f i + i ≤ f 0 := by
    intro i
    induction i with
    | zero => omega
    | succ i ih => have := h _ _ (hf i); omega
  have := this (f 0 + 1)
  omega

/-- **C52 is false** without the condition: a map whose key is a pointer to itself. -/
theorem C52_pointer_to_itself_panics : decodeAny [0xE1, 0x20, 0x01] 513 0 = .panic := by rfl

/-- **C53.** Without an endless chain of pointers the recursions of the decoder that have no bound in the code end: a
key after at most one more call than the buffer has bytes, skipping a value after at most two more; the recursion over
values ends by its level bound. -/
theorem C53_terminates (buf : Bytes) (h : ¬ ∃ f, EndlessChain buf f) (off n : Nat) :
    (∃ out, out ≠ .panic ∧ ∀ fuel ≥ buf.length + 1, decodeKeyN buf fuel off = out) ∧
    (∃ out, out ≠ .panic ∧ ∀ fuel ≥ buf.length + 2, nextValueOffsetN buf fuel off n = out) ∧
    ∃ out, out ≠ .panic ∧ decodeAny buf 513 off = out := by
  refine ⟨⟨decodeKey buf off, no_chain_key h off, fun fuel hf => ?_⟩,
    ⟨nextValueOffset buf off n, nextValueOffset_ne_panic buf off n, fun fuel hf => ?_⟩,
    ⟨_, decodeAny_ne_panic (no_chain_key h) 513 off, rfl⟩⟩
  · obtain ⟨k, rfl⟩ := Nat.exists_eq_add_of_le hf
    exact key_mono _ _ _ _ (no_chain_key h off)
  · obtain ⟨k, rfl⟩ := Nat.exists_eq_add_of_le hf
    exact nextValueOffset_fuel buf off n k

/-- Skipping a value always ends. -/
theorem C53_skip_terminates (buf : Bytes) (off n : Nat) :
    ∃ out, out ≠ .panic ∧ ∀ fuel ≥ buf.length + 2, nextValueOffsetN buf fuel off n = out :=
  ⟨nextValueOffset buf off n, nextValueOffset_ne_panic buf off n, fun fuel hf => by
    obtain ⟨k, rfl⟩ := Nat.exists_eq_add_of_le hf
    exact nextValueOffset_fuel buf off n k⟩

/-- **C53 is false** where a key is read at the start of an endless chain: no number of calls is enough. -/
theorem C53_endless_chain_never_returns (buf : Bytes) (f : Nat → Nat) (hf : EndlessChain buf f) (fuel : Nat) :
    decodeKeyN buf fuel (f 0) = .panic := by
  have : ∀ n i, steps buf n (f i) = some (f (i + n)) := by
    intro n
    induction n with
    | zero => intro i; rfl
    | succ n ih =>
      intro i
      rw [steps, step_pointsTo.mpr (hf i), Option.bind_some, ih, Nat.add_right_comm, Nat.add_assoc]
  rw [key_panic, this]; rfl

/-- Such a chain, in three bytes. -/
example : EndlessChain [0xE1, 0x20, 0x01] (fun _ => 1) := fun _ => ⟨0, 2, 3, rfl, rfl⟩

/-- A buffer without one: the only pointer goes back. -/
example : decodeAny [0x41, 0x61, 0x20, 0] 513 2 = .ok ((Doc.str (gs "a")).val, 4) := by
  refine C51_decode _ _ _ _ (Or.inl ⟨0, 2, by omega, by decide +kernel, by decide +kernel, Or.inr ⟨by simp [Doc.Fits, SizeOK]; decide +kernel, _, rfl, by decide +kernel, by decide +kernel⟩⟩)

/-! ## C54 -/

/-- **C54.** If LookupNetwork answers for an address, the network is well-formed and contains the address, and every
address of the same family inside the network gets the same network and the same record. -/
theorem C54_whole_network (data : Bytes) (r : Reader) (ho : FromBytes data = .ok r) (a : IP) (ha : ValidIP a) (net : IPNet)
    (rec : Option Val) (h : r.LookupNetwork a = .ok (net, rec)) :
    WFNet net ∧ Inside net a ∧
    ∀ b, ValidIP b → SameFamily a b → Inside net b → r.LookupNetwork b = .ok (net, rec) := by
  have hs := (opened ho).start
  obtain ⟨h1, h2⟩ := lookup_own hs ha h
  exact ⟨h1, h2, fun b hb hf hin => lookup_inside hs ha hb hf h hin⟩

/-! ## C58 -/

theorem lastIndex_split {sep : Bytes} : ∀ {b : Bytes} {i : Nat}, lastIndex sep b = some i → sep <+: b.drop i := by
  intro b
  induction b with
  | nil => intro i h; simp [lastIndex] at h
  | cons x b ih =>
    intro i h
    rw [lastIndex] at h
    split at h
    · rename_i j hj
      cases h
      simpa using ih hj
    · split at h
      · rename_i hp
        cases h
        simpa using List.isPrefixOf_iff_prefix.mp hp
      · simp at h

theorem metaBytes_section {data : Bytes} : metaBytes data = [] ∨ ∃ before, data = before ++ metaMarker ++ metaBytes data := by
  unfold metaBytes
  cases h : lastIndex marker (data.drop (data.length - 2000)) with
  | none => exact Or.inl rfl
  | some i =>
    refine Or.inr ⟨data.take (data.length - 2000 + i), ?_⟩
    simp only []
    obtain ⟨t, ht⟩ := lastIndex_split h
    have h16 : (data.drop (data.length - 2000)).drop (i + 16) = t := by
      rw [← List.drop_drop, ← ht, List.drop_left' (by rfl)]
    rw [h16, marker_eq, List.append_assoc, ht, List.drop_drop, List.take_append_drop]

/-- **C58.** A file of at least 2000 bytes is opened or rejected without crashing, if no section behind a marker holds an
endless chain of pointers, or metadata whose node count times record size exceeds 64 bits. -/
theorem C58_open (data : Bytes) (hl : 2000 ≤ data.length)
    (hs : ∀ before m, data = before ++ metaMarker ++ m → (¬ ∃ f, EndlessChain m f) ∧
      ∀ md, decodeMeta m = .ok md → md.nodeCount * md.recordSize < 2 ^ 64) : FromBytes data ≠ .panic := by
  rcases metaBytes_section (data := data) with h | ⟨before, h⟩
  · refine from_ne_panic hl (fun o hp => ?_) (fun md hmd => ?_)
    · rw [h] at hp
      obtain ⟨f, _, hf⟩ := key_panic_chain.mp hp
      have := step_lt (step_pointsTo.mpr (hf 0))
      simp at this
    · rw [h] at hmd
      exact absurd hmd (by rw [show decodeMeta [] = .err offsetErr by decide +kernel]; intro h; cases h)
  · exact from_ne_panic hl (no_chain_key (hs _ _ h).1) (hs _ _ h).2

/-- **C58 (lookups).** With the same condition on the opened file, and none in its data section, no lookup crashes. -/
theorem C58_lookup (data : Bytes) (r : Reader) (ho : FromBytes data = .ok r)
    (hw : r.md.nodeCount * r.md.recordSize < 2 ^ 64) (hd : ¬ ∃ f, EndlessChain r.data f) (a : IP) (ha : ValidIP a) :
    r.LookupNetwork a ≠ .panic := by
  refine lookup_ne_panic ⟨(opened ho).size, ?_⟩ (no_chain_key hd) ha
  rw [(opened ho).nodes, Nat.mod_eq_of_lt hw]

/-- **C58 is false** below 2000 bytes: every such file crashes. -/
theorem C58_short_file_panics (data : Bytes) (h : data.length < 2000) : FromBytes data = .panic := by
  unfold FromBytes; rw [if_pos h]

/-- A file of 2000 zero bytes but for metadata that says: 2^61 nodes of 24 bits, IPv6. -/
def hugeTree : Bytes :=
  let m := metaMarker ++ (Doc.map [(gs "node_count", .uint64 8 (2 ^ 61)), (gs "record_size", .uint16 2 24), (gs "ip_version", .uint16 2 6)]).enc
  List.replicate (2000 - m.length) 0 ++ m

set_option maxRecDepth 100000 in
/-- **C58 is false** for such a file: the size of the node table wraps to 0 and reading the first node crashes. -/
theorem C58_wrapped_size_panics : hugeTree.length = 2000 ∧ FromBytes hugeTree = .panic := by decide +kernel

end Uip.Awdb
