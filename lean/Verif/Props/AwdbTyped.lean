import Verif.Proof.Awdb.Typed
import Verif.Props.AwdbLookup
/-!
# Property C92: decoding awdb records into new variables

The general case is in `Verif/Props/AwdbFill.lean`.

Vocabulary: `Verif/Spec/AwdbTyped.lean`.  `decodeInto fl buf ty cur off` is `Decode(off, &x)` for a variable `x` of type
`ty` that holds `cur`, `r.LookupT fl a ty cur` is `Lookup(a, &x)`.  `fl` are the conversions between float types.
-/
namespace Uip.Awdb
open Uip Uip.Spec Uip.Spec.Awdb

theorem decodeInto_eq (fl : Floats) (buf : Bytes) (ty : Ty) (off : Nat) :
    decodeInto fl buf ty ty.zero off = (decodeT fl buf 513 (.ptr ty) (Ty.ptr ty).zero off >>= fun x => match x.1 with
      | .ptr (some v) => .ok v
      | _ => .panic) := by
  unfold decodeInto
  rw [decodeT_step fl buf 512 (by simp), decodeT_step fl buf 512 (by simp)]
  rfl

/-- **C92 (Decode).** Let a value stand in the data section (in place or by pointers, with 512 levels at most), no map with
a key twice.  For every type of target that is `Fillable`, decoding into a new variable gives exactly what the value means
for the type, and succeeds only if it means something: the numbers, strings, slices, maps, fields, embedded fields and
pointers as `into` says.  (Stored numbers are below 2^63, and not negative if the type has unsigned 64-bit parts; see
`C92_wraps`.) -/
theorem C92_new (fl : Floats) (buf : Bytes) (off e : Nat) (d : Doc) (ty : Ty) (h : Stored buf 513 off d e) (hc : Fillable ty)
    (hd : d.Distinct) (hn : d.Narrow) (hs : NoU64 ty ∨ d.NonNeg) (v : TV) :
    decodeInto fl buf ty ty.zero off = .ok v ↔ into fl ty d = some v := by
  have hg := decodeT_stored fl buf 513 (.ptr ty) d off e _ h hc ⟨hd, hn, hs⟩ (Or.inl rfl)
  rw [decodeInto_eq, Res.bind_eq_ok]
  constructor
  · rintro ⟨x, h1, h2⟩
    obtain ⟨w, hw, rfl⟩ := Option.map_eq_some_iff.mp ((hg x).mp h1)
    simp only [into] at hw
    obtain ⟨u, hu, rfl⟩ := Option.map_eq_some_iff.mp hw
    rw [hu, Res.ok.inj h2]
  · intro hv
    refine ⟨(.ptr (some v), e), (hg _).mpr ?_, rfl⟩
    simp only [into, hv, Option.map_some]

/-! ## Lookups in files -/

theorem lookupPointer_file {f : File} (hf : f.OK) {a : IP} (ha : f.Asks a) {r : Reader} (ho : FromBytes f.bytes = .ok r)
    {n k : Nat} (hw : treeWalk f.nodes (f.path a) 0 0 = (n, k)) (hn : f.nodes.length ≤ n) :
    ∃ l q, r.lookupPointer a = .ok (if n = f.nodes.length then 0 else n, l, q) := by
  obtain ⟨r', ho', hl, hnd, hd, hm⟩ := file_opens hf
  rw [ho] at ho'
  injection ho' with ho'
  subst ho'
  have hp : f.path a = bits (path r a) := by unfold File.path path; rw [hm]
  have h4 : ¬ ((norm a).length = 16 ∧ r.md.ipVersion = 4) := by
    rw [← canon_norm]
    rintro ⟨h1, h2⟩
    rw [hm] at h2
    rcases ha.2 with h' | h' <;> omega
  have hwalk := walk_tree (r := r) (nodes := f.nodes) (by rw [hm, hf.mdSize]; exact hf.size) (by rw [hnd, hm, hf.mdSize]) (by rw [hm, hf.mdCount])
    (by rw [hm, hf.mdSize]; exact hf.fit) (f.path a) 0 0
  rw [hw, hp] at hwalk
  have hs := (opened ho).start
  have hcl := canon_length ha.1
  have hkey : ∃ k', walk r (bits (norm a)) (if (norm a).length = 4 then r.ipv4Start else 0) 0 = .ok (n, k') := by
    by_cases hsp : r.md.ipVersion = 6 ∧ (norm a).length = 4
    · obtain ⟨h6, hl⟩ := hsp
      have hpp : path r a = List.replicate 12 0 ++ norm a := by
        unfold path; rw [if_pos h6, canon_norm, hl]
      have hb : bits (path r a) = List.replicate 96 false ++ bits (norm a) := by
        rw [hpp, bits_append, bits_replicate_zero]
      rw [hb] at hwalk
      rw [if_pos hl]
      have hst := hs.2 h6
      by_cases hdd : r.ipv4StartBitDepth = 96
      · rw [hdd] at hst
        have := walk_append (List.replicate 96 false) (bits (norm a)) 0 0 r.ipv4Start (by rw [hst]; simp)
        rw [this, List.length_replicate, walk_shift] at hwalk
        obtain ⟨⟨n', k'⟩, hw', he⟩ := Res.bind_eq_ok.mp hwalk
        injection he with he
        injection he with he1 he2
        exact ⟨k', by rw [hw']; exact congrArg Res.ok (Prod.ext he1 rfl)⟩
      · obtain ⟨ht, _⟩ := start_terminal hs h6 hdd
        rw [walk_append_stop _ _ _ _ _ _ hst ht] at hwalk
        injection hwalk with hwalk
        injection hwalk with hw1 hw2
        rw [hw1] at ht ⊢
        exact ⟨0, walk_stop ht _ _⟩
    · have hpp : path r a = norm a := by
        unfold path
        rw [canon_norm] at *
        split
        · rename_i h6
          rcases hcl with hl | hl
          · exact absurd ⟨h6, hl⟩ hsp
          · rw [hl]; rfl
        · rfl
      rw [hpp] at hwalk
      have h0 : (if (norm a).length = 4 then r.ipv4Start else 0) = 0 := by
        split
        · rename_i hl
          exact (hs.1 (fun h6 => hsp ⟨h6, hl⟩)).1
        · rfl
      rw [h0]
      exact ⟨k, hwalk⟩
  obtain ⟨k', hk'⟩ := hkey
  refine ⟨k', norm a, ?_⟩
  unfold Reader.lookupPointer
  rw [if_neg (norm_ne ha.1)]
  change (if (norm a).length = 16 ∧ r.md.ipVersion = 4 then _ else _) = _
  rw [if_neg h4]
  have e1 : ((norm a).length * 8 = 32) = ((norm a).length = 4) := by
    apply propext; constructor <;> intro <;> omega
  have e2 : r.traverseTree (norm a) (if (norm a).length = 4 then r.ipv4Start else 0) ((norm a).length * 8) = .ok (n, k') := by
    unfold Reader.traverseTree
    rw [traverse_walk _ _ _ _ _ (by omega), List.drop_zero, List.take_of_length_le (by rw [bits_length]; omega)]
    exact hk'
  change ((r.traverseTree (norm a) (if (norm a).length * 8 = 32 then _ else _) ((norm a).length * 8)) >>= _) = _
  simp only [e1, e2, Res.ok_bind, hm, hf.mdCount]
  by_cases hnn : n = f.nodes.length
  · rw [if_pos hnn, if_pos hnn]; rfl
  · rw [if_neg hnn, if_neg hnn, if_pos (by omega)]; rfl

/-- **C92 (Lookup).** In a well-formed file, looking up an address for which the tree prescribes the value `d` fills a new
variable with what `d` means for its type, and fails if it means nothing; for an address without a record the variable is
left alone, whatever it holds. -/
theorem C92_lookup_new (fl : Floats) (f : File) (hf : f.OK) (a : IP) (ha : f.Asks a) (n k : Nat)
    (hw : treeWalk f.nodes (f.path a) 0 0 = (n, k)) (ty : Ty) :
    ∃ r, FromBytes f.bytes = .ok r ∧
      (n = f.nodes.length → ∀ cur, r.LookupT fl a ty cur = .ok cur) ∧
      (∀ off d e, Stored f.data 513 off d e → n = f.nodes.length + 16 + off → Fillable ty → d.Distinct → d.Narrow →
        (NoU64 ty ∨ d.NonNeg) → ∀ v, r.LookupT fl a ty ty.zero = .ok v ↔ into fl ty d = some v) := by
  obtain ⟨r, ho, hl, hnd, hd, hm⟩ := file_opens hf
  refine ⟨r, ho, ?_, ?_⟩
  · rintro rfl cur
    obtain ⟨l, q, hp⟩ := lookupPointer_file hf ha ho hw (Nat.le_refl _)
    unfold Reader.LookupT
    rw [hp, if_pos rfl]; rfl
  · rintro off d e hst rfl hc h1 h2 h3 v
    obtain ⟨l, q, hp⟩ := lookupPointer_file hf ha ho hw (by omega)
    rw [if_neg (by omega)] at hp
    have hlt := stored_lt hst
    have hle : f.data.length ≤ f.bytes.length := by unfold File.bytes; simp only [List.length_append]; omega
    have hr : r.resolveDataPointer (f.nodes.length + 16 + off) = .ok off := by
      unfold Reader.resolveDataPointer
      rw [hm, hf.mdCount, hl, if_neg (by omega), if_neg (by omega)]
      exact congrArg Res.ok (by omega)
    unfold Reader.LookupT
    rw [hp, Res.ok_bind]
    simp only []
    rw [if_neg (by omega), hr, Res.ok_bind, hd]
    exact C92_new fl f.data off e d ty hst hc h1 h2 h3 v

/-! ## Offsets -/

theorem stored_mono {buf : Bytes} : ∀ (m : Nat) {off : Nat} {d : Doc} {e : Nat}, Stored buf m off d e → Stored buf (m + 1) off d e := by
  intro m
  induction m with
  | zero => intro off d e h; exact h.elim
  | succ m ih =>
    intro off d e h
    have ch : ∀ (l : List Doc) (o e : Nat), Chain (Stored buf m) o l e → Chain (Stored buf (m + 1)) o l e := by
      intro l
      induction l with
      | nil => intro o e h; exact h
      | cons d l ihl => rintro o e ⟨a, h1, h2⟩; exact ⟨a, ih h1, ihl _ _ h2⟩
    have kc : ∀ (l : List (Str × Doc)) (o e : Nat), KeyChain buf (Stored buf m) o l e → KeyChain buf (Stored buf (m + 1)) o l e := by
      intro l
      induction l with
      | nil => intro o e h; exact h
      | cons d l ihl => rintro o e ⟨a, b, h1, h2, h3⟩; exact ⟨a, b, h1, ih h2, ihl _ _ h3⟩
    rcases stored_cases h with ⟨p, e', hp, h, he, hst⟩ | ⟨hf, h⟩
    · exact Or.inl ⟨p, e', hp, h, he, ih hst⟩
    · refine inPlace_stored ⟨hf, ?_⟩
      cases d with
      | array l => exact ⟨h.1, ch _ _ _ h.2⟩
      | map l => exact ⟨h.1, kc _ _ _ h.2⟩
      | _ => exact h

theorem uintptr_stored (fl : Floats) (buf : Bytes) : ∀ (levels : Nat) (d : Doc) (off e : Nat) (cur : TV), Stored buf levels off d e →
    ∃ o e', decodeT fl buf levels .uintptr cur off = .ok (.uint o, e) ∧ Stored buf levels o d e' := by
  intro levels
  induction levels with
  | zero => intro d off e cur h; exact h.elim
  | succ r ih =>
    intro d off e cur h
    rcases stored_cases h with ⟨p, e', hp, hat, he, hst⟩ | hin
    · obtain ⟨size, off', h7, h8⟩ := pointer_back hp hat
      obtain ⟨o, e'', h1, h2⟩ := ih d p e' cur hst
      refine ⟨o, e'', ?_, stored_mono _ h2⟩
      rw [decodeT, h7]
      simp only [Res.ok_bind]
      rw [h8]
      simp only [Res.ok_bind]
      rw [h1, he]; rfl
    · have hctl : ∃ t size o, decodeCtrlData buf off = .ok (t, size, o) ∧ t ≠ 1 := by
        cases d with
        | array l => exact ⟨11, _, _, ctrl_head (by omega) (by omega) hin.1 hin.2.1, by omega⟩
        | map l => exact ⟨7, _, _, ctrl_head (by omega) (by omega) hin.1 hin.2.1, by omega⟩
        | bool v =>
          obtain ⟨hf, b, hb, h7, he⟩ := hin
          injection hb with hb; subst hb
          exact ⟨14, _, _, ctrl_head (by omega) (by omega) (sizeOK_small (by cases v <;> decide)) h7, by omega⟩
        | _ =>
          obtain ⟨size, o, h7, _⟩ := plain_ctrl hin trivial
          exact ⟨_, size, o, h7, by simp [typeNum]⟩
      obtain ⟨t, size, o, h1, h2⟩ := hctl
      refine ⟨off, e, ?_, h⟩
      rw [decodeT, h1]
      simp only [Res.ok_bind]
      rw [skip_stored h]; rfl

/-- A map decoded into a type other than an interface or a pointer is decoded by `mapInto` where it stands. -/
theorem decodeT_map (fl : Floats) (buf : Bytes) {ty : Ty} (hcore : Core ty) : ∀ (levels : Nat) (l : List (Str × Doc)) (off e : Nat) (cur : TV),
    Stored buf levels off (.map l) e → ∃ r o e', r < levels ∧ KeyChain buf (Stored buf r) o l e' ∧
      decodeT fl buf levels ty cur off =
        (mapInto buf (decodeT fl buf r) (decodeAny buf r) ty cur l.length o >>= fun y => .ok (y.1, if r + 1 = levels then y.2 else e)) ∧
      (r + 1 = levels → e' = e) := by
  intro levels
  induction levels with
  | zero => intro l off e cur h; exact h.elim
  | succ r ih =>
    intro l off e cur h
    have hi : indirect ty cur = (ty, cur, id) := by
      cases ty <;> first | exact hcore.elim | rfl
    have hb : ∀ t size offset, decodeCore fl buf r off t size offset (ty, cur, id) =
          (if t = 14 then
            if size > 1 then .err invalidErr
            else store fl t ty (.bool (size != 0)) >>= fun v => .ok (v, offset)
          else if t = 7 then mapInto buf (decodeT fl buf r) (decodeAny buf r) ty cur size offset >>= fun y => .ok (y.1, y.2)
          else if t = 1 then decodePointer buf size offset >>= fun p => decodeT fl buf r ty cur p.1 >>= fun y => .ok (y.1, p.2)
          else if t = 11 then
            (match ty with
            | .slice e => sliceLoop (decodeT fl buf r e e.zero) size offset >>= fun y => .ok (.slice (some y.1), y.2)
            | _ => .err typeErr)
          else decodeScalar buf t size offset >>= fun y => store fl t ty y.1 >>= fun v => .ok (v, y.2)) := by
      intro t size offset
      cases ty <;> first | exact hcore.elim | rfl
    have hu : ty ≠ .uintptr := by rintro rfl; exact hcore
    rcases stored_cases h with ⟨p, e', hp, hat, he, hst⟩ | ⟨hf, h7, h8⟩
    · obtain ⟨size, off', h7, h8⟩ := pointer_back hp hat
      obtain ⟨r', o, e'', hr, hk, hd, _⟩ := ih l p e' cur hst
      refine ⟨r', o, e'', by omega, hk, ?_, by omega⟩
      rw [decodeT_step fl buf r hu, h7, Res.ok_bind, hi, hb]
      simp only []
      rw [if_neg (by omega), if_neg (by omega), if_pos trivial, h8, Res.ok_bind]
      simp only []
      rw [hd, Res.bind_assoc]
      refine congrArg _ (funext fun y => ?_)
      rw [Res.ok_bind, if_neg (show ¬ (r' + 1 = r + 1) by omega), he]
    · refine ⟨r, _, e, by omega, h8, ?_, fun _ => rfl⟩
      rw [decodeT_step fl buf r hu, ctrl_head (by omega) (by omega) hf h7, Res.ok_bind, hi, hb]
      simp only []
      rw [if_neg (by omega), if_pos trivial]
      refine congrArg _ (funext fun y => ?_)
      rw [if_pos trivial]

theorem core_body (fl : Floats) (buf : Bytes) {ty : Ty} (hcore : Core ty) (r off : Nat) (cur : TV) (back : TV → TV) (t size offset : Nat) :
    decodeCore fl buf r off t size offset (ty, cur, back) =
      (if t = 14 then
        if size > 1 then .err invalidErr
        else store fl t ty (.bool (size != 0)) >>= fun v => .ok (back v, offset)
      else if t = 7 then mapInto buf (decodeT fl buf r) (decodeAny buf r) ty cur size offset >>= fun y => .ok (back y.1, y.2)
      else if t = 1 then decodePointer buf size offset >>= fun p => decodeT fl buf r ty cur p.1 >>= fun y => .ok (back y.1, p.2)
      else if t = 11 then
        (match ty with
        | .slice e => sliceLoop (decodeT fl buf r e e.zero) size offset >>= fun y => .ok (back (.slice (some y.1)), y.2)
        | _ => .err typeErr)
      else decodeScalar buf t size offset >>= fun y => store fl t ty y.1 >>= fun v => .ok (back v, y.2)) := by
  cases ty <;> first | exact hcore.elim | rfl

theorem core_indirect {ty : Ty} (hcore : Core ty) (cur : TV) : indirect ty cur = (ty, cur, id) := by
  cases ty <;> first | exact hcore.elim | rfl

theorem core_ne {ty : Ty} (hcore : Core ty) : ty ≠ .uintptr := by rintro rfl; exact hcore

/-- `Decode(off, &x)` for a variable that is no interface, pointer or uintptr. -/
theorem decodeInto_core (fl : Floats) (buf : Bytes) {ty : Ty} (hcore : Core ty) (cur : TV) (off : Nat) :
    decodeInto fl buf ty cur off = (decodeT fl buf 513 ty cur off >>= fun y => .ok y.1) := by
  unfold decodeInto
  rw [decodeT_step fl buf 512 (by simp), decodeT_step fl buf 512 (core_ne hcore), core_indirect hcore,
    show indirect (.ptr ty) (.ptr (some cur)) = (ty, cur, fun w => .ptr (some w)) by
      rw [indirect, show target ty (.ptr (some cur)) = cur from rfl, core_indirect hcore]; rfl]
  rw [Res.bind_assoc, Res.bind_assoc]
  refine congrArg _ (funext fun x => ?_)
  obtain ⟨t, size, offset⟩ := x
  simp only []
  rw [core_body fl buf hcore, core_body fl buf hcore]
  split
  · split
    · rfl
    · simp only [Res.bind_assoc, Res.ok_bind]; rfl
  · split
    · simp only [Res.bind_assoc, Res.ok_bind]; rfl
    · split
      · simp only [Res.bind_assoc, Res.ok_bind]; rfl
      · split
        · split
          · simp only [Res.bind_assoc, Res.ok_bind]; rfl
          · rfl
        · simp only [Res.bind_assoc, Res.ok_bind]; rfl

theorem decodeT_plain (fl : Floats) (buf : Bytes) {ty : Ty} (hcore : Core ty) {d : Doc} (hp : Plain d) : ∀ (levels : Nat) (off e : Nat) (cur : TV),
    Stored buf levels off d e → decodeT fl buf levels ty cur off = (store fl (typeNum d) ty d.val >>= fun v => .ok (v, e)) := by
  intro levels
  induction levels with
  | zero => intro off e cur h; exact h.elim
  | succ r ih =>
    intro off e cur h
    rw [decodeT_step fl buf r (core_ne hcore), core_indirect hcore]
    rcases stored_cases h with ⟨p, e', hpp, h, he, hst⟩ | h
    · obtain ⟨size, off', h7, h8⟩ := pointer_back hpp h
      rw [h7, Res.ok_bind, core_body fl buf hcore]
      simp only []
      rw [if_neg (by omega), if_neg (by omega), if_pos trivial, h8, Res.ok_bind]
      simp only []
      rw [ih p e' cur hst, Res.bind_assoc, he]
      rfl
    · obtain ⟨size, o, h7, h8⟩ := plain_ctrl h hp
      have ht : typeNum d ≠ 14 ∧ typeNum d ≠ 7 ∧ typeNum d ≠ 1 ∧ typeNum d ≠ 11 := by
        cases d <;> first | exact hp.elim | simp [typeNum]
      rw [h7, Res.ok_bind, core_body fl buf hcore]
      simp only []
      rw [if_neg ht.1, if_neg ht.2.1, if_neg ht.2.2.1, if_neg ht.2.2.2, h8, Res.ok_bind]
      rfl

/-- **C92 (numbers that wrap).** A stored number of 2^63 or more is not rejected by a signed variable that can hold it
minus 2^64: that is what the variable gets.  A negative number is not rejected by an unsigned variable of 64 bits, which
gets it plus 2^64. -/
theorem C92_wraps (fl : Floats) (buf : Bytes) (off e : Nat) (cur : TV) :
    (∀ k n bits, Stored buf 513 off (.uint64 k n) e → 2 ^ 63 ≤ n → n < 2 ^ 64 → -2 ^ (bits - 1) ≤ (n : Int) - 2 ^ 64 →
      decodeInto fl buf (.int bits) cur off = .ok (.int ((n : Int) - 2 ^ 64))) ∧
    (∀ k z, Stored buf 513 off (.int32 k z) e → z < 0 → -2 ^ 31 ≤ z →
      decodeInto fl buf (.uint 64) cur off = .ok (.uint (2 ^ 64 + z).toNat)) := by
  constructor
  · intro k n bits h h1 h2 h3
    rw [decodeInto_core fl buf (ty := .int bits) trivial, decodeT_plain fl buf (ty := .int bits) trivial (d := .uint64 k n) trivial _ _ _ _ h]
    have hp : (0 : Int) ≤ 2 ^ (bits - 1) := Int.pow_nonneg (by omega)
    have hs : store fl 9 (.int bits) (.uint n) = .ok (.int ((n : Int) - 2 ^ 64)) := by
      have hz : (if n < 2 ^ 63 then (n : Int) else (n : Int) - 2 ^ 64) = (n : Int) - 2 ^ 64 := if_neg (by omega)
      simp only [store]
      rw [hz, if_pos ⟨h3, by omega⟩]
    show (store fl 9 (.int bits) (.uint n) >>= _) >>= _ = _
    rw [hs]; rfl
  · intro k z h h1 h2
    rw [decodeInto_core fl buf (ty := .uint 64) trivial, decodeT_plain fl buf (ty := .uint 64) trivial (d := .int32 k z) trivial _ _ _ _ h]
    have hm : z % 2 ^ 64 = 2 ^ 64 + z := by omega
    have hs : store fl 8 (.uint 64) (.int z) = .ok (.uint (2 ^ 64 + z).toNat) := by
      simp only [store]
      rw [hm, if_pos (by omega)]
    show (store fl 8 (.uint 64) (.int z) >>= _) >>= _ = _
    rw [hs]; rfl

/-- For instance, 2^64 - 1 goes into an int8 as -1. -/
example (fl : Floats) : decodeInto fl (Doc.uint64 8 (2 ^ 64 - 1)).enc (.int 8) (.int 0) 0 = .ok (.int (-1)) := rfl

/-- **C92 (maps of structs are not clean).** The decoder has one variable for all elements of a map.  In a
`map[string]struct{a string}` an entry without the key `a` has the `a` of the entry before; the entries of a
`map[string]*struct{a, b string}` and of a `map[string]map[string]string` all show the last one (and what it did not
overwrite). -/
theorem C92_map_of_structs (fl : Floats) :
    let d : Doc := .map [([1], .map [([97], .str [65])]), ([2], .map [([98], .str [66])])]
    let ty : Ty := .struct [(some [97], .str), (some [98], .str)]
    decodeInto fl d.enc (.map ty) (.map none) 0 =
      .ok (.map (some [([2], .struct [.str [65], .str [66]]), ([1], .struct [.str [65], .str []])])) ∧
    into fl (.map ty) d = some (.map (some [([2], .struct [.str [], .str [66]]), ([1], .struct [.str [65], .str []])])) ∧
    decodeInto fl d.enc (.map (.ptr ty)) (.map none) 0 =
      .ok (.map (some [([2], .ptr (some (.struct [.str [65], .str [66]]))), ([1], .ptr (some (.struct [.str [65], .str [66]])))])) ∧
    decodeInto fl d.enc (.map (.map .str)) (.map none) 0 =
      .ok (.map (some [([2], .map (some [([98], .str [66]), ([97], .str [65])])), ([1], .map (some [([98], .str [66]), ([97], .str [65])]))])) :=
  ⟨rfl, by simp [into, readPairs, intoFields, keyValue, zeroOf], rfl, rfl⟩

/-! ### Offsets of values -/

theorem offset_loop (fl : Floats) (buf : Bytes) (r : Nat) (key : Str) : ∀ (l : List (Str × Doc)) (off e : Nat) (v : TV),
    (l.map Prod.fst).Nodup → KeyChain buf (Stored buf r) off l e →
    ∃ w, structLoop buf (decodeT fl buf r) [(some key, .uintptr)] l.length off [v] = .ok ([w], e) ∧
      (keyValue key l = none → w = v) ∧
      (∀ d, keyValue key l = some d → ∃ o e', w = .uint o ∧ Stored buf r o d e') := by
  intro l
  induction l with
  | nil => intro off e v _ h; cases h; exact ⟨v, rfl, fun _ => rfl, fun d h => by cases h⟩
  | cons kd l ih =>
    rintro off e v hn ⟨a, b, h1, h2, h3⟩
    obtain ⟨k, d⟩ := kd
    rw [List.map_cons, List.nodup_cons] at hn
    rw [List.length_cons, structLoop, key_at h1]
    simp only [Res.ok_bind]
    by_cases hk : k = key
    · subst hk
      have hi : fieldIndex [(some k, Ty.uintptr)] k = some 0 := by simp [fieldIndex]
      obtain ⟨o, e', h4, h5⟩ := uintptr_stored fl buf r d a b v h2
      obtain ⟨w, h6, h7, _⟩ := ih b e (.uint o) hn.2 h3
      refine ⟨.uint o, ?_, ?_, ?_⟩
      · simp only [hi, List.getElem?_cons_zero, h4, Res.ok_bind, List.set_cons_zero]
        rw [h6, h7 (keyValue_none hn.1)]
      · rw [keyValue, if_pos rfl]; intro h; cases h
      · rw [keyValue, if_pos rfl]; intro d' h; cases h; exact ⟨o, e', rfl, h5⟩
    · have hi : fieldIndex [(some key, Ty.uintptr)] k = none := by simp [fieldIndex, Ne.symm hk]
      obtain ⟨w, h6, h7, h8⟩ := ih b e v hn.2 h3
      refine ⟨w, ?_, ?_, ?_⟩
      · simp only [hi, skip_stored h2, Res.ok_bind]
        exact h6
      · rw [keyValue, if_neg hk]; exact h7
      · rw [keyValue, if_neg hk]; exact h8

theorem stored_le {buf : Bytes} {m : Nat} : ∀ {k off : Nat} {d : Doc} {e : Nat}, Stored buf m off d e → Stored buf (m + k) off d e
  | 0, _, _, _, h => h
  | _ + 1, _, _, _, h => stored_mono _ (stored_le h)

/-! ## Examples -/

/-- The hypotheses hold for a record that goes into a struct with an embedded struct, a pointer and a slice. -/
example (fl : Floats) :
    let d : Doc := .map [([1], .str [65]), ([2], .array [.uint32 1 7, .uint16 1 8]), ([3], .bool true), ([4], .int32 4 (-5)), ([9], .double 0)]
    let ty : Ty := .struct [(some [1], .str), (some [2], .slice (.uint 16)), (none, .struct [(some [3], .ptr .bool), (some [5], .int 8)]), (some [4], .int 64)]
    Fillable ty ∧ d.Distinct ∧ d.Narrow ∧ NoU64 ty ∧ Stored d.enc 513 0 d d.enc.length ∧
    into fl ty d = some (.struct [.str [65], .slice (some [.uint 7, .uint 8]), .struct [.ptr (some (.bool true)), .int 0], .int (-5)]) := by
  refine ⟨?_, ?_, ?_, ?_, ?_, ?_⟩
  · simp [Fillable, Fillable.fillableFields]
  · simp [Doc.Distinct, Doc.Every, Doc.Every.everyPair, Doc.Every.everyAll]
  · simp [Doc.Narrow, Doc.Every, Doc.Every.everyPair, Doc.Every.everyAll]
  · simp [NoU64, NoU64.noU64Fields]
  · have := enc_stored (Doc.map [([1], .str [65]), ([2], .array [.uint32 1 7, .uint16 1 8]), ([3], .bool true), ([4], .int32 4 (-5)), ([9], .double 0)])
      _ 0 513 (by unfold At; rw [List.drop_zero]; exact List.prefix_rfl)
      (by simp [Doc.AllFit, Doc.AllFit.fitPairs, Doc.AllFit.fitAll, Doc.Fits, SizeOK])
      (by simp [Doc.levels, Doc.levels.levelsPairs, Doc.levels.levelsAll])
    rwa [Nat.zero_add] at this
  · simp [into, intoFields, keyValue, readAll, Doc.number, zeroOf, zeroOf.zerosOf]

end Uip.Awdb
