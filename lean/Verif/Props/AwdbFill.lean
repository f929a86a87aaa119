import Verif.Proof.Awdb.Fill
import Verif.Props.AwdbTyped
import Verif.Props.AwdbLookup
/-!
# Property C92: decoding awdb records into typed variables

Vocabulary: `Verif/Spec/AwdbFill.lean` (`fill`, `OfType`, `OffsetFree`).  `decodeInto fl buf ty cur off` is
`Decode(off, &x)` for a variable `x` of type `ty` that holds `cur`, `r.LookupT fl a ty cur` is `Lookup(a, &x)`.  `fl` are
the conversions between float types.
-/
namespace Uip.Awdb
open Uip Uip.Spec Uip.Spec.Awdb

/-- **C92 (Decode).** Let a value stand in the data section (in place or by pointers, with 512 levels at most).  For every
type (without `uintptr`) and every content of a variable of that type, decoding the value into the variable makes it hold
exactly what `fill` says, and succeeds exactly if the value fits. -/
theorem C92_decode (fl : Floats) (buf : Bytes) (off e : Nat) (d : Doc) (ty : Ty) (cur : TV) (h : Stored buf 513 off d e)
    (hc : OffsetFree ty) (ht : OfType ty cur) (v : TV) :
    decodeInto fl buf ty cur off = .ok v ↔ fill fl ty cur d = some v := by
  have hg := decodeT_fill fl buf 513 (.ptr ty) d off e (.ptr (some cur)) h hc (shaped_of ty cur ht)
  unfold decodeInto
  rw [Res.bind_eq_ok]
  constructor
  · rintro ⟨x, h1, h2⟩
    obtain ⟨w, hw, rfl⟩ := Option.map_eq_some_iff.mp ((hg x).mp h1)
    simp only [fill, behind] at hw
    obtain ⟨u, hu, rfl⟩ := Option.map_eq_some_iff.mp hw
    rw [hu, Res.ok.inj h2]
  · intro hv
    refine ⟨(.ptr (some v), e), (hg _).mpr ?_, rfl⟩
    simp only [fill, behind, hv, Option.map_some]

/-- **C92 (Lookup).** For every awdb file and every address: where the walk ends at a record `d`, `Lookup` makes the
variable hold what `fill` says, and fails exactly if `d` does not fit; without a record it leaves the variable alone. -/
theorem C92_lookup (fl : Floats) (f : File) (hf : f.OK) (a : IP) (ha : f.Asks a) (n k : Nat)
    (hw : treeWalk f.nodes (f.path a) 0 0 = (n, k)) (ty : Ty) (cur : TV) :
    ∃ r, FromBytes f.bytes = .ok r ∧
      (n = f.nodes.length → r.LookupT fl a ty cur = .ok cur) ∧
      (∀ off d e, Stored f.data 513 off d e → n = f.nodes.length + 16 + off → OffsetFree ty → OfType ty cur →
        ∀ v, r.LookupT fl a ty cur = .ok v ↔ fill fl ty cur d = some v) := by
  obtain ⟨r, ho, hl, hnd, hd, hm⟩ := file_opens hf
  refine ⟨r, ho, ?_, ?_⟩
  · rintro rfl
    obtain ⟨l, q, hp⟩ := lookupPointer_file hf ha ho hw (Nat.le_refl _)
    unfold Reader.LookupT
    rw [hp, if_pos rfl]; rfl
  · rintro off d e hst rfl hc ht v
    obtain ⟨l, q, hp⟩ := lookupPointer_file hf ha ho hw (by omega)
    rw [if_neg (by omega)] at hp
    have hlt := stored_lt hst
    have hle : f.data.length ≤ f.bytes.length := by unfold File.bytes; simp only [List.length_append]; omega
    have hr : r.resolveDataPointer (f.nodes.length + 16 + off) = .ok off := by
      unfold Reader.resolveDataPointer
      rw [hm, hf.mdCount, hl, if_neg (by omega), if_neg (by omega)]
      exact congrArg Res.ok (by omega)
    unfold Reader.LookupT
    rw [hp, Res.ok_bind]
    simp only []
    rw [if_neg (by omega), hr, Res.ok_bind, hd]
    exact C92_decode fl f.data off e d ty cur hst hc ht v

/-! ## The variable keeps its type -/

theorem zero_in (bits : Nat) : -2 ^ (bits - 1) ≤ (0 : Int) ∧ (0 : Int) < 2 ^ (bits - 1) := by
  have : (0 : Int) < 2 ^ (bits - 1) := Int.pow_pos (by decide)
  omega

mutual
theorem ofType_zero : ∀ t : Ty, OfType t (zeroOf t)
  | .bool => trivial
  | .int bits => zero_in bits
  | .uint bits => Nat.two_pow_pos bits
  | .uintptr => trivial
  | .f32 => trivial
  | .f64 => trivial
  | .str => trivial
  | .any => trivial
  | .big => trivial
  | .slice _ => trivial
  | .map _ => trivial
  | .struct fs => ofTypes_zeros fs
  | .ptr t => trivial
  | .other => trivial
theorem ofTypes_zeros : ∀ fs : List (Option Str × Ty), OfType.ofTypes fs (zeroOf.zerosOf fs)
  | [] => trivial
  | f :: fs => ⟨ofType_zero f.2, ofTypes_zeros fs⟩
end

theorem ofType_behind {t : Ty} {v : TV} (h : OfType (.ptr t) v) : OfType t (behind t v) := by
  cases v with
  | ptr o =>
    cases o with
    | none => exact ofType_zero t
    | some w => exact h
  | _ => exact h.elim

mutual
theorem ofType_copy : ∀ (t : Ty) (v w : TV), OfType t v → OfType t w → OfType t (copyShows v w)
  | .ptr t, v, w, hv, hw => by
    cases v with
    | ptr a =>
      cases a with
      | none => cases w <;> exact hv
      | some a =>
        cases w with
        | ptr b => cases b <;> first | exact hv | exact hw
        | _ => exact hv
    | _ => exact hv.elim
  | .map t, v, w, hv, hw => by
    cases v with
    | map a =>
      cases a with
      | none => cases w <;> exact hv
      | some a =>
        cases w with
        | map b => cases b <;> first | exact hv | exact hw
        | _ => exact hv
    | _ => exact hv.elim
  | .struct fs, v, w, hv, hw => by
    cases v with
    | struct vs =>
      cases w with
      | struct ws => exact ofTypes_copies fs vs ws hv hw
      | _ => exact hv
    | _ => exact hv.elim
  | .any, v, w, hv, hw => by
    cases v with
    | any a =>
      have : ∀ u, OfType .any u ↔ ∃ x, u = .any x := fun u => by cases u <;> simp [OfType]
      rw [this]
      cases a with
      | none => exact ⟨_, by cases w <;> rfl⟩
      | some a =>
        cases a with
        | big n =>
          cases w with
          | any b =>
            cases b with
            | none => exact ⟨_, rfl⟩
            | some b => cases b <;> exact ⟨_, rfl⟩
          | _ => exact ⟨_, rfl⟩
        | _ => exact ⟨_, by cases w <;> rfl⟩
    | _ => exact hv.elim
  | .bool, v, w, hv, _ => by cases v <;> first | exact hv.elim | (cases w <;> exact hv)
  | .int _, v, w, hv, _ => by cases v <;> first | exact hv.elim | (cases w <;> exact hv)
  | .uint _, v, w, hv, _ => by cases v <;> first | exact hv.elim | (cases w <;> exact hv)
  | .uintptr, v, w, hv, _ => by cases v <;> first | exact hv.elim | (cases w <;> exact hv)
  | .f32, v, w, hv, _ => by cases v <;> first | exact hv.elim | (cases w <;> exact hv)
  | .f64, v, w, hv, _ => by cases v <;> first | exact hv.elim | (cases w <;> exact hv)
  | .str, v, w, hv, _ => by cases v <;> first | exact hv.elim | (cases w <;> exact hv)
  | .big, v, w, hv, _ => by cases v <;> first | exact hv.elim | (cases w <;> exact hv)
  | .slice _, v, w, hv, _ => by cases v <;> first | exact hv.elim | (cases w <;> exact hv)
  | .other, _, _, _, _ => trivial
theorem ofTypes_copies : ∀ (fs : List (Option Str × Ty)) (vs ws : List TV), OfType.ofTypes fs vs → OfType.ofTypes fs ws →
    OfType.ofTypes fs (copyShows.copiesShow vs ws)
  | [], [], _, _, _ => trivial
  | f :: fs, v :: vs, w :: ws, hv, hw => ⟨ofType_copy f.2 v w hv.1 hw.1, ofTypes_copies fs vs ws hv.2 hw.2⟩
  | _ :: _, _ :: _, [], hv, _ => hv
  | [], _ :: _, _, h, _ => h.elim
  | _ :: _, [], _, h, _ => h.elim
end

theorem viaVariable_inv {put : TV → Doc → Option TV} {next : TV → TV} {P : TV → Prop} (hn : ∀ v, P v → P (next v))
    (hp : ∀ v d w, P v → put v d = some w → P w) : ∀ (l : List (Str × Doc)) (v : TV) (m : List (Str × TV)) (x : List (Str × TV) × TV),
      P v → (∀ p ∈ m, P p.2) → viaVariable put next l v m = some x → (∀ p ∈ x.1, P p.2) ∧ P x.2 := by
  intro l
  induction l with
  | nil => intro v m x hv hm h; cases h; exact ⟨hm, hv⟩
  | cons kd l ih =>
    intro v m x hv hm h
    obtain ⟨k, d⟩ := kd
    rw [viaVariable] at h
    split at h
    · rename_i w hw
      have := hp _ _ _ (hn v hv) hw
      refine ih w _ x this ?_ h
      intro p hpm
      rcases List.mem_cons.mp hpm with rfl | hpm
      · exact this
      · exact hm p hpm
    · cases h

theorem readAll_inv {α : Type} {f : Doc → Option α} {P : α → Prop} (h : ∀ d v, f d = some v → P v) : ∀ (l : List Doc) (vs : List α),
    readAll f l = some vs → ∀ v ∈ vs, P v := by
  intro l
  induction l with
  | nil => intro vs hv v hm; cases hv; cases hm
  | cons d l ih =>
    intro vs hv v hm
    rw [readAll] at hv
    split at hv
    · rename_i w ws h1 h2
      cases hv
      rcases List.mem_cons.mp hm with rfl | hm
      · exact h d _ h1
      · exact ih ws h2 v hm
    · cases hv

theorem old_typed {t : Ty} {cur : TV} (h : OfType (.map t) cur) : ∀ p ∈ oldEntries cur, OfType t p.2 := by
  cases cur with
  | map m =>
    cases m with
    | none => intro p hp; cases hp
    | some m => exact h
  | _ => exact h.elim

mutual
theorem fill_typed (fl : Floats) : ∀ (t : Ty) (v : TV) (d : Doc) (w : TV), OfType t v → fill fl t v d = some w → OfType t w
  | .bool, _, d, w, _, hf => by
    cases d <;> rw [fill] at hf <;> first | (cases hf; done) | (cases hf; trivial) | skip
    all_goals simp
  | .int _, _, d, w, _, hf => by
    rw [fill] at hf
    obtain ⟨z, _, hf⟩ := Option.bind_eq_some_iff.mp hf
    split at hf
    · rename_i hz; cases hf; exact hz
    · cases hf
  | .uint bits, _, d, w, _, hf => by
    rw [fill] at hf
    obtain ⟨z, _, hf⟩ := Option.bind_eq_some_iff.mp hf
    split at hf
    · rename_i hz
      cases hf
      show (asUint64 z).toNat < 2 ^ bits
      by_cases h0 : 0 ≤ asUint64 z
      · rw [Int.toNat_lt h0, two_pow]; exact hz
      · rw [Int.toNat_of_nonpos (by omega)]; exact Nat.two_pow_pos bits
    · cases hf
  | .uintptr, _, _, _, _, hf => by rw [fill] at hf; cases hf
  | .f32, _, d, w, _, hf => by
    rw [fill] at hf
    cases d <;> simp only [toF32] at hf <;> first | (cases hf; done) | (cases hf; trivial) | (split at hf <;> cases hf; trivial)
  | .f64, _, d, w, _, hf => by
    rw [fill] at hf
    cases d <;> simp only [toF64] at hf <;> first | (cases hf; done) | (cases hf; trivial)
  | .str, _, d, w, _, hf => by
    cases d <;> simp only [fill] at hf <;> first | (cases hf; done) | (cases hf; trivial)
  | .any, v, d, w, h, hf => by
    have key : (∃ x, w = .any x) → OfType .any w := by rintro ⟨x, rfl⟩; trivial
    apply key
    by_cases hb : ∃ n, v = .any (some (.big n))
    · obtain ⟨n, rfl⟩ := hb
      simp only [fill] at hf
      obtain ⟨m, _, rfl⟩ := Option.map_eq_some_iff.mp hf
      exact ⟨_, rfl⟩
    · rw [fill] at hf
      · cases hf; exact ⟨_, rfl⟩
      · exact fun n h => hb ⟨n, h⟩
  | .big, v, d, w, h, hf => by
    cases v <;> first | exact h.elim | skip
    simp only [fill] at hf
    obtain ⟨m, _, rfl⟩ := Option.map_eq_some_iff.mp hf
    trivial
  | .slice t, v, d, w, h, hf => by
    cases d with
    | array l =>
      simp only [fill] at hf
      obtain ⟨vs, h2, rfl⟩ := Option.map_eq_some_iff.mp hf
      exact readAll_inv (fun d v hv => fill_typed fl t (zeroOf t) d v (ofType_zero t) hv) l vs h2
    | bytes b =>
      cases t with
      | uint bits =>
        simp only [fill] at hf
        split at hf
        · rename_i hb
          cases hf; subst hb
          intro v hv
          obtain ⟨x, _, rfl⟩ := List.mem_map.mp hv
          exact UInt8.toNat_lt x
        · cases hf
      | _ => simp only [fill] at hf; cases hf
    | _ => simp only [fill] at hf; cases hf
  | .map t, v, d, w, h, hf => by
    cases d with
    | map l =>
      by_cases ha : t = .any
      · subst ha
        simp only [fill] at hf
        obtain ⟨m, h2, rfl⟩ := Option.map_eq_some_iff.mp hf
        have := viaVariable_inv (P := OfType .any) (next := fun _ => .any none) (fun _ _ => trivial)
          (fun v d w hv hw => fill_typed fl .any v d w hv hw) l (.any none) [] m trivial (fun p hp => by cases hp) h2
        intro p hp
        rcases List.mem_append.mp hp with hp | hp
        · exact this.1 p hp
        · exact old_typed h p hp
      · rw [fill] at hf
        · obtain ⟨m, h2, rfl⟩ := Option.map_eq_some_iff.mp hf
          have := viaVariable_inv (P := OfType t) (next := id) (fun _ h => h)
            (fun v d w hv hw => fill_typed fl t v d w hv hw) l _ _ m (ofType_zero t) (fun p hp => by cases hp) h2
          intro p hp
          rcases List.mem_append.mp hp with hp | hp
          · obtain ⟨q, hq, rfl⟩ := List.mem_map.mp hp
            exact ofType_copy t _ _ (this.1 q hq) this.2
          · exact old_typed h p hp
        · exact ha
    | _ => simp only [fill] at hf; cases hf
  | .struct fs, v, d, w, h, hf => by
    cases v with
    | struct vs =>
      cases d with
      | map l =>
        simp only [fill, oldFields] at hf
        obtain ⟨ws, h2, rfl⟩ := Option.map_eq_some_iff.mp hf
        exact fills_typed fl fs vs l ws h h2
      | _ => simp only [fill] at hf; cases hf
    | _ => exact h.elim
  | .ptr t, v, d, w, h, hf => by
    simp only [fill] at hf
    obtain ⟨u, h2, rfl⟩ := Option.map_eq_some_iff.mp hf
    exact fill_typed fl t _ d u (ofType_behind h) h2
  | .other, _, _, _, _, _ => trivial
theorem fills_typed (fl : Floats) : ∀ (fs : List (Option Str × Ty)) (vs : List TV) (l : List (Str × Doc)) (ws : List TV),
    OfType.ofTypes fs vs → fillFields fl fs vs l = some ws → OfType.ofTypes fs ws
  | [], [], _, ws, _, h => by rw [fillFields] at h; cases h; trivial; simp
  | (none, t) :: fs, v :: vs, l, ws, hs, h => by
    rw [fillFields] at h
    split at h
    · rename_i w us h1 h2
      cases h
      exact ⟨fill_typed fl t v _ w hs.1 h1, fills_typed fl fs vs l us hs.2 h2⟩
    · cases h
  | (some k, t) :: fs, v :: vs, l, ws, hs, h => by
    rw [fillFields] at h
    split at h
    · rename_i w us h1 h2
      cases h
      refine ⟨?_, fills_typed fl fs vs l us hs.2 h2⟩
      simp only [] at h1
      split at h1
      · cases h1; exact hs.1
      · exact inTurn_inv (P := OfType t) (fun v d w => fill_typed fl t v d w) _ v w hs.1 h1
    · cases h
  | [], _ :: _, _, _, h, _ => h.elim
  | _ :: _, [], _, _, h, _ => h.elim
end

/-- **C92 (never a wrong kind of value).** Whatever is stored, a variable of a type holds a value of its type after
decoding into it, with all numbers in range. -/
theorem C92_typed (fl : Floats) (buf : Bytes) (off e : Nat) (d : Doc) (ty : Ty) (cur : TV) (h : Stored buf 513 off d e)
    (hc : OffsetFree ty) (ht : OfType ty cur) (v : TV) (hv : decodeInto fl buf ty cur off = .ok v) : OfType ty v :=
  fill_typed fl ty cur d v ht ((C92_decode fl buf off e d ty cur h hc ht v).mp hv)

/-! ## Offsets -/

/-- **C92 (offsets).** A struct field of type `uintptr` does not get a number: it gets an offset at which the value of its
key stands (behind its pointers), so that `Decode` with that offset gives what decoding the value itself would have
given.  Without the key it keeps what it holds. -/
theorem C92_offset (fl : Floats) (buf : Bytes) (off e : Nat) (l : List (Str × Doc)) (key : Str) (v : TV)
    (h : Stored buf 513 off (.map l) e) (hn : (l.map Prod.fst).Nodup) :
    ∃ w, decodeInto fl buf (.struct [(some key, .uintptr)]) (.struct [v]) off = .ok (.struct [w]) ∧
      (keyValue key l = none → w = v) ∧
      (∀ d, keyValue key l = some d → ∃ o e', w = .uint o ∧ Stored buf 513 o d e' ∧
        ∀ ty cur, OffsetFree ty → OfType ty cur → ∀ x, (decodeInto fl buf ty cur o = .ok x ↔ fill fl ty cur d = some x)) := by
  rw [decodeInto_core fl buf (ty := .struct _) trivial]
  obtain ⟨r, o, e', hr, hk, hd, _⟩ := decodeT_map fl buf (ty := .struct [(some key, .uintptr)]) trivial 513 l off e (.struct [v]) h
  obtain ⟨w, h1, h2, h3⟩ := offset_loop fl buf r key l o e' v hn hk
  refine ⟨w, ?_, h2, ?_⟩
  · rw [hd, mapInto]
    simp only [fieldsOf, embedInto, Res.ok_bind, Res.pure_eq, h1]
  · intro d hv
    obtain ⟨o', e'', rfl, hs⟩ := h3 d hv
    have hs' : Stored buf 513 o' d e'' := by
      have := stored_le (k := 513 - r) hs
      rwa [show r + (513 - r) = 513 by omega] at this
    exact ⟨o', e'', rfl, hs', fun ty cur hc ht x => C92_decode fl buf o' e'' d ty cur hs' hc ht x⟩

/-- **C92 (LookupOffset, Decode).** On every opened file, for every address and every variable: the offset LookupOffset gives,
passed to Decode, does to the variable what Lookup does; if LookupOffset gives NotFound, Lookup leaves the variable alone; where
LookupOffset fails or crashes, so does Lookup. -/
theorem C92_by_offset (fl : Floats) (data : Bytes) (r : Reader) (ho : FromBytes data = .ok r) (hd : data.length < 2 ^ 64) (a : IP)
    (ty : Ty) (cur : TV) :
    (∀ off, r.LookupOffset a = .ok off → off ≠ NotFound → r.DecodeT fl off ty cur = r.LookupT fl a ty cur) ∧
    (r.LookupOffset a = .ok NotFound → r.LookupT fl a ty cur = .ok cur) ∧
    (∀ e, r.LookupOffset a = .err e → r.LookupT fl a ty cur = .err e) ∧
    (r.LookupOffset a = .panic → r.LookupT fl a ty cur = .panic) := by
  have hb := (opened_sizes ho).1
  unfold Reader.LookupOffset Reader.LookupT Reader.DecodeT
  cases r.lookupPointer a with
  | err e => simp [Res.err_bind]
  | panic => simp [Res.panic_bind]
  | ok x =>
    obtain ⟨p, l, ip⟩ := x
    simp only [Res.ok_bind]
    by_cases h : p = 0
    · simp only [if_pos h]
      refine ⟨fun off h1 h2 => absurd (Res.ok.inj h1).symm h2, fun _ => rfl, (fun e h1 => by cases h1), (fun h1 => by cases h1)⟩
    · simp only [if_neg h]
      cases hr : r.resolveDataPointer p with
      | err e => simp [Res.err_bind]
      | panic => simp [Res.panic_bind]
      | ok o =>
        have hlt : o < 2 ^ 64 - 1 := by
          unfold Reader.resolveDataPointer at hr
          split at hr
          · simp at hr
          split at hr
          · simp at hr
          · have := Res.ok.inj hr; omega
        have hne : o ≠ NotFound := by unfold NotFound; omega
        simp only [Res.ok_bind]
        refine ⟨(fun off h1 _ => by rw [Res.ok.inj h1]), fun h1 => absurd (Res.ok.inj h1) hne, (fun e h1 => by cases h1), (fun h1 => by cases h1)⟩

/-- **C92 (Decode of a reader).** Decode reads the value at the offset in the data section of the file. -/
theorem C92_decode_file (fl : Floats) (f : File) (hf : f.OK) (ty : Ty) (cur : TV) : ∃ r, FromBytes f.bytes = .ok r ∧
    ∀ off d e, Stored f.data 513 off d e → OffsetFree ty → OfType ty cur → ∀ v, r.DecodeT fl off ty cur = .ok v ↔ fill fl ty cur d = some v := by
  obtain ⟨r, h1, _, _, h2, _⟩ := file_opens hf
  refine ⟨r, h1, fun off d e hs hc ht v => ?_⟩
  unfold Reader.DecodeT
  rw [h2]
  exact C92_decode fl f.data off e d ty cur hs hc ht v

/-! ## Examples -/

/-- A variable that holds something: a struct with a number, a map and a nil pointer.  The number is kept, the map gets an
entry more, a key that comes twice counts twice, 2^64 - 1 becomes -1. -/
example (fl : Floats) :
    let d : Doc := .map [([2], .map [([7], .uint64 8 (2 ^ 64 - 1))]), ([3], .map [([97], .str [65])]), ([2], .map [([8], .int32 1 5)])]
    let ty : Ty := .struct [(some [1], .int 8), (some [2], .map (.int 16)), (some [3], .ptr (.struct [(some [97], .str)]))]
    let cur : TV := .struct [.int 3, .map (some [([9], .int 9)]), .ptr none]
    OffsetFree ty ∧ OfType ty cur ∧ Stored d.enc 513 0 d d.enc.length ∧
    fill fl ty cur d = some (.struct [.int 3, .map (some [([8], .int 5), ([7], .int (-1)), ([9], .int 9)]),
      .ptr (some (.struct [.str [65]]))]) ∧
    decodeInto fl d.enc ty cur 0 = .ok (.struct [.int 3, .map (some [([8], .int 5), ([7], .int (-1)), ([9], .int 9)]),
      .ptr (some (.struct [.str [65]]))]) := by
  have hst := enc_stored (Doc.map [([2], .map [([7], .uint64 8 (2 ^ 64 - 1))]), ([3], .map [([97], .str [65])]), ([2], .map [([8], .int32 1 5)])])
      _ 0 513 (by unfold At; rw [List.drop_zero]; exact List.prefix_rfl)
      (by simp [Doc.AllFit, Doc.AllFit.fitPairs, Doc.Fits, SizeOK])
      (by simp [Doc.levels, Doc.levels.levelsPairs])
  rw [Nat.zero_add] at hst
  refine ⟨by simp [OffsetFree, OffsetFree.offsetFrees], by simp [OfType, OfType.ofTypes], hst, ?_, rfl⟩
  simp [fill, fillFields, inTurn, valuesOf, viaVariable, Doc.number, asInt64, oldEntries, oldFields, copyShows, behind, zeroOf, zeroOf.zerosOf]

/-- `C92_by_offset` and `C92_decode_file` on the IPv6 example: the record of 1.2.3.4 stands at offset 0. -/
example (fl : Floats) (ty : Ty) (cur : TV) : demo6Reader.DecodeT fl 0 ty cur = demo6Reader.LookupT fl [1, 2, 3, 4] ty cur ∧
    demo6Reader.LookupT fl (0x20 :: List.replicate 15 7) ty cur = .ok cur :=
  ⟨(C92_by_offset fl demo6.bytes demo6Reader (by decide +kernel) (by decide +kernel) [1, 2, 3, 4] ty cur).1 0 (by decide +kernel) (by decide +kernel),
   (C92_by_offset fl demo6.bytes demo6Reader (by decide +kernel) (by decide +kernel) _ ty cur).2.1 (by decide +kernel)⟩
example : demo6.OK := demo6_ok

end Uip.Awdb
