import Verif.Model.Program
/-!
# Property C59: the format registry

A history is the list of registration calls made so far, oldest first, of any kind, for any extension, with any creator
(nil included).
-/
namespace Uip.Program
open Uip

/-- One registration call. -/
inductive Reg (D Q P : Type) where
  | dump (ext : Str) (create : Option D)
  | query (ext : Str) (create : Option Q)
  | pack (ext : Str) (create : Option P)

variable {D Q P : Type}

/-- Performing a call. -/
def Reg.run (r : Registry D Q P) : Reg D Q P → Registry D Q P
  | .dump e c => r.RegisterDumpFormat e c
  | .query e c => r.RegisterQueryFormat e c
  | .pack e c => r.RegisterPackFormat e c

/-- The registry after a history. -/
def after (h : List (Reg D Q P)) : Registry D Q P := h.foldl Reg.run {}

/-- The creators registered by the calls of one kind, with their extensions, oldest first. -/
def dumpCalls (h : List (Reg D Q P)) : List (Str × Option D) := h.filterMap fun | .dump e c => some (e, c) | _ => none
def queryCalls (h : List (Reg D Q P)) : List (Str × Option Q) := h.filterMap fun | .query e c => some (e, c) | _ => none
def packCalls (h : List (Reg D Q P)) : List (Str × Option P) := h.filterMap fun | .pack e c => some (e, c) | _ => none

/-- The creator of the last call for the extension; nil if there was none. -/
def lastFor {α : Type} (calls : List (Str × Option α)) (ext : Str) : Option α :=
  ((calls.filter fun p => decide (p.1 = ext)).getLast?.map (·.2)).getD none

theorem mapGet_mapSet {α : Type} (m : GoMap α) (k k' : Str) (v : α) :
    mapGet (mapSet m k v) k' = if k = k' then some v else mapGet m k' := by
  unfold mapSet
  rw [mapGet]

theorem lastFor_snoc {α : Type} (calls : List (Str × Option α)) (e ext : Str) (c : Option α) :
    lastFor (calls ++ [(e, c)]) ext = if e = ext then c else lastFor calls ext := by
  unfold lastFor
  rw [List.filter_append]
  by_cases h : e = ext
  · rw [if_pos h]; simp [h]
  · rw [if_neg h]; simp [h]

@[elab_as_elim] theorem snoc_induction {α : Type} {motive : List α → Prop} (l : List α) (nil : motive [])
    (snoc : ∀ l a, motive l → motive (l ++ [a])) : motive l := by
  have : ∀ l : List α, motive l.reverse := by
    intro l
    induction l with
    | nil => exact nil
    | cons a l ih => rw [List.reverse_cons]; exact snoc _ _ ih
  rw [← List.reverse_reverse l]
  exact this _

theorem after_snoc (h : List (Reg D Q P)) (c : Reg D Q P) : after (h ++ [c]) = c.run (after h) := by
  unfold after; rw [List.foldl_append]; rfl

/-- C59: the creator used for an extension and kind is the one registered last for that extension and that kind;
registrations of the other kinds and for other extensions make no difference. -/
theorem C59_last_registration (h : List (Reg D Q P)) (ext : Str) :
    (after h).GetDumpFormat ext = lastFor (dumpCalls h) ext ∧
    (after h).GetQueryFormat ext = lastFor (queryCalls h) ext ∧
    (after h).GetPackFormat ext = lastFor (packCalls h) ext := by
  induction h using snoc_induction with
  | nil => exact ⟨rfl, rfl, rfl⟩
  | snoc h c ih =>
    rw [after_snoc]
    obtain ⟨i1, i2, i3⟩ := ih
    unfold Registry.GetDumpFormat at i1 ⊢
    unfold Registry.GetQueryFormat at i2 ⊢
    unfold Registry.GetPackFormat at i3 ⊢
    cases c with
    | dump e c =>
      have hd : dumpCalls (h ++ [Reg.dump e c]) = dumpCalls h ++ [(e, c)] := by simp [dumpCalls, List.filterMap_append]
      have hq : queryCalls (h ++ [Reg.dump e c]) = queryCalls h := by simp [queryCalls, List.filterMap_append]
      have hp : packCalls (h ++ [Reg.dump e c]) = packCalls h := by simp [packCalls, List.filterMap_append]
      rw [hd, hq, hp, lastFor_snoc]
      refine ⟨?_, i2, i3⟩
      unfold Reg.run Registry.RegisterDumpFormat
      simp only [mapGet_mapSet, ← i1]
      split <;> rfl
    | query e c =>
      have hd : dumpCalls (h ++ [Reg.query e c]) = dumpCalls h := by simp [dumpCalls, List.filterMap_append]
      have hq : queryCalls (h ++ [Reg.query e c]) = queryCalls h ++ [(e, c)] := by simp [queryCalls, List.filterMap_append]
      have hp : packCalls (h ++ [Reg.query e c]) = packCalls h := by simp [packCalls, List.filterMap_append]
      rw [hd, hq, hp, lastFor_snoc]
      refine ⟨i1, ?_, i3⟩
      unfold Reg.run Registry.RegisterQueryFormat
      simp only [mapGet_mapSet, ← i2]
      split <;> rfl
    | pack e c =>
      have hd : dumpCalls (h ++ [Reg.pack e c]) = dumpCalls h := by simp [dumpCalls, List.filterMap_append]
      have hq : queryCalls (h ++ [Reg.pack e c]) = queryCalls h := by simp [queryCalls, List.filterMap_append]
      have hp : packCalls (h ++ [Reg.pack e c]) = packCalls h ++ [(e, c)] := by simp [packCalls, List.filterMap_append]
      rw [hd, hq, hp, lastFor_snoc]
      refine ⟨i1, i2, ?_⟩
      unfold Reg.run Registry.RegisterPackFormat
      simp only [mapGet_mapSet, ← i3]
      split <;> rfl

/-- A history in which one extension is registered twice and another kind in between. -/
example : let h : List (Reg Nat Nat Nat) := [.dump (gs ".a") (some 1), .query (gs ".a") (some 2), .dump (gs ".a") (some 3), .dump (gs ".b") (some 4)]
    (after h).GetDumpFormat (gs ".a") = some 3 ∧ (after h).GetQueryFormat (gs ".a") = some 2 ∧
    (after h).GetPackFormat (gs ".a") = none := by decide +kernel

/-- C59: without a creator for the kind (never registered, or nil) opening, dumping and packing report
`ErrUnsupportedFormat`. -/
theorem C59_unsupported (w : World) (h : List (Reg DumpF NewQueryF PackF)) (kind : Str) :
    (lastFor (queryCalls h) kind = none → ∀ b, NewDbFromBytes w (after h) kind b = .err .unsupportedFormat) ∧
    (lastFor (packCalls h) kind = none → ∀ d, PackBytes (after h) kind d = .err .unsupportedFormat) ∧
    (lastFor (dumpCalls h) kind = none → ∀ (fs : Fs) name rule ops, (fs name).isSome → pathExt name = kind →
      DumpFile (after h) fs name rule ops = some (.err .unsupportedFormat)) := by
  obtain ⟨h1, h2, h3⟩ := C59_last_registration h kind
  refine ⟨fun hn b => ?_, fun hn d => ?_, fun hn fs name rule ops hs he => ?_⟩
  · unfold NewDbFromBytes; rw [h2, hn]
  · unfold PackBytes PackWriter; rw [h3, hn]
  · unfold DumpFile
    cases hf : fs name with
    | none => rw [hf] at hs; cases hs
    | some b => simp only []; rw [he, h1, hn]

/-- C59: with a creator for the kind it is that creator that is used. -/
theorem C59_used (w : World) (h : List (Reg DumpF NewQueryF PackF)) (kind : Str) :
    (∀ c, lastFor (queryCalls h) kind = some c → ∀ b,
      NewDbFromBytes w (after h) kind b = c b >>= fun q => q.buildCache (splitByte 0x0A w.warm)) ∧
    (∀ c, lastFor (packCalls h) kind = some c → ∀ d, PackBytes (after h) kind d = c d) ∧
    (∀ c, lastFor (dumpCalls h) kind = some c → ∀ (fs : Fs) name b rule ops, fs name = some b → pathExt name = kind →
      DumpFile (after h) fs name rule ops = (c b (Export.ParseRule rule)).map fun r => r >>= runOps ops) := by
  obtain ⟨h1, h2, h3⟩ := C59_last_registration h kind
  refine ⟨fun c hn b => ?_, fun c hn d => ?_, fun c hn fs name b rule ops hs he => ?_⟩
  · unfold NewDbFromBytes; rw [h2, hn]
  · unfold PackBytes PackWriter; rw [h3, hn]
  · unfold DumpFile; rw [hs]; simp only []; rw [he, h1, hn]

/-! ## The extension of a file name -/

theorem pathExtLoop_scan (s rest tail : Str) (h1 : (0x2E : UInt8) ∉ s) (h2 : (0x2F : UInt8) ∉ s) :
    pathExtLoop (s ++ rest) tail = pathExtLoop rest (s.reverse ++ tail) := by
  induction s generalizing tail with
  | nil => rfl
  | cons c s ih =>
    simp only [List.mem_cons, not_or] at h1 h2
    rw [List.cons_append, pathExtLoop, if_neg (fun h => h2.1 h.symm), if_neg (fun h => h1.1 h.symm), ih _ h1.2 h2.2]
    simp

/-- C59: the kind of a file is what follows the last dot of the last element of its name, dot included. -/
theorem C59_extension (front ext : Str) (h1 : (0x2E : UInt8) ∉ ext) (h2 : (0x2F : UInt8) ∉ ext) :
    pathExt (front ++ 0x2E :: ext) = 0x2E :: ext := by
  unfold pathExt
  rw [List.reverse_append, List.reverse_cons, List.append_assoc,
    pathExtLoop_scan _ _ _ (by simpa using h1) (by simpa using h2)]
  simp [pathExtLoop]

/-- C59: a last element without a dot has no kind. -/
theorem C59_no_extension (dir base : Str) (h1 : (0x2E : UInt8) ∉ base) (h2 : (0x2F : UInt8) ∉ base) :
    pathExt base = [] ∧ pathExt (dir ++ 0x2F :: base) = [] := by
  unfold pathExt
  constructor
  · have := pathExtLoop_scan base.reverse [] [] (by simpa using h1) (by simpa using h2)
    rw [List.append_nil] at this
    rw [this]; rfl
  · rw [List.reverse_append, List.reverse_cons, List.append_assoc,
      pathExtLoop_scan _ _ _ (by simpa using h1) (by simpa using h2)]
    simp [pathExtLoop]

example : pathExt (gs "/data/v1.2/city.ipdb") = gs ".ipdb" ∧ pathExt (gs "/data/v1.2/city") = [] := by decide +kernel

/-! ## The built-in registrations -/

/-- C59: what the three programs can open, dump and write. -/
theorem C59_builtin (w : World) (fuel : Nat) (ext : Str) :
    (((serverFormats w fuel).GetQueryFormat ext).isSome ↔ ext = gs ".ipdb" ∨ ext = gs ".awdb") ∧
    (((converterFormats w fuel).GetQueryFormat ext).isSome ↔ ext = gs ".ipdb" ∨ ext = gs ".awdb") ∧
    (((converterFormats w fuel).GetDumpFormat ext).isSome ↔
      ext = gs ".ipdb" ∨ ext = gs ".awdb" ∨ ext = gs ".memip" ∨ ext = gs ".scan") ∧
    (((converterFormats w fuel).GetPackFormat ext).isSome ↔ ext = gs ".ipdb" ∨ ext = gs ".memip" ∨ ext = gs ".scan") := by
  generalize h1 : gs ".ipdb" = e1
  generalize h2 : gs ".awdb" = e2
  generalize h3 : gs ".memip" = e3
  generalize h4 : gs ".scan" = e4
  unfold converterFormats serverFormats plainInit memipInit ipdbInit awdbInit
  simp only [h1, h2, h3, h4, Registry.RegisterDumpFormat, Registry.RegisterQueryFormat, Registry.RegisterPackFormat,
    Registry.GetDumpFormat, Registry.GetQueryFormat, Registry.GetPackFormat, mapGet_mapSet, mapGet]
  refine ⟨?_, ?_, ?_, ?_⟩
  · by_cases k1 : e1 = ext
    · simp [k1]
    · by_cases k2 : e2 = ext
      · simp [k2]; split <;> rfl
      · simp [k1, k2, Ne.symm k1, Ne.symm k2]
  · by_cases k1 : e1 = ext
    · simp [k1]
    · by_cases k2 : e2 = ext
      · simp [k2]; split <;> rfl
      · simp [k1, k2, Ne.symm k1, Ne.symm k2]
  · by_cases k1 : e1 = ext
    · simp [k1]; split <;> (try split) <;> rfl
    · by_cases k2 : e2 = ext
      · simp [k2]; split <;> (try split) <;> (try split) <;> rfl
      · by_cases k3 : e3 = ext
        · simp [k3]; split <;> rfl
        · by_cases k4 : e4 = ext
          · simp [k4]
          · simp [k1, k2, k3, k4, Ne.symm k1, Ne.symm k2, Ne.symm k3, Ne.symm k4]
  · by_cases k1 : e1 = ext
    · simp [k1]; split <;> (try split) <;> rfl
    · by_cases k3 : e3 = ext
      · simp [k3]; split <;> rfl
      · by_cases k4 : e4 = ext
        · simp [k4]
        · simp [k1, k3, k4, Ne.symm k1, Ne.symm k3, Ne.symm k4]

/-- C59: the converter's writer is the one of `C43`. -/
theorem C59_packWriter (w : World) (fuel : Nat) (kind : Str) (d : HData) :
    PackWriter (converterFormats w fuel) kind d =
      Convert.PackWriter ⟨w.encMeta, w.encVersion, w.now, w.nowText⟩ kind d := by
  have h13 : gs ".ipdb" ≠ gs ".scan" := by decide +kernel
  have h14 : gs ".ipdb" ≠ gs ".memip" := by decide +kernel
  have h34 : gs ".scan" ≠ gs ".memip" := by decide +kernel
  unfold PackWriter Convert.PackWriter
  unfold converterFormats plainInit memipInit ipdbInit awdbInit
  generalize gs ".ipdb" = e1 at *
  generalize gs ".scan" = e3 at *
  generalize gs ".memip" = e4 at *
  generalize gs ".awdb" = e2 at *
  simp only [Registry.RegisterDumpFormat, Registry.RegisterQueryFormat, Registry.RegisterPackFormat,
    Registry.GetPackFormat, mapGet_mapSet, mapGet]
  by_cases k1 : kind = e1
  · subst k1
    simp [Ne.symm h13, Ne.symm h14]
  · by_cases k2 : kind = e3
    · subst k2; simp [Ne.symm h13]
    · by_cases k3 : kind = e4
      · subst k3; simp [h34, Ne.symm h14, Ne.symm h34]
      · simp [k1, k2, k3, Ne.symm k1, Ne.symm k2, Ne.symm k3]

end Uip.Program
