import Verif.Spec.AwdbFill
import Verif.Proof.Awdb.Typed
/-!
# Decoding into variables that hold something
-/
namespace Uip.Awdb
open Uip Uip.Spec.Awdb

/-! ## Shapes -/

mutual
/-- What the decoder needs of the content of a variable. -/
def Shaped : Ty → TV → Prop
  | .big, v => ∃ n, v = .big n
  | .struct fs, v => ∃ vs, v = .struct vs ∧ Shapes fs vs
  | .ptr t, v => Shaped t (behind t v)
  | _, _ => True
def Shapes : List (Option Str × Ty) → List TV → Prop
  | [], [] => True
  | f :: fs, v :: vs => Shaped f.2 v ∧ Shapes fs vs
  | _, _ => False
end

mutual
theorem shaped_zero : ∀ t : Ty, Shaped t (zeroOf t)
  | .bool => trivial
  | .int _ => trivial
  | .uint _ => trivial
  | .uintptr => trivial
  | .f32 => trivial
  | .f64 => trivial
  | .str => trivial
  | .any => trivial
  | .big => ⟨0, rfl⟩
  | .slice _ => trivial
  | .map _ => trivial
  | .struct fs => ⟨_, rfl, shapes_zeros fs⟩
  | .ptr t => shaped_zero t
  | .other => trivial
theorem shapes_zeros : ∀ fs : List (Option Str × Ty), Shapes fs (zeroOf.zerosOf fs)
  | [] => trivial
  | f :: fs => ⟨shaped_zero f.2, shapes_zeros fs⟩
end

mutual
theorem shaped_of : ∀ (t : Ty) (v : TV), OfType t v → Shaped t v
  | .bool, _, _ => trivial
  | .int _, _, _ => trivial
  | .uint _, _, _ => trivial
  | .uintptr, _, _ => trivial
  | .f32, _, _ => trivial
  | .f64, _, _ => trivial
  | .str, _, _ => trivial
  | .any, _, _ => trivial
  | .big, v, h => by cases v <;> first | exact ⟨_, rfl⟩ | exact h.elim
  | .slice _, _, _ => trivial
  | .map _, _, _ => trivial
  | .struct fs, v, h => by
    cases v with
    | struct vs => exact ⟨vs, rfl, shapes_of fs vs h⟩
    | _ => exact h.elim
  | .ptr t, v, h => by
    cases v with
    | ptr o =>
      cases o with
      | none => exact shaped_zero t
      | some w => exact shaped_of t w h
    | _ => exact h.elim
  | .other, _, _ => trivial
theorem shapes_of : ∀ (fs : List (Option Str × Ty)) (vs : List TV), OfType.ofTypes fs vs → Shapes fs vs
  | [], [], _ => trivial
  | f :: fs, v :: vs, h => ⟨shaped_of f.2 v h.1, shapes_of fs vs h.2⟩
  | [], _ :: _, h => h.elim
  | _ :: _, [], h => h.elim
end

theorem shapes_length : ∀ {fs : List (Option Str × Ty)} {vs : List TV}, Shapes fs vs → vs.length = fs.length
  | [], [], _ => rfl
  | _ :: fs, _ :: vs, h => by rw [List.length_cons, List.length_cons, shapes_length h.2]
  | [], _ :: _, h => h.elim
  | _ :: _, [], h => h.elim

theorem shapes_get : ∀ {fs : List (Option Str × Ty)} {vs : List TV}, Shapes fs vs → ∀ (j : Nat) (f), fs[j]? = some f →
    ∃ v, vs[j]? = some v ∧ Shaped f.2 v
  | [], [], _ => fun _ _ h => by simp at h
  | f :: fs, v :: vs, h => by
    intro j g hj
    cases j with
    | zero => cases hj; exact ⟨v, rfl, h.1⟩
    | succ j => exact shapes_get h.2 j g hj
  | [], _ :: _, h => h.elim
  | _ :: _, [], h => h.elim

theorem shapes_set : ∀ {fs : List (Option Str × Ty)} {vs : List TV}, Shapes fs vs → ∀ (j : Nat) (f w), fs[j]? = some f →
    Shaped f.2 w → Shapes fs (vs.set j w)
  | [], [], _ => fun _ _ _ h => by simp at h
  | f :: fs, v :: vs, h => by
    intro j g w hj hw
    cases j with
    | zero => cases hj; exact ⟨hw, h.2⟩
    | succ j => exact ⟨h.1, shapes_set h.2 j g w hj hw⟩
  | [], _ :: _, h => h.elim
  | _ :: _, [], h => h.elim

theorem inTurn_inv {put : TV → Doc → Option TV} {P : TV → Prop} (hp : ∀ v d w, P v → put v d = some w → P w) :
    ∀ (l : List Doc) (v w : TV), P v → inTurn put v l = some w → P w := by
  intro l
  induction l with
  | nil => intro v w hv h; cases h; exact hv
  | cons d l ih =>
    intro v w hv h
    rw [inTurn] at h
    split at h
    · rename_i u hu; exact ih u w (hp v d u hv hu) h
    · cases h

mutual
theorem shaped_fill (fl : Floats) : ∀ (t : Ty) (v : TV) (d : Doc) (w : TV), Shaped t v → fill fl t v d = some w → Shaped t w
  | .bool, _, _, _, _, _ => trivial
  | .int _, _, _, _, _, _ => trivial
  | .uint _, _, _, _, _, _ => trivial
  | .uintptr, _, _, _, _, _ => trivial
  | .f32, _, _, _, _, _ => trivial
  | .f64, _, _, _, _, _ => trivial
  | .str, _, _, _, _, _ => trivial
  | .any, _, _, _, _, _ => trivial
  | .big, v, d, w, h, hf => by
    obtain ⟨n, rfl⟩ := h
    rw [fill] at hf
    obtain ⟨m, _, rfl⟩ := Option.map_eq_some_iff.mp hf
    exact ⟨m, rfl⟩
  | .slice _, _, _, _, _, _ => trivial
  | .map _, _, _, _, _, _ => trivial
  | .struct fs, v, d, w, h, hf => by
    obtain ⟨vs, rfl, hs⟩ := h
    cases d with
    | map l =>
      simp only [fill, oldFields] at hf
      obtain ⟨ws, h2, rfl⟩ := Option.map_eq_some_iff.mp hf
      exact ⟨ws, rfl, shapes_fill fl fs vs _ ws hs h2⟩
    | _ => simp only [fill] at hf; cases hf
  | .ptr t, v, d, w, h, hf => by
    rw [fill] at hf
    obtain ⟨u, h2, rfl⟩ := Option.map_eq_some_iff.mp hf
    exact shaped_fill fl t _ d u h h2
  | .other, _, _, _, _, _ => trivial
theorem shapes_fill (fl : Floats) : ∀ (fs : List (Option Str × Ty)) (vs : List TV) (l : List (Str × Doc)) (ws : List TV),
    Shapes fs vs → fillFields fl fs vs l = some ws → Shapes fs ws
  | [], [], _, ws, _, h => by rw [fillFields] at h; cases h; trivial; simp
  | (none, t) :: fs, v :: vs, l, ws, hs, h => by
    rw [fillFields] at h
    split at h
    · rename_i w us h1 h2
      cases h
      exact ⟨shaped_fill fl t v _ w hs.1 h1, shapes_fill fl fs vs l us hs.2 h2⟩
    · cases h
  | (some k, t) :: fs, v :: vs, l, ws, hs, h => by
    rw [fillFields] at h
    split at h
    · rename_i w us h1 h2
      cases h
      refine ⟨?_, shapes_fill fl fs vs l us hs.2 h2⟩
      simp only [] at h1
      split at h1
      · cases h1; exact hs.1
      · exact inTurn_inv (P := Shaped t) (fun v d w => shaped_fill fl t v d w) _ v w hs.1 h1
    · cases h
  | [], _ :: _, _, _, h, _ => h.elim
  | _ :: _, [], _, _, h, _ => h.elim
end

/-! ## The model's helpers -/

mutual
theorem shared_eq : ∀ v w : TV, shared v w = copyShows v w
  | .bool _, w => by cases w <;> rfl
  | .int _, w => by cases w <;> rfl
  | .uint _, w => by cases w <;> rfl
  | .f32 _, w => by cases w <;> rfl
  | .f64 _, w => by cases w <;> rfl
  | .str _, w => by cases w <;> rfl
  | .big _, w => by cases w <;> rfl
  | .other, w => by cases w <;> rfl
  | .slice _, w => by cases w <;> rfl
  | .any a, w => by
    cases a with
    | none => cases w <;> rfl
    | some a =>
      cases a <;> first
        | (cases w <;> rfl; done)
        | (cases w <;> first | rfl | (rename_i b; cases b <;> first | rfl | (rename_i b; cases b <;> rfl)))
  | .map a, w => by
    cases a with
    | none => cases w <;> rfl
    | some a => cases w <;> first | rfl | (rename_i b; cases b <;> rfl)
  | .ptr a, w => by
    cases a with
    | none => cases w <;> rfl
    | some a => cases w <;> first | rfl | (rename_i b; cases b <;> rfl)
  | .struct vs, w => by
    cases w with
    | struct ws => rw [shared, copyShows, shareds_eq vs ws]
    | _ => rfl
theorem shareds_eq : ∀ vs ws : List TV, shared.shareds vs ws = copyShows.copiesShow vs ws
  | [], ws => by cases ws <;> rfl
  | v :: vs, ws => by
    cases ws with
    | nil => rfl
    | cons w ws => rw [shared.shareds, copyShows.copiesShow, shared_eq v w, shareds_eq vs ws]
end

theorem target_eq (t : Ty) (v : TV) : target t v = behind t v := by
  cases v with
  | ptr o => cases o <;> first | rfl | exact (zeroOf_eq t).symm
  | _ => exact (zeroOf_eq t).symm

/-! ## Values without parts -/

theorem two_pow (b : Nat) : ((2 ^ b : Nat) : Int) = 2 ^ b := Int.natCast_pow 2 b

theorem asInt64_nat (n : Nat) : (if n < 2 ^ 63 then (n : Int) else (n : Int) - 2 ^ 64) = asInt64 n := by
  unfold asInt64
  by_cases h : n < 2 ^ 63
  · rw [if_pos h, if_pos (by omega)]
  · rw [if_neg h, if_neg (by omega)]

theorem asUint64_nat (n : Nat) : asUint64 (n : Int) = n := by
  unfold asUint64; rw [if_neg (by omega)]

theorem asInt64_small {z : Int} (h : z < 2 ^ 63) : asInt64 z = z := by
  unfold asInt64; rw [if_pos h]

theorem numI (fl : Floats) (t bits n : Nat) : Gives (store fl t (.int bits) (.uint n))
    (if -2 ^ (bits - 1) ≤ asInt64 n ∧ asInt64 n < 2 ^ (bits - 1) then some (.int (asInt64 n)) else none) := by
  simp only [store]
  rw [asInt64_nat]
  split <;> first | exact gives_ok _ | exact gives_err _

theorem numU (fl : Floats) (t bits n : Nat) : Gives (store fl t (.uint bits) (.uint n))
    (if asUint64 n < 2 ^ bits then some (.uint (asUint64 n).toNat) else none) := by
  rw [asUint64_nat]
  simp only [store]
  have : (n : Int) < 2 ^ bits ↔ n < 2 ^ bits := by rw [← two_pow, Int.ofNat_lt]
  by_cases h : n < 2 ^ bits
  · rw [if_pos h, if_pos (this.mpr h)]; exact gives_ok _
  · rw [if_neg h, if_neg (fun h' => h (this.mp h'))]; exact gives_err _

theorem numIU (fl : Floats) (t bits : Nat) {z : Int} (h1 : -2 ^ 31 ≤ z) (h2 : z < 2 ^ 31) : Gives (store fl t (.uint bits) (.int z))
    (if asUint64 z < 2 ^ bits then some (.uint (asUint64 z).toNat) else none) := by
  have e : z % 2 ^ 64 = asUint64 z := by unfold asUint64; split <;> omega
  have h0 : 0 ≤ asUint64 z := by rw [← e]; exact Int.emod_nonneg _ (by decide)
  simp only [store, e]
  have : (asUint64 z).toNat < 2 ^ bits ↔ asUint64 z < 2 ^ bits := by
    rw [← two_pow, Int.toNat_lt h0]
  by_cases h : asUint64 z < 2 ^ bits
  · rw [if_pos (this.mpr h), if_pos h]; exact gives_ok _
  · rw [if_neg (fun h' => h (this.mp h')), if_neg h]; exact gives_err _

theorem fits_int32 {k : Nat} {z : Int} (hf : (Doc.int32 k z).Fits) : -2 ^ 31 ≤ z ∧ z < 2 ^ 31 := by
  rcases hf with ⟨_, h1, h2⟩ | ⟨h1, h2, h3⟩
  · exact ⟨h1, h2⟩
  · have h4 : (256 : Int) ^ k ≤ 256 ^ 3 := by
      have hk : k = 0 ∨ k = 1 ∨ k = 2 ∨ k = 3 := by omega
      rcases hk with rfl | rfl | rfl | rfl <;> decide
    omega

theorem fillInt (fl : Floats) (bits : Nat) (cur : TV) (d : Doc) : fill fl (.int bits) cur d = d.number.bind fun z =>
    if -2 ^ (bits - 1) ≤ asInt64 z ∧ asInt64 z < 2 ^ (bits - 1) then some (.int (asInt64 z)) else none := by rw [fill]

theorem fillUint (fl : Floats) (bits : Nat) (cur : TV) (d : Doc) : fill fl (.uint bits) cur d = d.number.bind fun z =>
    if asUint64 z < 2 ^ bits then some (.uint (asUint64 z).toNat) else none := by rw [fill]

theorem store_fill (fl : Floats) {ty : Ty} {d : Doc} {cur : TV} (hf : d.Fits) (hc : Core ty) (hp : Plain d) (hs : Shaped ty cur) :
    Gives (store fl (typeNum d) ty d.val) (fill fl ty cur d) := by
  cases ty with
  | ptr _ => exact hc.elim
  | any => exact hc.elim
  | uintptr => exact hc.elim
  | big =>
    obtain ⟨n, rfl⟩ := hs
    cases d <;> first | exact hp.elim | (simp only [fill, fillBig, toF64, Doc.val, store, Option.map_none, Option.map_some]; first | exact gives_err _ | exact gives_ok _)
  | int bits =>
    cases d with
    | bool _ => exact hp.elim
    | array _ => exact hp.elim
    | map _ => exact hp.elim
    | int32 k z =>
      have hz : z < 2 ^ 63 := by have := fits_int32 hf; omega
      simp only [Doc.val, store, fill, Doc.number, Option.bind_some, asInt64_small hz]
      split <;> first | exact gives_ok _ | exact gives_err _
    | uint16 k n => rw [fillInt, Doc.number, Option.bind_some, Doc.val]; exact numI fl _ bits n
    | uint32 k n => rw [fillInt, Doc.number, Option.bind_some, Doc.val]; exact numI fl _ bits n
    | uint64 k n => rw [fillInt, Doc.number, Option.bind_some, Doc.val]; exact numI fl _ bits n
    | _ => simp only [fill, Doc.number, Option.bind_none, toF32, Doc.val, store]; exact gives_err _
  | uint bits =>
    cases d with
    | bool _ => exact hp.elim
    | array _ => exact hp.elim
    | map _ => exact hp.elim
    | int32 k z =>
      rw [fillUint, Doc.number, Option.bind_some, Doc.val]
      exact numIU fl _ bits (fits_int32 hf).1 (fits_int32 hf).2
    | uint16 k n => rw [fillUint, Doc.number, Option.bind_some, Doc.val]; exact numU fl _ bits n
    | uint32 k n => rw [fillUint, Doc.number, Option.bind_some, Doc.val]; exact numU fl _ bits n
    | uint64 k n => rw [fillUint, Doc.number, Option.bind_some, Doc.val]; exact numU fl _ bits n
    | _ => simp only [fill, Doc.number, Option.bind_none, toF32, Doc.val, store]; exact gives_err _
  | slice t =>
    cases t with
    | uint bits =>
      cases d with
      | bool _ => exact hp.elim
      | array _ => exact hp.elim
      | map _ => exact hp.elim
      | bytes b =>
        simp only [Doc.val, store, fill]
        by_cases h : bits = 8
        · rw [if_pos ⟨h, rfl⟩, if_pos h]; exact gives_ok _
        · rw [if_neg (fun h' => h h'.1), if_neg h]; exact gives_err _
      | str b =>
        simp only [Doc.val, store, fill]
        rw [if_neg (by simp [typeNum])]; exact gives_err _
      | _ => simp only [fill, Doc.val, store]; exact gives_err _
    | _ => cases d <;> first | exact hp.elim | (simp only [fill, Doc.val, store]; exact gives_err _)
  | f32 =>
    cases d with
    | bool _ => exact hp.elim
    | array _ => exact hp.elim
    | map _ => exact hp.elim
    | double n => simp only [Doc.val, store, fill, toF32]; split <;> first | exact gives_ok _ | exact gives_err _
    | float n => simp only [Doc.val, store, fill, toF32]; exact gives_ok _
    | _ => simp only [fill, Doc.number, Option.bind_none, toF32, Doc.val, store]; exact gives_err _
  | struct fs => cases d <;> first | exact hp.elim | (simp only [fill, Doc.val, store]; exact gives_err _)
  | map t => cases d <;> first | exact hp.elim | (simp only [fill, Doc.val, store]; exact gives_err _)
  | _ => cases d <;> first | exact hp.elim | (simp only [fill, fillBig, toF64, Doc.val, store, Option.map_none, Option.map_some]; first | exact gives_err _ | exact gives_ok _)

/-! ## Loops -/

theorem mapLoop_gives {buf : Bytes} {at_ : Nat → Doc → Nat → Prop} {dec : TV → Nat → Res (TV × Nat)} {put : TV → Doc → Option TV} {fresh : Option TV}
    {next : TV → TV} {P : TV → Prop} (hn : ∀ v, fresh.getD v = next v) (hP : ∀ v, P v → P (next v)) (hput : ∀ v d w, P v → put v d = some w → P w) :
    ∀ (l : List (Str × Doc)) (off e : Nat) (elem : TV) (ins : List (Str × TV)), P elem →
      (∀ kd ∈ l, ∀ v off e, P v → at_ off kd.2 e → Gives (dec v off) ((put v kd.2).map fun v => (v, e))) →
      KeyChain buf at_ off l e →
      Gives (mapLoopT buf dec fresh l.length off elem ins) ((viaVariable put next l elem ins).map fun m => (m.1, m.2, e)) := by
  intro l
  induction l with
  | nil => intro off e elem ins _ _ h; cases h; exact gives_ok _
  | cons kd l ih =>
    rintro off e elem ins hel hd ⟨a, b, h1, h2, h3⟩
    obtain ⟨k, d⟩ := kd
    rw [List.length_cons, mapLoopT, key_at h1]
    simp only [Res.ok_bind]
    rw [hn]
    have h4 := hd _ List.mem_cons_self (next elem) _ _ (hP elem hel) h2
    intro y
    rw [viaVariable]
    have := gives_bind (f := fun x => mapLoopT buf dec fresh l.length x.2 x.1 ((k, x.1) :: ins))
      (g := fun x => (viaVariable put next l x.1 ((k, x.1) :: ins)).map fun m => (m.1, m.2, e)) h4 (fun x hx => by
        obtain ⟨v, hv, rfl⟩ := Option.map_eq_some_iff.mp hx
        exact ih b e v _ (hput _ d v (hP elem hel) hv) (fun d hd' => hd d (List.mem_cons_of_mem _ hd')) h3)
    refine (this y).trans ?_
    cases put (next elem) d <;> simp

/-- The named fields. -/
def turns (fl : Floats) : List (Option Str × Ty) → List TV → List (Str × Doc) → Option (List TV)
  | f :: fs, v :: vs, l => match (match f.1 with
      | none => some v
      | some k => if fs.any (fun g => g.1 = some k) then some v else inTurn (fill fl f.2) v (valuesOf k l)),
      turns fl fs vs l with
    | some v, some vs => some (v :: vs)
    | _, _ => none
  | _, vs, _ => some vs

/-- The embedded fields. -/
def embedded (fl : Floats) : List (Option Str × Ty) → List TV → List (Str × Doc) → Option (List TV)
  | f :: fs, v :: vs, l => match (match f.1 with
      | none => fill fl f.2 v (.map l)
      | some _ => some v), embedded fl fs vs l with
    | some v, some vs => some (v :: vs)
    | _, _ => none
  | _, vs, _ => some vs

theorem embedded_turns (fl : Floats) (l : List (Str × Doc)) : ∀ (fs : List (Option Str × Ty)) (vs : List TV), vs.length = fs.length →
    (embedded fl fs vs l).bind (fun ws => turns fl fs ws l) = fillFields fl fs vs l := by
  intro fs
  induction fs with
  | nil => intro vs h; cases vs <;> first | rfl | cases h
  | cons f fs ih =>
    intro vs h
    cases vs with
    | nil => cases h
    | cons v vs =>
      have ih' := ih vs (by simpa using h)
      rw [embedded, fillFields, ← ih']
      obtain ⟨n, t⟩ := f
      cases n with
      | none =>
        simp only []
        cases hx : fill fl t v (.map l) with
        | none => rfl
        | some w =>
          cases embedded fl fs vs l with
          | none => rfl
          | some ws => simp only [Option.bind_some, turns]; cases turns fl fs ws l <;> rfl
      | some k =>
        simp only []
        cases embedded fl fs vs l with
        | none => simp only [Option.bind_none]; split <;> simp_all
        | some ws => simp only [Option.bind_some, turns]; rfl

theorem embedded_shapes (fl : Floats) (l : List (Str × Doc)) : ∀ (fs : List (Option Str × Ty)) (vs ws : List TV), Shapes fs vs →
    embedded fl fs vs l = some ws → Shapes fs ws := by
  intro fs
  induction fs with
  | nil =>
    intro vs ws h h2
    cases vs with
    | nil => rw [embedded] at h2; cases h2; trivial; simp
    | cons _ _ => exact h.elim
  | cons f fs ih =>
    intro vs ws h h2
    cases vs with
    | nil => exact h.elim
    | cons v vs =>
      rw [embedded] at h2
      split at h2
      · rename_i w us h3 h4
        cases h2
        refine ⟨?_, ih vs us h.2 h4⟩
        obtain ⟨n, t⟩ := f
        cases n with
        | none => exact shaped_fill fl t v _ w h.1 h3
        | some k => cases h3; exact h.1
      · cases h2

theorem shadow_iff {fs : List (Option Str × Ty)} {k : Str} : (fs.any fun g => g.1 = some k) = (fieldIndex fs k).isSome := by
  induction fs with
  | nil => rfl
  | cons f fs ih =>
    rw [List.any_cons, ih, fieldIndex]
    cases hi : fieldIndex fs k with
    | some i => simp
    | none =>
      simp only []
      by_cases h : f.1 = some k
      · rw [if_pos h]; simp [h]
      · rw [if_neg h]; simp [h]

theorem turns_nil (fl : Floats) : ∀ (fs : List (Option Str × Ty)) (vs : List TV), turns fl fs vs [] = some vs := by
  intro fs
  induction fs with
  | nil => intro vs; cases vs <;> rfl
  | cons f fs ih =>
    intro vs
    cases vs with
    | nil => rfl
    | cons v vs =>
      rw [turns, ih]
      obtain ⟨n, t⟩ := f
      cases n with
      | none => rfl
      | some k => simp only [valuesOf, inTurn]; split <;> simp_all

theorem valuesOf_other {k k' : Str} (h : k ≠ k') (d : Doc) (l : List (Str × Doc)) : valuesOf k' ((k, d) :: l) = valuesOf k' l := by
  rw [valuesOf, if_neg h]

theorem turns_other (fl : Floats) (k : Str) (d : Doc) (l : List (Str × Doc)) : ∀ (fs : List (Option Str × Ty)) (vs : List TV),
    fieldIndex fs k = none → turns fl fs vs ((k, d) :: l) = turns fl fs vs l := by
  intro fs
  induction fs with
  | nil => intro vs _; cases vs <;> rfl
  | cons f fs ih =>
    intro vs h
    cases vs with
    | nil => rfl
    | cons v vs =>
      have hne := fieldIndex_none h f List.mem_cons_self
      have hi : fieldIndex fs k = none := by
        rw [fieldIndex] at h
        cases hi : fieldIndex fs k with
        | none => rfl
        | some i => rw [hi] at h; cases h
      rw [turns, turns, ih vs hi]
      obtain ⟨n, t⟩ := f
      cases n with
      | none => rfl
      | some k' =>
        simp only []
        rw [valuesOf_other (fun e : k = k' => hne (by rw [e]))]

theorem turns_hit (fl : Floats) (k : Str) (d : Doc) (l : List (Str × Doc)) : ∀ (fs : List (Option Str × Ty)) (vs : List TV) (j : Nat)
    (f : Option Str × Ty) (v : TV), fieldIndex fs k = some j → fs[j]? = some f → vs[j]? = some v → 
    turns fl fs vs ((k, d) :: l) = (fill fl f.2 v d).bind fun w => turns fl fs (vs.set j w) l := by
  intro fs
  induction fs with
  | nil => intro vs j f v h; cases h
  | cons a fs ih =>
    intro vs j f v h hj hv
    cases vs with
    | nil => simp at hv
    | cons u vs =>
      rw [fieldIndex] at h
      cases hi : fieldIndex fs k with
      | some i =>
        rw [hi] at h; cases h
        rw [List.getElem?_cons_succ] at hj hv
        rw [turns, ih vs i f v hi hj hv]
        have hsame : (match a.1 with
            | none => some u
            | some k' => if fs.any (fun g => g.1 = some k') then some u else inTurn (fill fl a.2) u (valuesOf k' ((k, d) :: l))) =
            (match a.1 with
            | none => some u
            | some k' => if fs.any (fun g => g.1 = some k') then some u else inTurn (fill fl a.2) u (valuesOf k' l)) := by
          obtain ⟨n, t⟩ := a
          cases n with
          | none => rfl
          | some k' =>
            simp only []
            by_cases hk : k = k'
            · subst hk
              rw [shadow_iff, hi]; rfl
            · rw [valuesOf_other hk]
        rw [hsame]
        cases hd : fill fl f.2 v d with
        | none => simp only [Option.bind_none]; split <;> simp_all
        | some w => simp only [Option.bind_some, List.set_cons_succ, turns]
      | none =>
        rw [hi] at h
        simp only [] at h
        split at h
        · rename_i ha
          cases h
          rw [List.getElem?_cons_zero] at hj hv
          cases hj
          have hv := Option.some.inj hv
          subst hv
          obtain ⟨n, t⟩ := a
          cases ha
          rw [turns, turns_other fl k d l fs vs hi]
          have hsh : (fs.any fun g => g.1 = some k) = false := by rw [shadow_iff, hi]; rfl
          have hval : valuesOf k ((k, d) :: l) = d :: valuesOf k l := by rw [valuesOf, if_pos rfl]
          simp only [hsh, hval, inTurn]
          cases hd : fill fl t u d with
          | none => rfl
          | some w => simp only [Option.bind_some, List.set_cons_zero, turns, hsh]; rfl
        · cases h

theorem structLoop_gives {fl : Floats} {buf : Bytes} {levels : Nat} {dec : Ty → TV → Nat → Res (TV × Nat)}
    {fs : List (Option Str × Ty)} :
    ∀ (l : List (Str × Doc)) (off e : Nat) (vs : List TV), Shapes fs vs →
      (∀ kd ∈ l, ∀ f ∈ fs, ∀ v off e, Shaped f.2 v → Stored buf levels off kd.2 e →
        Gives (dec f.2 v off) ((fill fl f.2 v kd.2).map fun v => (v, e))) →
      KeyChain buf (Stored buf levels) off l e →
      Gives (structLoop buf dec fs l.length off vs) ((turns fl fs vs l).map fun vs => (vs, e)) := by
  intro l
  induction l with
  | nil => intro off e vs _ _ h; cases h; rw [turns_nil]; exact gives_ok _
  | cons kd l ih =>
    rintro off e vs hs hd ⟨a, b, h1, h2, h3⟩
    obtain ⟨k, d⟩ := kd
    rw [List.length_cons, structLoop, key_at h1]
    simp only [Res.ok_bind]
    have hd' : ∀ kd ∈ l, ∀ f ∈ fs, ∀ v off e, Shaped f.2 v → Stored buf levels off kd.2 e →
        Gives (dec f.2 v off) ((fill fl f.2 v kd.2).map fun v => (v, e)) := fun kd h => hd kd (List.mem_cons_of_mem _ h)
    cases hi : fieldIndex fs k with
    | none =>
      simp only []
      rw [skip_stored h2, Res.ok_bind, turns_other fl k d l fs vs hi]
      exact ih b e vs hs hd' h3
    | some j =>
      obtain ⟨f, hf, hfk⟩ := fieldIndex_some hi
      obtain ⟨v, hv, hsv⟩ := shapes_get hs j f hf
      simp only [hf, hv]
      rw [turns_hit fl k d l fs vs j f v hi hf hv]
      have := gives_bind (f := fun x => structLoop buf dec fs l.length x.2 (vs.set j x.1))
        (g := fun x => (turns fl fs (vs.set j x.1) l).map fun vs => (vs, e))
        (hd _ List.mem_cons_self f (List.mem_of_getElem? hf) v a b hsv h2) (fun x hx => by
          obtain ⟨w, hw, rfl⟩ := Option.map_eq_some_iff.mp hx
          exact ih b e (vs.set j w) (shapes_set hs j f w hf (shaped_fill fl _ v d w hsv hw)) hd' h3)
      intro y
      refine (this y).trans ?_
      cases fill fl f.2 v d <;> simp

/-! ## Maps into any type -/

theorem offsetFree_mem {fs : List (Option Str × Ty)} (h : OffsetFree.offsetFrees fs) : ∀ f ∈ fs, OffsetFree f.2 := by
  induction fs with
  | nil => intro f hf; cases hf
  | cons a fs ih =>
    intro f hf
    rcases List.mem_cons.mp hf with rfl | hf
    · exact h.1
    · exact ih h.2 f hf

/-- Decoding the parts of a map works. -/
structure FParts (fl : Floats) (buf : Bytes) (r : Nat) (dec : Ty → TV → Nat → Res (TV × Nat)) (decAny : Nat → Res (Val × Nat)) : Prop where
  typed : ∀ (t : Ty) (d : Doc) (off e : Nat) (cur : TV), Stored buf r off d e → OffsetFree t → Shaped t cur →
    Gives (dec t cur off) ((fill fl t cur d).map fun v => (v, e))
  untyped : ∀ (off : Nat) (d : Doc) (e : Nat), Stored buf r off d e → decAny off = .ok (d.val, e)

section
variable {fl : Floats} {buf : Bytes} {r : Nat} {dec : Ty → TV → Nat → Res (TV × Nat)} {decAny : Nat → Res (Val × Nat)}

theorem fill_elems (hp : FParts fl buf r dec decAny) {t : Ty} {l : List (Str × Doc)} {off e : Nat} {cur : TV} (hc : OffsetFree t)
    (hk : KeyChain buf (Stored buf r) off l e) :
    Gives (mapInto buf dec decAny (.map t) cur l.length off) ((fill fl (.map t) cur (.map l)).map fun v => (v, e)) := by
  have hold : entriesOf cur = oldEntries cur := by cases cur <;> first | rfl | (rename_i m; cases m <;> rfl)
  by_cases ha : t = .any
  · subst ha
    have h := mapLoop_gives (dec := dec .any) (put := fill fl .any) (fresh := some (.any none)) (next := fun _ => .any none) (P := fun _ => True)
      (fun _ => rfl) (fun _ _ => trivial) (fun _ _ _ _ _ => trivial) l off e (.any none) [] trivial (fun kd hkd v off e _ hst =>
        hp.typed .any kd.2 off e v hst trivial trivial) hk
    have h2 := gives_map h (fun x => (TV.map (some (x.1 ++ entriesOf cur)), x.2.2))
    rw [mapInto, fill, Option.map_map, ← hold]
    rw [Option.map_map] at h2
    exact h2
  · have h := mapLoop_gives (dec := dec t) (put := fill fl t) (fresh := none) (next := id) (P := Shaped t)
      (fun _ => rfl) (fun _ h => h) (fun v d w => shaped_fill fl t v d w) l off e (zeroOf t) [] (shaped_zero t) (fun kd hkd v off e hv hst =>
        hp.typed t kd.2 off e v hst hc hv) hk
    have h2 := gives_map h (fun x => (TV.map (some ((x.1.map fun p => (p.1, copyShows p.2 x.2.1)) ++ entriesOf cur)), x.2.2))
    have hfill : fill fl (.map t) cur (.map l) = (viaVariable (fill fl t) id l (zeroOf t) []).map fun m =>
          .map (some ((m.1.map fun p => (p.1, copyShows p.2 m.2)) ++ oldEntries cur)) := by
      rw [fill]
      exact ha
    rw [hfill, Option.map_map, ← hold]
    rw [Option.map_map] at h2
    have hm : mapInto buf dec decAny (.map t) cur l.length off =
        (mapLoopT buf (dec t) none l.length off (zeroOf t) [] >>= fun x =>
          .ok (.map (some ((x.1.map fun p => (p.1, copyShows p.2 x.2.1)) ++ entriesOf cur)), x.2.2)) := by
      rw [mapInto, zeroOf_eq]
      have : freshElem t = none := by cases t <;> first | exact absurd rfl ha | rfl
      rw [this]
      refine congrArg _ (funext fun x => ?_)
      have : settle t x.2.1 x.1 = x.1.map fun p => (p.1, copyShows p.2 x.2.1) := by
        have : settle t x.2.1 x.1 = x.1.map fun p => (p.1, shared p.2 x.2.1) := by cases t <;> first | exact absurd rfl ha | rfl
        rw [this]
        exact List.map_congr_left fun p _ => by rw [shared_eq]
      show Res.ok (TV.map (some (settle t x.2.1 x.1 ++ entriesOf cur)), x.2.2) = _
      rw [this]
    rw [hm]
    exact h2

theorem bigMap_gives {l : List (Str × Doc)} {off e n : Nat} (hk : KeyChain buf (Stored buf r) off l e) (mk : Nat → TV) :
    Gives (bigLoop buf l.length off >>= fun o => .ok (mk n, o)) (((fillBig n (.map l)).map mk).map fun v => (v, e)) := by
  have h := gives_map (big_gives l off e hk) (fun o => (mk n, o))
  refine fun y => (h y).trans ?_
  simp only [fillBig]
  split <;> simp

mutual
theorem mapInto_fill (hp : FParts fl buf r dec decAny) : ∀ (ty : Ty) (cur : TV) (l : List (Str × Doc)) (off e : Nat), OffsetFree ty →
    Shaped ty cur → KeyChain buf (Stored buf r) off l e →
    Gives (mapInto buf dec decAny ty cur l.length off) ((fill fl ty cur (.map l)).map fun v => (v, e))
  | .ptr t, cur, l, off, e, hc, hs, hk => by
    have h := mapInto_fill hp t (behind t cur) l off e hc hs hk
    have h2 := gives_map h (fun x => (TV.ptr (some x.1), x.2))
    rw [Option.map_map] at h2
    rw [mapInto, fill, Option.map_map, target_eq]
    exact h2
  | .struct fs, cur, l, off, e, hc, hs, hk => by
    obtain ⟨vs, rfl, hs⟩ := hs
    have h1 := embedInto_fill hp fs vs l off e (offsetFree_mem hc) hs hk
    rw [mapInto, fill, Option.map_map]
    simp only [fieldsOf, oldFields]
    rw [← embedded_turns fl l fs vs (shapes_length hs)]
    have h3 := gives_bind (f := fun vs => structLoop buf dec fs l.length off vs >>= fun x => .ok (TV.struct x.1, x.2))
      (g := fun vs => ((turns fl fs vs l).map fun vs => (vs, e)).map fun x => (TV.struct x.1, x.2)) h1 (fun ws hws => by
        refine gives_map ?_ _
        exact structLoop_gives l off e ws (embedded_shapes fl l fs vs ws hs hws) (fun kd hkd f hf v off e hsv hst =>
          hp.typed _ _ _ _ _ hst (offsetFree_mem hc f hf) hsv) hk)
    intro y
    refine (h3 y).trans ?_
    cases embedded fl fs vs l with
    | none => simp
    | some vs => simp only [Option.bind_some, Option.map_map]; rfl
  | .big, cur, l, off, e, hc, hs, hk => by
    obtain ⟨n, rfl⟩ := hs
    exact bigMap_gives hk .big
  | .map t, cur, l, off, e, hc, hs, hk => fill_elems hp hc hk
  | .any, cur, l, off, e, hc, hs, hk => by
    have plain : (∀ n, cur ≠ .any (some (.big n))) →
        Gives (mapInto buf dec decAny .any cur l.length off) ((fill fl .any cur (.map l)).map fun v => (v, e)) := by
      intro hne
      have e1 : mapInto buf dec decAny .any cur l.length off = (mapLoop buf decAny l.length off [] >>= fun x => .ok (.any (some (.map x.1)), x.2)) := by
        rw [mapInto]
        · rfl
        all_goals first | (intro n h; exact hne n h) | (intros; simp_all; done) | skip
      have e2 : fill fl .any cur (.map l) = some (.any (some (Doc.map l).val)) := by
        rw [fill]
        · exact fun n h => hne n h
      rw [e1, e2, entries_loop hp.untyped _ _ _ _ hk]
      exact gives_ok _
    cases cur with
    | any a =>
      cases a with
      | none => exact plain (fun n h => by cases h)
      | some a =>
        cases a with
        | big n => exact bigMap_gives hk (fun m => .any (some (.big m)))
        | _ => exact plain (fun n h => by cases h)
    | _ => exact plain (fun n h => by cases h)
  | .bool, _, _, _, _, _, _, _ => gives_err _
  | .int _, _, _, _, _, _, _, _ => gives_err _
  | .uint _, _, _, _, _, _, _, _ => gives_err _
  | .uintptr, _, _, _, _, _, _, _ => gives_err _
  | .f32, _, _, _, _, _, _, _ => gives_err _
  | .f64, _, _, _, _, _, _, _ => gives_err _
  | .str, _, _, _, _, _, _, _ => gives_err _
  | .slice _, _, _, _, _, _, _, _ => gives_err _
  | .other, _, _, _, _, _, _, _ => gives_err _

theorem embedInto_fill (hp : FParts fl buf r dec decAny) : ∀ (fs : List (Option Str × Ty)) (vs : List TV) (l : List (Str × Doc)) (off e : Nat),
    (∀ f ∈ fs, OffsetFree f.2) → Shapes fs vs → KeyChain buf (Stored buf r) off l e →
    Gives (embedInto buf dec decAny fs vs l.length off) (embedded fl fs vs l)
  | [], [], l, off, e, _, _, _ => gives_ok _
  | (n, t) :: fs, v :: vs, l, off, e, hc, hs, hk => by
    have h2 := embedInto_fill hp fs vs l off e (fun f hf => hc f (List.mem_cons_of_mem _ hf)) hs.2 hk
    have h1 := mapInto_fill hp t v l off e (hc _ List.mem_cons_self) hs.1 hk
    have comb : ∀ (x : Res (TV × Nat)) (o : Option TV) (e : Nat), Gives x (o.map fun v => (v, e)) →
        Gives (x >>= fun y => embedInto buf dec decAny fs vs l.length off >>= fun vs => .ok (y.1 :: vs))
          (match o, embedded fl fs vs l with
            | some v, some vs => some (v :: vs)
            | _, _ => none) := by
      intro x o e hx
      have := gives_bind (f := fun y => embedInto buf dec decAny fs vs l.length off >>= fun vs => .ok (y.1 :: vs))
        (g := fun y => (embedded fl fs vs l).map fun vs => y.1 :: vs) hx (fun y _ => gives_map h2 _)
      refine fun y => (this y).trans ?_
      cases o <;> cases embedded fl fs vs l <;> simp
    rw [embedInto, embedded]
    cases n with
    | none => exact comb _ _ e h1
    | some k => exact comb (.ok (v, off)) (some v) off (gives_ok _)
  | [], _ :: _, _, _, _, _, h, _ => h.elim
  | _ :: _, [], _, _, _, _, h, _ => h.elim
end

end

/-! ## The decoder -/

theorem indirect_fill (fl : Floats) (d : Doc) : ∀ (ty : Ty) (cur : TV), OffsetFree ty → Shaped ty cur →
    ∃ ct cur' back, indirect ty cur = (ct, cur', back) ∧ OffsetFree ct ∧ Shaped ct cur' ∧ (∀ t, ct ≠ .ptr t) ∧
      (ct = .any → ∀ n, cur' ≠ .any (some (.big n))) ∧ fill fl ty cur d = (fill fl ct cur' d).map back := by
  intro ty
  induction ty using Ty.rec (motive_2 := fun _ => True) (motive_3 := fun _ => True) with
  | ptr t ih =>
    intro cur hc hs
    obtain ⟨ct, cur', back, h1, h2, h3, h4, h5, h6⟩ := ih (behind t cur) hc hs
    refine ⟨ct, cur', fun w => .ptr (some (back w)), ?_, h2, h3, h4, h5, ?_⟩
    · simp only [indirect, target_eq, h1]
    · simp only [fill, h6, Option.map_map]; rfl
  | any =>
    intro cur hc hs
    have plain : (∀ n, cur ≠ .any (some (.big n))) → ∃ ct cur' back, indirect .any cur = (ct, cur', back) ∧ OffsetFree ct ∧ Shaped ct cur' ∧ (∀ t, ct ≠ .ptr t) ∧
        (ct = .any → ∀ n, cur' ≠ .any (some (.big n))) ∧ fill fl .any cur d = (fill fl ct cur' d).map back := by
      intro hne
      refine ⟨.any, cur, id, ?_, trivial, trivial, (fun t h => by cases h), fun _ => hne, by simp⟩
      rw [indirect]
      · intro t h; cases h
      · intro n _ h; exact hne n h
    cases cur with
    | any a =>
      cases a with
      | none => exact plain (fun n h => by cases h)
      | some a =>
        cases a with
        | big n =>
          refine ⟨.big, .big n, _, rfl, trivial, ⟨n, rfl⟩, (fun t h => by cases h), (fun h => by cases h), ?_⟩
          simp only [fill, Option.map_map]; rfl
        | _ => exact plain (fun n h => by cases h)
    | _ => exact plain (fun n h => by cases h)
  | nil => trivial
  | cons _ _ _ _ => trivial
  | mk _ _ _ => trivial
  | _ =>
    intro cur hc hs
    exact ⟨_, cur, id, rfl, hc, hs, (fun t h => by cases h), (fun h => by cases h), by simp⟩

theorem decodeT_fill (fl : Floats) (buf : Bytes) : ∀ (levels : Nat) (ty : Ty) (d : Doc) (off e : Nat) (cur : TV),
    Stored buf levels off d e → OffsetFree ty → Shaped ty cur →
    Gives (decodeT fl buf levels ty cur off) ((fill fl ty cur d).map fun v => (v, e)) := by
  intro levels
  induction levels with
  | zero => intro ty d off e cur h; exact h.elim
  | succ r ih =>
    intro ty d off e cur h hc hs
    have hu : ty ≠ .uintptr := by rintro rfl; exact hc
    obtain ⟨ct, cur', back, h1, h3, h2, h5, h4, h6⟩ := indirect_fill fl d ty cur hc hs
    rw [decodeT_step fl buf r hu, h1, h6, Option.map_map]
    have hparts : FParts fl buf r (decodeT fl buf r) (decodeAny buf r) :=
      ⟨fun t d off e cur a b c => ih t d off e cur a b c, fun off d e hs => decode_stored buf r off d e hs⟩
    have finish : ∀ {x : Res (TV × Nat)}, Gives x ((fill fl ct cur' d).map fun v => (v, e)) →
        Gives (x >>= fun y => .ok (back y.1, y.2)) ((fill fl ct cur' d).map ((fun v => (v, e)) ∘ back)) := by
      intro x hx
      have := gives_map hx (fun y => (back y.1, y.2))
      rwa [Option.map_map] at this
    by_cases ha : ct = .any
    · have hd := decode_stored buf (r + 1) off d e h
      have hctl : ∃ x, decodeCtrlData buf off = .ok x := by
        rw [decodeAny] at hd
        obtain ⟨x, hx, _⟩ := Res.bind_eq_ok.mp hd
        exact ⟨x, hx⟩
      obtain ⟨x, hx⟩ := hctl
      have hfa : fill fl .any cur' d = some (.any (some d.val)) := by
        rw [fill]; exact fun n h => h4 ha n h
      rw [hx, Res.ok_bind, ha, hfa]
      simp only [decodeCore, hd, Res.ok_bind, Option.map_some]
      exact gives_ok _
    · have hcu : ct ≠ .uintptr := by intro hh; rw [hh] at h3; exact h3
      have hcore : Core ct := by
        cases hh : ct with
        | ptr t => exact absurd hh (h5 t)
        | any => exact absurd hh ha
        | uintptr => exact absurd hh hcu
        | _ => trivial
      have hbody : ∀ t size offset, decodeCore fl buf r off t size offset (ct, cur', back) =
          (if t = 14 then
            if size > 1 then .err invalidErr
            else store fl t ct (.bool (size != 0)) >>= fun v => .ok (back v, offset)
          else if t = 7 then mapInto buf (decodeT fl buf r) (decodeAny buf r) ct cur' size offset >>= fun y => .ok (back y.1, y.2)
          else if t = 1 then decodePointer buf size offset >>= fun p => decodeT fl buf r ct cur' p.1 >>= fun y => .ok (back y.1, p.2)
          else if t = 11 then
            (match ct with
            | .slice e => sliceLoop (decodeT fl buf r e e.zero) size offset >>= fun y => .ok (back (.slice (some y.1)), y.2)
            | _ => .err typeErr)
          else decodeScalar buf t size offset >>= fun y => store fl t ct y.1 >>= fun v => .ok (back v, y.2)) := by
        intro t size offset
        cases ct <;> first | exact absurd rfl ha | rfl
      rcases stored_cases h with ⟨p, e', hp, h, he, hst⟩ | h
      · obtain ⟨size, off', h7, h8⟩ := pointer_back hp h
        rw [h7, Res.ok_bind, hbody]
        simp only []
        rw [if_neg (by omega), if_neg (by omega), if_pos trivial, h8, Res.ok_bind]
        simp only []
        have := gives_map (ih ct d p e' cur' hst h3 h2) (fun y => (back y.1, off + (pointer p).length))
        rw [Option.map_map] at this
        rw [he]
        exact this
      · cases d with
        | array l =>
          obtain ⟨hf, h7, h8⟩ := h
          rw [ctrl_head (by omega) (by omega) hf h7, Res.ok_bind, hbody]
          simp only []
          rw [if_neg (by omega), if_neg (by omega), if_neg (by omega), if_pos trivial]
          cases ct with
          | slice t =>
            simp only []
            have hsl := slice_gives (dec := decodeT fl buf r t t.zero) (sem := fill fl t (zeroOf t)) l _ e (fun d hd off e hst => by
              rw [← zeroOf_eq]
              exact ih t d off e (zeroOf t) hst h3 (shaped_zero t)) h8
            have := gives_map hsl (fun y => (back (.slice (some y.1)), y.2))
            rw [Option.map_map] at this
            simp only [fill, Option.map_map]
            exact this
          | any => exact absurd rfl ha
          | ptr t => exact absurd rfl (h5 t)
          | big => obtain ⟨n, rfl⟩ := h2; exact gives_err _
          | _ => exact gives_err _
        | map l =>
          obtain ⟨hf, h7, h8⟩ := h
          rw [ctrl_head (by omega) (by omega) hf h7, Res.ok_bind, hbody]
          simp only []
          rw [if_neg (by omega), if_pos trivial]
          exact finish (mapInto_fill hparts ct cur' l _ e h3 h2 h8)
        | bool v =>
          obtain ⟨hf, b, hb, h7, he⟩ := h
          injection hb with hb; subst hb; subst he
          rw [ctrl_head (by omega) (by omega) (sizeOK_small (by cases v <;> decide)) h7, Res.ok_bind, hbody]
          simp only []
          rw [if_pos trivial, if_neg (by cases v <;> decide)]
          have : Gives (store fl 14 ct (.bool (v.toNat != 0))) (fill fl ct cur' (.bool v)) := by
            have hv : (v.toNat != 0) = v := by cases v <;> rfl
            rw [hv]
            cases ct with
            | any => exact absurd rfl ha
            | ptr t => exact absurd rfl (h5 t)
            | slice t => cases t <;> exact gives_err _
            | bool => exact gives_ok _
            | big => obtain ⟨n, rfl⟩ := h2; exact gives_err _
            | _ => exact gives_err _
          exact gives_map this (fun v' => (back v', off + (head 14 v.toNat).length))
        | _ =>
          obtain ⟨size, o, h7, h8⟩ := plain_ctrl h trivial
          rw [h7, Res.ok_bind, hbody]
          simp only []
          rw [if_neg (by simp [typeNum]), if_neg (by simp [typeNum]), if_neg (by simp [typeNum]), if_neg (by simp [typeNum]), h8, Res.ok_bind]
          exact gives_map (store_fill fl h.1 hcore trivial h2) (fun v' => (back v', e))

end Uip.Awdb
