import Verif.Spec.AwdbTyped
import Verif.Proof.Awdb.Meta
/-!
# Decoding into typed targets
-/
namespace Uip.Awdb
open Uip Uip.Spec.Awdb

/-- The call returns exactly what the option says. -/
def Gives {α : Type} (x : Res α) (o : Option α) : Prop := ∀ y, x = .ok y ↔ o = some y

theorem gives_ok {α : Type} (a : α) : Gives (.ok a) (some a) := fun y => by simp
theorem gives_err {α : Type} (e : Err) : Gives (.err e : Res α) none := fun y => by simp
theorem gives_panic {α : Type} : Gives (.panic : Res α) none := fun y => by simp

theorem gives_bind {α β : Type} {x : Res α} {o : Option α} {f : α → Res β} {g : α → Option β} (hx : Gives x o)
    (hf : ∀ a, o = some a → Gives (f a) (g a)) : Gives (x >>= f) (o.bind g) := by
  intro y
  rw [Res.bind_eq_ok, Option.bind_eq_some_iff]
  constructor
  · rintro ⟨a, h1, h2⟩
    exact ⟨a, (hx a).mp h1, (hf a ((hx a).mp h1) y).mp h2⟩
  · rintro ⟨a, h1, h2⟩
    exact ⟨a, (hx a).mpr h1, (hf a h1 y).mpr h2⟩

theorem gives_map {α β : Type} {x : Res α} {o : Option α} (hx : Gives x o) (f : α → β) :
    Gives (x >>= fun a => .ok (f a)) (o.map f) := by
  intro y
  rw [Res.bind_eq_ok, Option.map_eq_some_iff]
  constructor
  · rintro ⟨a, h1, h2⟩; exact ⟨a, (hx a).mp h1, Res.ok.inj h2⟩
  · rintro ⟨a, h1, h2⟩; exact ⟨a, (hx a).mpr h1, congrArg Res.ok h2⟩

theorem gives_of_eq {α : Type} {x y : Res α} {o : Option α} (h : x = y) (hg : Gives y o) : Gives x o := h ▸ hg

/-! ## Documents -/

theorem every_self {p : Doc → Prop} {d : Doc} (h : d.Every p) : p d := by
  cases d <;> first | exact h.1 | exact h

theorem every_array {p : Doc → Prop} {l : List Doc} (h : (Doc.array l).Every p) : ∀ d ∈ l, d.Every p := by
  have : ∀ l : List Doc, Doc.Every.everyAll p l → ∀ d ∈ l, d.Every p := by
    intro l
    induction l with
    | nil => intro _ d hd; cases hd
    | cons a l ih =>
      intro h d hd
      rcases List.mem_cons.mp hd with rfl | hd
      · exact h.1
      · exact ih h.2 d hd
  exact this l h.2

theorem every_map {p : Doc → Prop} {l : List (Str × Doc)} (h : (Doc.map l).Every p) : ∀ kd ∈ l, kd.2.Every p := by
  have : ∀ l : List (Str × Doc), Doc.Every.everyPair p l → ∀ kd ∈ l, kd.2.Every p := by
    intro l
    induction l with
    | nil => intro _ d hd; cases hd
    | cons a l ih =>
      intro h d hd
      obtain ⟨k, a⟩ := a
      rcases List.mem_cons.mp hd with rfl | hd
      · exact h.1
      · exact ih h.2 d hd
  exact this l h.2

/-- What the theorem asks of a document for a type. -/
structure TGood (ty : Ty) (d : Doc) : Prop where
  distinct : d.Distinct
  narrow : d.Narrow
  sign : NoU64 ty ∨ d.NonNeg

theorem TGood.elem {t : Ty} {l : List Doc} (h : TGood (.slice t) (.array l)) : ∀ d ∈ l, TGood t d := fun d hd =>
  ⟨every_array h.1 d hd, every_array h.2 d hd, h.3.imp id fun h => every_array h d hd⟩

theorem TGood.value {t : Ty} {l : List (Str × Doc)} (h : TGood (.map t) (.map l)) : ∀ kd ∈ l, TGood t kd.2 := fun d hd =>
  ⟨every_map h.1 d hd, every_map h.2 d hd, h.3.imp id fun h => every_map h d hd⟩

theorem noU64_mem {fs : List (Option Str × Ty)} (h : NoU64.noU64Fields fs) : ∀ f ∈ fs, NoU64 f.2 := by
  induction fs with
  | nil => intro f hf; cases hf
  | cons a fs ih =>
    intro f hf
    rcases List.mem_cons.mp hf with rfl | hf
    · exact h.1
    · exact ih h.2 f hf

theorem clean_mem {fs : List (Option Str × Ty)} (h : Fillable.fillableFields fs) : ∀ f ∈ fs, Fillable f.2 := by
  induction fs with
  | nil => intro f hf; cases hf
  | cons a fs ih =>
    intro f hf
    rcases List.mem_cons.mp hf with rfl | hf
    · exact h.1
    · exact ih h.2 f hf

theorem TGood.field {fs : List (Option Str × Ty)} {l : List (Str × Doc)} (h : TGood (.struct fs) (.map l)) :
    ∀ f ∈ fs, ∀ kd ∈ l, TGood f.2 kd.2 := fun f hf d hd =>
  ⟨every_map h.1 d hd, every_map h.2 d hd, h.3.imp (fun h => noU64_mem h f hf) fun h => every_map h d hd⟩

theorem TGood.embedded {fs : List (Option Str × Ty)} {d : Doc} (h : TGood (.struct fs) d) :
    ∀ f ∈ fs, TGood f.2 d := fun f hf => ⟨h.1, h.2, h.3.imp (fun h => noU64_mem h f hf) id⟩

theorem TGood.ptr {t : Ty} {d : Doc} (h : TGood (.ptr t) d) : TGood t d := ⟨h.1, h.2, h.3⟩

/-! ## Values without parts -/

/-- The type number of a document. -/
def typeNum : Doc → Nat
  | .str _ => 2
  | .bytes _ => 4
  | .double _ => 3
  | .float _ => 15
  | .int32 _ _ => 8
  | .uint16 _ _ => 5
  | .uint32 _ _ => 6
  | .uint64 _ _ => 9
  | .uint128 _ _ => 10
  | .bool _ => 14
  | .array _ => 11
  | .map _ => 7

/-- Not an array, a map or a bool. -/
def Plain : Doc → Prop
  | .bool _ | .array _ | .map _ => False
  | _ => True

theorem plain_ctrl {buf : Bytes} {r off : Nat} {d : Doc} {e : Nat} (h : InPlace buf r off d e) (hp : Plain d) :
    ∃ size o, decodeCtrlData buf off = .ok (typeNum d, size, o) ∧ decodeScalar buf (typeNum d) size o = .ok (d.val, e) := by
  have main : ∀ (size : Nat) (body : Bytes), SizeOK size → 2 ≤ typeNum d → typeNum d ≤ 15 → typeNum d ≠ 7 → typeNum d ≠ 11 →
      typeNum d ≠ 14 → At buf off (head (typeNum d) size ++ body) →
      ∃ size o, decodeCtrlData buf off = .ok (typeNum d, size, o) ∧ decodeScalar buf (typeNum d) size o = .ok (d.val, e) := by
    intro size body hs h2 h15 h7 h11 h14 hat
    have hc := ctrl_head (by omega) h15 hs hat.left
    refine ⟨size, _, hc, ?_⟩
    have := decode_stored buf (r + 1) off d e (inPlace_stored h)
    rw [decodeAny, hc] at this
    simp only [Res.ok_bind] at this
    rw [if_neg h14, if_neg h7, if_neg (by omega), if_neg h11] at this
    exact this
  have hsm : ∀ {n : Nat}, n ≤ 16 → SizeOK n := fun h => sizeOK_small (by omega)
  obtain ⟨hf, h⟩ := h
  cases d with
  | bool _ => exact hp.elim
  | array _ => exact hp.elim
  | map _ => exact hp.elim
  | str s =>
    obtain ⟨b, h1, h2, h3⟩ := h; cases h1
    exact main _ _ hf (by simp [typeNum]) (by simp [typeNum]) (by simp [typeNum]) (by simp [typeNum]) (by simp [typeNum]) h2
  | bytes s =>
    obtain ⟨b, h1, h2, h3⟩ := h; cases h1
    exact main _ _ hf (by simp [typeNum]) (by simp [typeNum]) (by simp [typeNum]) (by simp [typeNum]) (by simp [typeNum]) h2
  | double n =>
    obtain ⟨b, h1, h2, h3⟩ := h; cases h1
    exact main _ _ (hsm (by omega)) (by simp [typeNum]) (by simp [typeNum]) (by simp [typeNum]) (by simp [typeNum]) (by simp [typeNum]) h2
  | float n =>
    obtain ⟨b, h1, h2, h3⟩ := h; cases h1
    exact main _ _ (hsm (by omega)) (by simp [typeNum]) (by simp [typeNum]) (by simp [typeNum]) (by simp [typeNum]) (by simp [typeNum]) h2
  | int32 k z =>
    obtain ⟨b, h1, h2, h3⟩ := h; cases h1
    have : k ≤ 4 := by rcases hf with h | h <;> omega
    exact main _ _ (hsm (by omega)) (by simp [typeNum]) (by simp [typeNum]) (by simp [typeNum]) (by simp [typeNum]) (by simp [typeNum]) h2
  | uint16 k n =>
    obtain ⟨b, h1, h2, h3⟩ := h; cases h1
    have : k ≤ 2 := hf.1
    exact main _ _ (hsm (by omega)) (by simp [typeNum]) (by simp [typeNum]) (by simp [typeNum]) (by simp [typeNum]) (by simp [typeNum]) h2
  | uint32 k n =>
    obtain ⟨b, h1, h2, h3⟩ := h; cases h1
    have : k ≤ 4 := hf.1
    exact main _ _ (hsm (by omega)) (by simp [typeNum]) (by simp [typeNum]) (by simp [typeNum]) (by simp [typeNum]) (by simp [typeNum]) h2
  | uint64 k n =>
    obtain ⟨b, h1, h2, h3⟩ := h; cases h1
    have : k ≤ 8 := hf.1
    exact main _ _ (hsm (by omega)) (by simp [typeNum]) (by simp [typeNum]) (by simp [typeNum]) (by simp [typeNum]) (by simp [typeNum]) h2
  | uint128 k n =>
    obtain ⟨b, h1, h2, h3⟩ := h; cases h1
    have : k ≤ 16 := hf.1
    exact main _ _ (hsm (by omega)) (by simp [typeNum]) (by simp [typeNum]) (by simp [typeNum]) (by simp [typeNum]) (by simp [typeNum]) h2

/-- Not a pointer, an interface or an offset. -/
def Core : Ty → Prop
  | .ptr _ | .any | .uintptr => False
  | _ => True

theorem pow_le_63 {b : Nat} (h : b < 64) : (2 : Nat) ^ b ≤ 2 ^ 63 := Nat.pow_le_pow_right (by omega) (by omega)

theorem store_plain (fl : Floats) {ty : Ty} {d : Doc} (hf : d.Fits) (hc : Core ty) (hp : Plain d) (hg : TGood ty d) :
    Gives (store fl (typeNum d) ty d.val) (into fl ty d) := by
  have numI : ∀ (bits n : Nat), n < 2 ^ 63 → Gives (store fl (typeNum d) (.int bits) (.uint n))
      (if -2 ^ (bits - 1) ≤ (n : Int) ∧ (n : Int) < 2 ^ (bits - 1) then some (.int n) else none) := by
    intro bits n hn
    simp only [store, if_pos hn]
    split <;> first | exact gives_ok _ | exact gives_err _
  have numU : ∀ (bits n : Nat), Gives (store fl (typeNum d) (.uint bits) (.uint n))
      (if 0 ≤ (n : Int) ∧ (n : Int) < 2 ^ bits then some (.uint (n : Int).toNat) else none) := by
    intro bits n
    simp only [store]
    have : (0 ≤ (n : Int) ∧ (n : Int) < 2 ^ bits) ↔ n < 2 ^ bits := by
      constructor
      · rintro ⟨_, h⟩; exact_mod_cast h
      · intro h
        refine ⟨by omega, ?_⟩
        have := Int.ofNat_lt.mpr h
        rwa [Int.natCast_pow] at this
    by_cases h : n < 2 ^ bits
    · rw [if_pos h, if_pos (this.mpr h)]; exact gives_ok _
    · rw [if_neg h, if_neg (fun h' => h (this.mp h'))]; exact gives_err _
  cases ty with
  | ptr _ => exact hc.elim
  | any => exact hc.elim
  | uintptr => exact hc.elim
  | int bits =>
    cases d with
    | bool _ => exact hp.elim
    | array _ => exact hp.elim
    | map _ => exact hp.elim
    | int32 k z => simp only [Doc.val, store, into, Doc.number, Option.bind_some]; split <;> first | exact gives_ok _ | exact gives_err _
    | uint16 k n =>
      have h1 : k ≤ 2 := hf.1
      have h2 : n < 256 ^ k := hf.2
      have h3 : 256 ^ k ≤ 256 ^ 2 := Nat.pow_le_pow_right (by omega) h1
      exact numI bits n (by omega)
    | uint32 k n =>
      have h1 : k ≤ 4 := hf.1
      have h2 : n < 256 ^ k := hf.2
      have h3 : 256 ^ k ≤ 256 ^ 4 := Nat.pow_le_pow_right (by omega) h1
      exact numI bits n (by omega)
    | uint64 k n => exact numI bits n (every_self hg.narrow)
    | _ => exact gives_err _
  | uint bits =>
    cases d with
    | bool _ => exact hp.elim
    | array _ => exact hp.elim
    | map _ => exact hp.elim
    | int32 k z =>
      simp only [Doc.val, store, into, Doc.number, Option.bind_some]
      have hz : -2 ^ 31 ≤ z ∧ z < 2 ^ 31 := by
        rcases hf with ⟨_, h1, h2⟩ | ⟨h1, h2, h3⟩
        · exact ⟨h1, h2⟩
        · have h4 : (256 : Int) ^ k ≤ 256 ^ 3 := by
            have hk : k = 0 ∨ k = 1 ∨ k = 2 ∨ k = 3 := by omega
            rcases hk with rfl | rfl | rfl | rfl <;> decide
          omega
      by_cases h0 : 0 ≤ z
      · have hm : (z % 2 ^ 64).toNat = z.toNat := by omega
        rw [hm]
        have : (0 ≤ z ∧ z < 2 ^ bits) ↔ z.toNat < 2 ^ bits := by
          rw [Int.toNat_lt h0, Int.natCast_pow]
          exact ⟨fun h => h.2, fun h => ⟨h0, h⟩⟩
        by_cases h : z.toNat < 2 ^ bits
        · rw [if_pos h, if_pos (this.mpr h)]; exact gives_ok _
        · rw [if_neg h, if_neg (fun h' => h (this.mp h'))]; exact gives_err _
      · have hb : bits < 64 := by
          rcases hg.sign with h | h
          · exact h
          · exact absurd (every_self h) h0
        have := pow_le_63 hb
        rw [if_neg (by omega), if_neg (by omega)]; exact gives_err _
    | uint16 k n => exact numU bits n
    | uint32 k n => exact numU bits n
    | uint64 k n => exact numU bits n
    | _ => exact gives_err _
  | slice t =>
    cases t with
    | uint bits =>
      cases d with
      | bool _ => exact hp.elim
      | array _ => exact hp.elim
      | map _ => exact hp.elim
      | bytes b =>
        simp only [Doc.val, store, into]
        by_cases h : bits = 8
        · rw [if_pos ⟨h, rfl⟩, if_pos h]; exact gives_ok _
        · rw [if_neg (fun h' => h h'.1), if_neg h]; exact gives_err _
      | str b =>
        simp only [Doc.val, store, into]
        rw [if_neg (by simp [typeNum])]; exact gives_err _
      | _ => exact gives_err _
    | _ => cases d <;> first | exact hp.elim | exact gives_err _
  | f32 =>
    cases d with
    | bool _ => exact hp.elim
    | array _ => exact hp.elim
    | map _ => exact hp.elim
    | double n => simp only [Doc.val, store, into, toF32]; split <;> first | exact gives_ok _ | exact gives_err _
    | float n => exact gives_ok _
    | _ => exact gives_err _
  | _ => cases d <;> first | exact hp.elim | exact gives_err _ | exact gives_ok _

/-! ## Loops -/

section
variable {fl : Floats} {buf : Bytes} {at_ : Nat → Doc → Nat → Prop}

theorem slice_gives {dec : Nat → Res (TV × Nat)} {sem : Doc → Option TV} :
    ∀ (l : List Doc) (off e : Nat), (∀ d ∈ l, ∀ off e, at_ off d e → Gives (dec off) ((sem d).map fun v => (v, e))) →
      Chain at_ off l e → Gives (sliceLoop dec l.length off) ((readAll sem l).map fun vs => (vs, e)) := by
  intro l
  induction l with
  | nil => intro off e _ h; cases h; exact gives_ok _
  | cons d l ih =>
    rintro off e hd ⟨m, h1, h2⟩
    rw [List.length_cons, sliceLoop]
    have h3 := hd d List.mem_cons_self _ _ h1
    have h4 := ih m e (fun d hd' => hd d (List.mem_cons_of_mem _ hd')) h2
    have := gives_bind (f := fun x => sliceLoop dec l.length x.2 >>= fun y => .ok (x.1 :: y.1, y.2))
      (g := fun x => (readAll sem l).map fun vs => (x.1 :: vs, e)) h3 (fun a ha => by
        obtain ⟨v, _, rfl⟩ := Option.map_eq_some_iff.mp ha
        have := gives_map h4 fun y : List TV × Nat => (v :: y.1, y.2)
        rwa [Option.map_map] at this)
    intro y
    rw [show (do let (v, offset) ← dec off; let (vs, offset) ← sliceLoop dec l.length offset; return (v :: vs, offset)) =
      (dec off >>= fun x => sliceLoop dec l.length x.2 >>= fun y => .ok (x.1 :: y.1, y.2)) from rfl, this y]
    rw [readAll]
    cases sem d with
    | none => simp
    | some v => cases readAll sem l <;> simp

/-- `dec` decodes what stands there into any value of the type. -/
theorem map_gives {dec : TV → Nat → Res (TV × Nat)} {sem : Doc → Option TV} {fresh : Option TV} {P : TV → Prop}
    (hf : ∀ v, P (fresh.getD v)) :
    ∀ (l : List (Str × Doc)) (off e : Nat) (elem : TV) (ins : List (Str × TV)),
      (∀ kd ∈ l, ∀ v off e, P v → at_ off kd.2 e → Gives (dec v off) ((sem kd.2).map fun v => (v, e))) →
      KeyChain buf at_ off l e →
      Gives (mapLoopT buf dec fresh l.length off elem ins >>= fun x => .ok (x.1, x.2.2))
        ((readPairs sem l ins).map fun m => (m, e)) := by
  intro l
  induction l with
  | nil => intro off e elem ins _ h; cases h; exact gives_ok _
  | cons kd l ih =>
    rintro off e elem ins hd ⟨a, b, h1, h2, h3⟩
    obtain ⟨k, d⟩ := kd
    rw [List.length_cons, mapLoopT, key_at h1]
    simp only [Res.ok_bind]
    have h4 := hd _ List.mem_cons_self (fresh.getD elem) _ _ (hf elem) h2
    intro y
    rw [Res.bind_assoc]
    rw [readPairs]
    have := gives_bind (f := fun x => mapLoopT buf dec fresh l.length x.2 x.1 ((k, x.1) :: ins) >>= fun x => .ok (x.1, x.2.2))
      (g := fun x => (readPairs sem l ((k, x.1) :: ins)).map fun m => (m, e)) h4 (fun x hx => by
        obtain ⟨v, _, rfl⟩ := Option.map_eq_some_iff.mp hx
        exact ih b e v _ (fun d hd' => hd d (List.mem_cons_of_mem _ hd')) h3)
    refine (this y).trans ?_
    cases sem d <;> simp

theorem big_gives {levels : Nat} : ∀ (l : List (Str × Doc)) (off e : Nat), KeyChain buf (Stored buf levels) off l e →
    Gives (bigLoop buf l.length off)
      (if (keyValue (gs "neg") l).isNone ∧ (keyValue (gs "abs") l).isNone then some e else none) := by
  intro l
  induction l with
  | nil => intro off e h; cases h; exact gives_ok _
  | cons kd l ih =>
    rintro off e ⟨a, b, h1, h2, h3⟩
    obtain ⟨k, d⟩ := kd
    rw [List.length_cons, bigLoop, key_at h1]
    simp only [Res.ok_bind]
    by_cases hn : k = gs "neg"
    · rw [if_pos (Or.inl hn), if_neg (by rw [keyValue, if_pos hn]; simp)]; exact gives_panic
    · by_cases ha : k = gs "abs"
      · rw [if_pos (Or.inr ha), if_neg (by rw [keyValue.eq_def (gs "abs")]; simp only []; rw [if_pos ha]; simp)]; exact gives_panic
      · rw [if_neg (by simp [hn, ha]), skip_stored h2]
        simp only [keyValue, if_neg hn, if_neg ha]
        exact ih _ _ h3

end

/-! ## Structs -/

/-- A named field after the entries of a map, holding `v` before. -/
def fieldVal (fl : Floats) (f : Option Str × Ty) (v : TV) (l : List (Str × Doc)) : Option TV :=
  match f.1 with
  | none => some v
  | some k => match keyValue k l with
    | none => some v
    | some d => into fl f.2 d

def fieldsFrom (fl : Floats) : List (Option Str × Ty) → List TV → List (Str × Doc) → Option (List TV)
  | f :: fs, v :: vs, l => match fieldVal fl f v l, fieldsFrom fl fs vs l with
    | some v, some vs => some (v :: vs)
    | _, _ => none
  | _, vs, _ => some vs

theorem fieldIndex_some {fs : List (Option Str × Ty)} {k : Str} : ∀ {j : Nat}, fieldIndex fs k = some j →
    ∃ f, fs[j]? = some f ∧ f.1 = some k := by
  induction fs with
  | nil => intro j h; cases h
  | cons f fs ih =>
    intro j h
    rw [fieldIndex] at h
    cases hi : fieldIndex fs k with
    | some i =>
      rw [hi] at h; cases h
      exact ih hi
    | none =>
      rw [hi] at h
      simp only [] at h
      split at h
      · rename_i hk; cases h; exact ⟨f, rfl, hk⟩
      · cases h

theorem fieldIndex_none {fs : List (Option Str × Ty)} {k : Str} (h : fieldIndex fs k = none) : ∀ f ∈ fs, f.1 ≠ some k := by
  induction fs with
  | nil => intro f hf; cases hf
  | cons a fs ih =>
    rw [fieldIndex] at h
    cases hi : fieldIndex fs k with
    | some i => rw [hi] at h; cases h
    | none =>
      rw [hi] at h
      simp only [] at h
      split at h
      · cases h
      · rename_i hk
        intro f hf
        rcases List.mem_cons.mp hf with rfl | hf
        · exact hk
        · exact ih hi f hf

theorem fieldVal_other {fl : Floats} {f : Option Str × Ty} {k : Str} (h : f.1 ≠ some k) (v : TV) (d : Doc) (l : List (Str × Doc)) :
    fieldVal fl f v ((k, d) :: l) = fieldVal fl f v l := by
  unfold fieldVal
  split
  · rfl
  · rename_i k' hk
    rw [keyValue, if_neg (fun e => h (by rw [hk, e]))]

theorem fields_other {fl : Floats} {k : Str} {d : Doc} {l : List (Str × Doc)} : ∀ (fs : List (Option Str × Ty)) (vs : List TV),
    (∀ f ∈ fs, f.1 ≠ some k) → fieldsFrom fl fs vs ((k, d) :: l) = fieldsFrom fl fs vs l := by
  intro fs
  induction fs with
  | nil => intro vs _; cases vs <;> rfl
  | cons f fs ih =>
    intro vs h
    cases vs with
    | nil => rfl
    | cons v vs =>
      rw [fieldsFrom, fieldsFrom, fieldVal_other (h f List.mem_cons_self), ih vs (fun f hf => h f (List.mem_cons_of_mem _ hf))]

theorem fields_hit {fl : Floats} {k : Str} {d : Doc} {l : List (Str × Doc)} (hk : keyValue k l = none) :
    ∀ (fs : List (Option Str × Ty)) (vs : List TV) (j : Nat) (f : Option Str × Ty), (fs.filterMap Prod.fst).Nodup →
      vs.length = fs.length → fieldIndex fs k = some j → fs[j]? = some f →
      fieldsFrom fl fs vs ((k, d) :: l) = (into fl f.2 d).bind fun w => fieldsFrom fl fs (vs.set j w) l := by
  intro fs
  induction fs with
  | nil => intro vs j f _ _ h; cases h
  | cons a fs ih =>
    intro vs j f hn hl h hj
    cases vs with
    | nil => simp at hl
    | cons v vs =>
      rw [fieldIndex] at h
      cases hi : fieldIndex fs k with
      | some i =>
        rw [hi] at h; cases h
        obtain ⟨g, hg, hgk⟩ := fieldIndex_some hi
        have hmem : k ∈ fs.filterMap Prod.fst := List.mem_filterMap.mpr ⟨g, List.mem_of_getElem? hg, hgk⟩
        have ha : a.1 ≠ some k := by
          intro e
          rw [List.filterMap_cons, e] at hn
          exact (List.nodup_cons.mp hn).1 hmem
        have hn' : (fs.filterMap Prod.fst).Nodup := by
          rw [List.filterMap_cons] at hn
          split at hn
          · exact hn
          · exact (List.nodup_cons.mp hn).2
        rw [List.getElem?_cons_succ] at hj
        rw [fieldsFrom, fieldVal_other ha, ih vs i f hn' (by simpa using hl) hi hj]
        cases hd : into fl f.2 d with
        | none => cases fieldVal fl a v l <;> rfl
        | some w => rw [Option.bind_some, Option.bind_some, List.set_cons_succ, fieldsFrom]
      | none =>
        rw [hi] at h
        simp only [] at h
        split at h
        · rename_i ha
          cases h
          rw [List.getElem?_cons_zero] at hj
          cases hj
          rw [fieldsFrom, fields_other fs vs (fieldIndex_none hi)]
          have h1 : fieldVal fl a v ((k, d) :: l) = into fl a.2 d := by
            unfold fieldVal; rw [ha]; simp only []; rw [keyValue, if_pos rfl]
          rw [h1]
          cases hd : into fl a.2 d with
          | none => rfl
          | some w =>
            rw [Option.bind_some, List.set_cons_zero, fieldsFrom]
            have h2 : fieldVal fl a w l = some w := by
              unfold fieldVal; rw [ha]; simp only []; rw [hk]
            rw [h2]
        · cases h

theorem keyValue_none {k : Str} {l : List (Str × Doc)} (h : k ∉ l.map Prod.fst) : keyValue k l = none := by
  induction l with
  | nil => rfl
  | cons kd l ih =>
    simp only [List.map_cons, List.mem_cons, not_or] at h
    rw [keyValue, if_neg (fun e => h.1 e.symm), ih h.2]

theorem fieldsFrom_nil {fl : Floats} : ∀ (fs : List (Option Str × Ty)) (vs : List TV), fieldsFrom fl fs vs [] = some vs := by
  intro fs
  induction fs with
  | nil => intro vs; cases vs <;> rfl
  | cons f fs ih =>
    intro vs
    cases vs with
    | nil => rfl
    | cons v vs =>
      have : fieldVal fl f v [] = some v := by unfold fieldVal; split <;> rfl
      rw [fieldsFrom, this, ih]

theorem struct_gives {fl : Floats} {buf : Bytes} {levels : Nat} {dec : Ty → TV → Nat → Res (TV × Nat)}
    {fs : List (Option Str × Ty)} (hn : (fs.filterMap Prod.fst).Nodup) :
    ∀ (l : List (Str × Doc)) (off e : Nat) (vs : List TV), (l.map Prod.fst).Nodup → vs.length = fs.length →
      (∀ kd ∈ l, ∀ f ∈ fs, ∀ off e, Stored buf levels off kd.2 e →
        Gives (dec f.2 f.2.zero off) ((into fl f.2 kd.2).map fun v => (v, e))) →
      (∀ kd ∈ l, ∀ j f, fieldIndex fs kd.1 = some j → fs[j]? = some f → vs[j]? = some f.2.zero) →
      KeyChain buf (Stored buf levels) off l e →
      Gives (structLoop buf dec fs l.length off vs) ((fieldsFrom fl fs vs l).map fun vs => (vs, e)) := by
  intro l
  induction l with
  | nil => intro off e vs _ _ _ _ h; cases h; rw [fieldsFrom_nil]; exact gives_ok _
  | cons kd l ih =>
    rintro off e vs hk hl hd hz ⟨a, b, h1, h2, h3⟩
    obtain ⟨k, d⟩ := kd
    rw [List.map_cons, List.nodup_cons] at hk
    rw [List.length_cons, structLoop, key_at h1]
    simp only [Res.ok_bind]
    have hd' : ∀ kd ∈ l, ∀ f ∈ fs, ∀ off e, Stored buf levels off kd.2 e →
        Gives (dec f.2 f.2.zero off) ((into fl f.2 kd.2).map fun v => (v, e)) := fun kd h => hd kd (List.mem_cons_of_mem _ h)
    cases hi : fieldIndex fs k with
    | none =>
      simp only []
      rw [skip_stored h2, Res.ok_bind, fields_other fs vs (fieldIndex_none hi)]
      exact ih b e vs hk.2 hl hd' (fun kd h => hz kd (List.mem_cons_of_mem _ h)) h3
    | some j =>
      obtain ⟨f, hf, hfk⟩ := fieldIndex_some hi
      have hv := hz _ List.mem_cons_self j f hi hf
      simp only [hf, hv]
      rw [fields_hit (keyValue_none hk.1) fs vs j f hn hl hi hf]
      have := gives_bind (f := fun x => structLoop buf dec fs l.length x.2 (vs.set j x.1))
        (g := fun x => (fieldsFrom fl fs (vs.set j x.1) l).map fun vs => (vs, e))
        (hd _ List.mem_cons_self f (List.mem_of_getElem? hf) a b h2) (fun x hx => by
          obtain ⟨w, _, rfl⟩ := Option.map_eq_some_iff.mp hx
          refine ih b e (vs.set j w) hk.2 (by rw [List.length_set, hl]) hd' ?_ h3
          intro kd hkd j' f' hj' hf'
          rw [List.getElem?_set]
          split
          · rename_i hjj
            subst hjj
            obtain ⟨f'', hf'', hk''⟩ := fieldIndex_some hj'
            rw [hf] at hf''; cases hf''
            rw [hfk] at hk''; cases hk''
            exact absurd (List.mem_map_of_mem hkd) hk.1
          · exact hz kd (List.mem_cons_of_mem _ hkd) j' f' hj' hf')
      intro y
      refine (this y).trans ?_
      cases into fl f.2 d <;> simp

/-! ## Maps into any type -/

/-- The embedded fields of a new struct. -/
def embeds (fl : Floats) : List (Option Str × Ty) → List (Str × Doc) → Option (List TV)
  | [], _ => some []
  | f :: fs, l => match (match f.1 with
      | none => into fl f.2 (.map l)
      | some _ => some f.2.zero), embeds fl fs l with
    | some v, some vs => some (v :: vs)
    | _, _ => none

theorem embeds_length {fl : Floats} {l : List (Str × Doc)} : ∀ {fs : List (Option Str × Ty)} {vs : List TV}, embeds fl fs l = some vs →
    vs.length = fs.length := by
  intro fs
  induction fs with
  | nil => intro vs h; cases h; rfl
  | cons f fs ih =>
    intro vs h
    rw [embeds] at h
    split at h
    · rename_i v ws h1 h2
      cases h
      rw [List.length_cons, List.length_cons, ih h2]
    · cases h

mutual
theorem zeroOf_eq : ∀ ty : Ty, zeroOf ty = ty.zero
  | .bool => rfl
  | .int _ => rfl
  | .uint _ => rfl
  | .uintptr => rfl
  | .f32 => rfl
  | .f64 => rfl
  | .str => rfl
  | .any => rfl
  | .big => rfl
  | .slice _ => rfl
  | .map _ => rfl
  | .struct fs => by rw [zeroOf, Ty.zero, zerosOf_eq fs]
  | .ptr _ => rfl
  | .other => rfl
theorem zerosOf_eq : ∀ fs : List (Option Str × Ty), zeroOf.zerosOf fs = Ty.zero.zeros fs
  | [] => rfl
  | f :: fs => by rw [zeroOf.zerosOf, Ty.zero.zeros, zeroOf_eq f.2, zerosOf_eq fs]
end

theorem embeds_zero {fl : Floats} {l : List (Str × Doc)} : ∀ {fs : List (Option Str × Ty)} {vs : List TV}, embeds fl fs l = some vs →
    ∀ (j : Nat) (f : Option Str × Ty) (k : Str), fs[j]? = some f → f.1 = some k → vs[j]? = some f.2.zero := by
  intro fs
  induction fs with
  | nil => intro vs h j f k hf; simp at hf
  | cons a fs ih =>
    intro vs h j f k hf hk
    rw [embeds] at h
    split at h
    · rename_i v ws h1 h2
      cases h
      cases j with
      | zero =>
        rw [List.getElem?_cons_zero] at hf ⊢
        cases hf
        rw [hk] at h1
        exact h1.symm
      | succ j =>
        rw [List.getElem?_cons_succ] at hf ⊢
        exact ih h2 j f k hf hk
    · cases h

theorem embeds_fields {fl : Floats} {l : List (Str × Doc)} : ∀ (fs : List (Option Str × Ty)),
    (embeds fl fs l).bind (fun vs => fieldsFrom fl fs vs l) = intoFields fl fs l := by
  intro fs
  induction fs with
  | nil => rfl
  | cons f fs ih =>
    rw [embeds, intoFields, zeroOf_eq, ← ih]
    have key : ∀ (o p : Option TV) (q : TV → Option TV), (∀ v, o = some v → q v = p) → (o = none → p = none) →
        (∀ v vs, fieldsFrom fl (f :: fs) (v :: vs) l = match q v, fieldsFrom fl fs vs l with
          | some v, some vs => some (v :: vs)
          | _, _ => none) →
        (match o, embeds fl fs l with
          | some v, some vs => some (v :: vs)
          | _, _ => none).bind (fun vs => fieldsFrom fl (f :: fs) vs l) =
        match p, (embeds fl fs l).bind (fun vs => fieldsFrom fl fs vs l) with
          | some v, some vs => some (v :: vs)
          | _, _ => none := by
      intro o p q h1 h2 h3
      cases o with
      | none => rw [h2 rfl]; rfl
      | some v =>
        cases embeds fl fs l with
        | none => cases p <;> rfl
        | some vs =>
          simp only [Option.bind_some]
          rw [h3, h1 v rfl]
    refine key _ _ (fun v => fieldVal fl f v l) ?_ ?_ (fun v vs => by rw [fieldsFrom])
    · intro v hv
      obtain ⟨n, t⟩ := f
      cases n with
      | none => exact hv.symm
      | some k => cases hv; rfl
    · intro hv
      obtain ⟨n, t⟩ := f
      cases n with
      | none => exact hv
      | some k => cases hv

theorem into_reusable {fl : Floats} {t : Ty} (ht : Reusable t) {d : Doc} {v : TV} (h : into fl t d = some v) (w : TV) : shared v w = v := by
  cases t with
  | bool => cases d <;> first | (cases h; done) | (cases h; rfl)
  | str => cases d <;> first | (cases h; done) | (cases h; rfl)
  | f64 => cases d <;> first | (cases h; done) | (cases h; rfl)
  | f32 =>
    cases d <;> first | (cases h; done) | (cases h; rfl) | skip
    simp only [into, toF32] at h
    split at h <;> cases h
    rfl
  | int b =>
    simp only [into] at h
    obtain ⟨z, _, h⟩ := Option.bind_eq_some_iff.mp h
    split at h <;> cases h
    rfl
  | uint b =>
    simp only [into] at h
    obtain ⟨z, _, h⟩ := Option.bind_eq_some_iff.mp h
    split at h <;> cases h
    rfl
  | slice t =>
    simp only [into] at h
    split at h
    · obtain ⟨vs, _, rfl⟩ := Option.map_eq_some_iff.mp h; rfl
    · split at h
      · split at h <;> cases h; rfl
      · cases h
    · cases h
  | _ => exact ht.elim

theorem readPairs_values {fl : Floats} {t : Ty} {l : List (Str × Doc)} : ∀ {m m' : GoMap TV}, readPairs (into fl t) l m = some m' →
    ∀ p ∈ m', p ∈ m ∨ ∃ d, into fl t d = some p.2 := by
  induction l with
  | nil => intro m m' h; cases h; exact fun p hp => Or.inl hp
  | cons kd l ih =>
    intro m m' h p hp
    obtain ⟨k, d⟩ := kd
    rw [readPairs] at h
    split at h
    · rename_i v hv
      rcases ih h p hp with h1 | h1
      · rcases List.mem_cons.mp h1 with rfl | h1
        · exact Or.inr ⟨d, hv⟩
        · exact Or.inl h1
      · exact Or.inr h1
    · cases h

/-- Decoding the parts of a map works. -/
structure Parts (fl : Floats) (buf : Bytes) (r : Nat) (dec : Ty → TV → Nat → Res (TV × Nat)) (decAny : Nat → Res (Val × Nat)) : Prop where
  typed : ∀ (t : Ty) (d : Doc) (off e : Nat) (cur : TV), Stored buf r off d e → Fillable t → TGood t d → (cur = t.zero ∨ Reusable t) →
    Gives (dec t cur off) ((into fl t d).map fun v => (v, e))
  untyped : ∀ (off : Nat) (d : Doc) (e : Nat), Stored buf r off d e → decAny off = .ok (d.val, e)

theorem distinct_keys {l : List (Str × Doc)} (h : (Doc.map l).Distinct) : (l.map Prod.fst).Nodup := every_self h

section
variable {fl : Floats} {buf : Bytes} {r : Nat} {dec : Ty → TV → Nat → Res (TV × Nat)} {decAny : Nat → Res (Val × Nat)}

theorem map_elems (hp : Parts fl buf r dec decAny) {t : Ty} {l : List (Str × Doc)} {off e : Nat} (hc : Fillable (.map t))
    (hg : TGood (.map t) (.map l)) (hk : KeyChain buf (Stored buf r) off l e) :
    Gives (mapInto buf dec decAny (.map t) (.map none) l.length off) ((into fl (.map t) (.map l)).map fun v => (v, e)) := by
  have hcl : Fillable t := hc.2
  by_cases ha : t = .any
  · subst ha
    have h := map_gives (dec := dec .any) (sem := into fl .any) (fresh := some (.any none)) (P := fun v => v = .any none)
      (fun _ => rfl) l off e (.any none) [] (fun kd hkd v off e hv hst => by
        subst hv
        exact hp.typed .any kd.2 off e _ hst hcl (hg.value kd hkd) (Or.inl rfl)) hk
    have h2 := gives_map h (fun x => (TV.map (some x.1), x.2))
    rw [mapInto, into, Option.map_map]
    rw [Option.map_map, Res.bind_assoc] at h2
    refine gives_of_eq ?_ h2
    refine congrArg _ (funext fun x => ?_)
    obtain ⟨a, b, c⟩ := x
    simp [settle, entriesOf]
  · have hr : Reusable t := hc.1.resolve_left ha
    have h := map_gives (dec := dec t) (sem := into fl t) (fresh := none) (P := fun _ => True)
      (fun _ => trivial) l off e t.zero [] (fun kd hkd v off e hv hst =>
        hp.typed t kd.2 off e v hst hcl (hg.value kd hkd) (Or.inr hr)) hk
    have h2 := gives_map h (fun x => (TV.map (some x.1), x.2))
    rw [into, Option.map_map]
    rw [Option.map_map] at h2
    have hm : mapInto buf dec decAny (.map t) (.map none) l.length off =
        (mapLoopT buf (dec t) none l.length off t.zero [] >>= fun x =>
          .ok (.map (some (x.1.map fun p => (p.1, shared p.2 x.2.1))), x.2.2)) := by
      rw [mapInto]
      cases t <;> first | exact absurd rfl ha | (simp only [settle, entriesOf, List.append_nil]; rfl)
    rw [hm]
    intro y
    refine Iff.trans ?_ (h2 y)
    rw [Res.bind_assoc, Res.bind_eq_ok, Res.bind_eq_ok]
    have hsame : ∀ x, mapLoopT buf (dec t) none l.length off t.zero [] = .ok x →
        (x.1.map fun p => (p.1, shared p.2 x.2.1)) = x.1 := by
      intro x hx
      have hx' := (h (x.1, x.2.2)).mp (by rw [hx]; rfl)
      obtain ⟨m, hm, he⟩ := Option.map_eq_some_iff.mp hx'
      cases he
      have hval := readPairs_values hm
      refine (List.map_congr_left fun p hp => ?_).trans (List.map_id _)
      rcases hval p hp with h | ⟨d, hd⟩
      · cases h
      · rw [into_reusable hr hd]; rfl
    constructor
    · rintro ⟨x, h1, h2⟩
      refine ⟨x, h1, ?_⟩
      rw [hsame x h1] at h2
      exact h2
    · rintro ⟨x, h1, h2⟩
      refine ⟨x, h1, ?_⟩
      rw [hsame x h1]
      exact h2

mutual
theorem mapInto_gives (hp : Parts fl buf r dec decAny) : ∀ (ty : Ty) (cur : TV) (l : List (Str × Doc)) (off e : Nat), Fillable ty →
    TGood ty (.map l) → (cur = ty.zero ∨ Reusable ty) → KeyChain buf (Stored buf r) off l e →
    Gives (mapInto buf dec decAny ty cur l.length off) ((into fl ty (.map l)).map fun v => (v, e))
  | .ptr t, cur, l, off, e, hc, hg, hz, hk => by
    rcases hz with rfl | hz
    · have h := mapInto_gives hp t t.zero l off e hc hg.ptr (Or.inl rfl) hk
      have h2 := gives_map h (fun x => (TV.ptr (some x.1), x.2))
      rw [Option.map_map] at h2
      rw [mapInto, into, Option.map_map]
      exact h2
    · exact hz.elim
  | .struct fs, cur, l, off, e, hc, hg, hz, hk => by
    rcases hz with rfl | hz
    · have h1 := embed_gives hp fs l off e (clean_mem hc.2) (fun f hf => hg.embedded f hf) hk
      rw [mapInto, into, Option.map_map, ← embeds_fields]
      have h3 := gives_bind (f := fun vs => structLoop buf dec fs l.length off vs >>= fun x => .ok (TV.struct x.1, x.2))
        (g := fun vs => ((fieldsFrom fl fs vs l).map fun vs => (vs, e)).map fun x => (TV.struct x.1, x.2)) h1 (fun vs hvs => by
          refine gives_map ?_ _
          refine struct_gives hc.1 l off e vs (distinct_keys hg.distinct) (embeds_length hvs) ?_ ?_ hk
          · intro kd hkd f hf off e hst
            exact hp.typed _ _ _ _ _ hst (clean_mem hc.2 f hf) (hg.field f hf kd hkd) (Or.inl rfl)
          · intro kd hkd j f hj hf
            obtain ⟨f', hf', hk'⟩ := fieldIndex_some hj
            rw [hf] at hf'; cases hf'
            exact embeds_zero hvs j f _ hf hk')
      intro y
      refine (h3 y).trans ?_
      cases embeds fl fs l with
      | none => simp
      | some vs => simp only [Option.bind_some, Option.map_map]; rfl
    · exact hz.elim
  | .big, cur, l, off, e, hc, hg, hz, hk => by
    rcases hz with rfl | hz
    · have h := gives_map (big_gives l off e hk) (fun o => (TV.big 0, o))
      rw [mapInto]
      refine fun y => (h y).trans ?_
      simp only [into]
      split <;> simp
    · exact hz.elim
  | .map t, cur, l, off, e, hc, hg, hz, hk => by
    rcases hz with rfl | hz
    · exact map_elems hp hc hg hk
    · exact hz.elim
  | .any, cur, l, off, e, hc, hg, hz, hk => by
    rcases hz with rfl | hz
    · simp only [mapInto, Ty.zero]
      rw [entries_loop hp.untyped _ _ _ _ hk]
      exact gives_ok _
    · exact hz.elim
  | .bool, _, _, _, _, _, _, _, _ => gives_err _
  | .int _, _, _, _, _, _, _, _, _ => gives_err _
  | .uint _, _, _, _, _, _, _, _, _ => gives_err _
  | .uintptr, _, _, _, _, _, _, _, _ => gives_err _
  | .f32, _, _, _, _, _, _, _, _ => gives_err _
  | .f64, _, _, _, _, _, _, _, _ => gives_err _
  | .str, _, _, _, _, _, _, _, _ => gives_err _
  | .slice _, _, _, _, _, _, _, _, _ => gives_err _
  | .other, _, _, _, _, _, _, _, _ => gives_err _

theorem embed_gives (hp : Parts fl buf r dec decAny) : ∀ (fs : List (Option Str × Ty)) (l : List (Str × Doc)) (off e : Nat),
    (∀ f ∈ fs, Fillable f.2) → (∀ f ∈ fs, TGood f.2 (.map l)) → KeyChain buf (Stored buf r) off l e →
    Gives (embedInto buf dec decAny fs (Ty.zero.zeros fs) l.length off) (embeds fl fs l)
  | [], l, off, e, _, _, _ => gives_ok _
  | (n, t) :: fs, l, off, e, hc, hg, hk => by
    have h2 := embed_gives hp fs l off e (fun f hf => hc f (List.mem_cons_of_mem _ hf)) (fun f hf => hg f (List.mem_cons_of_mem _ hf)) hk
    have h1 := mapInto_gives hp t t.zero l off e (hc _ List.mem_cons_self) (hg _ List.mem_cons_self) (Or.inl rfl) hk
    have comb : ∀ (x : Res (TV × Nat)) (o : Option TV) (e : Nat), Gives x (o.map fun v => (v, e)) →
        Gives (x >>= fun y => embedInto buf dec decAny fs (Ty.zero.zeros fs) l.length off >>= fun vs => .ok (y.1 :: vs))
          (match o, embeds fl fs l with
            | some v, some vs => some (v :: vs)
            | _, _ => none) := by
      intro x o e hx
      have := gives_bind (f := fun y => embedInto buf dec decAny fs (Ty.zero.zeros fs) l.length off >>= fun vs => .ok (y.1 :: vs))
        (g := fun y => (embeds fl fs l).map fun vs => y.1 :: vs) hx (fun y _ => gives_map h2 _)
      refine fun y => (this y).trans ?_
      cases o <;> cases embeds fl fs l <;> simp
    rw [Ty.zero.zeros, embedInto, embeds]
    cases n with
    | none => exact comb _ _ e h1
    | some k => exact comb (.ok (t.zero, off)) (some t.zero) off (gives_ok _)
end

end

/-! ## The decoder -/

/-- The type behind pointers. -/
def core : Ty → Ty
  | .ptr t => core t
  | t => t

theorem indirect_spec (fl : Floats) (d : Doc) : ∀ (ty : Ty) (cur : TV), Fillable ty → TGood ty d → (cur = ty.zero ∨ Reusable ty) →
    ∃ cur' back, indirect ty cur = (core ty, cur', back) ∧ (cur' = (core ty).zero ∨ Reusable (core ty)) ∧ Fillable (core ty) ∧
      TGood (core ty) d ∧ (∀ t, core ty ≠ .ptr t) ∧ into fl ty d = (into fl (core ty) d).map back := by
  intro ty
  induction ty using Ty.rec (motive_2 := fun _ => True) (motive_3 := fun _ => True) with
  | ptr t ih =>
    intro cur hc hg hz
    rcases hz with rfl | hz
    · obtain ⟨cur', back, h1, h2, h3, h4, h5, h6⟩ := ih t.zero hc hg.ptr (Or.inl rfl)
      refine ⟨cur', fun w => .ptr (some (back w)), ?_, h2, h3, h4, h5, ?_⟩
      · simp only [indirect, Ty.zero, target, h1, core]
      · simp only [into, core, h6, Option.map_map]; rfl
    · exact hz.elim
  | any =>
    intro cur hc hg hz
    rcases hz with rfl | hz
    · exact ⟨.any none, id, rfl, Or.inl rfl, hc, hg, (fun t h => by cases h), by simp [core]⟩
    · exact hz.elim
  | nil => trivial
  | cons _ _ _ _ => trivial
  | mk _ _ _ => trivial
  | _ =>
    intro cur hc hg hz
    exact ⟨cur, id, rfl, hz, hc, hg, (fun t h => by cases h), by simp [core]⟩

/-- The part of the decoder behind `indirect`. -/
def decodeCore (fl : Floats) (buf : Bytes) (r start t size offset : Nat) (x : Ty × TV × (TV → TV)) : Res (TV × Nat) :=
  match x.1 with
  | .any => do
    let (v, offset) ← decodeAny buf (r + 1) start
    return (x.2.2 (.any (some v)), offset)
  | _ =>
    if t = 14 then
      if size > 1 then .err invalidErr
      else do
        let v ← store fl t x.1 (.bool (size != 0))
        return (x.2.2 v, offset)
    else if t = 7 then do
      let (v, offset) ← mapInto buf (decodeT fl buf r) (decodeAny buf r) x.1 x.2.1 size offset
      return (x.2.2 v, offset)
    else if t = 1 then do
      let (pointer, offset) ← decodePointer buf size offset
      let (v, _) ← decodeT fl buf r x.1 x.2.1 pointer
      return (x.2.2 v, offset)
    else if t = 11 then
      match x.1 with
      | .slice e => do
        let (l, offset) ← sliceLoop (decodeT fl buf r e e.zero) size offset
        return (x.2.2 (.slice (some l)), offset)
      | _ => .err typeErr
    else do
      let (v, offset) ← decodeScalar buf t size offset
      let v ← store fl t x.1 v
      return (x.2.2 v, offset)

theorem decodeT_step (fl : Floats) (buf : Bytes) (r : Nat) {ty : Ty} (h : ty ≠ .uintptr) (cur : TV) (start : Nat) :
    decodeT fl buf (r + 1) ty cur start = (decodeCtrlData buf start >>= fun x => decodeCore fl buf r start x.1 x.2.1 x.2.2 (indirect ty cur)) := by
  rw [decodeT]
  refine congrArg _ (funext fun x => ?_)
  cases ty <;> first | exact absurd rfl h | rfl

theorem decodeT_stored (fl : Floats) (buf : Bytes) : ∀ (levels : Nat) (ty : Ty) (d : Doc) (off e : Nat) (cur : TV),
    Stored buf levels off d e → Fillable ty → TGood ty d → (cur = ty.zero ∨ Reusable ty) →
    Gives (decodeT fl buf levels ty cur off) ((into fl ty d).map fun v => (v, e)) := by
  intro levels
  induction levels with
  | zero => intro ty d off e cur h; exact h.elim
  | succ r ih =>
    intro ty d off e cur h hc hg hz
    have hu : ty ≠ .uintptr := by rintro rfl; exact hc
    obtain ⟨cur', back, h1, h2, h3, h4, h5, h6⟩ := indirect_spec fl d ty cur hc hg hz
    rw [decodeT_step fl buf r hu, h1, h6, Option.map_map]
    have hparts : Parts fl buf r (decodeT fl buf r) (decodeAny buf r) :=
      ⟨fun t d off e cur a b c k => ih t d off e cur a b c k, fun off d e hs => decode_stored buf r off d e hs⟩
    have finish : ∀ {x : Res (TV × Nat)}, Gives x ((into fl (core ty) d).map fun v => (v, e)) →
        Gives (x >>= fun y => .ok (back y.1, y.2)) ((into fl (core ty) d).map ((fun v => (v, e)) ∘ back)) := by
      intro x hx
      have := gives_map hx (fun y => (back y.1, y.2))
      rwa [Option.map_map] at this
    by_cases ha : core ty = .any
    · have hd := decode_stored buf (r + 1) off d e h
      have hctl : ∃ x, decodeCtrlData buf off = .ok x := by
        rw [decodeAny] at hd
        obtain ⟨x, hx, _⟩ := Res.bind_eq_ok.mp hd
        exact ⟨x, hx⟩
      obtain ⟨x, hx⟩ := hctl
      rw [hx, Res.ok_bind, ha]
      simp only [decodeCore, hd, Res.ok_bind, into, Option.map_some]
      exact gives_ok _
    · have hcu : core ty ≠ .uintptr := by intro hh; rw [hh] at h3; exact h3
      have hcore : Core (core ty) := by
        cases hh : core ty with
        | ptr t => exact absurd hh (h5 t)
        | any => exact absurd hh ha
        | uintptr => exact absurd hh hcu
        | _ => trivial
      generalize core ty = ct at *
      have hbody : ∀ t size offset, decodeCore fl buf r off t size offset (ct, cur', back) =
          (if t = 14 then
            if size > 1 then .err invalidErr
            else store fl t ct (.bool (size != 0)) >>= fun v => .ok (back v, offset)
          else if t = 7 then mapInto buf (decodeT fl buf r) (decodeAny buf r) ct cur' size offset >>= fun y => .ok (back y.1, y.2)
          else if t = 1 then decodePointer buf size offset >>= fun p => decodeT fl buf r ct cur' p.1 >>= fun y => .ok (back y.1, p.2)
          else if t = 11 then
            (match ct with
            | .slice e => sliceLoop (decodeT fl buf r e e.zero) size offset >>= fun y => .ok (back (.slice (some y.1)), y.2)
            | _ => .err typeErr)
          else decodeScalar buf t size offset >>= fun y => store fl t ct y.1 >>= fun v => .ok (back v, y.2)) := by
        intro t size offset
        cases ct <;> first | exact absurd rfl ha | rfl
      rcases stored_cases h with ⟨p, e', hp, h, he, hst⟩ | h
      · obtain ⟨size, off', h7, h8⟩ := pointer_back hp h
        rw [h7, Res.ok_bind, hbody]
        simp only []
        rw [if_neg (by omega), if_neg (by omega), if_pos trivial, h8, Res.ok_bind]
        simp only []
        have := gives_map (ih ct d p e' cur' hst h3 h4 h2) (fun y => (back y.1, off + (pointer p).length))
        rw [Option.map_map] at this
        rw [he]
        exact this
      · cases d with
        | array l =>
          obtain ⟨hf, h7, h8⟩ := h
          rw [ctrl_head (by omega) (by omega) hf h7, Res.ok_bind, hbody]
          simp only []
          rw [if_neg (by omega), if_neg (by omega), if_neg (by omega), if_pos trivial]
          cases ct with
          | slice t =>
            simp only []
            have hs := slice_gives (dec := decodeT fl buf r t t.zero) (sem := into fl t) l _ e (fun d hd off e hst =>
              ih t d off e t.zero hst h3 (h4.elem d hd) (Or.inl rfl)) h8
            have := gives_map hs (fun y => (back (.slice (some y.1)), y.2))
            rw [Option.map_map] at this
            simp only [into, Option.map_map]
            exact this
          | any => exact absurd rfl ha
          | ptr t => exact absurd rfl (h5 t)
          | _ => exact gives_err _
        | map l =>
          obtain ⟨hf, h7, h8⟩ := h
          rw [ctrl_head (by omega) (by omega) hf h7, Res.ok_bind, hbody]
          simp only []
          rw [if_neg (by omega), if_pos trivial]
          exact finish (mapInto_gives hparts ct cur' l _ e h3 h4 h2 h8)
        | bool v =>
          obtain ⟨hf, b, hb, h7, he⟩ := h
          injection hb with hb; subst hb; subst he
          rw [ctrl_head (by omega) (by omega) (sizeOK_small (by cases v <;> decide)) h7, Res.ok_bind, hbody]
          simp only []
          rw [if_pos trivial, if_neg (by cases v <;> decide)]
          have : Gives (store fl 14 ct (.bool (v.toNat != 0))) (into fl ct (.bool v)) := by
            have hv : (v.toNat != 0) = v := by cases v <;> rfl
            rw [hv]
            cases ct with
            | any => exact absurd rfl ha
            | ptr t => exact absurd rfl (h5 t)
            | slice t => cases t <;> exact gives_err _
            | bool => exact gives_ok _
            | _ => exact gives_err _
          exact gives_map this (fun v' => (back v', off + (head 14 v.toNat).length))
        | _ =>
          obtain ⟨size, o, h7, h8⟩ := plain_ctrl h trivial
          rw [h7, Res.ok_bind, hbody]
          simp only []
          rw [if_neg (by simp [typeNum]), if_neg (by simp [typeNum]), if_neg (by simp [typeNum]), if_neg (by simp [typeNum]), h8, Res.ok_bind]
          exact gives_map (store_plain fl h.1 hcore trivial h4) (fun v' => (back v', e))

end Uip.Awdb
