import Verif.Proof.Json.Written
/-!
# The grammar and the parser accept the same texts
-/
namespace Uip.Json
open Uip Uip.Spec.AddrText Uip.Spec.JsonText

mutual
/-- The value of the grammar for a value of the parser. -/
def ofJ : JVal → Spec.JsonText.Json
  | .null => .null
  | .bool b => .bool b
  | .num t => .num t
  | .str t => .str t
  | .arr l => .arr (ofJs l)
  | .obj l => .obj (ofJps l)
def ofJs : List JVal → List Spec.JsonText.Json
  | [] => []
  | v :: r => ofJ v :: ofJs r
def ofJps : List (Bytes × JVal) → List (Bytes × Spec.JsonText.Json)
  | [] => []
  | (k, v) :: r => (k, ofJ v) :: ofJps r
end

mutual
theorem ofJ_toJ : ∀ j : Spec.JsonText.Json, ofJ (toJ j) = j
  | .null => rfl
  | .bool _ => rfl
  | .num _ => rfl
  | .str _ => rfl
  | .arr l => by rw [toJ, ofJ, ofJ_toJs l]
  | .obj l => by rw [toJ, ofJ, ofJ_toJps l]
theorem ofJ_toJs : ∀ l : List Spec.JsonText.Json, ofJs (toJs l) = l
  | [] => rfl
  | v :: r => by rw [toJs, ofJs, ofJ_toJ v, ofJ_toJs r]
theorem ofJ_toJps : ∀ l : List (Bytes × Spec.JsonText.Json), ofJps (toJps l) = l
  | [] => rfl
  | (k, v) :: r => by rw [toJps, ofJps, ofJ_toJ v, ofJ_toJps r]
end

theorem text_iff {j : Spec.JsonText.Json} {s : Bytes} : Text 10000 j s ↔ parse s = some (toJ j) := by
  constructor
  · intro h; exact parse_grammar h
  · intro h
    obtain ⟨j', h1, h2⟩ := parse_spec h
    have := congrArg ofJ h2
    rw [ofJ_toJ, ofJ_toJ] at this
    rw [← this]; exact h1

mutual
/-- Comparison of a parsed value with a value of the grammar. -/
def eqv : JVal → Spec.JsonText.Json → Bool
  | .null, .null => true
  | .bool a, .bool b => a == b
  | .num a, .num b => a == b
  | .str a, .str b => a == b
  | .arr l, .arr r => eqvs l r
  | .obj l, .obj r => eqvps l r
  | _, _ => false
def eqvs : List JVal → List Spec.JsonText.Json → Bool
  | [], [] => true
  | a :: l, b :: r => eqv a b && eqvs l r
  | _, _ => false
def eqvps : List (Bytes × JVal) → List (Bytes × Spec.JsonText.Json) → Bool
  | [], [] => true
  | (k, a) :: l, (k', b) :: r => k == k' && (eqv a b && eqvps l r)
  | _, _ => false
end

mutual
theorem eqv_eq : ∀ (v : JVal) (j : Spec.JsonText.Json), eqv v j = true → v = toJ j
  | .null, j, h => by cases j <;> first | rfl | (rw [eqv] at h; cases h; done) | cases h
  | .bool a, j, h => by
    cases j with
    | bool b => rw [eqv, beq_iff_eq] at h; subst h; rfl
    | _ => cases h
  | .num a, j, h => by
    cases j with
    | num b => rw [eqv, beq_iff_eq] at h; subst h; rfl
    | _ => cases h
  | .str a, j, h => by
    cases j with
    | str b => rw [eqv, beq_iff_eq] at h; subst h; rfl
    | _ => cases h
  | .arr a, j, h => by
    cases j with
    | arr b => rw [eqv] at h; rw [toJ, eqvs_eq a b h]
    | _ => cases h
  | .obj a, j, h => by
    cases j with
    | obj b => rw [eqv] at h; rw [toJ, eqvps_eq a b h]
    | _ => cases h
theorem eqvs_eq : ∀ (v : List JVal) (j : List Spec.JsonText.Json), eqvs v j = true → v = toJs j
  | [], [], _ => rfl
  | a :: l, [], h => by cases h
  | [], b :: r, h => by cases h
  | a :: l, b :: r, h => by
    rw [eqvs, Bool.and_eq_true] at h
    rw [toJs, eqv_eq a b h.1, eqvs_eq l r h.2]
theorem eqvps_eq : ∀ (v : List (Bytes × JVal)) (j : List (Bytes × Spec.JsonText.Json)), eqvps v j = true → v = toJps j
  | [], [], _ => rfl
  | a :: l, [], h => by cases h
  | [], b :: r, h => by cases h
  | (k, a) :: l, (k', b) :: r, h => by
    rw [eqvps, Bool.and_eq_true, Bool.and_eq_true, beq_iff_eq] at h
    rw [toJps, h.1, eqv_eq a b h.2.1, eqvps_eq l r h.2.2]
end

/-- The text is one of this value. -/
def isText? (s : Bytes) (j : Spec.JsonText.Json) : Bool := match parse s with
  | some v => eqv v j
  | none => false

theorem text_of {s : Bytes} {j : Spec.JsonText.Json} (h : isText? s j = true) : Text 10000 j s := by
  unfold isText? at h
  split at h
  · rename_i v hv; rw [text_iff, hv, eqv_eq v j h]
  · cases h

theorem named_of {k : Bytes} (hk : Quoted k) {n : String} (hn : ∀ c ∈ n.toList, c.toNat < 128) : Named k n ↔ foldEq (gs n) (unquote k) = true :=
  named_iff hk hn

/-- No two names of the list name the same member. -/
theorem once_of {names : List String} (hok : NamesOK names) {l : List (Bytes × Spec.JsonText.Json)} (hq : ∀ p ∈ l, Quoted p.1)
    (h : (l.map (·.1)).Pairwise fun a b => ∀ n ∈ names, ¬ (foldEq (gs n) (unquote a) = true ∧ foldEq (gs n) (unquote b) = true)) :
    Once names l := by
  rw [List.pairwise_map] at h
  unfold Once
  induction h with
  | nil => exact .nil
  | cons h1 _ ih =>
    refine .cons (fun b hb n hn hab => ?_) (ih fun p hp => hq p (List.mem_cons_of_mem _ hp))
    have ha := (named_iff (hq _ (List.mem_cons_self ..)) (hok.ascii n hn)).mp hab.1
    have hb' := (named_iff (hq b (List.mem_cons_of_mem _ hb)) (hok.ascii n hn)).mp hab.2
    exact h1 b hb n hn ⟨ha, hb'⟩

theorem text_members {l : List (Bytes × Spec.JsonText.Json)} {s : Bytes} (h : Text 10000 (.obj l) s) :
    ∀ p ∈ l, Quoted p.1 ∧ ∃ u, Value (9998 + 1) p.2 u := by
  obtain ⟨t, ht⟩ := text_obj h
  exact value_obj ht

end Uip.Json
