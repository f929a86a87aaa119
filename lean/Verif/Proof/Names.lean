import Verif.Model.Names
import Verif.Model.Operate
import Verif.Spec.Operate
/-!
# The built-in name tables
-/
namespace Uip
open Uip.Spec

theorem mapGet_mem {α : Type} {m : GoMap α} {k : Str} {v : α} (h : mapGet m k = some v) : (k, v) ∈ m := by
  induction m with
  | nil => simp [mapGet] at h
  | cons p m ih =>
    obtain ⟨a, b⟩ := p
    unfold mapGet at h
    split at h
    · rename_i e; cases h; simp [e]
    · simp [ih h]

theorem mapGet_isSome_of_mem {α : Type} {m : GoMap α} {k : Str} {v : α} (h : (k, v) ∈ m) : (mapGet m k).isSome := by
  induction m with
  | nil => simp at h
  | cons p m ih =>
    obtain ⟨a, b⟩ := p
    unfold mapGet
    split
    · rfl
    · rename_i hne
      rcases List.mem_cons.mp h with h | h
      · cases h; exact absurd rfl hne
      · exact ih h

/-- A string as a number (for fast evaluation). -/
def encStr (s : Str) : Nat := s.foldl (fun n b => n * 256 + b.toNat) 1

/-- Membership in a list of numbers. -/
def hasNat : List Nat → Nat → Bool
  | [], _ => false
  | a :: l, n => Nat.beq a n || hasNat l n

theorem hasNat_of_mem {l : List Nat} {n : Nat} (h : n ∈ l) : hasNat l n = true := by
  induction l with
  | nil => simp at h
  | cons a l ih =>
    unfold hasNat
    rcases List.mem_cons.mp h with rfl | h
    · simp
    · simp [ih h]

/-- No value of the table is a key, except of an entry that maps a name to itself. -/
def noChain (m : GoMap Str) : Bool :=
  m.all fun p => !(hasNat (m.map fun q => encStr q.1) (encStr p.2)) || p.1 == p.2

theorem noChain_spec {m : GoMap Str} (h : noChain m = true) {k v : Str} (hk : mapGet m k = some v) :
    mapGet m v = none ∨ mapGet m v = some v := by
  have hm := List.all_eq_true.mp h (k, v) (mapGet_mem hk)
  simp only [Bool.or_eq_true, Bool.not_eq_true', beq_iff_eq] at hm
  rcases hm with hm | rfl
  · left
    cases e : mapGet m v with
    | none => rfl
    | some w =>
      have := hasNat_of_mem (List.mem_map.mpr ⟨_, mapGet_mem e, rfl⟩ : encStr v ∈ m.map fun q => encStr q.1)
      rw [this] at hm; cases hm
  · exact .inr hk

set_option maxRecDepth 100000 in
theorem noChain_city : noChain (parseData CityList) = true := by decide +kernel

set_option maxRecDepth 100000 in
theorem noChain_isp : noChain (parseData ISPList) = true := by decide +kernel

set_option maxRecDepth 100000 in
theorem noChain_province : noChain (parseData ProvinceList) = true := by decide +kernel

theorem NormalizedMap_cases {f : Str} {t : GoMap Str} (h : mapGet NormalizedMap f = some t) :
    f = fISP ∧ t = parseData ISPList ∨ f = fProvince ∧ t = parseData ProvinceList ∨ f = fCity ∧ t = parseData CityList := by
  have hm := mapGet_mem h
  unfold NormalizedMap Load mapSet at hm
  simp only [List.mem_cons, Prod.mk.injEq, List.not_mem_nil, or_false] at hm
  exact hm

theorem NormalizedMap_noChains : NoChains NormalizedMap := by
  intro f t ht k v hk
  have hc : noChain t = true := by
    rcases NormalizedMap_cases ht with h | h | h
    · rw [h.2]; exact noChain_isp
    · rw [h.2]; exact noChain_province
    · rw [h.2]; exact noChain_city
  exact noChain_spec hc hk

set_option maxRecDepth 100000 in
/-- Every name the province table produces has a non-empty district. -/
theorem province_districts : ((parseData ProvinceList).all fun p =>
    match mapGet Operate.provinceDistrict p.2 with | some d => d != [] | none => false) = true := by decide +kernel

end Uip
