import Verif.Proof.Ipdb.Layout
import Verif.Spec.Readers
/-!
# The information the Java and Rust readers build
-/
namespace Uip.Ipdb
open Uip Uip.Spec

/-- Fold over the columns whose name satisfies `p`. -/
def foldCol {α : Type} (p : Str → Bool) (g : Str → α → α) : List Str → List Str → α → α
  | f :: fs, v :: vs, acc => foldCol p g fs vs (if p f then g v acc else acc)
  | _, _, acc => acc

theorem foldCol_const {α : Type} (p : Str → Bool) (h : Str → α) (fs vs : List Str) (acc : α) :
    foldCol p (fun v _ => h v) fs vs acc =
      (((fs.zip vs).filter (fun x => p x.1)).getLast?.map (fun x => h x.2)).getD acc := by
  induction fs generalizing vs acc with
  | nil => rfl
  | cons f fs ih =>
    cases vs with
    | nil => rfl
    | cons v vs =>
      simp only [foldCol, ih, List.zip_cons_cons, List.filter_cons]
      by_cases hp : p f = true
      · rw [if_pos hp, if_pos hp, List.getLast?_cons]
        cases ((fs.zip vs).filter (fun x => p x.1)).getLast? <;> simp
      · rw [if_neg hp, if_neg hp]

theorem foldCol_some (p : Str → Bool) (h : Str → Str) (fs vs : List Str) :
    foldCol p (fun v _ => some (h v)) fs vs none =
      (((fs.zip vs).filter (fun x => p x.1)).getLast?.map (·.2)).map h := by
  rw [foldCol_const]
  cases ((fs.zip vs).filter (fun x => p x.1)).getLast? <;> rfl

theorem foldCol_covert {α : Type} (p : Str → Bool) (g : Str → α → α) (fs vs : List Str) (acc : α) :
    foldCol p g (covertFields fs) vs acc = foldCol (fun f => p (conv1 f)) g fs vs acc := by
  induction fs generalizing vs acc with
  | nil => rfl
  | cons f fs ih =>
    cases vs with
    | nil => rfl
    | cons v vs =>
      rw [covertFields_eq, List.map_cons, ← covertFields_eq]
      simp only [foldCol]
      rw [ih]

theorem foldCol_modify_other {α : Type} {p : Str → Bool} {g : Str → α → α} {fs vs : List Str} {acc : α} {i : Nat}
    {m : Str → Str} (h : ∀ f, fs[i]? = some f → p f = false) : foldCol p g fs (vs.modify i m) acc = foldCol p g fs vs acc := by
  induction fs generalizing vs acc i with
  | nil => rfl
  | cons f fs ih =>
    cases vs with
    | nil => cases i <;> rfl
    | cons v vs =>
      cases i with
      | zero =>
        have := h f rfl
        simp only [List.modify_zero_cons, foldCol, this, Bool.false_eq_true, if_false]
      | succ i =>
        simp only [List.modify_succ_cons, foldCol]
        exact ih (fun f' hf => h f' (by simpa using hf))

/-- The stored values differ from the given ones only in a column no reader looks at. -/
theorem foldCol_convD {α : Type} {p : Str → Bool} (g : Str → α → α) (fields values : List Str) (acc : α)
    (hp : ∀ f, asciiLower f = fContinent → p f = false) :
    foldCol p g (covertFields fields) (convD (continentIdx (covertFields fields) 0 none) values) acc =
      foldCol p g (covertFields fields) values acc := by
  unfold convD
  split
  · rfl
  · rename_i i hi
    apply foldCol_modify_other
    intro f hf
    rcases continentIdx_lt hi with ⟨h1, h2, f', h3, h4⟩ | h1
    · rw [Nat.sub_zero, hf] at h3; cases h3
      exact hp f h4
    · cases h1

theorem foldCol_congr {α : Type} {p q : Str → Bool} {g : Str → α → α} {fs vs : List Str} {acc : α} (h : ∀ f, p f = q f) :
    foldCol p g fs vs acc = foldCol q g fs vs acc := by
  have : p = q := funext h
  rw [this]

/-- A column of a stored record, looked up by its stored name. -/
theorem col_attr? {k : Str} {names fields values : List Str} (hn : ∀ f, conv1 f = k ↔ f ∈ names)
    (hk : asciiLower k ≠ fContinent) :
    foldCol (fun f => decide (f = k)) (fun v _ => some v) (covertFields fields)
      (convD (continentIdx (covertFields fields) 0 none) values) none = attr? names fields values := by
  rw [foldCol_convD _ _ _ _ (by intro f hf; rw [decide_eq_false_iff_not]; rintro rfl; exact hk hf), foldCol_covert]
  rw [show (fun (v : Str) (_ : Option Str) => some v) = (fun v _ => some (id v)) from rfl, foldCol_some, Option.map_id_fun, id]
  unfold attr?
  congr 3
  funext x
  simp only [hn]

theorem java_buildInfo (fs vs : List Str) (info : Java.JInfo) (hl : vs.length = fs.length) :
    Java.buildInfo fs (vs.map some) info = .ok
      { country := foldCol (fun f => decide (f = FieldCountryName)) (fun v _ => some v) fs vs info.country
        district := foldCol (fun f => decide (f = fDistrict)) (fun v _ => some v) fs vs info.district
        province := foldCol (fun f => decide (f = FieldRegionName)) (fun v _ => some v) fs vs info.province
        city := foldCol (fun f => decide (f = FieldCityName)) (fun v _ => some v) fs vs info.city
        asn := foldCol (fun f => decide (f = fAsn)) (fun v _ => some v) fs vs info.asn
        isp := foldCol (fun f => decide (f = FieldISPDomain)) (fun v _ => some v) fs vs info.isp
        continent := foldCol (fun f => decide (f = FieldContinentCode)) (fun v _ => some (Java.continentName v)) fs vs info.continent
        line := foldCol (fun f => decide (f = fAsn ∨ f = fLine)) (fun v _ => some v) fs vs info.line } := by
  induction fs generalizing vs info with
  | nil =>
    cases vs with
    | nil => rfl
    | cons => simp at hl
  | cons f fs ih =>
    cases vs with
    | nil => simp at hl
    | cons v vs =>
      have hset : Java.setAttr info f (some v) = .ok
          { country := if decide (f = FieldCountryName) then some v else info.country
            district := if decide (f = fDistrict) then some v else info.district
            province := if decide (f = FieldRegionName) then some v else info.province
            city := if decide (f = FieldCityName) then some v else info.city
            asn := if decide (f = fAsn) then some v else info.asn
            isp := if decide (f = FieldISPDomain) then some v else info.isp
            continent := if decide (f = FieldContinentCode) then some (Java.continentName v) else info.continent
            line := if decide (f = fAsn ∨ f = fLine) then some v else info.line } := by
        unfold Java.setAttr
        by_cases h1 : f = gs "country_name"
        · subst h1; rfl
        rw [if_neg h1]
        by_cases h2 : f = gs "region_name"
        · subst h2; rfl
        rw [if_neg h2]
        by_cases h3 : f = gs "city_name"
        · subst h3; rfl
        rw [if_neg h3]
        by_cases h4 : f = gs "isp_domain"
        · subst h4; rfl
        rw [if_neg h4]
        by_cases h5 : f = gs "asn"
        · subst h5; rfl
        rw [if_neg h5]
        by_cases h6 : f = gs "line"
        · subst h6; rfl
        rw [if_neg h6]
        by_cases h7 : f = gs "district"
        · subst h7; rfl
        rw [if_neg h7]
        by_cases h8 : f = gs "continent_code"
        · subst h8; rfl
        rw [if_neg h8]
        simp only [FieldCountryName, FieldRegionName, FieldCityName, FieldISPDomain, FieldContinentCode, fDistrict, fAsn, fLine,
          h1, h2, h3, h4, h5, h6, h7, h8, decide_false, or_self, Bool.false_eq_true, if_false]
      simp only [List.map_cons, Java.buildInfo, hset, Res.ok_bind]
      rw [ih vs _ (by simpa using hl)]
      rfl

theorem rust_buildInfo (fs vs : List Str) (info : IpInfo) (hl : vs.length = fs.length) :
    Rust.buildInfo fs vs info = .ok
      { country := foldCol (fun f => decide (f = FieldCountryName)) (fun v _ => v) fs vs info.country
        district := foldCol (fun f => decide (f = fDistrict)) (fun v _ => v) fs vs info.district
        province := foldCol (fun f => decide (f = FieldRegionName)) (fun v _ => v) fs vs info.province
        city := foldCol (fun f => decide (f = FieldCityName)) (fun v _ => v) fs vs info.city
        asn := foldCol (fun f => decide (f = fAsn)) (fun v _ => v) fs vs info.asn
        isp := foldCol (fun f => decide (f = FieldISPDomain)) (fun v _ => v) fs vs info.isp
        continent := foldCol (fun f => decide (f = FieldContinentCode)) Rust.continentName fs vs info.continent
        line := foldCol (fun f => decide (f = fLine)) (fun v _ => v) fs vs info.line } := by
  induction fs generalizing vs info with
  | nil =>
    cases vs with
    | nil => rfl
    | cons => simp at hl
  | cons f fs ih =>
    cases vs with
    | nil => simp at hl
    | cons v vs =>
      have hset : Rust.setAttr info f (some v) = .ok
          { country := if decide (f = FieldCountryName) then v else info.country
            district := if decide (f = fDistrict) then v else info.district
            province := if decide (f = FieldRegionName) then v else info.province
            city := if decide (f = FieldCityName) then v else info.city
            asn := if decide (f = fAsn) then v else info.asn
            isp := if decide (f = FieldISPDomain) then v else info.isp
            continent := if decide (f = FieldContinentCode) then Rust.continentName v info.continent else info.continent
            line := if decide (f = fLine) then v else info.line } := by
        unfold Rust.setAttr
        simp only [Res.ofOption_some, Res.ok_bind]
        by_cases h1 : f = gs "country_name"
        · subst h1; rfl
        rw [if_neg h1]
        by_cases h2 : f = gs "region_name"
        · subst h2; rfl
        rw [if_neg h2]
        by_cases h3 : f = gs "city_name"
        · subst h3; rfl
        rw [if_neg h3]
        by_cases h4 : f = gs "isp_domain"
        · subst h4; rfl
        rw [if_neg h4]
        by_cases h5 : f = gs "asn"
        · subst h5; rfl
        rw [if_neg h5]
        by_cases h6 : f = gs "line"
        · subst h6; rfl
        rw [if_neg h6]
        by_cases h7 : f = gs "district"
        · subst h7; rfl
        rw [if_neg h7]
        by_cases h8 : f = gs "continent_code"
        · subst h8; rfl
        rw [if_neg h8]
        simp only [FieldCountryName, FieldRegionName, FieldCityName, FieldISPDomain, FieldContinentCode, fDistrict, fAsn, fLine,
          h1, h2, h3, h4, h5, h6, h7, h8, decide_false, Bool.false_eq_true, if_false]
      simp only [Rust.buildInfo, List.head?_cons, List.tail_cons, hset, Res.ok_bind]
      rw [ih vs _ (by simpa using hl)]
      rfl

end Uip.Ipdb
