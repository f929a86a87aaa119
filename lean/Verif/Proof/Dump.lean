import Verif.Proof.Range
import Verif.Model.Export
import Verif.Spec.Dump
/-!
# The dump loop
-/
namespace Uip.Export
open Uip Uip.Spec

/-- The end of a well-formed network: its last address, and the address after it. -/
theorem net_end {len : Nat} {c : IPNet} (hwf : WFNet c) (hl : c.ip.length = len) (hlen : len = 4 ∨ len = 16) :
    famLo len ≤ netLo c ∧ netEnd c ≤ famEnd len ∧ ∃ last, LastIP c = .ok last ∧ last.length = len ∧
      (IsAllMask last = true ↔ netEnd c = famEnd len) ∧
      (IsAllMask last = false → addrNum (NextIP last) = netEnd c ∧ netEnd c < famEnd len) := by
  obtain ⟨last, h1, h2, h3, h4⟩ := LastIP_spec hwf.1
  have hal := hwf.2
  rw [Aligned_iff] at hal
  have hh : 8 * c.ip.length - pfx c = hostBits c := rfl
  rw [hh] at h4 hal
  have hdv := Nat.div_add_mod (val c.ip) (2 ^ hostBits c)
  rw [hal] at hdv
  have hpos := Nat.two_pow_pos (hostBits c)
  have hlv : val last + 1 = val c.ip + 2 ^ hostBits c := by
    rw [h4, Nat.mul_comm (val c.ip / _)]; omega
  have hlt := val_lt last
  have hnum : addrNum last + 1 = netEnd c := by
    unfold netEnd addrNum; rw [h2]; split <;> omega
  have hm := IsAllMask_iff last
  rw [h2, hl] at hlt hm
  have hbound : famLo len ≤ netLo c := by
    unfold famLo netLo
    rcases hlen with h | h <;> subst h
    · rw [addrNum_4 hl]; simp
    · simp
  have hend : (val last + 1 = 256 ^ len ↔ netEnd c = famEnd len) ∧ netEnd c ≤ famEnd len := by
    rw [← hnum]
    unfold famEnd
    rcases hlen with h | h <;> subst h
    · rw [addrNum_4 (h2.trans hl)]; simp; omega
    · rw [addrNum_16 (h2.trans hl)]; simp; omega
  refine ⟨hbound, hend.2, last, h1, h2.trans hl, hm.trans hend.1, fun hf => ?_⟩
  have hn : ¬ val last + 1 = 256 ^ len := by
    intro h; rw [← hm] at h; rw [hf] at h; cases h
  have hnt : val last + 1 < 256 ^ last.length := by rw [h2, hl]; omega
  refine ⟨by rw [NextIP_addrNum hnt, hnum], ?_⟩
  have h5 : netEnd c ≠ famEnd len := fun h => hn (hend.1.mpr h)
  have := hend.2
  omega

theorem InFam_marker {len : Nat} {last : IP} (hl : last.length = len) (hlen : len = 4 ∨ len = 16) {lo e : Nat}
    (h1 : famLo len ≤ lo) (h3 : lo ≤ e) (h2 : addrNum (NextIP last) = e) (h4 : e < famEnd len) : InFam len (NextIP last) := by
  refine ⟨by unfold ValidIP; rw [NextIP_length, hl]; exact hlen, by omega, by omega⟩

/-- Where a dumped row comes from. -/
def FromFind (len : Nat) (find : Find) (row : GoMap Str → Res (List Str)) (r : IpRaw) : Prop :=
  ∃ a info, InFam len a ∧ find a = .ok (r.cidr, info) ∧ row info = .ok r.values ∧ netLo r.cidr = addrNum a

theorem NextStart_ok {c : IPNet} {last : IP} (h : LastIP c = .ok last) : NextStart c = .ok (NextIP last) := by
  unfold NextStart; rw [h]; rfl

theorem buildLoop_sound {len : Nat} (hlen : len = 4 ∨ len = 16) {find : Find} {row : GoMap Str → Res (List Str)}
    (hn : ReturnsOwnNet len find) (hc : Coherent len find) : ∀ (fuel : Nat) (marker : IP) (acc out : List IpRaw),
    buildLoop find row fuel marker acc = some (.ok out) → InFam len marker →
    Tiles (famLo len) (acc.map (·.cidr)) (addrNum marker) →
    (∀ r ∈ acc, WFNet r.cidr ∧ r.cidr.ip.length = len ∧ FromFind len find row r) →
    Tiles (famLo len) (out.map (·.cidr)) (famEnd len) ∧
      (∀ r ∈ out, WFNet r.cidr ∧ r.cidr.ip.length = len ∧ FromFind len find row r) := by
  intro fuel
  induction fuel with
  | zero => intro marker acc out h; simp [buildLoop] at h
  | succ fuel ih =>
    intro marker acc out h hm ht hacc
    unfold buildLoop at h
    cases hf : find marker with
    | err e => rw [hf] at h; simp at h
    | panic => rw [hf] at h; simp at h
    | ok p =>
      obtain ⟨c, info⟩ := p
      rw [hf] at h
      simp only [] at h
      cases hr : row info with
      | err e => rw [hr] at h; simp at h
      | panic => rw [hr] at h; simp at h
      | ok values =>
        rw [hr] at h
        simp only [] at h
        obtain ⟨hwf, hl, hcov⟩ := hn marker c info hm hf
        obtain ⟨hlo, hhi, last, hlast, hll, hall, hnext⟩ := net_end hwf hl hlen
        -- the network starts at the marker
        have hstart : netLo c = addrNum marker := by
          rcases Nat.lt_or_ge (netLo c) (addrNum marker) with hlt | hge
          · exfalso
            -- the row that covers the number before the marker
            obtain ⟨r, hrm, hrc⟩ : ∃ r ∈ acc, Covers r.cidr (addrNum marker - 1) := by
              have := ((tiles_covers ht).2 (addrNum marker - 1)).mpr (by omega)
              obtain ⟨n, hn', hcv⟩ := this
              obtain ⟨r, hr', rfl⟩ := List.mem_map.mp hn'
              exact ⟨r, hr', hcv⟩
            obtain ⟨hrwf, hrl, a, info', ha, hfa, _, hra⟩ := hacc r hrm
            have hrend : netEnd r.cidr ≤ addrNum marker := by
              have h1 := (tiles_covers ht).2 (netEnd r.cidr - 1)
              have hpos : netLo r.cidr < netEnd r.cidr := by
                unfold netLo netEnd; have := Nat.two_pow_pos (hostBits r.cidr); omega
              have := h1.mp ⟨r.cidr, List.mem_map_of_mem hrm, by unfold Covers; omega⟩
              omega
            have b1 := WFNet_bounds hwf
            have b2 := WFNet_bounds hrwf
            have hin : Covers c (addrNum a) := by
              unfold Covers at hrc hcov ⊢
              rw [← hra]
              have e1 : netEnd c = netLo c + 2 ^ hostBits c := rfl
              have e2 : netEnd r.cidr = netLo r.cidr + 2 ^ hostBits r.cidr := rfl
              have hp := Nat.two_pow_pos (hostBits r.cidr)
              rcases Nat.le_total (hostBits r.cidr) (hostBits c) with hle | hle
              · rcases laminar b2.1 b1.1 hle with h | h | h <;> omega
              · rcases laminar b1.1 b2.1 hle with h | h | h <;> omega
            obtain ⟨he, _⟩ := hc marker a c info _ _ hm ha hf hfa hin
            rw [he] at hrend
            unfold Covers at hcov
            omega
          · unfold Covers at hcov; omega
        rw [hlast] at h
        simp only [] at h
        have htile : ∀ (l : List IPNet) (lo : Nat), Tiles lo l (addrNum marker) → Tiles lo (l ++ [c]) (netEnd c) := by
          intro l
          induction l with
          | nil => intro lo h; simp only [Tiles] at h; exact ⟨by omega, rfl⟩
          | cons n l ih => intro lo h; exact ⟨h.1, ih _ h.2⟩
        have htile' : Tiles (famLo len) ((acc ++ [(⟨c, values⟩ : IpRaw)]).map (·.cidr)) (netEnd c) := by
          rw [List.map_append]; exact htile _ _ ht
        have hacc' : ∀ r ∈ acc ++ [(⟨c, values⟩ : IpRaw)], WFNet r.cidr ∧ r.cidr.ip.length = len ∧ FromFind len find row r := by
          intro r hr'
          rw [List.mem_append, List.mem_singleton] at hr'
          rcases hr' with h' | rfl
          · exact hacc r h'
          · exact ⟨hwf, hl, marker, info, hm, hf, hr, hstart⟩
        split at h
        · rename_i ha
          cases h
          rw [hall] at ha
          rw [← ha]
          exact ⟨htile', hacc'⟩
        · rename_i ha
          obtain ⟨h5, h6⟩ := hnext (by simpa using ha)
          have hpos : netLo c < netEnd c := by
            unfold netLo netEnd; have := Nat.two_pow_pos (hostBits c); omega
          rw [NextStart_ok hlast] at h
          exact ih _ _ _ h (InFam_marker hll hlen hlo (by omega) h5 h6) (by rw [h5]; exact htile') hacc'

theorem buildLoop_terminates {len : Nat} (hlen : len = 4 ∨ len = 16) {find : Find} {row : GoMap Str → Res (List Str)}
    (hn : ReturnsOwnNet len find) : ∀ (fuel : Nat) (marker : IP) (acc : List IpRaw),
    InFam len marker → famEnd len - addrNum marker ≤ fuel → ∃ r, buildLoop find row fuel marker acc = some r := by
  intro fuel
  induction fuel with
  | zero => intro marker acc hm hf; have := hm.2.2; omega
  | succ fuel ih =>
    intro marker acc hm hfuel
    unfold buildLoop
    cases hf : find marker with
    | err e => exact ⟨_, rfl⟩
    | panic => exact ⟨_, rfl⟩
    | ok p =>
      obtain ⟨c, info⟩ := p
      simp only []
      cases hr : row info with
      | err e => exact ⟨_, rfl⟩
      | panic => exact ⟨_, rfl⟩
      | ok values =>
        simp only []
        obtain ⟨hwf, hl, hcov⟩ := hn marker c info hm hf
        obtain ⟨hlo, hhi, last, hlast, hll, hall, hnext⟩ := net_end hwf hl hlen
        rw [hlast]
        simp only []
        split
        · exact ⟨_, rfl⟩
        · rename_i ha
          obtain ⟨h5, h6⟩ := hnext (by simpa using ha)
          unfold Covers at hcov
          rw [NextStart_ok hlast]
          exact ih _ _ (InFam_marker hll hlen hlo (by omega) h5 h6) (by omega)

/-- If every marker the loop reaches has a record, the loop does not fail. -/
theorem buildLoop_succeeds {len : Nat} (hlen : len = 4 ∨ len = 16) {find : Find} {row : GoMap Str → Res (List Str)}
    (hn : ReturnsOwnNet len find) {P : IP → Prop}
    (hP : ∀ a, P a → InFam len a ∧ ∃ c i v, find a = .ok (c, i) ∧ row i = .ok v)
    (hnext : ∀ a c i last, P a → find a = .ok (c, i) → LastIP c = .ok last → IsAllMask last = false → P (NextIP last)) :
    ∀ (fuel : Nat) (marker : IP) (acc : List IpRaw) (r : Res (List IpRaw)), P marker →
      buildLoop find row fuel marker acc = some r → ∃ out, r = .ok out := by
  intro fuel
  induction fuel with
  | zero => intro marker acc r _ h; simp [buildLoop] at h
  | succ fuel ih =>
    intro marker acc r hm h
    obtain ⟨hf, c, i, v, h1, h2⟩ := hP marker hm
    obtain ⟨hwf, hl, _⟩ := hn marker c i hf h1
    obtain ⟨_, _, last, hlast, _⟩ := net_end hwf hl hlen
    unfold buildLoop at h
    simp only [h1, h2, hlast, NextStart_ok hlast] at h
    split at h
    · cases h; exact ⟨_, rfl⟩
    · rename_i ha
      exact ih _ _ _ (hnext _ _ _ _ hm h1 hlast (by simpa using ha)) h

theorem buildLoop_mono {find : Find} {row : GoMap Str → Res (List Str)} : ∀ (fuel k : Nat) (marker : IP) (acc : List IpRaw)
    (r : Res (List IpRaw)), buildLoop find row fuel marker acc = some r → buildLoop find row (fuel + k) marker acc = some r := by
  intro fuel
  induction fuel with
  | zero => intro k marker acc r h; simp [buildLoop] at h
  | succ fuel ih =>
    intro k marker acc r h
    rw [Nat.add_right_comm]
    unfold buildLoop at h ⊢
    cases hf : find marker with
    | err e => rw [hf] at h; exact h
    | panic => rw [hf] at h; exact h
    | ok p =>
      obtain ⟨c, info⟩ := p
      rw [hf] at h
      simp only [] at h ⊢
      cases hr : row info with
      | err e => rw [hr] at h; exact h
      | panic => rw [hr] at h; exact h
      | ok values =>
        rw [hr] at h
        simp only [] at h ⊢
        cases hl : LastIP c with
        | err e => rw [hl] at h; exact h
        | panic => rw [hl] at h; exact h
        | ok last =>
          rw [hl] at h
          simp only [] at h ⊢
          split
          · rename_i ha; rw [if_pos ha] at h; exact h
          · rename_i ha
            rw [if_neg ha, NextStart_ok hl] at h
            rw [NextStart_ok hl]
            exact ih _ _ _ _ h

theorem dumpLen_cases (v : VersionInfo) : dumpLen v = 4 ∨ dumpLen v = 16 := by unfold dumpLen; split <;> simp

theorem firstMarker_spec (v : VersionInfo) : InFam (dumpLen v) (firstMarker v) ∧
    addrNum (firstMarker v) = famLo (dumpLen v) := by
  unfold firstMarker dumpLen
  split <;> decide +kernel

end Uip.Export
