import Verif.Proof.Dump
/-!
# Walking the IPv6 space with a lookup that treats `::ffff:0:0/96` as IPv4
-/
namespace Uip.Export
open Uip Uip.Spec

/-- A 16-byte address outside `::ffff:0:0/96`. -/
def Own6 (a : IP) : Prop := ValidIP a ∧ (To4 a).isSome = false

instance (a) : Decidable (Own6 a) := by unfold Own6; infer_instance

/-- The number of `::ffff:0:0`. -/
def mapped0 : Nat := 0xffff * 2 ^ 32

theorem Own6.num {a : IP} (h : Own6 a) : addrNum a / 2 ^ 32 ≠ 0xffff := by
  intro hh
  have := (To4_isSome_iff h.1).mpr hh
  rw [h.2] at this; cases this

theorem Own6.length {a : IP} (h : Own6 a) : a.length = 16 := by
  rcases h.1 with hl | hl
  · exact absurd (by rw [addrNum_4 hl]; have := val_lt a; rw [hl] at this; omega) h.num
  · exact hl

theorem own6_of {a : IP} (hl : a.length = 16) (h : addrNum a / 2 ^ 32 ≠ 0xffff) : Own6 a := by
  refine ⟨Or.inr hl, ?_⟩
  cases hh : (To4 a).isSome with
  | false => rfl
  | true => exact absurd ((To4_isSome_iff (Or.inr hl)).mp hh) h

/-- What the lookup does outside `::ffff:0:0/96`. -/
structure Finds6 (find : Find) : Prop where
  own : ∀ a c i, Own6 a → find a = .ok (c, i) → WFNet c ∧ c.ip.length = 16 ∧ Covers c (addrNum a)
  coh : ∀ a b c i, Own6 a → Own6 b → find a = .ok (c, i) → Covers c (addrNum b) → find b = .ok (c, i)

/-- No found network begins before and ends after the number. -/
def Boundary (find : Find) (x : Nat) : Prop :=
  ∀ a c i, Own6 a → find a = .ok (c, i) → ¬ (netLo c < x ∧ x < netEnd c)

/-- A row of the network found for its first address. -/
def Row6 (find : Find) (row : GoMap Str → Res (List Str)) (r : IpRaw) : Prop :=
  WFNet r.cidr ∧ r.cidr.ip.length = 16 ∧
    ∃ a info, Own6 a ∧ find a = .ok (r.cidr, info) ∧ row info = .ok r.values ∧ netLo r.cidr = addrNum a

theorem netLo_lt' (c : IPNet) : netLo c < netEnd c := by
  unfold netLo netEnd; have := Nat.two_pow_pos (hostBits c); omega

/-- Two well-formed networks are nested or apart. -/
theorem nested {c d : IPNet} (hc : WFNet c) (hd : WFNet d) :
    (netLo d ≤ netLo c ∧ netEnd c ≤ netEnd d) ∨ (netLo c ≤ netLo d ∧ netEnd d ≤ netEnd c) ∨
      netEnd c ≤ netLo d ∨ netEnd d ≤ netLo c := by
  have h1 := (WFNet_bounds hc).1
  have h2 := (WFNet_bounds hd).1
  have e1 : netEnd c = netLo c + 2 ^ hostBits c := rfl
  have e2 : netEnd d = netLo d + 2 ^ hostBits d := rfl
  rcases Nat.le_total (hostBits c) (hostBits d) with h | h
  · rcases laminar h1 h2 h with h | h | h <;> omega
  · rcases laminar h2 h1 h with h | h | h <;> omega

/-- A found network that covers one number of the mapped block covers all of it. -/
theorem Finds6.mapped {find : Find} (hf : Finds6 find) {a : IP} (ha : Own6 a) {c : IPNet} {i : GoMap Str}
    (h : find a = .ok (c, i)) {x : Nat} (hx : x / 2 ^ 32 = 0xffff) (hc : netLo c ≤ x ∧ x < netEnd c) :
    netLo c ≤ mapped0 ∧ mapped0 + 2 ^ 32 ≤ netEnd c := by
  obtain ⟨hw, hl, h1⟩ := hf.own a c i ha h
  have h2 := ha.num
  have hb := (WFNet_bounds hw).1
  have e : netEnd c = netLo c + 2 ^ hostBits c := rfl
  have hd : (2 : Nat) ^ 32 ∣ mapped0 := ⟨0xffff, by decide⟩
  unfold Covers at h1
  unfold mapped0 at hd ⊢
  rcases Nat.le_total (hostBits c) 32 with hle | hle
  · rcases laminar hb hd hle with h | h | h <;> omega
  · rcases laminar hd hb hle with h | h | h <;> omega

theorem Boundary.start {find : Find} (hf : Finds6 find) {m : IP} (hm : Own6 m) (hb : Boundary find (addrNum m))
    {c : IPNet} {i : GoMap Str} (h : find m = .ok (c, i)) : netLo c = addrNum m := by
  have h1 := (hf.own m c i hm h).2.2
  have h2 := hb m c i hm h
  unfold Covers at h1
  omega

theorem Boundary.next {find : Find} (hf : Finds6 find) {m : IP} (hm : Own6 m)
    {c : IPNet} {i : GoMap Str} (h : find m = .ok (c, i)) : Boundary find (netEnd c) := by
  intro b d j hb hd hh
  obtain ⟨hw, _, hcv⟩ := hf.own m c i hm h
  obtain ⟨hw', _, _⟩ := hf.own b d j hb hd
  have hlt := netLo_lt' c
  unfold Covers at hcv
  have : Covers d (addrNum m) := by
    unfold Covers
    rcases nested hw hw' with g | g | g | g <;> omega
  have := hf.coh b m d j hb hm hd this
  rw [h] at this
  have e := (Prod.mk.inj (Res.ok.inj this)).1
  rw [← e] at hh
  omega

theorem Boundary.zero (find : Find) : Boundary find 0 := by
  intro a c i _ _ h; omega

/-- Rows collected before are kept in front. -/
def addFront (acc : List IpRaw) (r : Res (List IpRaw)) : Res (List IpRaw) := r >>= fun l => .ok (acc ++ l)

theorem buildLoop_front {find : Find} {row : GoMap Str → Res (List Str)} : ∀ (fuel : Nat) (m : IP) (acc : List IpRaw),
    buildLoop find row fuel m acc = (buildLoop find row fuel m []).map (addFront acc) := by
  intro fuel
  induction fuel with
  | zero => intro m acc; rfl
  | succ fuel ih =>
    intro m acc
    unfold buildLoop
    cases hf : find m with
    | err e => rfl
    | panic => rfl
    | ok p =>
      obtain ⟨c, info⟩ := p
      simp only []
      cases hr : row info with
      | err e => rfl
      | panic => rfl
      | ok values =>
        simp only []
        cases hl : LastIP c with
        | err e => rfl
        | panic => rfl
        | ok last =>
          simp only []
          split
          · rfl
          · cases hns : NextStart c with
            | err e => rfl
            | panic => rfl
            | ok m' =>
              simp only []
              rw [ih m' (acc ++ [(⟨c, values⟩ : IpRaw)]), ih m' ([] ++ [(⟨c, values⟩ : IpRaw)]), Option.map_map]
              congr 1
              funext r
              unfold addFront
              cases r with
              | ok l => simp [Res.ok_bind]
              | err e => rfl
              | panic => rfl

theorem buildLoop_acc {find : Find} {row : GoMap Str → Res (List Str)} {fuel : Nat} {m : IP} {acc out : List IpRaw}
    (h : buildLoop find row fuel m acc = some (.ok out)) :
    ∃ rest, out = acc ++ rest ∧ buildLoop find row fuel m [] = some (.ok rest) := by
  rw [buildLoop_front] at h
  cases hb : buildLoop find row fuel m [] with
  | none => rw [hb] at h; cases h
  | some r =>
    rw [hb] at h
    simp only [Option.map_some, Option.some.injEq, addFront] at h
    obtain ⟨l, rfl, h⟩ := Res.bind_eq_ok.mp h
    injection h with h
    exact ⟨l, h.symm, rfl⟩

/-- One round of the walk. -/
theorem round {find : Find} {row : GoMap Str → Res (List Str)} {fuel : Nat} {m : IP} {out : List IpRaw}
    (h : buildLoop find row fuel m [] = some (.ok out)) {c : IPNet} {i : GoMap Str} (hf : find m = .ok (c, i))
    (hw : WFNet c) {len : Nat} (hl : c.ip.length = len) (hlen : len = 4 ∨ len = 16) :
    ∃ values fuel', row i = .ok values ∧ fuel = fuel' + 1 ∧
      ((netEnd c = famEnd len ∧ out = [⟨c, values⟩]) ∨
       ∃ m' rest, m'.length = len ∧ addrNum m' = netEnd c ∧ netEnd c < famEnd len ∧ out = ⟨c, values⟩ :: rest ∧
         buildLoop find row fuel' m' [] = some (.ok rest)) := by
  cases fuel with
  | zero => simp [buildLoop] at h
  | succ fuel =>
    unfold buildLoop at h
    rw [hf] at h
    simp only [] at h
    cases hr : row i with
    | err e => rw [hr] at h; simp at h
    | panic => rw [hr] at h; simp at h
    | ok values =>
      rw [hr] at h
      simp only [] at h
      obtain ⟨_, _, last, hlast, hll, hall, hnext⟩ := net_end hw hl hlen
      rw [hlast, NextStart_ok hlast] at h
      simp only [] at h
      refine ⟨values, fuel, rfl, rfl, ?_⟩
      split at h
      · rename_i ha
        simp only [Option.some.injEq, Res.ok.injEq, List.nil_append] at h
        exact Or.inl ⟨hall.mp ha, h.symm⟩
      · rename_i ha
        have hn := hnext (by simpa using ha)
        obtain ⟨rest, h1, h2⟩ := buildLoop_acc h
        exact Or.inr ⟨_, rest, by rw [NextIP_length, hll], hn.1, hn.2, by simpa using h1, h2⟩

theorem find_of_run {find : Find} {row : GoMap Str → Res (List Str)} {fuel : Nat} {m : IP} {out : List IpRaw}
    (h : buildLoop find row fuel m [] = some (.ok out)) : ∃ c i, find m = .ok (c, i) := by
  cases fuel with
  | zero => simp [buildLoop] at h
  | succ fuel =>
    unfold buildLoop at h
    cases hf : find m with
    | err e => rw [hf] at h; simp at h
    | panic => rw [hf] at h; simp at h
    | ok p => exact ⟨p.1, p.2, rfl⟩

/-- A walk that starts at a boundary outside the mapped block either reaches the end of the space, or arrives at
`::ffff:0:0` and goes on from there. -/
theorem run6 {find : Find} (hf : Finds6 find) {row : GoMap Str → Res (List Str)} : ∀ (fuel : Nat) (m : IP) (out : List IpRaw),
    buildLoop find row fuel m [] = some (.ok out) → Own6 m → Boundary find (addrNum m) →
    ((∀ r ∈ out, Row6 find row r) ∧ Tiles (addrNum m) (out.map (·.cidr)) (2 ^ 128)) ∨
    ∃ rows rest fuel', out = rows ++ rest ∧ rows ≠ [] ∧ (∀ r ∈ rows, Row6 find row r) ∧
      Tiles (addrNum m) (rows.map (·.cidr)) mapped0 ∧ fuel' < fuel ∧
      buildLoop find row fuel' IPv4zero [] = some (.ok rest) := by
  intro fuel
  induction fuel with
  | zero => intro m out h; simp [buildLoop] at h
  | succ fuel ih =>
    intro m out h hm hb
    obtain ⟨c, i, hfm⟩ := find_of_run h
    obtain ⟨hw, hl, hcv⟩ := hf.own m c i hm hfm
    have hst := hb.start hf hm hfm
    obtain ⟨values, fuel', hr, he, hcase⟩ := round h hfm hw hl (Or.inr rfl)
    obtain rfl : fuel' = fuel := by omega
    have hrow : Row6 find row ⟨c, values⟩ := ⟨hw, hl, m, i, hm, hfm, hr, hst⟩
    rcases hcase with ⟨h1, rfl⟩ | ⟨m', rest, hl', hn', hlt, rfl, hrun⟩
    · left
      refine ⟨by simpa using hrow, ?_⟩
      simp only [List.map_cons, List.map_nil, Tiles]
      refine ⟨hst, ?_⟩
      rw [h1]; rfl
    · by_cases hmap : addrNum m' / 2 ^ 32 = 0xffff
      · right
        have : addrNum m' = mapped0 := by
          have hlt' := netLo_lt' c
          by_cases hx : netEnd c = mapped0
          · omega
          · have := hf.mapped hm hfm (x := addrNum m' - 1) (by unfold mapped0 at hx; omega) (by omega)
            unfold mapped0 at this ⊢
            omega
        have e : m' = IPv4zero := addrNum_inj (by rw [hl']; rfl) (by rw [this]; decide +kernel)
        refine ⟨[⟨c, values⟩], rest, fuel', rfl, by simp, by simpa using hrow, ?_, by omega, by rw [← e]; exact hrun⟩
        simp only [List.map_cons, List.map_nil, Tiles]
        exact ⟨hst, by omega⟩
      · have hm' := own6_of hl' hmap
        have hb' : Boundary find (addrNum m') := by rw [hn']; exact Boundary.next hf hm hfm
        rcases ih m' rest hrun hm' hb' with ⟨g1, g2⟩ | ⟨rows, rest', f', rfl, _, g1, g2, g3, g4⟩
        · left
          refine ⟨?_, ?_⟩
          · intro r hr'
            rcases List.mem_cons.mp hr' with rfl | hr'
            · exact hrow
            · exact g1 r hr'
          · simp only [List.map_cons, Tiles]
            exact ⟨hst, by rw [← hn']; exact g2⟩
        · right
          refine ⟨⟨c, values⟩ :: rows, rest', f', rfl, by simp, ?_, ?_, by omega, g4⟩
          · intro r hr'
            rcases List.mem_cons.mp hr' with rfl | hr'
            · exact hrow
            · exact g1 r hr'
          · simp only [List.map_cons, Tiles]
            exact ⟨hst, by rw [← hn']; exact g2⟩

end Uip.Export
