import Verif.Proof.Merge
import Verif.Proof.Pipeline
import Verif.Props.Dump
import Verif.Props.AwdbFile
/-!
# C91: merged tables are as small as possible, and canonical

For a table whose rows ascend, the rows of MergeNearNetwork are the shortest list of networks
that gives every address its record, and they depend only on the records of the addresses.
-/
namespace Uip.Operate
open Uip Uip.Spec

/-- The rows ascend: every network ends before the next ones begin. -/
def Ascending (rows : List IpRaw) : Prop := rows.Pairwise fun a b => netEnd a.cidr ≤ netLo b.cidr

instance (rows) : Decidable (Ascending rows) := by unfold Ascending; infer_instance

/-- A run of addresses with one record: first address, last address, record. -/
abbrev Run := Nat × Nat × List Str

/-- Proper runs, ascending, none continuing the one before it. -/
def MaxRuns : List Run → Prop
  | [] => True
  | [a] => a.1 ≤ a.2.1
  | a :: b :: l => a.1 ≤ a.2.1 ∧ a.2.1 < b.1 ∧ (a.2.1 + 1 = b.1 → a.2.2 ≠ b.2.2) ∧ MaxRuns (b :: l)

/-- Record of an address among runs. -/
def runAt (rs : List Run) (x : Nat) : Option (List Str) := (rs.find? fun r => decide (r.1 ≤ x ∧ x ≤ r.2.1)).map (·.2.2)

theorem runAt_cons (a : Run) (l : List Run) (x : Nat) :
    runAt (a :: l) x = if a.1 ≤ x ∧ x ≤ a.2.1 then some a.2.2 else runAt l x := by
  unfold runAt
  rw [List.find?_cons]
  by_cases h : a.1 ≤ x ∧ x ≤ a.2.1 <;> simp [h]

theorem MaxRuns.tail {a : Run} {l : List Run} (h : MaxRuns (a :: l)) : MaxRuns l := by
  cases l with
  | nil => trivial
  | cons b l => exact h.2.2.2

theorem MaxRuns.le {a : Run} {l : List Run} (h : MaxRuns (a :: l)) : a.1 ≤ a.2.1 := by
  cases l with
  | nil => exact h
  | cons b l => exact h.1

/-- Later runs begin after an earlier one ends. -/
theorem MaxRuns.after {a : Run} {l : List Run} (h : MaxRuns (a :: l)) : ∀ b ∈ l, a.2.1 < b.1 := by
  induction l generalizing a with
  | nil => simp
  | cons c l ih =>
    intro b hb
    obtain ⟨_, h2, _, h4⟩ := h
    rcases List.mem_cons.mp hb with rfl | hb
    · exact h2
    · have := ih h4 b hb
      have := h4.le
      omega

theorem runAt_mem {l : List Run} {x : Nat} {v : List Str} (h : runAt l x = some v) : ∃ r ∈ l, r.1 ≤ x ∧ x ≤ r.2.1 ∧ r.2.2 = v := by
  unfold runAt at h
  cases hf : l.find? (fun r => decide (r.1 ≤ x ∧ x ≤ r.2.1)) with
  | none => rw [hf] at h; cases h
  | some r =>
    rw [hf] at h
    injection h with h
    have := List.find?_some hf
    simp only [decide_eq_true_eq] at this
    exact ⟨r, List.mem_of_find?_eq_some hf, this.1, this.2, h⟩

theorem runAt_of_mem {l : List Run} (hm : MaxRuns l) {r : Run} (hr : r ∈ l) {x : Nat} (h1 : r.1 ≤ x) (h2 : x ≤ r.2.1) :
    runAt l x = some r.2.2 := by
  induction l with
  | nil => cases hr
  | cons a l ih =>
    rw [runAt_cons]
    rcases List.mem_cons.mp hr with rfl | hr
    · rw [if_pos ⟨h1, h2⟩]
    · have := hm.after r hr
      rw [if_neg (by omega)]
      exact ih hm.tail hr

theorem runAt_before {a : Run} {l : List Run} (h : MaxRuns (a :: l)) {x : Nat} (hx : x ≤ a.2.1) : runAt l x = none := by
  cases e : runAt l x with
  | none => rfl
  | some v =>
    obtain ⟨r, hr, h1, _⟩ := runAt_mem e
    have := h.after r hr
    omega

/-- The address after a run does not have its record. -/
theorem runAt_next {l : List Run} (hm : MaxRuns l) {r : Run} (hr : r ∈ l) : runAt l (r.2.1 + 1) ≠ some r.2.2 := by
  induction l with
  | nil => cases hr
  | cons a l ih =>
    rcases List.mem_cons.mp hr with rfl | hr'
    · intro h
      rw [runAt_cons, if_neg (by omega)] at h
      obtain ⟨c, hc, h1, h2, h3⟩ := runAt_mem h
      cases l with
      | nil => cases hc
      | cons b l =>
        obtain ⟨_, k2, k3, k4⟩ := hm
        rcases List.mem_cons.mp hc with rfl | hc
        · exact k3 (by omega) h3.symm
        · have := k4.after c hc
          have := k4.le
          omega
    · have := hm.after r hr'
      have hle : r.1 ≤ r.2.1 := by
        clear ih this
        have hm' := hm.tail
        clear hm hr
        induction l with
        | nil => cases hr'
        | cons c l ih =>
          rcases List.mem_cons.mp hr' with rfl | h
          · exact hm'.le
          · exact ih h hm'.tail
      rw [runAt_cons, if_neg (by omega)]
      exact ih hm.tail hr'

/-- Maximal runs are determined by the records of the addresses. -/
theorem runs_unique : ∀ {l1 l2 : List Run}, MaxRuns l1 → MaxRuns l2 → (∀ x, runAt l1 x = runAt l2 x) → l1 = l2
  | [], [], _, _, _ => rfl
  | [], b :: l2, _, h2, h => by
    have := h b.1
    rw [runAt_cons, if_pos ⟨Nat.le_refl _, h2.le⟩] at this
    cases this
  | a :: l1, [], h1, _, h => by
    have := h a.1
    rw [runAt_cons, if_pos ⟨Nat.le_refl _, h1.le⟩] at this
    cases this
  | a :: l1, b :: l2, h1, h2, h => by
    have first : ∀ {a b : Run} {l1 l2 : List Run}, MaxRuns (a :: l1) → MaxRuns (b :: l2) →
        (∀ x, runAt (a :: l1) x = runAt (b :: l2) x) → b.1 ≤ a.1 := by
      intro a b l1 l2 h1 h2 h
      have e := h a.1
      rw [runAt_cons, if_pos ⟨Nat.le_refl _, h1.le⟩] at e
      obtain ⟨r, hr, k1, _⟩ := runAt_mem e.symm
      rcases List.mem_cons.mp hr with rfl | hr
      · exact k1
      · have := h2.after r hr; have := h2.le; omega
    have hs : a.1 = b.1 := Nat.le_antisymm (first h2 h1 fun x => (h x).symm) (first h1 h2 h)
    have hv : a.2.2 = b.2.2 := by
      have e := h a.1
      rw [runAt_cons, if_pos ⟨Nat.le_refl _, h1.le⟩, runAt_cons, if_pos ⟨by omega, by rw [hs]; exact h2.le⟩] at e
      exact Option.some.inj e
    have last : ∀ {a b : Run} {l1 l2 : List Run}, MaxRuns (a :: l1) → MaxRuns (b :: l2) → a.1 = b.1 → a.2.2 = b.2.2 →
        (∀ x, runAt (a :: l1) x = runAt (b :: l2) x) → b.2.1 ≤ a.2.1 := by
      intro a b l1 l2 h1 h2 hs hv h
      rcases Nat.lt_or_ge a.2.1 b.2.1 with hlt | hge
      · have := h1.le
        refine absurd ?_ (runAt_next h1 (r := a) (by simp))
        rw [h, hv]
        exact runAt_of_mem h2 (by simp) (by omega) (by omega)
      · exact hge
    have he : a.2.1 = b.2.1 := Nat.le_antisymm (last h2 h1 hs.symm hv.symm fun x => (h x).symm) (last h1 h2 hs hv h)
    have hab : a = b := by
      rcases a with ⟨a1, a2, a3⟩; rcases b with ⟨b1, b2, b3⟩
      simp only at hs he hv
      rw [hs, he, hv]
    have ht : l1 = l2 := runs_unique h1.tail h2.tail fun x => by
      have e := h x
      rw [runAt_cons, runAt_cons, ← hab] at e
      by_cases hx : a.1 ≤ x ∧ x ≤ a.2.1
      · rw [runAt_before h1 hx.2, runAt_before h2 (by rw [← he]; exact hx.2)]
      · rw [if_neg hx, if_neg hx] at e; exact e
    rw [hab, ht]

/-! ## The ranges MergeNearNetwork forms -/

/-- The run a merged range stands for. -/
def toRun (h : Heap) (g : Range × Slice) : Run := (addrNum g.1.start, addrNum g.1.end_, h.read g.2)

theorem mergeLoop_asc (h : Heap) (ips : List HRow) : ∀ (prev : Range × Slice), R16 prev.1 →
    (∀ r ∈ ips, WFNet r.cidr) → (∀ r ∈ ips, addrNum prev.1.end_ < netLo r.cidr) →
    ips.Pairwise (fun a b => netEnd a.cidr ≤ netLo b.cidr) → ∀ gs, mergeLoop h prev ips = .ok gs →
    gs.Pairwise fun a b => addrNum a.1.end_ < addrNum b.1.start := by
  induction ips with
  | nil =>
    intro prev _ _ _ _ gs e
    injection e with e; subst e; simp
  | cons ip ips ih =>
    intro prev hp hwf hafter hpw gs e
    have hip := hwf ip (by simp)
    have hwf' : ∀ r ∈ ips, WFNet r.cidr := fun r hr => hwf r (by simp [hr])
    obtain ⟨hpw1, hpw2⟩ := List.pairwise_cons.mp hpw
    have opened : ∀ gs, (do
        let nr ← NewRange ip.cidr
        let rest ← mergeLoop h (nr, ip.vals) ips
        return prev :: rest : Res _) = .ok gs →
        gs.Pairwise fun a b => addrNum a.1.end_ < addrNum b.1.start := by
      intro gs e
      obtain ⟨nr, hnr, h16, hs, he⟩ := newRange_spec hip
      obtain ⟨g0, rest, e2, hr16, _, hg0s, _⟩ := mergeLoop_spec h ips (nr, ip.vals) h16 hwf'
      simp only [hnr, Res.ok_bind, e2, Res.pure_eq] at e
      injection e with e; subst e
      have hasc := ih (nr, ip.vals) h16 hwf' (fun r hr => by have := hpw1 r hr; show addrNum nr.end_ < _; omega) hpw2 _ e2
      refine List.pairwise_cons.mpr ⟨fun g hg => ?_, hasc⟩
      have h0 := hafter ip (by simp)
      rw [← hs] at h0
      rcases List.mem_cons.mp hg with rfl | hg
      · rw [hg0s]; exact h0
      · have h1 := (List.pairwise_cons.mp hasc).1 g hg
        have h2 := (hr16 g0 (by simp)).2.2
        rw [hg0s] at h2
        exact Nat.lt_trans h0 (Nat.lt_of_le_of_lt h2 h1)
    unfold mergeLoop at e
    by_cases hv : h.read prev.2 = h.read ip.vals
    · rw [if_pos hv] at e
      rcases join_spec hp hip with ⟨hj, r', e1, h16, hs, hmax, hu⟩ | ⟨hnj, e1⟩
      · simp only [e1, Res.ok_bind, if_true] at e
        refine ih (r', prev.2) h16 hwf' (fun r hr => ?_) hpw2 gs e
        have h1 := hpw1 r hr
        have h2 := hafter r (by simp [hr])
        show addrNum r'.end_ < _
        omega
      · simp only [e1, Res.ok_bind, Bool.false_eq_true, if_false] at e
        exact opened gs e
    · rw [if_neg hv] at e
      exact opened gs e

theorem maxRuns_of {h : Heap} : ∀ {gs : List (Range × Slice)}, (∀ g ∈ gs, R16 g.1) → Chain2 (Sep h) gs →
    gs.Pairwise (fun a b => addrNum a.1.end_ < addrNum b.1.start) → MaxRuns (gs.map (toRun h))
  | [], _, _, _ => trivial
  | [g], hg, _, _ => (hg g (by simp)).2.2
  | g :: g1 :: gs, hg, hc, hp => by
    obtain ⟨hsep, hc⟩ := hc
    obtain ⟨hp1, hp2⟩ := List.pairwise_cons.mp hp
    have h1 := hp1 g1 (by simp)
    have h16 := hg g (by simp)
    have h161 := hg g1 (by simp)
    refine ⟨h16.2.2, h1, fun hadj hval => ?_, maxRuns_of (fun x hx => hg x (by simp at hx ⊢; right; exact hx)) hc hp2⟩
    rcases hsep with hne | hnj
    · exact hne hval
    · refine hnj ⟨Nat.le_trans h16.2.2 (Nat.le_of_lt h1), ?_⟩
      have hlt : addrNum g.1.end_ + 1 < 2 ^ 128 := by
        show toRun h g |>.2.1 + 1 < 2 ^ 128
        rw [hadj]
        show addrNum g1.1.start < 2 ^ 128
        exact addrNum_lt (.inr h161.1)
      have hnt : NotTop g.1.end_ := by
        unfold NotTop
        rw [h16.2.1]
        rw [addrNum_16 h16.2.1] at hlt
        exact hlt
      rw [wrapSucc_notTop hnt]
      exact Nat.le_of_eq hadj.symm

/-- The rows of the ranges. -/
def blocksOf (g : Range × Slice) : List IPNet := match g.1.IPNets with
  | some (.ok l) => l
  | _ => []

theorem splitRanges_flat : ∀ {gs : List (Range × Slice)}, (∀ g ∈ gs, R16 g.1) →
    splitRanges gs = .ok (gs.flatMap fun g => (blocksOf g).map fun n => ⟨n, g.2⟩)
  | [], _ => rfl
  | g :: gs, hg => by
    obtain ⟨blocks, e1, _, _⟩ := ipNets_blocks (hg g (by simp))
    unfold splitRanges
    rw [e1]
    have ih := splitRanges_flat (gs := gs) fun x hx => hg x (by simp [hx])
    simp only [ih, Res.ok_bind, Res.pure_eq, List.flatMap_cons]
    rw [show blocksOf g = blocks from by unfold blocksOf; rw [e1]]

/-- What MergeNearNetwork does to ascending rows. -/
theorem merge_runs {d d' : HData} (hw : ∀ r ∈ d.rows, WFNet r.cidr) (ha : Ascending d.view.ips) (e : MergeNearNetwork d = .ok d') :
    ∃ gs : List (Range × Slice), (∀ g ∈ gs, R16 g.1) ∧ MaxRuns (gs.map (toRun d.heap)) ∧ d'.heap = d.heap ∧
      d'.rows = (gs.flatMap fun g => (blocksOf g).map fun n => ⟨n, g.2⟩) ∧
      (∀ x, firstMatch d.view.ips x = runAt (gs.map (toRun d.heap)) x) := by
  have hrows : d.rows ≠ [] := by
    intro h
    unfold MergeNearNetwork at e; rw [h] at e; cases e
  cases hr : d.rows with
  | nil => exact absurd hr hrows
  | cons r rs =>
    have ha' : (r :: rs).Pairwise fun a b => netEnd a.cidr ≤ netLo b.cidr := by
      have : (d.rows.map d.rowView).Pairwise fun a b => netEnd a.cidr ≤ netLo b.cidr := ha
      rw [List.pairwise_map, hr] at this
      exact this
    rw [hr] at hw
    obtain ⟨nr, hnr, h16, hs, he⟩ := newRange_spec (hw r (by simp))
    have hw' : ∀ x ∈ rs, WFNet x.cidr := fun x hx => hw x (by simp [hx])
    obtain ⟨g0, rest, e2, k1, _, _, k4, _, k6, _⟩ := mergeLoop_spec d.heap rs (nr, r.vals) h16 hw'
    have hasc := mergeLoop_asc d.heap rs (nr, r.vals) h16 hw'
      (fun x hx => by have := (List.pairwise_cons.mp ha').1 x hx; show addrNum nr.end_ < _; omega)
      (List.pairwise_cons.mp ha').2 _ e2
    unfold MergeNearNetwork at e
    rw [hr] at e
    simp only [hnr, Res.ok_bind, e2, splitRanges_flat k1, Res.pure_eq] at e
    injection e with e; subst e
    refine ⟨g0 :: rest, k1, maxRuns_of k1 k4 hasc, rfl, rfl, fun x => ?_⟩
    have hg : ∀ gs : List (Range × Slice), gFirst d.heap gs x = runAt (gs.map (toRun d.heap)) x := by
      intro gs
      induction gs with
      | nil => rfl
      | cons g gs ih =>
        rw [gFirst_cons, List.map_cons, runAt_cons, ih]
        rfl
    rw [← hg, k6]
    have hview : d.view.ips = ⟨r.cidr, d.heap.read r.vals⟩ :: rowsView d.heap rs := by
      show d.rows.map d.rowView = _; rw [hr]; rfl
    rw [hview, firstMatch_cons]
    simp only [between_newRange hs he]

/-- Networks inside disjoint ranges that cover them are at least as many as the blocks of the ranges. -/
theorem blocks_le : ∀ (gs : List (Range × Slice)), (∀ g ∈ gs, R16 g.1) →
    gs.Pairwise (fun a b => ∀ x, ¬ (Between a.1.start a.1.end_ x ∧ Between b.1.start b.1.end_ x)) →
    ∀ L : List IPNet, (∀ n ∈ L, WFNet n) → (∀ n ∈ L, ∃ g ∈ gs, ∀ x, Covers n x → Between g.1.start g.1.end_ x) →
    (∀ g ∈ gs, ∀ x, Between g.1.start g.1.end_ x → ∃ n ∈ L, Covers n x) →
    (gs.map fun g => (blocksOf g).length).sum ≤ L.length
  | [], _, _, L, _, _, _ => Nat.zero_le _
  | g :: gs, hg, hd, L, hwf, hin, hcov => by
    classical
    obtain ⟨hd1, hd2⟩ := List.pairwise_cons.mp hd
    let p : IPNet → Bool := fun n => decide (∀ x, Covers n x → Between g.1.start g.1.end_ x)
    have hsplit : L.length = (L.filter p).length + (L.filter fun n => !p n).length := by
      rw [← List.length_append]
      exact (List.filter_append_perm p L).length_eq.symm
    have h16 := hg g (by simp)
    have h1 : (blocksOf g).length ≤ (L.filter p).length := by
      have hex : ∀ x, (∃ n ∈ L.filter p, Covers n x) ↔ Between g.1.start g.1.end_ x := by
        intro x
        constructor
        · rintro ⟨n, hn, hx⟩
          have := (List.mem_filter.mp hn).2
          simp only [p, decide_eq_true_eq] at this
          exact this x hx
        · intro hx
          obtain ⟨n, hn, hnx⟩ := hcov g (by simp) x hx
          obtain ⟨g', hg', hsub⟩ := hin n hn
          rcases List.mem_cons.mp hg' with rfl | hg'
          · exact ⟨n, List.mem_filter.mpr ⟨hn, by simp only [p, decide_eq_true_eq]; exact hsub⟩, hnx⟩
          · exact absurd ⟨hx, hsub x hnx⟩ (hd1 g' hg' x)
      obtain ⟨blocks, e, hle⟩ := C09_ipNets_minimal g.1 (.inr h16.1) (.inr h16.2.1) h16.2.2 (L.filter p)
        (fun n hn => hwf n (List.mem_filter.mp hn).1) hex
      rw [show blocksOf g = blocks from by unfold blocksOf; rw [e]]; exact hle
    have h2 : (gs.map fun g => (blocksOf g).length).sum ≤ (L.filter fun n => !p n).length := by
      refine blocks_le gs (fun x hx => hg x (by simp [hx])) hd2 _ (fun n hn => hwf n (List.mem_filter.mp hn).1) (fun n hn => ?_)
        (fun g' hg' x hx => ?_)
      · obtain ⟨hnL, hnp⟩ := List.mem_filter.mp hn
        obtain ⟨g', hg', hsub⟩ := hin n hnL
        rcases List.mem_cons.mp hg' with rfl | hg'
        · simp only [p, Bool.not_eq_true', decide_eq_false_iff_not] at hnp
          exact absurd hsub hnp
        · exact ⟨g', hg', hsub⟩
      · obtain ⟨n, hn, hnx⟩ := hcov g' (by simp [hg']) x hx
        refine ⟨n, List.mem_filter.mpr ⟨hn, ?_⟩, hnx⟩
        simp only [p, Bool.not_eq_true', decide_eq_false_iff_not]
        exact fun h => hd1 g' hg' x ⟨h x hnx, hx⟩
    rw [List.map_cons, List.sum_cons, hsplit]
    omega

/-- **C91.** No list of networks that gives every address of the table its record (and no other address any) is shorter
than the merged table. -/
theorem C91_minimal (d d' : HData) (hw : ∀ r ∈ d.rows, WFNet r.cidr) (ha : Ascending d.view.ips) (e : MergeNearNetwork d = .ok d')
    (L : List IpRaw) (hwf : ∀ r ∈ L, WFNet r.cidr)
    (hright : ∀ r ∈ L, ∀ x, Covers r.cidr x → firstMatch d.view.ips x = some r.values)
    (hall : ∀ r ∈ d.view.ips, ∀ x, Covers r.cidr x → ∃ s ∈ L, Covers s.cidr x) :
    d'.rows.length ≤ L.length := by
  obtain ⟨gs, h16, hmax, _, hrows, hrec⟩ := merge_runs hw ha e
  have hlen : d'.rows.length = (gs.map fun g => (blocksOf g).length).sum := by
    rw [hrows, List.length_flatMap]
    congr 1
    apply List.map_congr_left
    intro g _
    rw [List.length_map]
  have hdis : gs.Pairwise fun a b => ∀ x, ¬ (Between a.1.start a.1.end_ x ∧ Between b.1.start b.1.end_ x) := by
    have : ∀ gs : List (Range × Slice), MaxRuns (gs.map (toRun d.heap)) →
        gs.Pairwise fun a b => ∀ x, ¬ (Between a.1.start a.1.end_ x ∧ Between b.1.start b.1.end_ x) := by
      intro gs
      induction gs with
      | nil => intro _; simp
      | cons g gs ih =>
        intro hm
        refine List.pairwise_cons.mpr ⟨fun g' hg' x hx => ?_, ih hm.tail⟩
        have h1 : addrNum g.1.end_ < addrNum g'.1.start := hm.after (toRun d.heap g') (List.mem_map.mpr ⟨g', hg', rfl⟩)
        unfold Between at hx
        omega
    exact this gs hmax
  have hL := blocks_le gs h16 hdis (L.map (·.cidr))
    (fun n hn => by obtain ⟨r, hr, rfl⟩ := List.mem_map.mp hn; exact hwf r hr)
    (fun n hn => by
      obtain ⟨r, hr, rfl⟩ := List.mem_map.mp hn
      have hlt := netLo_lt (n := r.cidr)
      have h0 := hright r hr (netLo r.cidr) ⟨Nat.le_refl _, hlt⟩
      rw [hrec] at h0
      obtain ⟨t, ht, t1, t2, t3⟩ := runAt_mem h0
      obtain ⟨g, hg, rfl⟩ := List.mem_map.mp ht
      refine ⟨g, hg, fun x hx => ⟨Nat.le_trans t1 hx.1, ?_⟩⟩
      rcases Nat.lt_or_ge (addrNum g.1.end_) x with hlt' | hge
      · have h1 := hright r hr (addrNum g.1.end_ + 1) (by
          have := hx.2
          have t2' : netLo r.cidr ≤ addrNum g.1.end_ := t2
          exact ⟨by omega, by omega⟩)
        rw [hrec, ← t3] at h1
        exact absurd h1 (runAt_next hmax ht)
      · exact hge)
    (fun g hg x hx => by
      have h0 := runAt_of_mem hmax (List.mem_map.mpr ⟨g, hg, rfl⟩ : toRun d.heap g ∈ _) hx.1 hx.2
      rw [← hrec] at h0
      obtain ⟨r, hr, hc, _⟩ := Program.firstMatch_some h0
      obtain ⟨s, hs, hsx⟩ := hall r hr x hc
      exact ⟨s.cidr, List.mem_map.mpr ⟨s, hs, rfl⟩, hsx⟩)
  rw [hlen]
  rw [List.length_map] at hL
  exact hL

/-- **C91 (tables).** No table of disjoint networks with the same records is shorter. -/
theorem C91_minimal_table (d d' : HData) (hw : ∀ r ∈ d.rows, WFNet r.cidr) (ha : Ascending d.view.ips) (e : MergeNearNetwork d = .ok d')
    (L : List IpRaw) (hwf : ∀ r ∈ L, WFNet r.cidr) (hdis : L.Pairwise fun a b => ¬ Overlap a.cidr b.cidr)
    (hsame : ∀ x, firstMatch L x = firstMatch d.view.ips x) : d'.rows.length ≤ L.length := by
  refine C91_minimal d d' hw ha e L hwf (fun r hr x hx => ?_) (fun r hr x hx => ?_)
  · rw [← hsame]; exact Program.firstMatch_of_disjoint hdis hr hx
  · have h0 : ∃ v, firstMatch d.view.ips x = some v := by
      have : ∀ l : List IpRaw, r ∈ l → ∃ v, firstMatch l x = some v := by
        intro l
        induction l with
        | nil => intro h; cases h
        | cons a l ih =>
          intro h
          rw [firstMatch_cons]
          by_cases ha : Covers a.cidr x
          · rw [if_pos ha]; exact ⟨_, rfl⟩
          · rw [if_neg ha]
            rcases List.mem_cons.mp h with rfl | h
            · exact absurd hx ha
            · exact ih h
      exact this _ hr
    obtain ⟨v, hv⟩ := h0
    rw [← hsame] at hv
    obtain ⟨s, hs, hsx, _⟩ := Program.firstMatch_some hv
    exact ⟨s, hs, hsx⟩

/-- **C91 (canonical).** Two ascending tables that give every address the same record merge to the same rows. -/
theorem C91_canonical (d1 d2 d1' d2' : HData) (hw1 : ∀ r ∈ d1.rows, WFNet r.cidr) (hw2 : ∀ r ∈ d2.rows, WFNet r.cidr)
    (ha1 : Ascending d1.view.ips) (ha2 : Ascending d2.view.ips) (e1 : MergeNearNetwork d1 = .ok d1') (e2 : MergeNearNetwork d2 = .ok d2')
    (hsame : ∀ x, firstMatch d1.view.ips x = firstMatch d2.view.ips x) : d1'.view.ips = d2'.view.ips := by
  obtain ⟨gs1, p1, m1, q1, r1, s1⟩ := merge_runs hw1 ha1 e1
  obtain ⟨gs2, p2, m2, q2, r2, s2⟩ := merge_runs hw2 ha2 e2
  have hruns := runs_unique m1 m2 fun x => by rw [← s1, ← s2, hsame]
  have hview : ∀ (d' d : HData) (gs : List (Range × Slice)), d'.heap = d.heap →
      d'.rows = (gs.flatMap fun g => (blocksOf g).map fun n => ⟨n, g.2⟩) →
      d'.view.ips = gs.flatMap fun g => (blocksOf g).map fun n => (⟨n, (toRun d.heap g).2.2⟩ : IpRaw) := by
    intro d' d gs hh hr
    show d'.rows.map d'.rowView = _
    rw [hr, List.map_flatMap]
    congr 1
    funext g
    rw [List.map_map]
    apply List.map_congr_left
    intro n _
    show IpRaw.mk n (d'.heap.read g.2) = _
    rw [hh]; rfl
  rw [hview d1' d1 gs1 q1 r1, hview d2' d2 gs2 q2 r2]
  clear hview r1 r2 s1 s2 m1 m2 hsame
  induction gs1 generalizing gs2 with
  | nil =>
    cases gs2 with
    | nil => rfl
    | cons g gs => cases hruns
  | cons g1 gs1 ih =>
    cases gs2 with
    | nil => cases hruns
    | cons g2 gs2 =>
      rw [List.map_cons, List.map_cons] at hruns
      injection hruns with h1 h2
      rw [List.flatMap_cons, List.flatMap_cons, ih (fun g hg => p1 g (by simp [hg])) gs2 (fun g hg => p2 g (by simp [hg])) h2, h1]
      have hr : g1.1 = g2.1 := range_ext (p1 g1 (by simp)) (p2 g2 (by simp)) (congrArg (·.1) h1) (congrArg (·.2.1) h1)
      have hb : blocksOf g1 = blocksOf g2 := by unfold blocksOf; rw [hr]
      rw [hb]

/-- **C91 (nothing is split).** Every network of the table lies inside one network of the merged table. -/
theorem C91_inside (d d' : HData) (hw : ∀ r ∈ d.rows, WFNet r.cidr) (ha : Ascending d.view.ips) (e : MergeNearNetwork d = .ok d') :
    ∀ r ∈ d.view.ips, ∃ r' ∈ d'.view.ips, netLo r'.cidr ≤ netLo r.cidr ∧ netEnd r.cidr ≤ netEnd r'.cidr ∧ r'.values = r.values := by
  intro r hr
  obtain ⟨gs, h16, hmax, hheap, hrows, hrec⟩ := merge_runs hw ha e
  have hdis : d.view.ips.Pairwise fun a b => ¬ Overlap a.cidr b.cidr := by
    refine List.Pairwise.imp (fun {a b} h => ?_) ha
    rintro ⟨_, h2⟩
    omega
  have hright : ∀ x, Covers r.cidr x → firstMatch d.view.ips x = some r.values := fun x hx =>
    Program.firstMatch_of_disjoint hdis hr hx
  have hwf : WFNet r.cidr := by
    obtain ⟨r0, h0, rfl⟩ := List.mem_map.mp hr
    exact hw r0 h0
  have hlt := netLo_lt (n := r.cidr)
  have h0 := hright (netLo r.cidr) ⟨Nat.le_refl _, hlt⟩
  rw [hrec] at h0
  obtain ⟨t, ht, t1, t2, t3⟩ := runAt_mem h0
  obtain ⟨g, hg, rfl⟩ := List.mem_map.mp ht
  have hend : netEnd r.cidr ≤ addrNum g.1.end_ + 1 := by
    rcases Nat.lt_or_ge (addrNum g.1.end_ + 1) (netEnd r.cidr) with hlt' | hge
    · have h1 := hright (addrNum g.1.end_ + 1) ⟨by
        have t2' : netLo r.cidr ≤ addrNum g.1.end_ := t2
        omega, hlt'⟩
      rw [hrec, ← t3] at h1
      exact absurd h1 (runAt_next hmax ht)
    · exact hge
  obtain ⟨l, hl, n, hn, hsub⟩ := C09_ipNets_largest g.1 (.inr (h16 g hg).1) (.inr (h16 g hg).2.1) (h16 g hg).2.2 r.cidr hwf
    (fun x hx => ⟨Nat.le_trans t1 hx.1, by have := hx.2; omega⟩)
  have n1 := (hsub (netLo r.cidr) ⟨Nat.le_refl _, hlt⟩).1
  have n2 : netEnd r.cidr ≤ netEnd n := by
    have := (hsub (netEnd r.cidr - 1) ⟨by omega, by omega⟩).2
    omega
  refine ⟨d'.rowView ⟨n, g.2⟩, List.mem_map.mpr ⟨⟨n, g.2⟩, ?_, rfl⟩, n1, n2, ?_⟩
  · rw [hrows]
    refine List.mem_flatMap.mpr ⟨g, hg, List.mem_map.mpr ⟨n, ?_, rfl⟩⟩
    rw [show blocksOf g = l from by unfold blocksOf; rw [hl]]
    exact hn
  · show d'.heap.read g.2 = _
    rw [hheap]; exact t3

/-! ## Dumps -/

theorem tiles_ascending : ∀ {l : List IpRaw} {lo hi : Nat}, Tiles lo (l.map (·.cidr)) hi → Ascending l
  | [], _, _, _ => List.Pairwise.nil
  | a :: l, lo, hi, h => by
    obtain ⟨h1, h2⟩ := h
    refine List.pairwise_cons.mpr ⟨fun b hb => ?_, tiles_ascending h2⟩
    have hlt := netLo_lt (n := b.cidr)
    exact (((tiles_covers h2).2 (netLo b.cidr)).mp ⟨b.cidr, List.mem_map.mpr ⟨b, hb, rfl⟩, Nat.le_refl _, hlt⟩).1

/-- **C91 (order).** The rows of the merged table ascend. -/
theorem C91_ascending (d d' : HData) (hw : ∀ r ∈ d.rows, WFNet r.cidr) (ha : Ascending d.view.ips) (e : MergeNearNetwork d = .ok d') :
    Ascending d'.view.ips := by
  obtain ⟨gs, h16, hmax, hheap, hrows, hrec⟩ := merge_runs hw ha e
  unfold Ascending HData.view
  rw [hrows]
  refine List.pairwise_map.mpr ?_
  show List.Pairwise (fun (a b : HRow) => netEnd a.cidr ≤ netLo b.cidr) _
  clear hrows e ha hw hrec
  induction gs with
  | nil => exact List.Pairwise.nil
  | cons g gs ih =>
    rw [List.flatMap_cons]
    obtain ⟨blocks, e1, _, ht⟩ := ipNets_blocks (h16 g (by simp))
    have hb : blocksOf g = blocks := by unfold blocksOf; rw [e1]
    refine List.pairwise_append.mpr ⟨?_, ih (fun x hx => h16 x (by simp [hx])) hmax.tail, ?_⟩
    · rw [hb]
      refine List.pairwise_map.mpr ?_
      have := tiles_ascending (l := blocks.map fun n => (⟨n, []⟩ : IpRaw)) (lo := addrNum g.1.start) (hi := addrNum g.1.end_ + 1)
        (by rw [List.map_map, show ((fun x : IpRaw => x.cidr) ∘ fun n => (⟨n, []⟩ : IpRaw)) = id from rfl, List.map_id]; exact ht)
      exact List.pairwise_map.mp this
    · intro a hma b hmb
      obtain ⟨n, hn, rfl⟩ := List.mem_map.mp hma
      rw [hb] at hn
      obtain ⟨g2, hg2, hm2⟩ := List.mem_flatMap.mp hmb
      obtain ⟨n2, hn2, rfl⟩ := List.mem_map.mp hm2
      obtain ⟨blocks2, e2, _, ht2⟩ := ipNets_blocks (h16 g2 (by simp [hg2]))
      have hb2 : blocksOf g2 = blocks2 := by unfold blocksOf; rw [e2]
      rw [hb2] at hn2
      have hafter : addrNum g.1.end_ < addrNum g2.1.start := hmax.after (toRun d.heap g2) (List.mem_map.mpr ⟨g2, hg2, rfl⟩)
      have l1 := netLo_lt (n := n)
      have l2 := netLo_lt (n := n2)
      have c1 := ((tiles_covers ht).2 (netEnd n - 1)).mp ⟨n, hn, by omega, by omega⟩
      have c2 := ((tiles_covers ht2).2 (netLo n2)).mp ⟨n2, hn2, Nat.le_refl _, l2⟩
      show netEnd n ≤ netLo n2
      omega

/-- **C91 (ipdb).** Dumping an ipdb file and merging gives the smallest table for its records. -/
theorem C91_ipdb {dec : Bytes → Option Ipdb.MetaData} {fmtDate : Int → Str} {fuel : Nat} {bytes : Bytes} {ept : Option Export.Exporter} {D : IpData}
    {r : Ipdb.Reader} (ho : Ipdb.newReaderFromBytes dec bytes = .ok r) (h : Ipdb.dump fuel dec fmtDate bytes ept = some (.ok D))
    (cap : Nat → Nat) (d' : HData) (e : MergeNearNetwork (dumped cap D) = .ok d') (L : List IpRaw) (hwf : ∀ r ∈ L, WFNet r.cidr)
    (hdis : L.Pairwise fun a b => ¬ Overlap a.cidr b.cidr) (hsame : ∀ x, firstMatch L x = firstMatch D.ips x) :
    d'.rows.length ≤ L.length := by
  obtain ⟨ht, hn⟩ := Dump.C24_ipdb ho h
  obtain ⟨_, hv⟩ := dumped_spec cap D
  have hips : (dumped cap D).view.ips = D.ips := by rw [hv]
  refine C91_minimal_table _ d' (fun x hx => ?_) (by rw [hips]; exact tiles_ascending ht) e L hwf hdis (by rw [hips]; exact hsame)
  have : (dumped cap D).rowView x ∈ D.ips := by rw [← hips]; exact List.mem_map.mpr ⟨x, hx, rfl⟩
  exact (hn _ this).1

/-- **C91 (awdb).** The same for IPv4 awdb files. -/
theorem C91_awdb {fuel : Nat} {data : Bytes} {ept : Option Export.Exporter} {D : IpData} {r : Awdb.Reader}
    (ho : Awdb.FromBytes data = .ok r) (h6 : r.md.ipVersion ≠ 6) (h : Awdb.dump fuel data ept = some (.ok D))
    (cap : Nat → Nat) (d' : HData) (e : MergeNearNetwork (dumped cap D) = .ok d') (L : List IpRaw) (hwf : ∀ r ∈ L, WFNet r.cidr)
    (hdis : L.Pairwise fun a b => ¬ Overlap a.cidr b.cidr) (hsame : ∀ x, firstMatch L x = firstMatch D.ips x) :
    d'.rows.length ≤ L.length := by
  obtain ⟨ht, hn⟩ := Awdb.C24_awdb fuel data ept D r ho h6 h
  obtain ⟨_, hv⟩ := dumped_spec cap D
  have hips : (dumped cap D).view.ips = D.ips := by rw [hv]
  refine C91_minimal_table _ d' (fun x hx => ?_) (by rw [hips]; exact tiles_ascending ht) e L hwf hdis (by rw [hips]; exact hsame)
  have : (dumped cap D).rowView x ∈ D.ips := by rw [← hips]; exact List.mem_map.mpr ⟨x, hx, rfl⟩
  exact (hn _ this).1

/-! ## Concrete data -/

/-- Four networks, three of them one run. -/
def demoRuns : HData :=
  ⟨[gs "country"], ⟨1, 4, 0, gs "v", [], []⟩,
   [⟨⟨[10, 0, 0, 0], [255, 255, 0, 0]⟩, ⟨0, 1⟩⟩, ⟨⟨[10, 1, 0, 0], [255, 255, 0, 0]⟩, ⟨0, 1⟩⟩, ⟨⟨[10, 2, 0, 0], [255, 255, 0, 0]⟩, ⟨1, 1⟩⟩,
    ⟨⟨[10, 4, 0, 0], [255, 255, 0, 0]⟩, ⟨0, 1⟩⟩], [[gs "CN"], [gs "CN"]]⟩

example : Ascending demoRuns.view.ips ∧ (∀ r ∈ demoRuns.rows, WFNet r.cidr) ∧
    (match MergeNearNetwork demoRuns with | .ok d => d.rows.map (fun r => (netLo r.cidr - netLo ⟨[10, 0, 0, 0], [255, 255, 0, 0]⟩, hostBits r.cidr)) | _ => []) =
      [(0, 17), (131072, 16), (262144, 16)] := by decide +kernel

/-- C91_inside on it: `10.1.0.0/16` went into the merged `10.0.0.0/15`. -/
example : ∀ d', MergeNearNetwork demoRuns = .ok d' → ∃ r' ∈ d'.view.ips, netLo r'.cidr ≤ netLo ⟨[10, 1, 0, 0], [255, 255, 0, 0]⟩ ∧
    netEnd ⟨[10, 1, 0, 0], [255, 255, 0, 0]⟩ ≤ netEnd r'.cidr ∧ r'.values = [gs "CN"] :=
  fun d' e => C91_inside demoRuns d' (by decide +kernel) (by decide +kernel) e ⟨⟨[10, 1, 0, 0], [255, 255, 0, 0]⟩, [gs "CN"]⟩
    (List.mem_cons_of_mem _ (List.mem_cons_self ..))

/-- **C91 (negation).** Rows that do not ascend are not merged: the table below stays as it is although one row is
enough. -/
theorem C91_negation : ∃ d : HData, (∀ r ∈ d.rows, WFNet r.cidr) ∧ (d.view.ips.Pairwise fun a b => ¬ Overlap a.cidr b.cidr) ∧
    (∃ d', MergeNearNetwork d = .ok d' ∧ d'.rows.length = 2) ∧
    ∃ r : IpRaw, WFNet r.cidr ∧ ∀ x, firstMatch [r] x = firstMatch d.view.ips x := by
  let d : HData := ⟨[gs "country"], ⟨1, 2, 0, gs "v", [], []⟩,
    [⟨⟨[10, 1, 0, 0], [255, 255, 0, 0]⟩, ⟨0, 1⟩⟩, ⟨⟨[10, 0, 0, 0], [255, 255, 0, 0]⟩, ⟨0, 1⟩⟩], [[gs "CN"]]⟩
  refine ⟨d, by decide +kernel, by decide +kernel, ?_, ⟨⟨[10, 0, 0, 0], [255, 254, 0, 0]⟩, [gs "CN"]⟩, by decide +kernel, fun x => ?_⟩
  · have : (match MergeNearNetwork d with | .ok d' => d'.rows.length | _ => 0) = 2 := by decide +kernel
    cases e : MergeNearNetwork d with
    | ok d' => rw [e] at this; exact ⟨d', rfl, this⟩
    | err x => rw [e] at this; cases this
    | panic => rw [e] at this; cases this
  · have hv : d.view.ips = [⟨⟨[10, 1, 0, 0], [255, 255, 0, 0]⟩, [gs "CN"]⟩, ⟨⟨[10, 0, 0, 0], [255, 255, 0, 0]⟩, [gs "CN"]⟩] := by decide +kernel
    rw [hv]
    simp only [firstMatch_cons]
    have a1 : netLo ⟨[10, 0, 0, 0], [255, 254, 0, 0]⟩ = netLo ⟨[10, 0, 0, 0], [255, 255, 0, 0]⟩ ∧
        netEnd ⟨[10, 0, 0, 0], [255, 255, 0, 0]⟩ = netLo ⟨[10, 1, 0, 0], [255, 255, 0, 0]⟩ ∧
        netEnd ⟨[10, 0, 0, 0], [255, 254, 0, 0]⟩ = netEnd ⟨[10, 1, 0, 0], [255, 255, 0, 0]⟩ := by decide +kernel
    have b1 := netLo_lt (n := ⟨[10, 0, 0, 0], [255, 255, 0, 0]⟩)
    have b2 := netLo_lt (n := ⟨[10, 1, 0, 0], [255, 255, 0, 0]⟩)
    have hcv : Covers ⟨[10, 0, 0, 0], [255, 254, 0, 0]⟩ x ↔ Covers ⟨[10, 1, 0, 0], [255, 255, 0, 0]⟩ x ∨ Covers ⟨[10, 0, 0, 0], [255, 255, 0, 0]⟩ x := by
      unfold Covers; omega
    by_cases h1 : Covers ⟨[10, 1, 0, 0], [255, 255, 0, 0]⟩ x
    · rw [if_pos h1, if_pos (hcv.mpr (.inl h1))]
    · by_cases h2 : Covers ⟨[10, 0, 0, 0], [255, 255, 0, 0]⟩ x
      · rw [if_neg h1, if_pos h2, if_pos (hcv.mpr (.inr h2))]
      · rw [if_neg h1, if_neg h2, if_neg (fun h => (hcv.mp h).elim h1 h2)]

end Uip.Operate
