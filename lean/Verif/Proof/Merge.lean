import Verif.Proof.Operate
import Verif.Props.IpNet
/-!
# MergeNearNetwork
-/
namespace Uip.Operate
open Uip Uip.Spec

/-- A proper range in 16-byte form. -/
def R16 (r : Range) : Prop := r.start.length = 16 ∧ r.end_.length = 16 ∧ addrNum r.start ≤ addrNum r.end_

/-- The block starts inside or right after the range (as the join test decides it). -/
def Joins (r : Range) (lo : Nat) : Prop := addrNum r.start ≤ lo ∧ lo ≤ wrapSucc r.end_

theorem exists_cons {α : Type} {p : α → Prop} {a : α} {l : List α} :
    (∃ x ∈ a :: l, p x) ↔ p a ∨ ∃ x ∈ l, p x := by simp

theorem netLo_lt {n : IPNet} : netLo n < netEnd n := by
  unfold netLo netEnd; have := Nat.two_pow_pos (hostBits n); omega

theorem newRange_spec {n : IPNet} (hn : WFNet n) : ∃ r, NewRange n = .ok r ∧ R16 r ∧ addrNum r.start = netLo n ∧
    addrNum r.end_ + 1 = netEnd n := by
  obtain ⟨r2, h1, h2, h3, h4, h5, _⟩ := C06_joinIPNet_is_join ⟨[], []⟩ n hn
  have := netLo_lt (n := n)
  exact ⟨r2, h1, ⟨h2, h3, by omega⟩, h4, h5⟩

theorem between_newRange {r : Range} {n : IPNet} (h1 : addrNum r.start = netLo n) (h2 : addrNum r.end_ + 1 = netEnd n)
    (x : Nat) : Between r.start r.end_ x ↔ Covers n x := by
  unfold Between Covers; omega

/-- JoinIPNet on proper ranges, at the top of the space included. -/
theorem join_spec {r : Range} {n : IPNet} (hr : R16 r) (hn : WFNet n) :
    (Joins r (netLo n) ∧ ∃ r', r.JoinIPNet n = .ok (r', true) ∧ R16 r' ∧ r'.start = r.start ∧
      addrNum r'.end_ + 1 = max (addrNum r.end_ + 1) (netEnd n) ∧
      ∀ x, Between r'.start r'.end_ x ↔ Between r.start r.end_ x ∨ Covers n x) ∨
    (¬ Joins r (netLo n) ∧ r.JoinIPNet n = .ok (r, false)) := by
  obtain ⟨h16s, h16e, hle⟩ := hr
  obtain ⟨r2, _, hl1, hl2, hn1, hn2, hj⟩ := C06_joinIPNet_is_join r n hn
  obtain ⟨k1, k2, k3⟩ := C06_join_exact r r2 (.inr h16s) (.inr h16e) (.inr hl1) (.inr hl2)
  rw [hn1] at k1
  have hlo := netLo_lt (n := n)
  cases hb : (r.Join r2).2 with
  | false =>
    right
    refine ⟨fun hh => ?_, by rw [hj]; exact congrArg Res.ok (Prod.ext (k3 hb) hb)⟩
    rw [k1.mpr hh] at hb; cases hb
  | true =>
    left
    have hjo := k1.mp hb
    obtain ⟨k4, k5⟩ := k2 hb
    have hlen : (r.Join r2).1.end_.length = 16 := by
      unfold Range.Join
      split
      · exact h16e
      · split
        · exact hl2
        · exact h16e
    refine ⟨hjo, (r.Join r2).1, by rw [hj, ← hb], ⟨by rw [k4]; exact h16s, hlen, by rw [k4]; omega⟩, k4, by omega, fun x => ?_⟩
    unfold Between Covers
    rw [k4, k5]
    have hw : wrapSucc r.end_ ≤ addrNum r.end_ + 1 := by
      rcases notTop_or_top r.end_ with h | h
      · rw [wrapSucc_notTop h]; omega
      · unfold wrapSucc; rw [if_neg (by omega), if_neg (by omega)]; omega
    obtain ⟨hj1, hj2⟩ := hjo
    omega

/-! ## The ranges formed -/

/-- Record of an address among ranges, scanned from the top. -/
def gFirst (h : Heap) (gs : List (Range × Slice)) (x : Nat) : Option (List Str) :=
  (gs.find? fun g => decide (Between g.1.start g.1.end_ x)).map fun g => h.read g.2

/-- Record of an address among ranges, scanned from the bottom. -/
def gLast (h : Heap) (gs : List (Range × Slice)) (x : Nat) : Option (List Str) := gFirst h gs.reverse x

/-- Two consecutive ranges are not mergeable. -/
def Sep (h : Heap) (g1 g2 : Range × Slice) : Prop :=
  h.read g1.2 ≠ h.read g2.2 ∨ ¬ Joins g1.1 (addrNum g2.1.start)

/-- Consecutive elements are related. -/
def Chain2 {α : Type} (R : α → α → Prop) : List α → Prop
  | [] => True
  | [_] => True
  | a :: b :: l => R a b ∧ Chain2 R (b :: l)

def rowsView (h : Heap) (rows : List HRow) : List IpRaw := rows.map fun r => ⟨r.cidr, h.read r.vals⟩

theorem firstMatch_cons (r : IpRaw) (rs : List IpRaw) (x : Nat) :
    firstMatch (r :: rs) x = if Covers r.cidr x then some r.values else firstMatch rs x := by
  unfold firstMatch
  rw [List.find?_cons]
  by_cases h : Covers r.cidr x <;> simp [h]

theorem firstMatch_append (l1 l2 : List IpRaw) (x : Nat) :
    firstMatch (l1 ++ l2) x = (firstMatch l1 x).or (firstMatch l2 x) := by
  induction l1 with
  | nil => simp [firstMatch]
  | cons r l ih =>
    rw [List.cons_append, firstMatch_cons, firstMatch_cons, ih]
    split <;> simp

theorem lastMatch_cons (r : IpRaw) (rs : List IpRaw) (x : Nat) :
    lastMatch (r :: rs) x = (lastMatch rs x).or (if Covers r.cidr x then some r.values else none) := by
  unfold lastMatch
  rw [List.reverse_cons, firstMatch_append, firstMatch_cons]
  rfl

theorem gFirst_cons (h : Heap) (g : Range × Slice) (gs : List (Range × Slice)) (x : Nat) :
    gFirst h (g :: gs) x = if Between g.1.start g.1.end_ x then some (h.read g.2) else gFirst h gs x := by
  unfold gFirst
  rw [List.find?_cons]
  by_cases hb : Between g.1.start g.1.end_ x <;> simp [hb]

theorem gFirst_append (h : Heap) (l1 l2 : List (Range × Slice)) (x : Nat) :
    gFirst h (l1 ++ l2) x = (gFirst h l1 x).or (gFirst h l2 x) := by
  induction l1 with
  | nil => simp [gFirst]
  | cons r l ih =>
    rw [List.cons_append, gFirst_cons, gFirst_cons, ih]
    split <;> simp

theorem gLast_cons (h : Heap) (g : Range × Slice) (gs : List (Range × Slice)) (x : Nat) :
    gLast h (g :: gs) x = (gLast h gs x).or (if Between g.1.start g.1.end_ x then some (h.read g.2) else none) := by
  unfold gLast
  rw [List.reverse_cons, gFirst_append, gFirst_cons]
  rfl

theorem mergeLoop_spec (h : Heap) (ips : List HRow) : ∀ (prev : Range × Slice), R16 prev.1 →
    (∀ r ∈ ips, WFNet r.cidr) →
    ∃ g0 rest, mergeLoop h prev ips = .ok (g0 :: rest) ∧ (∀ g ∈ g0 :: rest, R16 g.1) ∧
      g0.2 = prev.2 ∧ g0.1.start = prev.1.start ∧ Chain2 (Sep h) (g0 :: rest) ∧
      (∀ g ∈ rest, ∃ r ∈ ips, g.2 = r.vals) ∧
      (∀ x, gFirst h (g0 :: rest) x = if Between prev.1.start prev.1.end_ x then some (h.read prev.2)
        else firstMatch (rowsView h ips) x) ∧
      (∀ x, gLast h (g0 :: rest) x = (lastMatch (rowsView h ips) x).or
        (if Between prev.1.start prev.1.end_ x then some (h.read prev.2) else none)) ∧
      (∀ x, (∃ g ∈ g0 :: rest, Between g.1.start g.1.end_ x) ↔
        Between prev.1.start prev.1.end_ x ∨ ∃ r ∈ ips, Covers r.cidr x) := by
  induction ips with
  | nil =>
    intro prev hp _
    refine ⟨prev, [], rfl, by simpa using hp, rfl, rfl, trivial, by simp, fun x => ?_, fun x => ?_, fun x => by simp⟩
    · rw [gFirst_cons]; rfl
    · rw [gLast_cons]; rfl
  | cons ip ips ih =>
    intro prev hp hwf
    have hip := hwf ip (by simp)
    have hwf' : ∀ r ∈ ips, WFNet r.cidr := fun r hr => hwf r (by simp [hr])
    -- what happens when a new range is opened
    have opened : Sep h prev ⟨⟨ip.cidr.ip, []⟩, ip.vals⟩ → ∃ nr g0 rest, NewRange ip.cidr = .ok nr ∧
        mergeLoop h (nr, ip.vals) ips = .ok (g0 :: rest) ∧
        (∀ g ∈ prev :: g0 :: rest, R16 g.1) ∧ Chain2 (Sep h) (prev :: g0 :: rest) ∧
        (∀ g ∈ g0 :: rest, ∃ r ∈ ip :: ips, g.2 = r.vals) ∧
        (∀ x, gFirst h (prev :: g0 :: rest) x = if Between prev.1.start prev.1.end_ x then some (h.read prev.2)
          else firstMatch (rowsView h (ip :: ips)) x) ∧
        (∀ x, gLast h (prev :: g0 :: rest) x = (lastMatch (rowsView h (ip :: ips)) x).or
          (if Between prev.1.start prev.1.end_ x then some (h.read prev.2) else none)) ∧
        (∀ x, (∃ g ∈ prev :: g0 :: rest, Between g.1.start g.1.end_ x) ↔
          Between prev.1.start prev.1.end_ x ∨ ∃ r ∈ ip :: ips, Covers r.cidr x) := by
      intro hsep
      obtain ⟨nr, hnr, h16, hs, he⟩ := newRange_spec hip
      obtain ⟨g0, rest, e, k1, k2, k3, k4, k5, k6, k7, k8⟩ := ih (nr, ip.vals) h16 hwf'
      have hb := between_newRange hs he
      refine ⟨nr, g0, rest, hnr, e, ?_, ⟨?_, k4⟩, ?_, fun x => ?_, fun x => ?_, fun x => ?_⟩
      · intro g hg
        rcases List.mem_cons.mp hg with rfl | hg
        · exact hp
        · exact k1 g hg
      · unfold Sep at hsep ⊢
        rw [k2, k3]
        rcases hsep with hh | hh
        · exact .inl hh
        · right; simp only [hs]; exact hh
      · intro g hg
        rcases List.mem_cons.mp hg with rfl | hg
        · exact ⟨ip, by simp, k2⟩
        · obtain ⟨r, hr, hgr⟩ := k5 g hg; exact ⟨r, by simp [hr], hgr⟩
      · rw [gFirst_cons, k6]
        simp only [hb]
        rw [show rowsView h (ip :: ips) = ⟨ip.cidr, h.read ip.vals⟩ :: rowsView h ips from rfl, firstMatch_cons]
      · rw [gLast_cons, k7]
        simp only [hb]
        rw [show rowsView h (ip :: ips) = ⟨ip.cidr, h.read ip.vals⟩ :: rowsView h ips from rfl, lastMatch_cons]
      · have := k8 x
        rw [hb x] at this
        rw [exists_cons, this, exists_cons]
    unfold mergeLoop
    by_cases hv : h.read prev.2 = h.read ip.vals
    · rw [if_pos hv]
      rcases join_spec hp hip with ⟨hj, r', e1, h16, hs, _, hu⟩ | ⟨hnj, e1⟩
      · obtain ⟨g0, rest, e, k1, k2, k3, k4, k5, k6, k7, k8⟩ := ih (r', prev.2) h16 hwf'
        refine ⟨g0, rest, by simp only [e1, Res.ok_bind, if_true]; exact e, k1, k2, by rw [k3, hs], k4,
          fun g hg => ?_, fun x => ?_, fun x => ?_, fun x => ?_⟩
        · obtain ⟨r, hr, hgr⟩ := k5 g hg; exact ⟨r, by simp [hr], hgr⟩
        · rw [k6]
          simp only [hu]
          rw [show rowsView h (ip :: ips) = ⟨ip.cidr, h.read ip.vals⟩ :: rowsView h ips from rfl, firstMatch_cons, hv]
          by_cases b1 : Between prev.1.start prev.1.end_ x <;> by_cases b2 : Covers ip.cidr x <;> simp [b1, b2]
        · rw [k7]
          simp only [hu]
          rw [show rowsView h (ip :: ips) = ⟨ip.cidr, h.read ip.vals⟩ :: rowsView h ips from rfl, lastMatch_cons, hv]
          by_cases b1 : Between prev.1.start prev.1.end_ x <;> by_cases b2 : Covers ip.cidr x <;>
            cases lastMatch (rowsView h ips) x <;> simp [b1, b2]
        · rw [k8 x]
          simp only [hu]
          rw [exists_cons, or_assoc]
      · obtain ⟨nr, g0, rest, hnr, e, k1, k2, k3, k4, k5, k6⟩ := opened (.inr hnj)
        exact ⟨prev, g0 :: rest, by simp [e1, hnr, e], k1, rfl, rfl, k2, k3, k4, k5, k6⟩
    · rw [if_neg hv]
      obtain ⟨nr, g0, rest, hnr, e, k1, k2, k3, k4, k5, k6⟩ := opened (.inl hv)
      exact ⟨prev, g0 :: rest, by simp [hnr, e], k1, rfl, rfl, k2, k3, k4, k5, k6⟩

/-! ## Back to networks -/

theorem firstMatch_blocks {v : List Str} {lo hi : Nat} {l : List IPNet} (ht : Tiles lo l hi) (x : Nat) :
    firstMatch (l.map fun n => ⟨n, v⟩) x = if lo ≤ x ∧ x < hi then some v else none := by
  have hc := (tiles_covers ht).2 x
  by_cases h : lo ≤ x ∧ x < hi
  · rw [if_pos h]
    obtain ⟨n, hn, hnx⟩ := hc.mpr h
    unfold firstMatch
    cases e : (l.map fun n => (⟨n, v⟩ : IpRaw)).find? fun r => decide (Covers r.cidr x) with
    | none =>
      have := List.find?_eq_none.mp e ⟨n, v⟩ (List.mem_map.mpr ⟨n, hn, rfl⟩)
      simp [hnx] at this
    | some r =>
      obtain ⟨m, _, rfl⟩ := List.mem_map.mp (List.mem_of_find?_eq_some e)
      rfl
  · rw [if_neg h]
    unfold firstMatch
    rw [Option.map_eq_none_iff, List.find?_eq_none]
    intro r hr
    obtain ⟨m, hm, rfl⟩ := List.mem_map.mp hr
    have := fun hh => h (hc.mp ⟨m, hm, hh⟩)
    simpa using this

theorem lastMatch_append (l1 l2 : List IpRaw) (x : Nat) :
    lastMatch (l1 ++ l2) x = (lastMatch l2 x).or (lastMatch l1 x) := by
  unfold lastMatch; rw [List.reverse_append, firstMatch_append]

theorem lastMatch_blocks {v : List Str} {lo hi : Nat} {l : List IPNet} (ht : Tiles lo l hi) (x : Nat) :
    lastMatch (l.map fun n => ⟨n, v⟩) x = if lo ≤ x ∧ x < hi then some v else none := by
  induction l generalizing lo with
  | nil => simp only [Tiles] at ht; subst ht; rw [if_neg (by omega)]; rfl
  | cons n l ih =>
    obtain ⟨h1, h2⟩ := ht
    rw [List.map_cons, lastMatch_cons, ih h2]
    have := (tiles_covers h2).1
    have := netLo_lt (n := n)
    have hcv : Covers n x ↔ netLo n ≤ x ∧ x < netEnd n := Iff.rfl
    simp only []
    by_cases hx : netEnd n ≤ x ∧ x < hi
    · have hg : lo ≤ x ∧ x < hi := by omega
      rw [if_pos hx, if_pos hg]; rfl
    · rw [if_neg hx]
      by_cases hy : Covers n x
      · have hg : lo ≤ x ∧ x < hi := by have := hcv.mp hy; omega
        rw [if_pos hy, if_pos hg]; rfl
      · have hg : ¬ (lo ≤ x ∧ x < hi) := fun hh => hy (hcv.mpr (by omega))
        rw [if_neg hy, if_neg hg]; rfl

theorem ipNets_blocks {r : Range} (hr : R16 r) : ∃ blocks, r.IPNets = some (.ok blocks) ∧
    (∀ n ∈ blocks, WFNet n ∧ n.ip.length = 16) ∧ Tiles (addrNum r.start) blocks (addrNum r.end_ + 1) :=
  C08_ipNets_tiles r (.inr hr.1) (.inr hr.2.1) hr.2.2

theorem splitRanges_spec (h : Heap) (gs : List (Range × Slice)) (hg : ∀ g ∈ gs, R16 g.1) :
    ∃ rows, splitRanges gs = .ok rows ∧ (∀ r ∈ rows, WFNet r.cidr ∧ r.cidr.ip.length = 16) ∧
      (∀ r ∈ rows, ∃ g ∈ gs, r.vals = g.2 ∧ ∀ x, Covers r.cidr x → Between g.1.start g.1.end_ x) ∧
      (∀ x, firstMatch (rowsView h rows) x = gFirst h gs x) ∧ (∀ x, lastMatch (rowsView h rows) x = gLast h gs x) := by
  induction gs with
  | nil => exact ⟨[], rfl, by simp, by simp, fun _ => rfl, fun _ => rfl⟩
  | cons g gs ih =>
    obtain ⟨blocks, e1, hb, ht⟩ := ipNets_blocks (hg g (by simp))
    obtain ⟨rows, e2, k1, k2, k3, k4⟩ := ih (fun x hx => hg x (by simp [hx]))
    have hview : rowsView h (blocks.map (fun sub => (⟨sub, g.2⟩ : HRow)) ++ rows) =
        blocks.map (fun n => (⟨n, h.read g.2⟩ : IpRaw)) ++ rowsView h rows := by
      unfold rowsView; rw [List.map_append, List.map_map]; rfl
    have hbt : ∀ x, (addrNum g.1.start ≤ x ∧ x < addrNum g.1.end_ + 1) ↔ Between g.1.start g.1.end_ x := by
      intro x; unfold Between; omega
    refine ⟨blocks.map (fun sub => ⟨sub, g.2⟩) ++ rows, by simp [splitRanges, e1, e2], fun r hr => ?_, fun r hr => ?_,
      fun x => ?_, fun x => ?_⟩
    · rcases List.mem_append.mp hr with hr | hr
      · obtain ⟨n, hn, rfl⟩ := List.mem_map.mp hr; exact hb n hn
      · exact k1 r hr
    · rcases List.mem_append.mp hr with hr | hr
      · obtain ⟨n, hn, rfl⟩ := List.mem_map.mp hr
        exact ⟨g, by simp, rfl, fun x hx => (hbt x).mp (((tiles_covers ht).2 x).mp ⟨n, hn, hx⟩)⟩
      · obtain ⟨g', hg', hh⟩ := k2 r hr; exact ⟨g', by simp [hg'], hh⟩
    · rw [hview, firstMatch_append, firstMatch_blocks ht, k3, gFirst_cons]
      simp only [hbt]
      by_cases hx : Between g.1.start g.1.end_ x <;> simp [hx]
    · rw [hview, lastMatch_append, lastMatch_blocks ht, k4, gLast_cons]
      simp only [hbt]

/-! ## Merging again -/

theorem range_ext {r s : Range} (hr : R16 r) (hs : R16 s) (h1 : addrNum r.start = addrNum s.start)
    (h2 : addrNum r.end_ = addrNum s.end_) : r = s := by
  cases r; cases s
  congr
  · exact addrNum_inj (hr.1.trans hs.1.symm) h1
  · exact addrNum_inj (hr.2.1.trans hs.2.1.symm) h2

/-- Blocks that continue a range one after the other are all joined to it. -/
theorem mergeLoop_blocks (h : Heap) (s : Slice) (more : List HRow) (blocks : List IPNet) :
    ∀ (r g : Range), R16 r → R16 g → r.start = g.start → (∀ n ∈ blocks, WFNet n) →
    Tiles (addrNum r.end_ + 1) blocks (addrNum g.end_ + 1) →
    mergeLoop h (r, s) (blocks.map (fun n => ⟨n, s⟩) ++ more) = mergeLoop h (g, s) more := by
  induction blocks with
  | nil =>
    intro r g hr hg hs _ ht
    simp only [Tiles] at ht
    rw [range_ext hr hg (by rw [hs]) (by omega)]; rfl
  | cons n ns ih =>
    intro r g hr hg hs hw ht
    obtain ⟨h1, h2⟩ := ht
    have hn := hw n (by simp)
    have hb := (WFNet_bounds hn).2.1
    have hlo := netLo_lt (n := n)
    have hnt : NotTop r.end_ := by
      unfold NotTop
      have := hr.2.1
      rw [this]
      have e := addrNum_16 this
      have : (256 : Nat) ^ 16 = 2 ^ 128 := by decide
      omega
    have hj : Joins r (netLo n) := by
      unfold Joins; rw [wrapSucc_notTop hnt]; have := hr.2.2; omega
    rcases join_spec hr hn with ⟨_, r', e1, h16, hs', he, _⟩ | ⟨hnj, _⟩
    · rw [List.map_cons, List.cons_append, mergeLoop, if_pos rfl]
      simp only [e1, Res.ok_bind, if_true]
      apply ih r' g h16 hg (by rw [hs', hs]) (fun m hm => hw m (by simp [hm]))
      have : addrNum r'.end_ + 1 = netEnd n := by rw [he]; omega
      rw [this]; exact h2
    · exact absurd hj hnj

/-- Splitting separated ranges into networks and merging again gives the ranges back. -/
theorem mergeLoop_split (h : Heap) (gs : List (Range × Slice)) : ∀ g0, (∀ g ∈ g0 :: gs, R16 g.1) → Chain2 (Sep h) (g0 :: gs) →
    ∃ rows, splitRanges gs = .ok rows ∧ mergeLoop h g0 rows = .ok (g0 :: gs) := by
  induction gs with
  | nil => intro g0 _ _; exact ⟨[], rfl, rfl⟩
  | cons g1 gs ih =>
    intro g0 hr hc
    obtain ⟨hsep, hc⟩ := hc
    obtain ⟨rows, e, hm⟩ := ih g1 (fun g hg => hr g (by simp at hg ⊢; right; exact hg)) hc
    obtain ⟨blocks, e1, hb, ht⟩ := ipNets_blocks (hr g1 (by simp))
    have h16 := hr g1 (by simp)
    cases blocks with
    | nil => simp only [Tiles] at ht; have := h16.2.2; omega
    | cons n ns =>
      obtain ⟨ht1, ht2⟩ := ht
      refine ⟨(n :: ns).map (fun sub => ⟨sub, g1.2⟩) ++ rows, by simp [splitRanges, e1, e], ?_⟩
      obtain ⟨nr, hnr, hnr16, hns, hne⟩ := newRange_spec (hb n (by simp)).1
      have hrest : mergeLoop h (nr, g1.2) (ns.map (fun sub => (⟨sub, g1.2⟩ : HRow)) ++ rows) = .ok (g1 :: gs) := by
        rw [mergeLoop_blocks h g1.2 rows ns nr g1.1 hnr16 h16
          (addrNum_inj (hnr16.1.trans h16.1.symm) (by omega)) (fun m hm => (hb m (by simp [hm])).1) (by rw [hne]; exact ht2)]
        exact hm
      rw [List.map_cons, List.cons_append, mergeLoop]
      by_cases hv : h.read g0.2 = h.read g1.2
      · rw [if_pos hv]
        rcases hsep with hh | hh
        · exact absurd hv hh
        · rcases join_spec (hr g0 (by simp)) (hb n (by simp)).1 with ⟨hj, _⟩ | ⟨_, e2⟩
          · rw [ht1] at hj; exact absurd hj hh
          · simp [e2, hnr, hrest]
      · rw [if_neg hv]
        simp [hnr, hrest]

/-- MergeNearNetwork on well-formed rows: success, and what it does. -/
theorem merge_spec (d : HData) (hne : d.rows ≠ []) (hw : ∀ r ∈ d.rows, WFNet r.cidr) :
    ∃ d', MergeNearNetwork d = .ok d' ∧ d'.fields = d.fields ∧ d'.heap = d.heap ∧
      d'.version = { d.version with count := UInt32.ofNat d'.rows.length } ∧ d'.rows ≠ [] ∧
      (∀ r ∈ d'.rows, WFNet r.cidr ∧ r.cidr.ip.length = 16) ∧
      (∀ r ∈ d'.rows, ∃ r0 ∈ d.rows, r.vals = r0.vals) ∧
      (∀ x, firstMatch d'.view.ips x = firstMatch d.view.ips x) ∧
      (∀ x, lastMatch d'.view.ips x = lastMatch d.view.ips x) ∧
      MergeNearNetwork d' = .ok d' := by
  cases hrows : d.rows with
  | nil => exact absurd hrows hne
  | cons r rs =>
    rw [hrows] at hw
    obtain ⟨nr, hnr, h16, hs, he⟩ := newRange_spec (hw r (by simp))
    obtain ⟨g0, rest, e, k1, k2, k3, k4, k5, k6, k7, k8⟩ := mergeLoop_spec d.heap rs (nr, r.vals) h16 (fun x hx => hw x (by simp [hx]))
    obtain ⟨rows, e2, j1, j2, j3, j4⟩ := splitRanges_spec d.heap (g0 :: rest) k1
    obtain ⟨rows1, e3, hm⟩ := mergeLoop_split d.heap rest g0 k1 k4
    obtain ⟨blocks, e4, hb, ht⟩ := ipNets_blocks (k1 g0 (by simp))
    have hrw : rows = blocks.map (fun sub => (⟨sub, g0.2⟩ : HRow)) ++ rows1 := by
      simp only [splitRanges, e4, e3, Res.ok_bind, Res.pure_eq] at e2
      injection e2 with e2; exact e2.symm
    cases hbl : blocks with
    | nil => rw [hbl] at ht; simp only [Tiles] at ht; have := (k1 g0 (by simp)).2.2; omega
    | cons n ns =>
      rw [hbl] at ht hb hrw
      obtain ⟨ht1, ht2⟩ := ht
      have hb' := between_newRange hs he
      have hview : d.view.ips = rowsView d.heap (r :: rs) := by
        show d.rows.map d.rowView = _; rw [hrows]; rfl
      obtain ⟨nr2, hnr2, hnr216, hns2, hne2⟩ := newRange_spec (hb n (by simp)).1
      refine ⟨{ d with rows := rows, version := { d.version with count := UInt32.ofNat rows.length } }, ?_, rfl, rfl, rfl,
        ?_, j1, fun x hx => ?_, fun x => ?_, fun x => ?_, ?_⟩
      · simp only [MergeNearNetwork, hrows, hnr, Res.ok_bind, e, e2, Res.pure_eq]
      · rw [hrw]; simp
      · obtain ⟨g, hg, hv, _⟩ := j2 x hx
        rcases List.mem_cons.mp hg with rfl | hg
        · exact ⟨r, by simp, hv.trans k2⟩
        · obtain ⟨y, hy, hgy⟩ := k5 g hg; exact ⟨y, by simp [hy], hv.trans hgy⟩
      · show firstMatch (rowsView d.heap rows) x = _
        rw [j3, k6, hview]
        simp only [hb']
        rw [show rowsView d.heap (r :: rs) = ⟨r.cidr, d.heap.read r.vals⟩ :: rowsView d.heap rs from rfl, firstMatch_cons]
      · show lastMatch (rowsView d.heap rows) x = _
        rw [j4, k7, hview]
        simp only [hb']
        rw [show rowsView d.heap (r :: rs) = ⟨r.cidr, d.heap.read r.vals⟩ :: rowsView d.heap rs from rfl, lastMatch_cons]
      · have hml : mergeLoop d.heap (nr2, g0.2) (ns.map (fun sub => (⟨sub, g0.2⟩ : HRow)) ++ rows1) = .ok (g0 :: rest) := by
          have hg16 := k1 g0 (by simp)
          rw [mergeLoop_blocks d.heap g0.2 rows1 ns nr2 g0.1 hnr216 hg16
            (addrNum_inj (hnr216.1.trans hg16.1.symm) (by omega)) (fun m hm => (hb m (by simp [hm])).1)
            (by rw [hne2]; exact ht2)]
          exact hm
        have hsp : splitRanges (g0 :: rest) = .ok rows := e2
        unfold MergeNearNetwork
        simp only [hrw, List.map_cons, List.cons_append, hnr2, Res.ok_bind, hml]
        rw [hsp]
        simp only [hrw, List.map_cons, List.cons_append, Res.ok_bind, Res.pure_eq]

end Uip.Operate

/-! ## Disjoint rows stay disjoint -/
namespace Uip.Operate
open Uip Uip.Spec

theorem overlap_iff {a b : IPNet} : Overlap a b ↔ ∃ x, Covers a x ∧ Covers b x := by
  have h1 := netLo_lt (n := a)
  have h2 := netLo_lt (n := b)
  unfold Overlap Covers
  constructor
  · rintro ⟨h3, h4⟩
    exact ⟨max (netLo a) (netLo b), by omega, by omega⟩
  · rintro ⟨x, h3, h4⟩; omega

theorem mergeLoop_disj (h : Heap) (ips : List HRow) : ∀ (prev : Range × Slice), R16 prev.1 →
    (∀ r ∈ ips, WFNet r.cidr) → (∀ r ∈ ips, ∀ x, Covers r.cidr x → ¬ Between prev.1.start prev.1.end_ x) →
    ips.Pairwise (fun a b => ¬ Overlap a.cidr b.cidr) → ∀ gs, mergeLoop h prev ips = .ok gs →
    gs.Pairwise fun a b => ∀ x, ¬ (Between a.1.start a.1.end_ x ∧ Between b.1.start b.1.end_ x) := by
  induction ips with
  | nil =>
    intro prev _ _ _ _ gs e
    injection e with e; subst e; simp
  | cons ip ips ih =>
    intro prev hp hwf hdis hpw gs e
    have hip := hwf ip (by simp)
    have hwf' : ∀ r ∈ ips, WFNet r.cidr := fun r hr => hwf r (by simp [hr])
    obtain ⟨hpw1, hpw2⟩ := List.pairwise_cons.mp hpw
    have opened : ∀ gs, (do
        let nr ← NewRange ip.cidr
        let rest ← mergeLoop h (nr, ip.vals) ips
        return prev :: rest : Res _) = .ok gs →
        gs.Pairwise fun a b => ∀ x, ¬ (Between a.1.start a.1.end_ x ∧ Between b.1.start b.1.end_ x) := by
      intro gs e
      obtain ⟨nr, hnr, h16, hs, he⟩ := newRange_spec hip
      have hb := between_newRange hs he
      obtain ⟨g0, rest, e2, _, _, _, _, _, _, _, k8⟩ := mergeLoop_spec h ips (nr, ip.vals) h16 hwf'
      simp only [hnr, Res.ok_bind, e2, Res.pure_eq] at e
      injection e with e; subst e
      refine List.pairwise_cons.mpr ⟨fun g hg x hx => ?_, ih (nr, ip.vals) h16 hwf' (fun r hr x hx hbx => ?_) hpw2 _ e2⟩
      · rcases (k8 x).mp ⟨g, hg, hx.2⟩ with hh | ⟨r, hr, hh⟩
        · exact hdis ip (by simp) x ((hb x).mp hh) hx.1
        · exact hdis r (by simp [hr]) x hh hx.1
      · exact hpw1 r hr (overlap_iff.mpr ⟨x, (hb x).mp hbx, hx⟩)
    unfold mergeLoop at e
    by_cases hv : h.read prev.2 = h.read ip.vals
    · rw [if_pos hv] at e
      rcases join_spec hp hip with ⟨hj, r', e1, h16, hs, _, hu⟩ | ⟨hnj, e1⟩
      · simp only [e1, Res.ok_bind, if_true] at e
        refine ih (r', prev.2) h16 hwf' (fun r hr x hx hb => ?_) hpw2 gs e
        rcases (hu x).mp hb with hh | hh
        · exact hdis r (by simp [hr]) x hx hh
        · exact hpw1 r hr (overlap_iff.mpr ⟨x, hh, hx⟩)
      · simp only [e1, Res.ok_bind, Bool.false_eq_true, if_false] at e
        exact opened gs e
    · rw [if_neg hv] at e
      exact opened gs e

theorem tiles_pairwise {lo hi : Nat} {l : List IPNet} (ht : Tiles lo l hi) :
    l.Pairwise fun a b => ¬ Overlap a b := by
  induction l generalizing lo with
  | nil => simp
  | cons n l ih =>
    obtain ⟨h1, h2⟩ := ht
    refine List.pairwise_cons.mpr ⟨fun m hm ho => ?_, ih h2⟩
    obtain ⟨x, hx, hy⟩ := overlap_iff.mp ho
    have := ((tiles_covers h2).2 x).mp ⟨m, hm, hy⟩
    unfold Covers at hx; omega

theorem splitRanges_disj (gs : List (Range × Slice)) (hg : ∀ g ∈ gs, R16 g.1)
    (hd : gs.Pairwise fun a b => ∀ x, ¬ (Between a.1.start a.1.end_ x ∧ Between b.1.start b.1.end_ x)) :
    ∀ rows, splitRanges gs = .ok rows → rows.Pairwise fun a b => ¬ Overlap a.cidr b.cidr := by
  induction gs with
  | nil => intro rows e; injection e with e; subst e; simp
  | cons g gs ih =>
    intro rows e
    obtain ⟨blocks, e1, hb, ht⟩ := ipNets_blocks (hg g (by simp))
    have hg' : ∀ x ∈ gs, R16 x.1 := fun x hx => hg x (by simp [hx])
    obtain ⟨rows', e2, k1, k2, _⟩ := splitRanges_spec [] gs hg'
    simp only [splitRanges, e1, e2, Res.ok_bind, Res.pure_eq] at e
    injection e with e; subst e
    obtain ⟨hd1, hd2⟩ := List.pairwise_cons.mp hd
    refine List.pairwise_append.mpr ⟨List.pairwise_map.mpr (tiles_pairwise ht), ih hg' hd2 _ e2, ?_⟩
    intro a ha b hb' ho
    obtain ⟨n, hn, rfl⟩ := List.mem_map.mp ha
    obtain ⟨g', hg', _, hcov⟩ := k2 b hb'
    obtain ⟨x, hx, hy⟩ := overlap_iff.mp ho
    have := ((tiles_covers ht).2 x).mp ⟨n, hn, hx⟩
    exact hd1 g' hg' x ⟨by unfold Between; omega, hcov x hy⟩

/-- MergeNearNetwork keeps disjoint rows disjoint. -/
theorem merge_disjoint (d d' : HData) (hw : ∀ r ∈ d.rows, WFNet r.cidr)
    (hd : d.rows.Pairwise fun a b => ¬ Overlap a.cidr b.cidr) (e : MergeNearNetwork d = .ok d') :
    d'.rows.Pairwise fun a b => ¬ Overlap a.cidr b.cidr := by
  unfold MergeNearNetwork at e
  cases hrows : d.rows with
  | nil => rw [hrows] at e; cases e
  | cons r rs =>
    rw [hrows] at e hw hd
    obtain ⟨nr, hnr, h16, hs, he⟩ := newRange_spec (hw r (by simp))
    have hb := between_newRange hs he
    obtain ⟨hd1, hd2⟩ := List.pairwise_cons.mp hd
    have hw' : ∀ x ∈ rs, WFNet x.cidr := fun x hx => hw x (by simp [hx])
    obtain ⟨g0, rest, e2, k1, _⟩ := mergeLoop_spec d.heap rs (nr, r.vals) h16 hw'
    have hdis := mergeLoop_disj d.heap rs (nr, r.vals) h16 hw'
      (fun x hx y hy hby => hd1 x hx (overlap_iff.mpr ⟨y, (hb y).mp hby, hy⟩)) hd2 _ e2
    simp only [hnr, Res.ok_bind, e2] at e
    obtain ⟨rows, e3, e⟩ := Res.bind_eq_ok.mp e
    injection e with e; subst e
    exact splitRanges_disj _ k1 hdis rows e3

end Uip.Operate
