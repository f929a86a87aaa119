import Verif.Props.AwdbNets
import Verif.Props.AwdbFile
/-!
# Property C82: NetworksWithin enumerates the networks with data inside a network
-/
namespace Uip.Awdb
open Uip Uip.Spec Uip.Spec.Awdb

/-- What an enumeration below `n` finds, in terms of paths in the tree. -/
structure Found (r : Reader) (len : Nat) (n : IPNet) (L : List NetNode) : Prop where
  each : ∀ y ∈ L, y.ip.length = len ∧ y.bit ≤ 8 * len ∧ r.md.nodeCount < y.pointer
  under : ∀ y ∈ L, ∀ p : List Bool, p.length = 8 * len → p.take y.bit = (bits y.ip).take y.bit →
    walk r p 0 0 = .ok (y.pointer, y.bit)
  rest : ∀ p : List Bool, p.length = 8 * len → p.take (pfx n) = (bits n.ip).take (pfx n) →
    (∃ y ∈ L, p.take y.bit = (bits y.ip).take y.bit) ∨ ∃ k, walk r p 0 0 = .ok (r.md.nodeCount, k)

theorem within_start {r : Reader} {n : IPNet} (hn : WFNet n) (hl : n.ip.length = if r.md.ipVersion = 6 then 16 else 4) :
    r.NetworksWithin n = (walk r ((bits n.ip).take (pfx n)) 0 0 >>= fun x => .ok [⟨n.ip, x.2, x.1⟩]) := by
  unfold Reader.NetworksWithin
  have h6 : ¬ (r.md.ipVersion = 6 ∧ n.ip.length = 4) := by
    rintro ⟨h1, h2⟩; rw [if_pos h1] at hl; omega
  obtain ⟨⟨hv, hml, hm⟩, _⟩ := hn
  simp only []
  rw [if_neg h6, if_neg h6, maskSize_of_IsMask hm]
  unfold Reader.traverseTree
  rw [traverse_walk _ _ _ _ _ (by have := hm.1; omega), List.drop_zero, Nat.add_zero]
  rfl

/-- The enumeration below a well-formed network, for the start position found. -/
theorem within_found {r : Reader} {n : IPNet} (hn : WFNet n) {nd k : Nat}
    (hw : walk r ((bits n.ip).take (pfx n)) 0 0 = .ok (nd, k)) {L : List NetNode}
    (h : collect r (left_ ⟨n.ip, k, nd⟩) ⟨n.ip, k, nd⟩ = .ok L) :
    Found r n.ip.length n L ∧
      ((k = pfx n ∧ Clean ⟨n.ip, k, nd⟩ ∧ Good r n.ip.length ⟨n.ip, k, nd⟩ L) ∨
       (k < pfx n ∧ L = if nd = r.md.nodeCount then [] else [⟨n.ip, k, nd⟩])) := by
  obtain ⟨⟨hv, hml, hm⟩, hal⟩ := hn
  have hpf : pfx n ≤ 8 * n.ip.length := by have := hm.1; omega
  have htl : ((bits n.ip).take (pfx n)).length = pfx n := by rw [List.length_take, bits_length]; omega
  obtain ⟨_, hb2, hb3⟩ := walk_bounds _ _ _ _ _ hw
  rw [htl, Nat.zero_add] at hb2 hb3
  by_cases hk : k = pfx n
  · subst hk
    have hclean : Clean ⟨n.ip, pfx n, nd⟩ := ⟨hpf, hal⟩
    have hg := collect_good r n.ip.length _ ⟨n.ip, pfx n, nd⟩ L rfl hclean rfl h
    have join : ∀ p : List Bool, p.length = 8 * n.ip.length → p.take (pfx n) = (bits n.ip).take (pfx n) →
        walk r p 0 0 = walk r (p.drop (pfx n)) nd (pfx n) := by
      intro p hp hpt
      have := walk_append (r := r) ((bits n.ip).take (pfx n)) (p.drop (pfx n)) 0 0 nd (by rw [htl, Nat.zero_add]; exact hw)
      rw [htl, Nat.zero_add, ← hpt, List.take_append_drop] at this
      exact this
    refine ⟨⟨fun y hy => ?_, fun y hy p hp hpt => ?_, fun p hp hpt => ?_⟩, Or.inl ⟨rfl, hclean, hg⟩⟩
    · obtain ⟨h1, h2, h3⟩ := hg.each y hy
      exact ⟨h1, by rw [← h1]; exact h2.1, h3⟩
    · obtain ⟨h1, h2⟩ := hg.under y hy p hp hpt
      rw [join p hp h1]; exact h2
    · rcases hg.rest p hp hpt with h1 | ⟨k', h1⟩
      · exact Or.inl h1
      · exact Or.inr ⟨k', by rw [join p hp hpt]; exact h1⟩
  · have hlt : k < pfx n := by omega
    have hnd := hb3 hlt
    rw [collect_done hnd] at h
    injection h with h
    simp only [] at h
    have hwalk : ∀ p : List Bool, p.length = 8 * n.ip.length → p.take k = (bits n.ip).take k → walk r p 0 0 = .ok (nd, k) := by
      intro p hp hpt
      have h1 : walk r (p.take (pfx n)) 0 0 = .ok (nd, k) := by
        refine walk_prefix _ _ _ _ _ _ hw (by rw [htl, List.length_take]; omega) ?_
        rw [Nat.sub_zero, List.take_take, List.take_take, Nat.min_eq_left (by omega), hpt]
      have := walk_append_stop _ (p.drop (pfx n)) _ _ _ _ h1 hnd
      rwa [List.take_append_drop] at this
    refine ⟨⟨fun y hy => ?_, fun y hy p hp hpt => ?_, fun p hp hpt => ?_⟩, Or.inr ⟨hlt, h.symm⟩⟩
    · subst h
      split at hy
      · simp at hy
      · rw [List.mem_singleton] at hy; subst hy
        exact ⟨rfl, by simp only []; omega, by simp only []; omega⟩
    · subst h
      split at hy
      · simp at hy
      · rw [List.mem_singleton] at hy; subst hy
        exact hwalk p hp hpt
    · have hpk : p.take k = (bits n.ip).take k := by
        have := congrArg (List.take k) hpt
        rwa [List.take_take, List.take_take, Nat.min_eq_left (by omega)] at this
      subst h
      split
      · rename_i he
        exact Or.inr ⟨k, by rw [hwalk p hp hpk, he]⟩
      · exact Or.inl ⟨_, List.mem_singleton.mpr rfl, hpk⟩

theorem inside_net {r : Reader} {a : IP} (h : Holds r a) {n : IPNet} (hl : n.ip.length = if r.md.ipVersion = 6 then 16 else 4) :
    Inside n a ↔ (bits (path r a)).take (pfx n) = (bits n.ip).take (pfx n) := by
  have hp : List.replicate (n.ip.length - (canon a).length) 0 ++ canon a = path r a := by
    unfold path
    split
    · rename_i h6; rw [hl, if_pos h6]
    · rename_i h6
      rcases h.2 with h' | h'
      · exact absurd h' h6
      · rw [hl, if_neg h6, h']; rfl
  unfold Inside InNet
  rw [hp]
  exact ⟨fun h => h.2, fun h' => ⟨by rw [path_length h, hl], h'⟩⟩

theorem net_pfx {y : NetNode} (hv : ValidIP y.ip) (hb : y.bit ≤ 8 * y.ip.length) : pfx y.net = y.bit ∧ y.net.ip = y.ip := by
  have hnet : y.net = ⟨y.ip, cidrMaskLoop y.ip.length y.bit⟩ := by
    unfold NetNode.net
    rw [CIDRMask_valid hv hb, Option.getD_some]
  exact ⟨by rw [hnet]; exact pfx_loop hb, rfl⟩

/-- The result of the loop, whatever the number of rounds it was given. -/
theorem allNets_collect {r : Reader} {x : NetNode} (hx : x.ip.length ≤ 16) {fuel : Nat} {L : List NetNode}
    (h : allNets r fuel [x] = some (.ok L)) : collect r (left_ x) x = .ok L := by
  have hbig := allNets_eq r (fuel + 2 ^ 130) [x] (by
    simp only [weight, left_]
    have : 2 ^ (8 * x.ip.length - x.bit + 1) ≤ 2 ^ 129 := Nat.pow_le_pow_right (by omega) (by omega)
    omega)
  have hL : collects r [x] = .ok L := by
    have := allNets_mono r fuel (2 ^ 130) _ _ h
    rw [hbig] at this
    injection this
  rw [collects] at hL
  obtain ⟨L', hL1, hL⟩ := Res.bind_eq_ok.mp hL
  rw [collects, Res.ok_bind, List.append_nil] at hL
  injection hL with hL
  subst hL
  exact hL1

/-- **C82 (networks of the family of the database).** If the iteration over NetworksWithin of a network ends without error:
* either every yielded network is well-formed and lies inside the given one, in address order without overlap, or exactly one
  network is yielded, which contains the given one: it has the address given and a shorter prefix (so host bits may be set);
* for every address of the given network: if it lies in a yielded network, looking it up gives the record the iterator gives
  there (or the same failure to read the record); if it lies in none, looking it up succeeds without a record; and if looking
  it up gives a record it lies in exactly one yielded network. -/
theorem C82_within (data : Bytes) (r : Reader) (ho : FromBytes data = .ok r) (n : IPNet) (hn : WFNet n)
    (hl : n.ip.length = if r.md.ipVersion = 6 then 16 else 4) (stack : List NetNode) (hst : r.NetworksWithin n = .ok stack)
    (fuel : Nat) (L : List NetNode) (h : allNets r fuel stack = some (.ok L)) :
    ((∀ y ∈ L, WFNet y.net ∧ netLo n ≤ netLo y.net ∧ netEnd y.net ≤ netEnd n) ∧
        L.Pairwise (fun y z => netEnd y.net ≤ netLo z.net) ∨
      ∃ y, L = [y] ∧ y.net.ip = n.ip ∧ pfx y.net < pfx n) ∧
    ∀ a, Holds r a → Inside n a →
      (∀ y ∈ L, Inside y.net a → ∃ net, r.LookupNetwork a = (r.Network y >>= fun x => .ok (net, some x.2))) ∧
      ((∀ y ∈ L, ¬ Inside y.net a) → ∃ net, r.LookupNetwork a = .ok (net, none)) ∧
      ((∃ net v, r.LookupNetwork a = .ok (net, some v)) → ∃ y ∈ L, Inside y.net a ∧ ∀ z ∈ L, Inside z.net a → z = y) := by
  have hs := (opened ho).start
  rw [within_start hn hl] at hst
  obtain ⟨⟨nd, k⟩, hw, hst⟩ := Res.bind_eq_ok.mp hst
  injection hst with hst
  subst hst
  have hcol := allNets_collect (x := ⟨n.ip, k, nd⟩) (by show n.ip.length ≤ 16; rw [hl]; split <;> omega) h
  obtain ⟨hf, hcase⟩ := within_found hn hw hcol
  have hv : ∀ y ∈ L, ValidIP y.ip ∧ y.ip.length = (if r.md.ipVersion = 6 then 16 else 4) ∧ pfx y.net = y.bit ∧ y.net.ip = y.ip := by
    intro y hy
    obtain ⟨h1, h2, _⟩ := hf.each y hy
    have hvy : ValidIP y.ip := by unfold ValidIP; rw [h1, hl]; split <;> simp
    exact ⟨hvy, by rw [h1, hl], net_pfx hvy (by rw [h1]; exact h2)⟩
  have hord : (∀ y ∈ L, WFNet y.net ∧ netLo n ≤ netLo y.net ∧ netEnd y.net ≤ netEnd n) ∧
        L.Pairwise (fun y z => netEnd y.net ≤ netLo z.net) ∨
      (L = [] ∨ ∃ y, L = [y] ∧ y.net.ip = n.ip ∧ pfx y.net < pfx n) := by
    rcases hcase with ⟨hk, hc, hg⟩ | ⟨hlt, hL⟩
    · left
      have hcl : ∀ y ∈ L, Clean y := fun y hy => (hg.each y hy).2.1
      have hnum : ∀ y ∈ L, addrNum y.ip = addrNum n.ip + val y.ip - val n.ip ∧ val n.ip ≤ addrNum n.ip := by
        intro y hy
        unfold addrNum
        rw [(hv y hy).2.1, hl]
        by_cases h6 : r.md.ipVersion = 6
        · simp only [if_pos h6]; rw [if_neg (by omega), if_neg (by omega)]; omega
        · simp only [if_neg h6, if_true]; omega
      refine ⟨fun y hy => ?_, ?_⟩
      · obtain ⟨w1, w2, w3, w4, w5⟩ := net_spec (hv y hy).1 (hcl y hy)
        obtain ⟨b1, b2⟩ := hg.bounds y hy
        simp only [] at b1 b2
        have hnm := hnum y hy
        refine ⟨w1, ?_, ?_⟩
        · rw [w4]; unfold netLo; omega
        · rw [w5, (hg.each y hy).1]
          unfold netEnd hostBits
          subst hk
          omega
      · refine hg.order.imp_of_mem fun {y z} hy hz hyz => ?_
        rw [(net_spec (hv y hy).1 (hcl y hy)).2.2.2.2, (net_spec (hv z hz).1 (hcl z hz)).2.2.2.1, (hg.each y hy).1]
        have h1 := hnum y hy
        have h2 := hnum z hz
        have h3 := (hg.bounds y hy).1
        have h4 := (hg.bounds z hz).1
        simp only [] at h3 h4
        omega
    · right
      split at hL
      · exact .inl hL
      · refine .inr ⟨_, hL, rfl, ?_⟩
        have := (hv ⟨n.ip, k, nd⟩ (by rw [hL]; simp)).2.2.1
        rw [this]; exact hlt
  have huniq : ∀ a, Holds r a → ∀ y ∈ L, Inside y.net a → ∀ z ∈ L, Inside z.net a → z = y := by
    intro a ha y hy hyi z hz hzi
    rcases hcase with ⟨hk, hc, hg⟩ | ⟨hlt, hL⟩
    · have hord' := hord
      obtain ⟨i, hi, hei⟩ := List.getElem_of_mem hy
      obtain ⟨j, hj, hej⟩ := List.getElem_of_mem hz
      have hcov : ∀ y ∈ L, Inside y.net a → Covers y.net (addrNum (path r a)) := by
        intro y hy hi
        have hc := (hg.each y hy).2.1
        have hpt := (inside_path ha (hv y hy).1 hc (hv y hy).2.1).mp hi
        exact covers_of_bits (hv y hy).1 hc (by rw [path_length ha, (hv y hy).2.1]) hpt
      have c1 := hcov y hy hyi
      have c2 := hcov z hz hzi
      have hpw : L.Pairwise (fun y z => netEnd y.net ≤ netLo z.net) := by
        rcases hord' with ⟨_, h⟩ | rfl | ⟨y, rfl, _⟩
        · exact h
        · exact List.Pairwise.nil
        · exact List.pairwise_singleton _ _
      rcases Nat.lt_trichotomy i j with hlt | heq | hgt
      · have := List.pairwise_iff_getElem.mp hpw i j hi hj hlt
        rw [hei, hej] at this
        unfold Covers at c1 c2; omega
      · subst heq; rw [← hei, ← hej]
      · have := List.pairwise_iff_getElem.mp hpw j i hj hi hgt
        rw [hei, hej] at this
        unfold Covers at c1 c2; omega
    · split at hL
      · subst hL; simp at hy
      · subst hL; rw [List.mem_singleton] at hy hz; rw [hy, hz]
  refine ⟨?_, fun a ha hin => ?_⟩
  · rcases hord with h | rfl | h
    · exact .inl h
    · exact .inl ⟨by simp, List.Pairwise.nil⟩
    · exact .inr h
  have h4 : ¬ ((canon a).length = 16 ∧ r.md.ipVersion = 4) := by
    rintro ⟨h1, h2⟩
    rcases ha.2 with h' | h' <;> omega
  have hpl : (bits (path r a)).length = 8 * n.ip.length := by rw [bits_length, path_length ha, hl]
  have hfound : ∀ y ∈ L, Inside y.net a → ∃ net, r.LookupNetwork a = (r.Network y >>= fun x => .ok (net, some x.2)) := by
    intro y hy hyi
    obtain ⟨hvy, hyl, hp, hip⟩ := hv y hy
    have hpt := (inside_net ha (n := y.net) (by rw [hip]; exact hyl)).mp hyi
    rw [hp, hip] at hpt
    obtain ⟨net, h1, _⟩ := lookup_path hs ha.1 h4 (hf.under y hy _ hpl hpt)
    have hlt := (hf.each y hy).2.2
    refine ⟨net, ?_⟩
    rw [h1, Network_eq]
    unfold found
    rw [if_neg (by omega), if_neg (by omega), Res.bind_assoc]
    rfl
  have hnone : (∀ y ∈ L, ¬ Inside y.net a) → ∃ net, r.LookupNetwork a = .ok (net, none) := by
    intro hno
    rcases hf.rest _ hpl ((inside_net ha hl).mp hin) with ⟨y, hy, hpt⟩ | ⟨k', hw'⟩
    · obtain ⟨hvy, hyl, hp, hip⟩ := hv y hy
      refine absurd ((inside_net ha (n := y.net) (by rw [hip]; exact hyl)).mpr ?_) (hno y hy)
      rw [hp, hip]; exact hpt
    · obtain ⟨net, h1, _⟩ := lookup_path hs ha.1 h4 hw'
      refine ⟨net, ?_⟩
      rw [h1]
      unfold found
      rw [if_neg (by omega), if_pos rfl]
  refine ⟨hfound, hnone, ?_⟩
  rintro ⟨net, v, hlk⟩
  have hex : ∃ y ∈ L, Inside y.net a := by
    apply Classical.byContradiction
    intro hne
    obtain ⟨net', h'⟩ := hnone (fun y hy hi => hne ⟨y, hy, hi⟩)
    rw [hlk] at h'
    injection h' with h'
    injection h' with _ h'
    cases h'
  obtain ⟨y, hy, hyi⟩ := hex
  exact ⟨y, hy, hyi, huniq a ha y hy hyi⟩

/-- **C82 (the iteration ends).** If the tree can be followed to the network, the loop ends with a list or an error. -/
theorem C82_ends (r : Reader) (n : IPNet) (hn : ValidIP n.ip) (stack : List NetNode) (hst : r.NetworksWithin n = .ok stack) :
    ∃ out, ∀ fuel ≥ 2 ^ 130, allNets r fuel stack = some out := by
  unfold Reader.NetworksWithin at hst
  simp only [] at hst
  obtain ⟨⟨p, b⟩, _, h⟩ := Res.bind_eq_ok.mp hst
  injection h with h
  subst h
  refine ⟨_, fun fuel hf => allNets_eq r fuel _ ?_⟩
  simp only [weight, left_]
  generalize hq : (if r.md.ipVersion = 6 ∧ n.ip.length = 4 then (To16 n.ip).getD [] else n.ip) = q
  have hql : q.length ≤ 16 := by
    subst hq
    split
    · rename_i h; rw [To16_4 h.2, Option.getD_some]; simp [v4InV6Prefix, h.2]
    · rcases hn with h | h <;> omega
  have : 2 ^ (8 * q.length - b + 1) ≤ 2 ^ 129 := Nat.pow_le_pow_right (by omega) (by omega)
  omega

/-- **C82 is false of IPv4 networks in an IPv6 database**: there the iteration is over the network below `::ffff:0:0/96`, … -/
theorem C82_ipv4_in_ipv6 (r : Reader) (h6 : r.md.ipVersion = 6) (a b c d : UInt8) (m : Nat) (hm : m ≤ 32) :
    r.NetworksWithin ⟨[a, b, c, d], (CIDRMask m 32).getD []⟩ =
      r.NetworksWithin ⟨[0, 0, 0, 0, 0, 0, 0, 0, 0, 0, 0xFF, 0xFF, a, b, c, d], (CIDRMask (96 + m : Nat) 128).getD []⟩ := by
  have m32 : (maskSize (cidrMaskLoop 4 m)).1 = m := by rw [maskSize_of_IsMask (IsMask_cidrMaskLoop 4 m (by omega))]
  have m128 : (maskSize (cidrMaskLoop 16 (96 + m))).1 = 96 + m := by
    rw [maskSize_of_IsMask (IsMask_cidrMaskLoop 16 (96 + m) (by omega))]
  rw [CIDRMask_32 hm, CIDRMask_128 (by omega), Option.getD_some, Option.getD_some]
  unfold Reader.NetworksWithin
  have e1 : r.md.ipVersion = 6 ∧ ([a, b, c, d] : IP).length = 4 := ⟨h6, rfl⟩
  have e2 : ¬ (r.md.ipVersion = 6 ∧ ([0, 0, 0, 0, 0, 0, 0, 0, 0, 0, 0xFF, 0xFF, a, b, c, d] : IP).length = 4) := by
    rintro ⟨_, h⟩; cases h
  simp only [if_pos e1, if_neg e2]
  rw [m32, m128, To16_4 (by rfl), Option.getD_some, Nat.add_comm m 96]
  rfl

set_option maxRecDepth 100000 in
/-- … while the addresses of the network are looked up below `::/96`: `demo6` has a record for every IPv4 address, an
iteration over NetworksWithin of `0.0.0.0/0` finds no network. -/
theorem C82_not_ipv4 : FromBytes demo6.bytes = .ok demo6Reader ∧
    (∃ stack, demo6Reader.NetworksWithin allIPv4 = .ok stack ∧ allNets demo6Reader 1000 stack = some (.ok [])) ∧
    (∃ net v, demo6Reader.LookupNetwork [1, 2, 3, 4] = .ok (net, some v)) := by
  have hop : FromBytes demo6.bytes = .ok demo6Reader := by decide +kernel
  refine ⟨hop, ⟨[⟨v4InV6Prefix ++ [0, 0, 0, 0], 81, 96⟩], by decide +kernel, by decide +kernel⟩, ?_⟩
  obtain ⟨r, h1, _, h2, _⟩ := C63_lookup demo6 demo6_ok [1, 2, 3, 4] (by decide +kernel) 112 96 (by decide +kernel)
  obtain ⟨net, h3, _, _, _⟩ := h2 0 _ _ demo6_stored (by decide +kernel)
  rw [hop] at h1
  rw [Res.ok.inj h1]
  exact ⟨net, _, h3⟩

/-! Non-vacuity: inside `::/95` and inside `8000::/2` of `demo6`; the second lies in the network `8000::/1` of the database. -/
set_option maxRecDepth 100000 in
example : demo6Reader.NetworksWithin ⟨List.replicate 16 0, cidrMaskLoop 16 95⟩ = .ok [⟨List.replicate 16 0, 95, 95⟩] ∧
    allNets demo6Reader 1000 [⟨List.replicate 16 0, 95, 95⟩] = some (.ok [⟨List.replicate 16 0, 96, 112⟩]) ∧
    demo6Reader.NetworksWithin ⟨0xC0 :: List.replicate 15 0, cidrMaskLoop 16 2⟩ = .ok [⟨0xC0 :: List.replicate 15 0, 1, 112⟩] ∧
    allNets demo6Reader 1000 [⟨0xC0 :: List.replicate 15 0, 1, 112⟩] = some (.ok [⟨0xC0 :: List.replicate 15 0, 1, 112⟩]) := by
  decide +kernel

end Uip.Awdb
