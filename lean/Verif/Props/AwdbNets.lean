import Verif.Props.Awdb
import Verif.Proof.Awdb.Demo
/-!
# Property C55: Networks enumerates exactly the networks with data

`allNets r fuel stack` is the loop `for n.Next() { ... }` cut after `fuel` rounds (`none`: still running); its result holds
the position of the iterator after each `Next` that returned true, or the error of `n.Err()`.
-/
namespace Uip.Awdb
open Uip Uip.Spec Uip.Spec.Awdb

/-- The network the iterator returns at a position (the record is read at the same time, `Reader.Network`). -/
def NetNode.net (y : NetNode) : IPNet := ⟨y.ip, (CIDRMask y.bit (y.ip.length * 8)).getD []⟩

theorem Network_eq (r : Reader) (y : NetNode) : r.Network y = (r.retrieveData y.pointer >>= fun v => .ok (y.net, v)) := rfl

/-- The addresses of a database: IPv4 addresses, and all addresses if it is an IPv6 database. -/
def Holds (r : Reader) (a : IP) : Prop := ValidIP a ∧ (r.md.ipVersion = 6 ∨ (canon a).length = 4)

instance (r a) : Decidable (Holds r a) := by unfold Holds; infer_instance

theorem networks_start (r : Reader) : ∃ ip, (ip = allIPv6.ip ∨ ip = allIPv4.ip) ∧ ip.length = (if r.md.ipVersion = 6 then 16 else 4) ∧
    r.Networks = .ok [⟨ip, 0, 0⟩] := by
  unfold Reader.Networks Reader.NetworksWithin
  split
  · rename_i h6
    refine ⟨allIPv6.ip, Or.inl rfl, rfl, ?_⟩
    have hm : (maskSize allIPv6.mask).1 = 0 := by decide +kernel
    simp only []
    rw [if_neg (by rintro ⟨_, h⟩; exact absurd h (by decide)), if_neg (by rintro ⟨_, h⟩; exact absurd h (by decide)), hm]
    rfl
  · rename_i h6
    refine ⟨allIPv4.ip, Or.inr rfl, rfl, ?_⟩
    have hm : (maskSize allIPv4.mask).1 = 0 := by decide +kernel
    simp only []
    rw [if_neg (by rintro ⟨h, _⟩; exact h6 h), if_neg (by rintro ⟨h, _⟩; exact h6 h), hm]
    rfl

/-- **C55 (the iteration ends).** Networks can always be started, and the loop ends with a list or an error. -/
theorem C55_ends (r : Reader) : ∃ stack, r.Networks = .ok stack ∧ ∃ out, ∀ fuel ≥ 2 ^ 130, allNets r fuel stack = some out := by
  obtain ⟨ip, _, hl, hn⟩ := networks_start r
  refine ⟨_, hn, collects r [⟨ip, 0, 0⟩], fun fuel hf => allNets_eq r fuel _ ?_⟩
  simp only [weight, left_, hl]
  split <;> omega

theorem net_spec {y : NetNode} (hv : ValidIP y.ip) (hc : Clean y) : WFNet y.net ∧ pfx y.net = y.bit ∧ y.net.ip = y.ip ∧
    netLo y.net = addrNum y.ip ∧ netEnd y.net = addrNum y.ip + 2 ^ (8 * y.ip.length - y.bit) := by
  have hnet : y.net = ⟨y.ip, cidrMaskLoop y.ip.length y.bit⟩ := by
    unfold NetNode.net
    rw [CIDRMask_valid hv hc.1, Option.getD_some]
  have hp : pfx y.net = y.bit := by rw [hnet]; exact pfx_loop hc.1
  refine ⟨?_, hp, rfl, rfl, ?_⟩
  · rw [hnet]
    refine wf_plain hv hc.1 rfl ?_
    rw [← hc.2, List.take_append_drop]
  · unfold netEnd hostBits
    rw [hp]; rfl

theorem path_length {r : Reader} {a : IP} (h : Holds r a) : (path r a).length = if r.md.ipVersion = 6 then 16 else 4 := by
  unfold path
  rcases canon_length h.1 with hl | hl
  · split
    · rw [List.length_append, List.length_replicate, hl]
    · rw [List.nil_append, hl]
  · split
    · rw [List.length_append, List.length_replicate, hl]
    · rename_i h6
      rcases h.2 with h' | h'
      · exact absurd h' h6
      · rw [List.nil_append, h']

theorem inside_path {r : Reader} {a : IP} (h : Holds r a) {y : NetNode} (hv : ValidIP y.ip) (hc : Clean y)
    (hl : y.ip.length = if r.md.ipVersion = 6 then 16 else 4) :
    Inside y.net a ↔ (bits (path r a)).take y.bit = (bits y.ip).take y.bit := by
  have hs := net_spec hv hc
  have hp : List.replicate (y.ip.length - (canon a).length) 0 ++ canon a = path r a := by
    unfold path
    split
    · rename_i h6; rw [hl, if_pos h6]
    · rename_i h6
      rcases h.2 with h' | h'
      · exact absurd h' h6
      · rw [hl, if_neg h6, h']; rfl
  unfold Inside InNet
  rw [hs.2.1, hs.2.2.1, hp]
  constructor
  · exact fun h => h.2
  · exact fun h' => ⟨by rw [path_length h, hl], h'⟩

theorem covers_of_bits {y : NetNode} (hv : ValidIP y.ip) (hc : Clean y) {q : IP} (hl : q.length = y.ip.length)
    (hpt : (bits q).take y.bit = (bits y.ip).take y.bit) : Covers y.net (addrNum q) := by
  have hns := net_spec hv hc
  unfold Covers
  rw [hns.2.2.2.1, hns.2.2.2.2]
  have h1 : val q = bitsNat ((bits y.ip).take y.bit) * 2 ^ (8 * y.ip.length - y.bit) + bitsNat ((bits q).drop y.bit) := by
    rw [← bitsNat_bits]
    conv => lhs; rw [← List.take_append_drop y.bit (bits q)]
    rw [bitsNat_append, hpt, List.length_drop, bits_length, hl]
  have h2 : val y.ip = bitsNat ((bits y.ip).take y.bit) * 2 ^ (8 * y.ip.length - y.bit) := by
    rw [← bitsNat_bits, ← List.take_append_drop y.bit (bits y.ip), bitsNat_append, hc.2, List.length_replicate, bitsNat_replicate_false,
      List.take_left' (by rw [List.length_take, bits_length]; have := hc.1; omega), Nat.add_zero]
  have h3 := bitsNat_lt ((bits q).drop y.bit)
  rw [List.length_drop, bits_length, hl] at h3
  unfold addrNum
  rw [hl]
  split <;> omega

theorem nextNet_mono (r : Reader) : ∀ (fuel k : Nat) (xs : List NetNode) (o : Res (Option NetNode × List NetNode)),
    nextNet r fuel xs = some o → nextNet r (fuel + k) xs = some o := by
  intro fuel
  induction fuel with
  | zero => intro k xs o h; simp [nextNet] at h
  | succ fuel ih =>
    intro k xs o h
    rw [Nat.add_right_comm]
    cases xs with
    | nil => exact h
    | cons x xs =>
      rw [nextNet] at h ⊢
      split at h
      · exact h
      · exact ih _ _ _ h
      · exact h
      · exact h

theorem allNets_mono (r : Reader) : ∀ (fuel k : Nat) (xs : List NetNode) (o : Res (List NetNode)),
    allNets r fuel xs = some o → allNets r (fuel + k) xs = some o := by
  intro fuel
  induction fuel with
  | zero => intro k xs o h; simp [allNets] at h
  | succ fuel ih =>
    intro k xs o h
    rw [Nat.add_right_comm]
    rw [allNets] at h ⊢
    cases hn : nextNet r fuel xs with
    | none => rw [hn] at h; simp at h
    | some p =>
      rw [hn] at h
      rw [nextNet_mono r fuel k xs p hn]
      split at h
      · rename_i heq; cases heq
      · exact h
      · exact h
      · exact h
      · rename_i heq
        injection heq with heq
        subst heq
        rw [Option.map_eq_some_iff] at h ⊢
        obtain ⟨rest, h1, h2⟩ := h
        exact ⟨rest, ih k _ _ h1, h2⟩

/-- **C55.** If the iteration over Networks ends without error, the networks it yields are well-formed and come in
address order without overlap (so none twice); for every address of the database,
* if it lies in a yielded network, looking it up gives the record the iterator gives there (or the same failure to read
  the record), and the same network unless the address is IPv4 in an IPv6 database;
* if it lies in none, looking it up succeeds without a record;
* if looking it up gives a record, it lies in exactly one yielded network. -/
theorem C55_networks (data : Bytes) (r : Reader) (ho : FromBytes data = .ok r) (stack : List NetNode) (hn : r.Networks = .ok stack)
    (fuel : Nat) (L : List NetNode) (h : allNets r fuel stack = some (.ok L)) :
    (∀ y ∈ L, WFNet y.net) ∧ L.Pairwise (fun y z => netEnd y.net ≤ netLo z.net) ∧
    ∀ a, Holds r a →
      (∀ y ∈ L, Inside y.net a → ∃ net, r.LookupNetwork a = (r.Network y >>= fun x => .ok (net, some x.2)) ∧
        ((canon a).length = y.ip.length → net = y.net)) ∧
      ((∀ y ∈ L, ¬ Inside y.net a) → ∃ net, r.LookupNetwork a = .ok (net, none)) ∧
      ((∃ net v, r.LookupNetwork a = .ok (net, some v)) →
        ∃ y ∈ L, Inside y.net a ∧ ∀ z ∈ L, Inside z.net a → z = y) := by
  have hs := (opened ho).start
  obtain ⟨ip, hip, hl, hn'⟩ := networks_start r
  rw [hn] at hn'
  injection hn' with hn'
  subst hn'
  have hbig := allNets_eq r (fuel + 2 ^ 130) [⟨ip, 0, 0⟩] (by
    simp only [weight, left_, hl]
    split <;> omega)
  have hL : collects r [⟨ip, 0, 0⟩] = .ok L := by
    have := allNets_mono r fuel (2 ^ 130) _ _ h
    rw [hbig] at this
    injection this
  rw [collects] at hL
  obtain ⟨L', hL1, hL⟩ := Res.bind_eq_ok.mp hL
  rw [collects, Res.ok_bind, List.append_nil] at hL
  injection hL with hL
  subst hL
  have hclean : Clean ⟨ip, 0, 0⟩ := by
    refine ⟨Nat.zero_le _, ?_⟩
    rcases hip with rfl | rfl <;> decide +kernel
  have hg := collect_good r (if r.md.ipVersion = 6 then 16 else 4) _ ⟨ip, 0, 0⟩ L' hl hclean (by simp [left_, hl]) hL1
  have hlv : ∀ y ∈ L', ValidIP y.ip ∧ Clean y ∧ y.ip.length = (if r.md.ipVersion = 6 then 16 else 4) := by
    intro y hy
    obtain ⟨h1, h2, _⟩ := hg.each y hy
    refine ⟨?_, h2, h1⟩
    unfold ValidIP; rw [h1]; split <;> simp
  have hnum : ∀ y ∈ L', ∀ z ∈ L', addrNum z.ip = addrNum y.ip + val z.ip - val y.ip ∧ val y.ip ≤ addrNum y.ip := by
    intro y hy z hz
    unfold addrNum
    rw [(hlv y hy).2.2, (hlv z hz).2.2]
    by_cases h6 : r.md.ipVersion = 6
    · simp only [if_pos h6]; rw [if_neg (by omega), if_neg (by omega)]; omega
    · simp only [if_neg h6, if_true]; omega
  have hpw : L'.Pairwise (fun y z => netEnd y.net ≤ netLo z.net) := by
    refine hg.order.imp_of_mem ?_
    intro y z hy hz hyz
    rw [(net_spec (hlv y hy).1 (hlv y hy).2.1).2.2.2.2, (net_spec (hlv z hz).1 (hlv z hz).2.1).2.2.2.1, (hlv y hy).2.2]
    have := hnum y hy z hz
    omega
  refine ⟨fun y hy => (net_spec (hlv y hy).1 (hlv y hy).2.1).1, hpw, fun a ha => ?_⟩
  have h4 : ¬ ((canon a).length = 16 ∧ r.md.ipVersion = 4) := by
    rintro ⟨h1, h2⟩
    rcases ha.2 with h' | h' <;> omega
  have hpl : (bits (path r a)).length = 8 * (if r.md.ipVersion = 6 then 16 else 4) := by rw [bits_length, path_length ha]
  have hin : ∀ y ∈ L', Inside y.net a → ∃ net, r.LookupNetwork a = (r.Network y >>= fun x => .ok (net, some x.2)) ∧
      ((canon a).length = y.ip.length → net = y.net) := by
    intro y hy hin
    obtain ⟨hv, hc, hyl⟩ := hlv y hy
    have hpt := (inside_path ha hv hc hyl).mp hin
    obtain ⟨_, hw⟩ := hg.under y hy _ hpl hpt
    simp only [List.drop_zero] at hw
    obtain ⟨net, h1, h2, h3, h5⟩ := lookup_path hs ha.1 h4 hw
    have hlt := (hg.each y hy).2.2
    refine ⟨net, ?_, fun hcl => ?_⟩
    · rw [h1, Network_eq]
      unfold found
      rw [if_neg (by omega), if_neg (by omega), Res.bind_assoc]
      rfl
    · have hpc : (path r a).length = (canon a).length := by rw [path_length ha, hcl, hyl]
      rw [h5 hpc]
      have hpa : path r a = canon a := by
        unfold path at hpc ⊢
        split
        · rename_i h6
          rw [if_pos h6, List.length_append, List.length_replicate] at hpc
          rw [show 16 - (canon a).length = 0 by omega]; rfl
        · rfl
      rw [hpa] at hpt
      obtain ⟨b, hb1, hb2, hb3⟩ := cidr_plain (r := r) (q := canon a) (norm_valid ha.1) (k := y.bit) (by rw [hcl]; exact hc.1)
        (by rintro ⟨h6, hq, _⟩; rw [hcl, hyl, if_pos h6] at hq; omega)
      rw [hb1]
      unfold NetNode.net
      rw [CIDRMask_valid hv hc.1, Option.getD_some]
      have : b = y.ip := by
        refine bits_inj (by omega) ?_
        rw [hb3, hpt, ← List.take_append_drop y.bit (bits y.ip), List.take_left' (by rw [List.length_take, bits_length]; have := hc.1; omega), hc.2, hcl]
      rw [this, hcl]
  have hout : (∀ y ∈ L', ¬ Inside y.net a) → ∃ net, r.LookupNetwork a = .ok (net, none) := by
    intro hno
    rcases hg.rest _ hpl (by simp) with ⟨y, hy, hpt⟩ | ⟨k, hw⟩
    · obtain ⟨hv, hc, hyl⟩ := hlv y hy
      exact absurd ((inside_path ha hv hc hyl).mpr hpt) (hno y hy)
    · simp only [List.drop_zero] at hw
      obtain ⟨net, h1, _⟩ := lookup_path hs ha.1 h4 hw
      refine ⟨net, ?_⟩
      rw [h1]
      unfold found
      rw [if_neg (by omega), if_pos rfl]
  refine ⟨hin, hout, ?_⟩
  rintro ⟨net, v, hlk⟩
  apply Classical.byContradiction
  intro hno
  have hex : ∃ y ∈ L', Inside y.net a := by
    apply Classical.byContradiction
    intro hne
    obtain ⟨net', h'⟩ := hout (fun y hy hi => hne ⟨y, hy, hi⟩)
    rw [hlk] at h'
    injection h' with h'
    injection h' with _ h'
    cases h'
  obtain ⟨y, hy, hyi⟩ := hex
  refine hno ⟨y, hy, hyi, fun z hz hzi => ?_⟩
  obtain ⟨i, hi, hei⟩ := List.getElem_of_mem hy
  obtain ⟨j, hj, hej⟩ := List.getElem_of_mem hz
  -- both hold the number of the padded address
  have hcov : ∀ y ∈ L', Inside y.net a → Covers y.net (addrNum (path r a)) := by
    intro y hy hi
    obtain ⟨hv, hc, hyl⟩ := hlv y hy
    have hns := net_spec hv hc
    have hpt := (inside_path ha hv hc hyl).mp hi
    have hpl' : (path r a).length = y.ip.length := by rw [path_length ha, hyl]
    exact (covers_of_bits hv hc hpl' hpt)
  have c1 := hcov y hy hyi
  have c2 := hcov z hz hzi
  rcases Nat.lt_trichotomy i j with hlt | heq | hgt
  · have := List.pairwise_iff_getElem.mp hpw i j hi hj hlt
    rw [hei, hej] at this
    unfold Covers at c1 c2; omega
  · subst heq; rw [← hei, ← hej]
  · have := List.pairwise_iff_getElem.mp hpw j i hj hi hgt
    rw [hei, hej] at this
    unfold Covers at c1 c2; omega

/-- The networks of an IPv6 file: `::/96` and `8000::/1`. -/
def demo6Reader : Reader := ⟨demo6.bytes.length, treeBytes 28 demo6.nodes, demo6.data, demo6.md, 112, 96⟩

set_option maxRecDepth 100000 in
example : FromBytes demo6.bytes = .ok demo6Reader ∧ demo6Reader.Networks = .ok [⟨List.replicate 16 0, 0, 0⟩] ∧
    allNets demo6Reader 1000 [⟨List.replicate 16 0, 0, 0⟩] =
      some (.ok [⟨List.replicate 16 0, 96, 112⟩, ⟨0x80 :: List.replicate 15 0, 1, 112⟩]) := by decide +kernel

end Uip.Awdb
