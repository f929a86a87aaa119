import Verif.Proof.Awdb.Walk
/-!
# Lookups: the answer holds for the whole network
-/
namespace Uip.Awdb
open Uip Uip.Spec Uip.Spec.Awdb

/-- What `FromBytes` guarantees. -/
structure Opened (r : Reader) : Prop where
  start : StartOK r
  size : r.md.recordSize = 24 ∨ r.md.recordSize = 28 ∨ r.md.recordSize = 32
  nodes : r.nodes.length = r.md.nodeCount * r.md.recordSize % 2 ^ 64 / 4

theorem goSlice_ok {b s : Bytes} {lo hi : Nat} (h : goSlice b lo hi = .ok s) : s.length = hi - lo ∧ hi ≤ b.length ∧ s = (b.drop lo).take (hi - lo) := by
  unfold goSlice at h
  split at h
  · rename_i hh
    cases h
    refine ⟨?_, hh.2, rfl⟩
    rw [List.length_take, List.length_drop]; omega
  · simp at h

theorem opened {data : Bytes} {r : Reader} (h : FromBytes data = .ok r) : Opened r := by
  unfold FromBytes at h
  split at h
  · simp at h
  simp only [] at h
  split at h
  · simp at h
  obtain ⟨md, _, h⟩ := Res.bind_eq_ok.mp h
  split at h
  · simp at h
  obtain ⟨d, _, h⟩ := Res.bind_eq_ok.mp h
  obtain ⟨ns, hn, h⟩ := Res.bind_eq_ok.mp h
  split at h
  · rename_i hs
    obtain ⟨⟨s, dp⟩, h1, h⟩ := Res.bind_eq_ok.mp h
    cases h
    exact ⟨start_ok h1, hs, (goSlice_ok hn).1⟩
  · simp at h

theorem canon_norm (a : IP) : canon a = norm a := rfl

theorem start_terminal {r : Reader} (h : StartOK r) (h6 : r.md.ipVersion = 6) (hd : r.ipv4StartBitDepth ≠ 96) :
    ¬ r.ipv4Start < r.md.nodeCount ∧ r.ipv4StartBitDepth < 96 := by
  have := walk_bounds _ _ _ _ _ (h.2 h6)
  rw [List.length_replicate] at this
  exact ⟨this.2.2 (by omega), by omega⟩

theorem walk_stop {r : Reader} {node : Nat} (h : ¬ node < r.md.nodeCount) (p : List Bool) (i : Nat) :
    walk r p node i = .ok (node, i) := by
  cases p with
  | nil => rfl
  | cons b p => rw [walk, if_neg h]

theorem answer_ok {r : Reader} {q : IP} {x : Nat × Nat} {net : IPNet} {rec : Option Val} (h : answer r q x = .ok (net, rec)) :
    net = r.cidr q x.2 ∧ ¬ x.1 < r.md.nodeCount := by
  unfold answer at h
  split at h
  · simp at h
  split at h
  · cases h; exact ⟨rfl, by assumption⟩
  · obtain ⟨v, _, h⟩ := Res.bind_eq_ok.mp h
    cases h; exact ⟨rfl, by assumption⟩

theorem answer_congr {r : Reader} {q q' : IP} {x : Nat × Nat} (h : r.cidr q' x.2 = r.cidr q x.2) : answer r q' x = answer r q x := by
  unfold answer; rw [h]

theorem lookup_walk {r : Reader} {ip : IP} (hv : ValidIP ip) {net : IPNet} {rec : Option Val}
    (h : r.LookupNetwork ip = .ok (net, rec)) : ∃ n k, ¬ ((norm ip).length = 16 ∧ r.md.ipVersion = 4) ∧
      walk r (bits (norm ip)) (if (norm ip).length = 4 then r.ipv4Start else 0) 0 = .ok (n, k) ∧
      answer r (norm ip) (n, k) = .ok (net, rec) ∧ k ≤ 8 * (norm ip).length := by
  rw [lookup_eq hv] at h
  split at h
  · simp at h
  · obtain ⟨⟨n, k⟩, h1, h2⟩ := Res.bind_eq_ok.mp h
    have := walk_bounds _ _ _ _ _ h1
    rw [bits_length] at this
    exact ⟨n, k, by assumption, h1, h2, by omega⟩

/-- The answer is the same on the whole network. -/
theorem lookup_inside {r : Reader} (hs : StartOK r) {ip ip' : IP} (hv : ValidIP ip) (hv' : ValidIP ip')
    (hf : SameFamily ip ip') {net : IPNet} {rec : Option Val} (h : r.LookupNetwork ip = .ok (net, rec))
    (hin : Inside net ip') : r.LookupNetwork ip' = .ok (net, rec) := by
  obtain ⟨n, k, h4, hw, ha, hk⟩ := lookup_walk hv h
  have hlen : (norm ip').length = (norm ip).length := hf.symm
  rw [lookup_eq hv', hlen, if_neg h4]
  by_cases hsp : r.md.ipVersion = 6 ∧ (norm ip).length = 4 ∧ r.ipv4StartBitDepth ≠ 96
  · obtain ⟨ht, _⟩ := start_terminal hs hsp.1 hsp.2.2
    rw [if_pos hsp.2.1] at hw ⊢
    rw [walk_stop ht] at hw ⊢
    injection hw with hw
    rw [← ha, ← hw, Res.ok_bind]
    refine (answer_congr ?_)
    unfold Reader.cidr
    rw [if_pos hsp, if_pos (by rw [hlen]; exact hsp)]
  · obtain ⟨a, hc, hal, hab⟩ := cidr_plain (norm_valid hv) hk hsp
    have hnet := (answer_ok ha).1
    rw [hc] at hnet
    have hpf : pfx net = k := by rw [hnet]; exact pfx_loop hk
    unfold Inside at hin
    rw [hpf, hnet, canon_norm, hlen] at hin
    simp only [hal, Nat.sub_self, List.replicate_zero, List.nil_append] at hin
    have ht : (bits (norm ip')).take k = (bits (norm ip)).take k := by
      rw [hin.2]
      simp only [hab]
      rw [List.take_left' (by rw [List.length_take, bits_length]; omega)]
    rw [walk_prefix _ _ _ _ _ _ hw (by rw [bits_length, bits_length, hlen]) (by simpa using ht), Res.ok_bind, ← ha]
    refine answer_congr ?_
    obtain ⟨a', hc', hal', hab'⟩ := cidr_plain (r := r) (norm_valid hv') (k := k) (by omega) (by rw [hlen]; exact hsp)
    simp only [hc, hc', hlen]
    congr 1
    refine bits_inj (by omega) ?_
    rw [hab, hab', ht, hlen]

/-- The network returned contains the address asked for, and is a well-formed block. -/
theorem lookup_own {r : Reader} (hs : StartOK r) {ip : IP} (hv : ValidIP ip) {net : IPNet} {rec : Option Val}
    (h : r.LookupNetwork ip = .ok (net, rec)) : WFNet net ∧ Inside net ip := by
  obtain ⟨n, k, h4, hw, ha, hk⟩ := lookup_walk hv h
  have hnet := (answer_ok ha).1
  by_cases hsp : r.md.ipVersion = 6 ∧ (norm ip).length = 4 ∧ r.ipv4StartBitDepth ≠ 96
  · obtain ⟨_, hd⟩ := start_terminal hs hsp.1 hsp.2.2
    unfold Reader.cidr at hnet
    rw [if_pos hsp, CIDRMask_128 (by omega), Option.getD_some] at hnet
    subst hnet
    have hz : bits IPv6zero = List.replicate 128 false := bits_replicate_zero 16
    constructor
    · have := wf_plain (a := IPv6zero) (q := IPv6zero) (k := r.ipv4StartBitDepth) (Or.inr rfl) (by simp [IPv6zero]; omega) rfl (by
        rw [hz, List.take_replicate, List.replicate_append_replicate]
        congr 1
        simp only [IPv6zero, List.length_replicate]; omega)
      simpa [IPv6zero] using this
    · unfold Inside
      rw [pfx_loop (by omega), canon_norm, hsp.2.1]
      refine ⟨by simp [IPv6zero, hsp.2.1], ?_⟩
      rw [bits_append]
      simp only [hz]
      have e : bits (List.replicate (IPv6zero.length - 4) 0) = List.replicate 96 false := bits_replicate_zero 12
      rw [e, List.take_append_of_le_length (by simp; omega), List.take_replicate, List.take_replicate]
      congr 1; omega
  · obtain ⟨a, hc, hal, hab⟩ := cidr_plain (norm_valid hv) hk hsp
    rw [hc] at hnet
    subst hnet
    refine ⟨wf_plain (norm_valid hv) hk hal hab, ?_⟩
    unfold Inside
    rw [pfx_loop hk, canon_norm]
    simp only [hal, Nat.sub_self, List.replicate_zero, List.nil_append]
    refine ⟨hal.symm, ?_⟩
    simp only [hab]
    rw [List.take_left' (by rw [List.length_take, bits_length]; omega)]

end Uip.Awdb
