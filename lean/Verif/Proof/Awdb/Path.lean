import Verif.Proof.Awdb.Lookup
/-!
# Lookups as one walk from the root
-/
namespace Uip.Awdb
open Uip Uip.Spec Uip.Spec.Awdb

theorem walk_shift (r : Reader) : ∀ (p : List Bool) (node i j : Nat),
    walk r p node (i + j) = (walk r p node i >>= fun x => .ok (x.1, x.2 + j)) := by
  intro p
  induction p with
  | nil => intro node i j; rfl
  | cons b p ih =>
    intro node i j
    rw [walk, walk]
    split
    · rw [Res.bind_assoc]
      cases child r.nodes r.md.recordSize node b with
      | ok n => rw [Res.ok_bind, Res.ok_bind, Nat.add_right_comm]; exact ih _ _ _
      | err e => rfl
      | panic => rfl
    · rfl

/-- A walk that has stopped does not go on. -/
theorem walk_append_stop {r : Reader} : ∀ (p q : List Bool) (node i n k : Nat), walk r p node i = .ok (n, k) →
    ¬ n < r.md.nodeCount → walk r (p ++ q) node i = .ok (n, k) := by
  intro p
  induction p with
  | nil => intro q node i n k h hn; cases h; exact walk_stop hn _ _
  | cons b p ih =>
    intro q node i n k h hn
    rw [walk] at h
    rw [List.cons_append, walk]
    split at h
    · rename_i hlt
      rw [if_pos hlt]
      obtain ⟨m, hm, h⟩ := Res.bind_eq_ok.mp h
      rw [hm, Res.ok_bind]
      exact ih _ _ _ _ _ h hn
    · rename_i hlt
      rw [if_neg hlt]
      exact h

/-- The bits walked for an address: an IPv4 address in an IPv6 database stands at `::a.b.c.d`. -/
def path (r : Reader) (a : IP) : IP := (if r.md.ipVersion = 6 then List.replicate (16 - (canon a).length) 0 else []) ++ canon a

/-- The answer for a record, given the network. -/
def found (r : Reader) (net : IPNet) (n : Nat) : Res (IPNet × Option Val) :=
  if n < r.md.nodeCount then .err invalidErr
  else if n = r.md.nodeCount then .ok (net, none)
  else r.retrieveData n >>= fun v => .ok (net, some v)

theorem canon_length {a : IP} (h : ValidIP a) : (canon a).length = 4 ∨ (canon a).length = 16 := by
  rw [canon_norm, norm_length a h]; split <;> simp

theorem cidr_net {r : Reader} {q : IP} (hq : ValidIP q) {k : Nat} (hk : k ≤ 8 * q.length)
    (hn : ¬ (r.md.ipVersion = 6 ∧ q.length = 4 ∧ r.ipv4StartBitDepth ≠ 96)) :
    (r.cidr q k).ip.length = q.length ∧ pfx (r.cidr q k) = k := by
  obtain ⟨a, hc, hl, _⟩ := cidr_plain hq hk hn
  rw [hc]
  exact ⟨hl, pfx_loop hk⟩

/-- A lookup is one walk from the root. -/
theorem lookup_path {r : Reader} (hs : StartOK r) {a : IP} (ha : ValidIP a) (h4 : ¬ ((canon a).length = 16 ∧ r.md.ipVersion = 4))
    {n k : Nat} (hw : walk r (bits (path r a)) 0 0 = .ok (n, k)) :
    ∃ net, r.LookupNetwork a = found r net n ∧ pfx net + 8 * ((path r a).length - net.ip.length) = k ∧
      (net.ip.length = (canon a).length ∨ net.ip.length = (path r a).length) ∧
      ((path r a).length = (canon a).length → net = r.cidr (canon a) k) := by
  rw [lookup_eq ha]
  rw [canon_norm] at h4
  have hcl := canon_length ha
  by_cases hsp : r.md.ipVersion = 6 ∧ (norm a).length = 4
  · obtain ⟨h6, hl⟩ := hsp
    have hp : path r a = List.replicate 12 0 ++ norm a := by
      unfold path; rw [if_pos h6, canon_norm, hl]
    have hpl : (path r a).length = 16 := by rw [hp, List.length_append, List.length_replicate, hl]
    have hb : bits (path r a) = List.replicate 96 false ++ bits (norm a) := by
      rw [hp, bits_append, bits_replicate_zero]
    rw [hb] at hw
    rw [if_neg h4, if_pos hl, hpl, canon_norm, hl]
    have hst := hs.2 h6
    by_cases hd : r.ipv4StartBitDepth = 96
    · rw [hd] at hst
      have := walk_append (List.replicate 96 false) (bits (norm a)) 0 0 r.ipv4Start (by rw [hst]; simp)
      rw [this, List.length_replicate, walk_shift] at hw
      obtain ⟨⟨n', k'⟩, hw', he⟩ := Res.bind_eq_ok.mp hw
      injection he with he
      injection he with he1 he2
      simp only [] at he1 he2
      subst he1
      have hk := walk_bounds _ _ _ _ _ hw'
      rw [bits_length, hl] at hk
      have hcn := cidr_net (r := r) (norm_valid ha) (k := k') (by rw [hl]; omega) (by rw [hd]; simp)
      rw [hw', Res.ok_bind]
      refine ⟨r.cidr (norm a) k', rfl, ?_, Or.inl (by rw [hcn.1, hl]), by simp⟩
      rw [hcn.1, hcn.2, hl]; omega
    · obtain ⟨ht, _⟩ := start_terminal hs h6 hd
      rw [walk_append_stop _ _ _ _ _ _ hst ht] at hw
      injection hw with hw
      injection hw with hw1 hw2
      subst hw1; subst hw2
      rw [walk_stop ht, Res.ok_bind]
      refine ⟨r.cidr (norm a) 0, rfl, ?_, ?_, by simp⟩
      · unfold Reader.cidr
        have hb := (walk_bounds _ _ _ _ _ hst).2.1
        rw [List.length_replicate] at hb
        rw [if_pos ⟨h6, hl, hd⟩, CIDRMask_128 (by omega), Option.getD_some, pfx_loop (by omega)]
        simp [IPv6zero]
      · right; unfold Reader.cidr; rw [if_pos ⟨h6, hl, hd⟩]; rfl
  · have hp : path r a = norm a := by
      unfold path
      rw [canon_norm] at *
      split
      · rename_i h6
        rcases hcl with hl | hl
        · exact absurd ⟨h6, hl⟩ hsp
        · rw [hl]; rfl
      · rfl
    rw [hp] at hw ⊢
    have h0 : (if (norm a).length = 4 then r.ipv4Start else 0) = 0 := by
      split
      · rename_i hl
        exact (hs.1 (fun h6 => hsp ⟨h6, hl⟩)).1
      · rfl
    rw [if_neg h4, h0, hw, Res.ok_bind, canon_norm]
    have hk := walk_bounds _ _ _ _ _ hw
    rw [bits_length] at hk
    have hcn := cidr_net (r := r) (norm_valid ha) (k := k) (by omega) (by rintro ⟨h6, hl, _⟩; exact hsp ⟨h6, hl⟩)
    refine ⟨r.cidr (norm a) k, rfl, ?_, Or.inl hcn.1, fun _ => rfl⟩
    rw [hcn.1, hcn.2]; omega

end Uip.Awdb
