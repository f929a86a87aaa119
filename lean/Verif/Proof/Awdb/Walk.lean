import Verif.Proof.Awdb.Tree
import Verif.Proof.Addr
import Verif.Proof.Net
import Verif.Proof.Range
/-!
# Walking the search tree along the bits of an address
-/
namespace Uip.Awdb
open Uip Uip.Spec

/-- Follow a path of bits, from `node`, stopping at the first record that is not a node. -/
def walk (r : Reader) : List Bool → Nat → Nat → Res (Nat × Nat)
  | [], node, i => .ok (node, i)
  | b :: bs, node, i =>
    if node < r.md.nodeCount then child r.nodes r.md.recordSize node b >>= fun node => walk r bs node (i + 1)
    else .ok (node, i)

theorem byteBits_get (b : UInt8) {j : Nat} (hj : j < 8) : (byteBits b)[j]? = some (b.toNat / 2 ^ (7 - j) % 2 == 1) := by
  have h : ∀ (b : UInt8) (j : Fin 8), (byteBits b)[j.val]? = some (b.toNat / 2 ^ (7 - j.val) % 2 == 1) :=
    byte_all _ (by decide +kernel)
  exact h b ⟨j, hj⟩

theorem ipBit_eq {ip : IP} {i : Nat} (h : i < 8 * ip.length) : ∃ b, (bits ip)[i]? = some b ∧ ipBit ip i = .ok b := by
  induction ip generalizing i with
  | nil => simp at h
  | cons b ip ih =>
    rw [bits_cons]
    by_cases hi : i < 8
    · refine ⟨b.toNat / 2 ^ (7 - i) % 2 == 1, ?_, ?_⟩
      · rw [List.getElem?_append_left (by simpa using hi), byteBits_get b hi]
      · unfold ipBit
        rw [show i / 8 = 0 by omega, show i % 8 = i by omega]; rfl
    · obtain ⟨c, h1, h2⟩ := ih (i := i - 8) (by simp only [List.length_cons] at h; omega)
      refine ⟨c, ?_, ?_⟩
      · rw [List.getElem?_append_right (by simpa using hi)]; simpa using h1
      · unfold ipBit at h2 ⊢
        rw [show i / 8 = (i - 8) / 8 + 1 by omega, show i % 8 = (i - 8) % 8 by omega, List.getElem?_cons_succ]; exact h2

theorem traverse_walk (r : Reader) (ip : IP) : ∀ (steps i node : Nat), i + steps ≤ 8 * ip.length →
    traverseLoop r ip steps i node = walk r (((bits ip).drop i).take steps) node i := by
  intro steps
  induction steps with
  | zero => intro i node _; simp [traverseLoop, walk]
  | succ s ih =>
    intro i node h
    obtain ⟨b, hb, hb'⟩ := ipBit_eq (ip := ip) (i := i) (by omega)
    obtain ⟨hlt, hb⟩ := List.getElem?_eq_some_iff.mp hb
    rw [List.drop_eq_getElem_cons hlt, hb, List.take_succ_cons, traverseLoop, walk, hb']
    split
    · simp only [Res.ok_bind]
      congr 1
      funext n
      exact ih _ _ (by omega)
    · rfl

/-- The address looked up: four bytes for IPv4. -/
def norm (ip : IP) : IP := (To4 ip).getD ip

theorem norm_valid {ip : IP} (h : ValidIP ip) : ValidIP (norm ip) := by
  unfold norm
  cases ht : To4 ip with
  | none => exact h
  | some a => exact Or.inl (To4_eq_some ht).2.1

theorem norm_ne {ip : IP} (h : ValidIP ip) : ip ≠ [] := by
  rintro rfl; rcases h with h | h <;> simp at h

theorem norm_length (ip : IP) (h : ValidIP ip) : (norm ip).length = if (To4 ip).isSome then 4 else 16 := by
  unfold norm
  cases ht : To4 ip with
  | none =>
    rcases h with h | h
    · simp [To4, h] at ht
    · simpa using h
  | some a => simpa using (To4_eq_some ht).2.1

/-- The result for a record that ends the walk. -/
def answer (r : Reader) (q : IP) (x : Nat × Nat) : Res (IPNet × Option Val) :=
  if x.1 < r.md.nodeCount then .err invalidErr
  else if x.1 = r.md.nodeCount then .ok (r.cidr q x.2, none)
  else r.retrieveData x.1 >>= fun v => .ok (r.cidr q x.2, some v)

theorem lookup_eq {r : Reader} {ip : IP} (h : ValidIP ip) : r.LookupNetwork ip =
    if (norm ip).length = 16 ∧ r.md.ipVersion = 4 then .err (.other "IPv6 address in an IPv4-only database")
    else walk r (bits (norm ip)) (if (norm ip).length = 4 then r.ipv4Start else 0) 0 >>= answer r (norm ip) := by
  unfold Reader.LookupNetwork Reader.lookupPointer
  rw [if_neg (norm_ne h)]
  simp only []
  change ((if (norm ip).length = 16 ∧ r.md.ipVersion = 4 then _ else _) >>= _) = _
  by_cases hv : (norm ip).length = 16 ∧ r.md.ipVersion = 4
  · rw [if_pos hv, if_pos hv]; rfl
  rw [if_neg hv, if_neg hv]
  have e1 : ((norm ip).length * 8 = 32) = ((norm ip).length = 4) := by
    apply propext; constructor <;> intro <;> omega
  have e2 : r.traverseTree (norm ip) (if (norm ip).length = 4 then r.ipv4Start else 0) ((norm ip).length * 8) =
      walk r (bits (norm ip)) (if (norm ip).length = 4 then r.ipv4Start else 0) 0 := by
    unfold Reader.traverseTree
    rw [traverse_walk _ _ _ _ _ (by omega), List.drop_zero, List.take_of_length_le (by rw [bits_length]; omega)]
  change (((r.traverseTree (norm ip) (if (norm ip).length * 8 = 32 then _ else _) ((norm ip).length * 8)) >>= _) >>= _) = _
  simp only [e1, e2]
  cases walk r (bits (norm ip)) (if (norm ip).length = 4 then r.ipv4Start else 0) 0 with
  | err e => rfl
  | panic => rfl
  | ok x =>
    obtain ⟨node, k⟩ := x
    simp only [Res.ok_bind, answer]
    by_cases h1 : node = r.md.nodeCount
    · subst h1; simp [norm]
    · by_cases h2 : node > r.md.nodeCount
      · rw [if_neg h1, if_pos h2, if_neg (by omega), if_neg h1]
        simp only [Res.pure_eq, Res.ok_bind]
        rw [if_neg (by omega)]; rfl
      · rw [if_neg h1, if_neg h2, if_pos (by omega)]; rfl

theorem walk_bounds {r : Reader} : ∀ (p : List Bool) (node i n k : Nat), walk r p node i = .ok (n, k) →
    i ≤ k ∧ k ≤ i + p.length ∧ (k < i + p.length → ¬ n < r.md.nodeCount) := by
  intro p
  induction p with
  | nil => intro node i n k h; cases h; simp
  | cons b p ih =>
    intro node i n k h
    rw [walk] at h
    split at h
    · obtain ⟨m, _, h⟩ := Res.bind_eq_ok.mp h
      have := ih _ _ _ _ h
      simp only [List.length_cons]
      refine ⟨by omega, by omega, ?_⟩
      intro hk; exact this.2.2 (by omega)
    · cases h
      refine ⟨by omega, by omega, ?_⟩
      intro _; assumption

/-- Only the bits used matter. -/
theorem walk_prefix {r : Reader} : ∀ (p p' : List Bool) (node i n k : Nat), walk r p node i = .ok (n, k) →
    p'.length = p.length → p'.take (k - i) = p.take (k - i) → walk r p' node i = .ok (n, k) := by
  intro p
  induction p with
  | nil =>
    intro p' node i n k h hl _
    rw [List.length_nil] at hl
    rw [List.eq_nil_of_length_eq_zero hl]; exact h
  | cons b p ih =>
    intro p' node i n k h hl ht
    cases p' with
    | nil => simp at hl
    | cons b' p' =>
      rw [walk] at h ⊢
      split at h
      · rename_i hlt
        rw [if_pos hlt]
        obtain ⟨m, hm, hw⟩ := Res.bind_eq_ok.mp h
        have hb := (walk_bounds _ _ _ _ _ hw).1
        rw [show k - i = (k - (i + 1)) + 1 by omega, List.take_succ_cons, List.take_succ_cons] at ht
        injection ht with h1 h2
        subst h1
        rw [hm, Res.ok_bind]
        exact ih _ _ _ _ _ hw (by simpa using hl) h2
      · rename_i hlt
        rw [if_neg hlt]; exact h

theorem walk_append {r : Reader} : ∀ (p q : List Bool) (node i n : Nat), walk r p node i = .ok (n, i + p.length) →
    walk r (p ++ q) node i = walk r q n (i + p.length) := by
  intro p
  induction p with
  | nil => intro q node i n h; cases h; rfl
  | cons b p ih =>
    intro q node i n h
    rw [List.cons_append, walk]
    rw [walk] at h
    split at h
    · rename_i hlt
      rw [if_pos hlt]
      obtain ⟨m, hm, h⟩ := Res.bind_eq_ok.mp h
      rw [hm, Res.ok_bind]
      have e : i + (b :: p).length = i + 1 + p.length := by simp only [List.length_cons]; omega
      rw [e] at h ⊢
      exact ih _ _ _ _ h
    · cases h

/-! ## The start of the IPv4 addresses -/

/-- What `setIPv4Start` found: the record at `::/96`, or the one that ends the walk earlier. -/
def StartOK (r : Reader) : Prop :=
  (r.md.ipVersion ≠ 6 → r.ipv4Start = 0 ∧ r.ipv4StartBitDepth = 0) ∧
  (r.md.ipVersion = 6 → walk r (List.replicate 96 false) 0 0 = .ok (r.ipv4Start, r.ipv4StartBitDepth))

theorem ipv4StartLoop_walk {b : Bytes} {md : Metadata} {r : Reader} (hb : r.nodes = b) (hm : r.md = md) : ∀ (steps node i : Nat),
    ipv4StartLoop b md steps node i = walk r (List.replicate steps false) node i := by
  subst hb; subst hm
  intro steps
  induction steps with
  | zero => intro node i; rfl
  | succ s ih =>
    intro node i
    rw [ipv4StartLoop, List.replicate_succ, walk]
    split
    · congr 1
      funext n
      exact ih _ _
    · rfl

theorem start_ok {b : Bytes} {md : Metadata} {bl : Nat} {data : Bytes} {s d : Nat} (h : setIPv4Start b md = .ok (s, d)) :
    StartOK ⟨bl, b, data, md, s, d⟩ := by
  unfold setIPv4Start at h
  split at h
  · rename_i h6
    cases h
    exact ⟨fun _ => ⟨rfl, rfl⟩, fun h => absurd h h6⟩
  · rename_i h6
    refine ⟨fun h => absurd h h6, fun _ => ?_⟩
    rw [ipv4StartLoop_walk (r := ⟨bl, b, data, md, s, d⟩) rfl rfl] at h
    exact h

/-! ## The returned network -/

theorem cidr_plain {r : Reader} {q : IP} (hq : ValidIP q) {k : Nat} (hk : k ≤ 8 * q.length)
    (hn : ¬ (r.md.ipVersion = 6 ∧ q.length = 4 ∧ r.ipv4StartBitDepth ≠ 96)) :
    ∃ a, r.cidr q k = ⟨a, cidrMaskLoop q.length k⟩ ∧ a.length = q.length ∧
      bits a = (bits q).take k ++ List.replicate (8 * q.length - k) false := by
  unfold Reader.cidr
  rw [if_neg hn]
  simp only []
  rw [CIDRMask_valid hq hk]
  obtain ⟨a, h1, h2, h3⟩ := ipMask_spec (ip := q) (cidrMaskLoop_length _ _) (IsMask_cidrMaskLoop _ _ hk)
  refine ⟨a, ?_, h2, h3⟩
  rw [Option.getD_some, h1]; rfl

theorem pfx_loop {a : IP} {l k : Nat} (hk : k ≤ 8 * l) : pfx ⟨a, cidrMaskLoop l k⟩ = k :=
  pfx_of_IsMask (n := ⟨a, cidrMaskLoop l k⟩) (IsMask_cidrMaskLoop l k hk)

theorem wf_plain {a q : IP} (hq : ValidIP q) {k : Nat} (hk : k ≤ 8 * q.length) (hl : a.length = q.length)
    (hb : bits a = (bits q).take k ++ List.replicate (8 * q.length - k) false) :
    WFNet ⟨a, cidrMaskLoop q.length k⟩ := by
  unfold WFNet
  rw [pfx_loop hk]
  refine ⟨⟨?_, ?_, IsMask_cidrMaskLoop _ _ hk⟩, ?_⟩
  · unfold ValidIP at hq ⊢; simp only []; omega
  · simp only [cidrMaskLoop_length]; omega
  · unfold Aligned
    simp only [hb, hl]
    rw [List.drop_left' (by rw [List.length_take, bits_length]; omega)]

theorem bits_replicate_zero (n : Nat) : bits (List.replicate n 0) = List.replicate (8 * n) false := by
  induction n with
  | zero => rfl
  | succ n ih =>
    rw [List.replicate_succ, bits_cons, ih, show 8 * (n + 1) = 8 + 8 * n by omega, ← List.replicate_append_replicate]; rfl

end Uip.Awdb
