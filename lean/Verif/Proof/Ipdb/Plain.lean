import Verif.Proof.Ipdb.Query
import Verif.Spec.Trie
namespace Uip.Ipdb
open Uip Uip.Spec

theorem readNode_child (data : Bytes) (node : Nat) (b : Bool) :
    readNode data node b.toNat = Res.ofOption (child data node b) := by
  unfold readNode child
  have : node * 8 + b.toNat * 4 = 8 * node + 4 * b.toNat := by omega
  simp only [this]
  split
  · rw [if_neg (by omega)]; rfl
  · rw [if_pos (by omega)]; rfl

theorem readDepth_trieWalk {data : Bytes} {nc : Int} {ip : Bytes} : ∀ (s node i : Nat), i + s ≤ (bits ip).length →
    readDepth data nc ip s node i = Res.ofOption (trieWalk data nc (((bits ip).drop i).take s) node i) := by
  intro s
  induction s with
  | zero => intro node i _; simp [readDepth, trieWalk]
  | succ s ih =>
    intro node i h
    have hi : i < (bits ip).length := by omega
    rw [List.drop_eq_getElem_cons hi, List.take_succ_cons]
    unfold readDepth trieWalk
    split
    · rfl
    · rw [ipBit_lt (List.getElem?_eq_getElem hi), Res.ok_bind, readNode_child]
      cases child data node (bits ip)[i] with
      | none => rfl
      | some n => simp only [Res.ofOption_some, Res.ok_bind]; exact ih _ _ (by omega)

theorem trieWalk_shift {data : Bytes} {nc : Int} (k : Nat) : ∀ (p : List Bool) (node d : Nat),
    trieWalk data nc p node (d + k) = (trieWalk data nc p node d).map (fun x => (x.1, x.2 + k)) := by
  intro p
  induction p with
  | nil => intro node d; rfl
  | cons b p ih =>
    intro node d
    unfold trieWalk
    split
    · rfl
    · cases child data node b with
      | none => rfl
      | some n => simp only []; rw [show d + k + 1 = (d + 1) + k by omega]; exact ih _ _

theorem trieWalk_append {data : Bytes} {nc : Int} : ∀ (p q : List Bool) (node d : Nat),
    trieWalk data nc (p ++ q) node d = (trieWalk data nc p node d).bind (fun x =>
      if (x.1 : Int) ≥ nc then some x else trieWalk data nc q x.1 x.2) := by
  intro p
  induction p with
  | nil =>
    intro q node d
    simp only [List.nil_append, trieWalk, Option.bind_some]
    cases q with
    | nil => simp [trieWalk]
    | cons b q => simp only [trieWalk]; split <;> rfl
  | cons b p ih =>
    intro q node d
    simp only [List.cons_append, trieWalk]
    split
    · rename_i h; simp [h]
    · cases child data node b with
      | none => rfl
      | some n => exact ih _ _ _

theorem trieWalk_depth {data : Bytes} {nc : Int} : ∀ (p : List Bool) (node d n e : Nat),
    trieWalk data nc p node d = some (n, e) → d ≤ e ∧ e ≤ d + p.length ∧ ((n : Int) ≥ nc ∨ e = d + p.length) := by
  intro p
  induction p with
  | nil => intro node d n e h; simp [trieWalk] at h; simp; omega
  | cons b p ih =>
    intro node d n e h
    unfold trieWalk at h
    split at h
    · rename_i hc; cases h; simp; omega
    · cases hch : child data node b with
      | none => rw [hch] at h; cases h
      | some m =>
        rw [hch] at h
        have := ih _ _ _ _ h
        simp only [List.length_cons]; omega

/-- The reader's IPv4 start node is where the 96-bit prefix of IPv4 addresses leads. -/
theorem newReader_v4offset {dec : Bytes → Option MetaData} {data : Bytes} {r : Reader}
    (h : newReaderFromBytes dec data = .ok r) (h4 : r.md.HasIPv4 = true) :
    ∃ d, trieWalk r.data r.nodeCount (bits v4InV6Prefix) 0 0 = some (r.v4offset, d) := by
  have hv : v4offsetLoop r.data r.nodeCount 96 0 0 = .ok r.v4offset := by
    unfold newReaderFromBytes at h
    simp only [] at h
    split at h
    · cases h
    split at h
    · cases h
    split at h
    · cases h
    split at h
    · cases h
    split at h
    · cases h
    split at h
    · simp only [Res.bind_eq_ok] at h
      obtain ⟨node, h1, c, h2, h3⟩ := h
      cases h3
      exact h1
    · rename_i hh
      cases h
      exact absurd h4 hh
  rw [v4offsetLoop_eq _ _ _ _ _ rfl, readDepth_trieWalk _ _ _ (by decide)] at hv
  rw [List.drop_zero, List.take_of_length_le (by decide)] at hv
  cases hw : trieWalk r.data r.nodeCount (bits v4InV6Prefix) 0 0 with
  | none => rw [hw] at hv; cases hv
  | some x =>
    rw [hw] at hv
    simp only [Res.ofOption_some, Res.ok_bind, Res.ok.injEq] at hv
    exact ⟨x.2, by rw [← hv]⟩

theorem search_plain {dec : Bytes → Option MetaData} {data : Bytes} {r : Reader}
    (h : newReaderFromBytes dec data = .ok r) (h4 : r.md.HasIPv4 = true) {b : IP} (hb : b.length = 4) :
    r.search b 32 = match trieWalk r.data r.nodeCount (bits (v4InV6Prefix ++ b)) 0 0 with
      | none => .panic
      | some (node, depth) => if (node : Int) > r.nodeCount then .ok (node, depth - 96) else .err .dataNotExists := by
  rw [search_v4 (newReader_cacheOK h) hb]
  obtain ⟨d, hd⟩ := newReader_v4offset h h4
  have hdb := trieWalk_depth _ _ _ _ _ hd
  have hpl : (bits v4InV6Prefix).length = 96 := by decide
  rw [bits_append, trieWalk_append, hd, Option.bind_some]
  unfold plainSearch
  rw [readDepth_trieWalk _ _ _ (by rw [bits_length, hb]; decide)]
  rw [List.drop_zero, List.take_of_length_le (by rw [bits_length, hb]; decide)]
  simp only []
  by_cases hc : (r.v4offset : Int) ≥ r.nodeCount
  · rw [if_pos hc]
    have : trieWalk r.data r.nodeCount (bits b) r.v4offset 0 = some (r.v4offset, 0) := by
      cases bits b with
      | nil => rfl
      | cons x l => simp [trieWalk, hc]
    rw [this]
    simp only [Res.ofOption_some, Res.ok_bind, Res.pure_eq]
    rw [show d - 96 = 0 by omega]
  · rw [if_neg hc]
    have hd96 : d = 0 + 96 := by omega
    rw [hd96, trieWalk_shift]
    cases trieWalk r.data r.nodeCount (bits b) r.v4offset 0 with
    | none => rfl
    | some x =>
      simp only [Res.ofOption_some, Res.ok_bind, Option.map_some, Res.pure_eq, Nat.add_sub_cancel]

/-- The address as the lookup walks it. -/
def famBits (a : IP) : List Bool := bits ((To4 a).getD a)

theorem find0_congr {r : Reader} (hc : CacheOK r) {a a' : IP} (ha' : ValidIP a')
    (hfam : (To4 a).isSome = (To4 a').isSome) {n m : Nat} {body : Bytes} (h : r.find0 a = .ok (n, body, m))
    (hb : (famBits a).take m = (famBits a').take m) : r.find0 a' = .ok (n, body, m) := by
  have key : ∀ (x x' : IP) (root bc : Nat), (bits x).take m = (bits x').take m →
      (plainSearch r.data r.nodeCount root x bc >>= fun p => r.resolve p.1 >>= fun b => .ok (p.1, b, p.2)) =
        .ok (n, body, m) →
      (plainSearch r.data r.nodeCount root x' bc >>= fun p => r.resolve p.1 >>= fun b => .ok (p.1, b, p.2)) =
        .ok (n, body, m) := by
    intro x x' root bc hx h
    rw [Res.bind_eq_ok] at h ⊢
    obtain ⟨⟨n', m'⟩, h1, h2⟩ := h
    refine ⟨(n', m'), ?_, h2⟩
    rw [Res.bind_eq_ok] at h2
    obtain ⟨b, _, h3⟩ := h2
    simp only [Res.ok.injEq, Prod.mk.injEq] at h3
    obtain ⟨rfl, rfl, rfl⟩ := h3
    unfold plainSearch at h1 ⊢
    rw [Res.bind_eq_ok] at h1 ⊢
    obtain ⟨⟨n1, i1⟩, h4, h5⟩ := h1
    refine ⟨(n1, i1), ?_, h5⟩
    simp only [] at h5
    split at h5
    · rename_i hgt
      simp only [Res.pure_eq, Res.ok.injEq, Prod.mk.injEq] at h5
      obtain ⟨rfl, rfl⟩ := h5
      exact readDepth_prefix _ _ _ _ _ h4 (fun j _ hj => ipBit_eq_of_bits hx hj) (by omega)
    · cases h5
  unfold famBits at hb
  unfold Reader.find0 at h ⊢
  cases h4 : To4 a with
  | some x =>
    cases h4' : To4 a' with
    | none => rw [h4, h4'] at hfam; cases hfam
    | some x' =>
      rw [h4, h4'] at hb
      simp only [h4] at h
      simp only []
      split at h
      · cases h
      · rename_i hh
        rw [if_neg hh]
        rw [search_v4 hc (path128_v4 h4).2] at h
        rw [search_v4 hc (path128_v4 h4').2]
        exact key _ _ _ _ hb h
  | none =>
    cases h4' : To4 a' with
    | some x' => rw [h4, h4'] at hfam; cases hfam
    | none =>
      rw [h4, h4'] at hb
      simp only [h4] at h
      simp only []
      cases h6 : To16 a with
      | none => rw [h6] at h; cases h
      | some y =>
        have hy : y = a := by
          unfold To16 at h6
          split at h6
          · rename_i hl; simp [To4, hl] at h4
          · split at h6
            · cases h6; rfl
            · cases h6
        subst hy
        rw [To16_16 (To4_none_length ha' h4')]
        simp only [h6] at h
        simp only []
        split at h
        · cases h
        · rename_i hh
          rw [if_neg hh]
          rw [search_v6] at h
          rw [search_v6]
          exact key _ _ _ _ hb h

end Uip.Ipdb
