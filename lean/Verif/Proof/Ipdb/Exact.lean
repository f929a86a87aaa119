import Verif.Model.Ipdb.ReaderExact
import Verif.Proof.Ipdb.Plain
import Verif.Spec.IpdbFile
namespace Uip.Ipdb.Exact
open Uip Uip.Spec

/-- `y` behaves as `x` (through `f`) unless `x` panics. -/
def Ref {α β : Type} (f : α → β) (x : Res α) (y : Res β) : Prop :=
  (∀ a, x = .ok a → y = .ok (f a)) ∧ (∀ e, x = .err e → y = .err e)

theorem Ref.ok {α β : Type} {f : α → β} {a : α} {y : Res β} (h : y = .ok (f a)) : Ref f (.ok a) y :=
  ⟨fun _ e => (by cases e; exact h), fun _ e => (by cases e)⟩

theorem Ref.err {α β : Type} {f : α → β} {e : Err} : Ref f (.err e : Res α) (.err e) :=
  ⟨fun _ h => (by cases h), fun _ h => (by cases h; rfl)⟩

theorem Ref.panic {α β : Type} {f : α → β} {y : Res β} : Ref f (.panic : Res α) y :=
  ⟨fun _ h => (by cases h), fun _ h => (by cases h)⟩

theorem Ref.bind {α β γ δ : Type} {f : α → β} {g : γ → δ} {x : Res α} {y : Res β} {k : α → Res γ} {l : β → Res δ}
    (h : Ref f x y) (hk : ∀ a, x = .ok a → Ref g (k a) (l (f a))) : Ref g (x >>= k) (y >>= l) := by
  cases x with
  | ok a => have := h.1 a rfl; subst this; exact hk a rfl
  | err e => have := h.2 e rfl; subst this; exact Ref.err
  | panic => exact Ref.panic

theorem Ref.id_iff {α : Type} {x y : Res α} : Ref id x y ↔ (x ≠ .panic → y = x) := by
  cases x <;> simp [Ref]

theorem wrap64_id {x : Int} (h : -2 ^ 63 ≤ x) (h' : x < 2 ^ 63) : wrap64 x = x := by
  unfold wrap64; rw [Int.emod_eq_of_lt (by omega) (by omega)]; omega

theorem slice_ref (s : Buf) {a n : Nat} (h : a + n ≤ s.data.length) :
    s.slice a (a + n : Nat) = .ok ((s.data.drop a).take n) := by
  unfold Buf.slice
  rw [if_pos ⟨by omega, by omega, by omega⟩]
  congr 1
  rw [Int.toNat_natCast, show (((a + n : Nat) : Int) - (a : Int)).toNat = n by omega]
  rw [List.drop_append_of_le_length (by omega), List.take_append_of_le_length (by rw [List.length_drop]; omega)]

theorem readNode_ref {s : Buf} (hs : s.data.length < 2 ^ 63) (node bit : Nat) :
    Ref id (Ipdb.readNode s.data node bit) (readNode s node bit) := by
  rw [Ref.id_iff]
  intro h
  unfold Ipdb.readNode at h ⊢
  simp only [] at h ⊢
  split
  · rename_i hc; rw [if_pos hc] at h; exact absurd rfl h
  · unfold readNode
    rw [wrap64_id (by omega) (by omega)]
    simp only []
    rw [wrap64_id (by omega) (by omega)]
    have := slice_ref s (a := node * 8 + bit * 4) (n := 4) (by omega)
    rw [show (((node * 8 + bit * 4 + 4 : Nat)) : Int) = ((node : Int) * 8 + (bit : Int) * 4 + 4) by omega,
      show (((node * 8 + bit * 4 : Nat)) : Int) = ((node : Int) * 8 + (bit : Int) * 4) by omega] at this
    rw [this]
    rfl

theorem readDepth_ref {s : Buf} (hs : s.data.length < 2 ^ 63) (nc : Int) (ip : Bytes) : ∀ (k node i : Nat),
    Ref id (Ipdb.readDepth s.data nc ip k node i) (readDepth s nc ip k node i) := by
  intro k
  induction k with
  | zero => intro node i; exact (by first | exact Ref.ok rfl | exact Ref.err)
  | succ k ih =>
    intro node i
    unfold Ipdb.readDepth readDepth
    split
    · exact (by first | exact Ref.ok rfl | exact Ref.err)
    · refine Ref.bind (f := id) (Ref.id_iff.mpr (fun _ => rfl)) (fun b _ => ?_)
      exact Ref.bind (readNode_ref hs _ _) (fun n _ => ih _ _)

theorem v4offsetLoop_ref {s : Buf} (hs : s.data.length < 2 ^ 63) (nc : Int) : ∀ (k i node : Nat),
    Ref id (Ipdb.v4offsetLoop s.data nc k i node) (v4offsetLoop s nc k i node) := by
  intro k
  induction k with
  | zero => intro node i; exact (by first | exact Ref.ok rfl | exact Ref.err)
  | succ k ih =>
    intro i node
    unfold Ipdb.v4offsetLoop v4offsetLoop
    split
    · exact Ref.bind (readNode_ref hs _ _) (fun n _ => ih _ _)
    · exact (by first | exact Ref.ok rfl | exact Ref.err)

theorem mapM_ref {α β : Type} {f g : α → Res β} (h : ∀ a, Ref id (f a) (g a)) : ∀ xs,
    Ref id (Res.mapM f xs) (Res.mapM g xs) := by
  intro xs
  induction xs with
  | nil => exact (by first | exact Ref.ok rfl | exact Ref.err)
  | cons x xs ih =>
    unfold Res.mapM
    exact Ref.bind (h x) (fun y _ => Ref.bind ih (fun z _ => Ref.ok rfl))

theorem cacheEntry_ref {s : Buf} (hs : s.data.length < 2 ^ 63) (nc : Int) (v i : Nat) :
    Ref id (Ipdb.cacheEntry s.data nc v i) (cacheEntry s nc v i) := by
  unfold Ipdb.cacheEntry cacheEntry
  exact Ref.bind (readDepth_ref hs _ _ _ _ _) (fun y _ => Ref.ok rfl)

theorem initBitsCache_ref {s : Buf} (hs : s.data.length < 2 ^ 63) (nc : Int) (v : Nat) :
    Ref id (Ipdb.initBitsCache s.data nc v) (initBitsCache s nc v) := by
  unfold Ipdb.initBitsCache initBitsCache
  generalize List.range (2 ^ 14) = xs
  exact mapM_ref (cacheEntry_ref hs nc v) xs

/-- The reader with capacity that corresponds to one without. -/
def lift (spare : Bytes) (r : Ipdb.Reader) : Reader :=
  ⟨r.fileSize, r.nodeCount, r.v4offset, r.md, ⟨r.data, spare⟩, r.continentOffset, r.cache⟩

/-- `json.Unmarshal` stores the size in 64 bits. -/
def Int64s (dec : Bytes → Option MetaData) (file : Bytes) : Prop :=
  4 + jsonLength file ≤ file.length → ∀ m, dec (jsonBlock file) = some m → -2 ^ 63 ≤ m.totalSize ∧ m.totalSize < 2 ^ 63

theorem newReader_ref {dec : Bytes → Option MetaData} {data spare : Bytes} (hd : Int64s dec data) (hs : data.length < 2 ^ 63) :
    Ref (lift spare) (Ipdb.newReaderFromBytes dec data) (newReaderFromBytes dec ⟨data, spare⟩) := by
  unfold Ipdb.newReaderFromBytes newReaderFromBytes
  simp only []
  split
  · exact Ref.panic
  · rename_i h4
    have h4' : data.length ≥ 4 := by omega
    have := slice_ref ⟨data, spare⟩ (a := 0) (n := 4) (by simpa using h4')
    simp only [List.drop_zero, Nat.zero_add] at this
    rw [show (((0 : Nat)) : Int) = 0 from rfl, show (((4 : Nat)) : Int) = 4 from rfl] at this
    rw [this]
    simp only [Res.ok_bind]
    have hml : val (data.take 4) < 256 ^ 4 := by
      have := val_lt (data.take 4)
      rwa [List.length_take, Nat.min_eq_left h4'] at this
    split
    · exact (by first | exact Ref.ok rfl | exact Ref.err)
    · cases hdec : dec ((data.drop 4).take (val (data.take 4))) with
      | none => exact (by first | exact Ref.ok rfl | exact Ref.err)
      | some m =>
        simp only []
        have hr := hd (by unfold jsonLength; omega) _ hdec
        split
        · exact (by first | exact Ref.ok rfl | exact Ref.err)
        · by_cases hsz : (data.length : Int) = 4 + (val (data.take 4) : Int) + m.totalSize
          · have hw : wrap64 (4 + (val (data.take 4) : Int) + m.totalSize) = 4 + (val (data.take 4) : Int) + m.totalSize :=
              wrap64_id (by omega) (by omega)
            rw [if_neg (fun hne : (data.length : Int) ≠ 4 + (val (data.take 4) : Int) + m.totalSize => hne hsz),
              if_neg (fun hne : (data.length : Int) ≠ wrap64 (4 + (val (data.take 4) : Int) + m.totalSize) => hne (by rw [hw]; exact hsz))]
            have hs' : (Buf.mk (data.drop (4 + val (data.take 4))) spare).data.length < 2 ^ 63 := by
              simp only [List.length_drop]; omega
            split
            · refine Ref.bind (v4offsetLoop_ref hs' _ _ _ _) (fun node _ => ?_)
              have hc : Ref id (Ipdb.initBitsCache (data.drop (4 + val (data.take 4))) m.nodeCount node)
                  (initBitsCache ⟨data.drop (4 + val (data.take 4)), spare⟩ m.nodeCount (id node)) :=
                initBitsCache_ref hs' m.nodeCount node
              revert hc
              generalize Ipdb.initBitsCache (data.drop (4 + val (data.take 4))) m.nodeCount node = x
              generalize initBitsCache ⟨data.drop (4 + val (data.take 4)), spare⟩ m.nodeCount (id node) = y
              intro hc
              exact Ref.bind hc (fun c _ => Ref.ok rfl)
            · exact (by first | exact Ref.ok rfl | exact Ref.err)
          · rw [if_pos hsz, if_pos]
            · exact (by first | exact Ref.ok rfl | exact Ref.err)
            · unfold wrap64; omega

theorem trieWalk_lt {data : Bytes} {nc : Int} : ∀ (p : List Bool) (s d n e : Nat), s < 2 ^ 32 →
    trieWalk data nc p s d = some (n, e) → n < 2 ^ 32 := by
  intro p
  induction p with
  | nil => intro s d n e hs h; simp only [trieWalk, Option.some.injEq, Prod.mk.injEq] at h; omega
  | cons b p ih =>
    intro s d n e hs h
    unfold trieWalk at h
    split at h
    · simp only [Option.some.injEq, Prod.mk.injEq] at h; omega
    · cases hc : child data s b with
      | none => rw [hc] at h; cases h
      | some v =>
        rw [hc] at h
        refine ih _ _ _ _ ?_ h
        unfold child at hc
        simp only [] at hc
        split at hc
        · cases hc
          refine Nat.lt_of_lt_of_le (val_lt _) ?_
          rw [show 2 ^ 32 = 256 ^ 4 by decide]
          exact Nat.pow_le_pow_right (by decide) (by rw [List.length_take]; omega)
        · cases hc

/-- A number above the node count that a walk from the root reaches is stored in an inner node. -/
theorem trieWalk_from {data : Bytes} {nc : Int} : ∀ (p : List Bool) (s d n e : Nat),
    trieWalk data nc p s d = some (n, e) → n = s ∨ ∃ (i : Nat) (b : Bool), (i : Int) < nc ∧ child data i b = some n := by
  intro p
  induction p with
  | nil => intro s d n e h; simp only [trieWalk, Option.some.injEq, Prod.mk.injEq] at h; exact .inl h.1.symm
  | cons b p ih =>
    intro s d n e h
    unfold trieWalk at h
    split at h
    · simp only [Option.some.injEq, Prod.mk.injEq] at h; exact .inl h.1.symm
    · rename_i hs
      cases hc : child data s b with
      | none => rw [hc] at h; cases h
      | some v =>
        rw [hc] at h
        rcases ih _ _ _ _ h with rfl | h
        · exact .inr ⟨s, b, by omega, hc⟩
        · exact .inr h

/-- The walk behind a lookup, of either family. -/
theorem find0_walk {dec : Bytes → Option MetaData} {data : Bytes} {r : Ipdb.Reader}
    (h : Ipdb.newReaderFromBytes dec data = .ok r) {ip : IP} {bc : Nat}
    (hl : (bc = 32 ∧ ip.length = 4 ∧ r.md.HasIPv4 = true) ∨ (bc = 128 ∧ ip.length = 16)) :
    ∃ p k, r.search ip bc = match trieWalk r.data r.nodeCount p 0 0 with
      | none => .panic
      | some (node, depth) => if (node : Int) > r.nodeCount then .ok (node, depth - k) else .err .dataNotExists := by
  rcases hl with ⟨rfl, hl, h4⟩ | ⟨rfl, hl⟩
  · exact ⟨_, _, search_plain h h4 hl⟩
  · refine ⟨bits ip, 0, ?_⟩
    rw [search_v6]
    unfold plainSearch
    rw [readDepth_trieWalk _ _ _ (by rw [bits_length, hl]; decide), List.drop_zero,
      List.take_of_length_le (by rw [bits_length, hl]; decide)]
    cases trieWalk r.data r.nodeCount (bits ip) 0 0 with
    | none => rfl
    | some x => rfl

theorem search_ref {r : Ipdb.Reader} (hs : r.data.length < 2 ^ 63) (spare : Bytes) (ip : IP) (bc : Nat) :
    Ref id (r.search ip bc) ((lift spare r).search ip bc) := by
  show Ref id _ (Reader.search ⟨r.fileSize, r.nodeCount, r.v4offset, r.md, ⟨r.data, spare⟩, r.continentOffset, r.cache⟩ ip bc)
  unfold Ipdb.Reader.search Reader.search
  simp only []
  refine Ref.bind (f := id) (Ref.id_iff.mpr (fun _ => rfl)) (fun x _ => ?_)
  show Ref id _ (if r.cache.isSome = true ∧ bc = 32 ∧ (x.1 : Int) > r.nodeCount then _ else _)
  by_cases hc : r.cache.isSome = true ∧ bc = 32 ∧ (x.1 : Int) > r.nodeCount
  · rw [if_pos hc, if_pos hc]; exact (by first | exact Ref.ok rfl | exact Ref.err)
  · rw [if_neg hc, if_neg hc]
    refine Ref.bind (readDepth_ref (s := ⟨r.data, spare⟩) hs _ _ _ _ _) (fun y _ => ?_)
    simp only [id]
    split <;> exact (by first | exact Ref.ok rfl | exact Ref.err)

theorem resolve_ref {r : Ipdb.Reader} (hs : r.data.length < 2 ^ 62) (spare : Bytes) {node : Nat} (hn : node < 2 ^ 32)
    (hc : (node : Int) > r.nodeCount) : Ref id (r.resolve node) ((lift spare r).resolve node) := by
  rw [Ref.id_iff]
  intro h
  unfold Ipdb.Reader.resolve at h ⊢
  show Reader.resolve ⟨r.fileSize, r.nodeCount, r.v4offset, r.md, ⟨r.data, spare⟩, r.continentOffset, r.cache⟩ node = _
  unfold Reader.resolve
  simp only [] at h ⊢
  by_cases h0 : (node : Int) - r.nodeCount + r.nodeCount * 8 < 0
  · exfalso
    apply h
    rw [if_neg (by omega), if_pos (.inl h0)]
  · rw [wrap64_id (by omega) (by omega)]
    generalize hR : (node : Int) - r.nodeCount + r.nodeCount * 8 = R at h h0 ⊢
    split
    · rfl
    · rename_i hf
      rw [if_neg hf] at h
      by_cases h2 : R < 0 ∨ (r.data.length : Int) < R + 2
      · exfalso; exact h (if_pos h2)
      · rw [if_neg h2] at h ⊢
        have e1 := slice_ref ⟨r.data, spare⟩ (a := R.toNat) (n := 2) (by simp only []; omega)
        rw [show ((R.toNat : Nat) : Int) = R by omega, show ((R.toNat + 2 : Nat) : Int) = R + 2 by omega] at e1
        rw [wrap64_id (by omega) (by omega), e1]
        simp only [Res.ok_bind]
        have hv : val ((r.data.drop R.toNat).take 2) < 65536 := by
          have := val_lt ((r.data.drop R.toNat).take 2)
          refine Nat.lt_of_lt_of_le this ?_
          rw [show 65536 = 256 ^ 2 by decide]
          exact Nat.pow_le_pow_right (by decide) (by rw [List.length_take]; omega)
        generalize val ((r.data.drop R.toNat).take 2) = v at hv ⊢
        rw [wrap64_id (x := R + 2 + (v : Int)) (by omega) (by omega)]
        by_cases h3 : R.toNat + 2 + v > r.data.length
        · rw [if_pos h3, if_pos (by omega)]
        · rw [if_neg h3, if_neg (by omega)]
          have e2 := slice_ref ⟨r.data, spare⟩ (a := R.toNat + 2) (n := v) (by simp only []; omega)
          rw [show ((R.toNat + 2 : Nat) : Int) = R + 2 by omega, show ((R.toNat + 2 + v : Nat) : Int) = R + 2 + v by omega] at e2
          rw [e2]

theorem newReader_data {dec : Bytes → Option MetaData} {data : Bytes} {r : Ipdb.Reader}
    (h : Ipdb.newReaderFromBytes dec data = .ok r) :
    4 ≤ data.length ∧ 4 + val (data.take 4) ≤ data.length ∧ r.data = data.drop (4 + val (data.take 4)) ∧
      dec ((data.drop 4).take (val (data.take 4))) = some r.md ∧ r.nodeCount = r.md.nodeCount ∧
      r.fileSize = data.length ∧ r.continentOffset = Offset FieldContinentCode r.md.fields ∧
      (data.length : Int) = 4 + (val (data.take 4) : Int) + r.md.totalSize := by
  unfold Ipdb.newReaderFromBytes at h
  simp only [] at h
  split at h
  · cases h
  split at h
  · cases h
  split at h
  · cases h
  split at h
  · cases h
  split at h
  · cases h
  rename_i h1 h2 _ m hm h3 h4
  split at h
  · simp only [Res.bind_eq_ok] at h
    obtain ⟨node, _, c, _, h⟩ := h
    cases h
    exact ⟨by omega, by omega, rfl, hm, rfl, rfl, rfl, by simp only []; omega⟩
  · cases h
    exact ⟨by omega, by omega, rfl, hm, rfl, rfl, rfl, by simp only []; omega⟩

theorem find0_ref {dec : Bytes → Option MetaData} {data : Bytes} {r : Ipdb.Reader} (hs : data.length < 2 ^ 62)
    (h : Ipdb.newReaderFromBytes dec data = .ok r) (spare : Bytes) (a : IP) :
    Ref id (r.find0 a) ((lift spare r).find0 a) := by
  have hl : r.data.length < 2 ^ 62 := by rw [(newReader_data h).2.2.1, List.length_drop]; omega
  have key : ∀ ip bc, ((bc = 32 ∧ ip.length = 4 ∧ r.md.HasIPv4 = true) ∨ (bc = 128 ∧ ip.length = 16)) →
      Ref id (r.search ip bc >>= fun p => r.resolve p.1 >>= fun b => .ok (p.1, b, p.2))
        ((lift spare r).search ip bc >>= fun p => (lift spare r).resolve p.1 >>= fun b => .ok (p.1, b, p.2)) := by
    intro ip bc hip
    refine Ref.bind (search_ref (by omega) spare ip bc) (fun p hp => ?_)
    obtain ⟨path, k, hw⟩ := find0_walk h hip
    rw [hp] at hw
    cases ht : trieWalk r.data r.nodeCount path 0 0 with
    | none => rw [ht] at hw; cases hw
    | some x =>
      obtain ⟨n, e⟩ := x
      rw [ht] at hw
      simp only [] at hw
      split at hw
      · rename_i hgt
        cases hw
        exact Ref.bind (resolve_ref hl spare (trieWalk_lt _ _ _ _ _ (by decide) ht) hgt) (fun b _ => Ref.ok rfl)
      · cases hw
  unfold Ipdb.Reader.find0 Reader.find0
  have hmd : (lift spare r).md = r.md := rfl
  rw [hmd]
  cases h4 : To4 a with
  | some ip =>
    simp only []
    by_cases hh : r.md.HasIPv4 = true
    · rw [hh]
      exact key ip 32 (.inl ⟨rfl, (To4_eq_some h4).2.1, hh⟩)
    · simp only [Bool.not_eq_true] at hh
      rw [hh]; exact (by first | exact Ref.ok rfl | exact Ref.err)
  | none =>
    simp only []
    cases h6 : To16 a with
    | some ip =>
      simp only []
      split
      · exact (by first | exact Ref.ok rfl | exact Ref.err)
      · refine key ip 128 (.inr ⟨rfl, ?_⟩)
        unfold To16 at h6
        split at h6
        · cases h6; rename_i hl4; simp [hl4, v4InV6Prefix]
        · split at h6
          · cases h6; assumption
          · cases h6
    | none => exact (by first | exact Ref.ok rfl | exact Ref.err)

theorem decodeInfo_ref (r : Ipdb.Reader) (spare body : Bytes) {off : Int}
    (ho : -2 ^ 63 ≤ off ∧ off + r.md.fields.length < 2 ^ 63) :
    Ref id (r.decodeInfo body off) ((lift spare r).decodeInfo body off) := by
  rw [Ref.id_iff]
  intro h
  unfold Ipdb.Reader.decodeInfo at h ⊢
  show Reader.decodeInfo ⟨r.fileSize, r.nodeCount, r.v4offset, r.md, ⟨r.data, spare⟩, r.continentOffset, r.cache⟩ body off = _
  unfold Reader.decodeInfo
  simp only [] at h ⊢
  rw [wrap64_id (by omega) ho.2]
  split
  · rfl
  · rename_i hl
    rw [if_neg hl] at h
    by_cases h0 : off < 0
    · rw [if_pos h0] at h; exact absurd rfl h
    · rw [if_neg h0, if_neg (by omega), show (off + (r.md.fields.length : Int) - off).toNat = r.md.fields.length by omega]
      cases r.continentOffset <;> rfl

end Uip.Ipdb.Exact
