import Verif.Proof.Ipdb.Plain
import Verif.Model.Ipdb.Java
import Verif.Model.Ipdb.Rust
/-!
# The Java and Rust readers walk a file below 2 GiB as the Go reader does
-/
namespace Uip.Java
open Uip Uip.Spec Uip.Ipdb

theorem i32_id {x : Int} (h0 : -2 ^ 31 ≤ x) (h1 : x < 2 ^ 31) : i32 x = x := by unfold i32; omega

/-- A node area of `N` nodes, all of whose words fit a signed 32-bit number. -/
structure Small (data : Bytes) (N : Nat) : Prop where
  len : data.length < 2 ^ 31
  nodes : 8 * N ≤ data.length
  words : ∀ n < N, ∀ b < 2, ∃ x, Ipdb.readNode data n b = .ok x ∧ x < 2 ^ 31

theorem readNode_go {data : Bytes} {N : Nat} (h : Small data N) {n b x : Nat} (hn : n < N) (hb : b < 2)
    (hx : Ipdb.readNode data n b = .ok x) : Java.readNode data n b = .ok (x : Int) := by
  obtain ⟨y, hy, hlt⟩ := h.words n hn b hb
  rw [hy] at hx; cases hx
  have hl := h.len
  have hN := h.nodes
  unfold Ipdb.readNode at hy
  dsimp only at hy
  split at hy
  · cases hy
  · have hy := Res.ok.inj hy
    unfold Java.readNode
    have e : i32 (i32 ((n : Int) * 8) + (b : Int) * 4) = ((n * 8 + b * 4 : Nat) : Int) := by
      rw [i32_id (x := (n : Int) * 8) (by omega) (by omega), i32_id (by omega) (by omega)]; omega
    dsimp only
    rw [e, if_neg (by omega), Int.toNat_natCast, hy, i32_id (by omega) (by omega)]

theorem bitAt_go (ip : Bytes) (i : Nat) : Java.bitAt ip i = (ipBit ip i >>= fun b => .ok (b : Int)) := by
  unfold Java.bitAt ipBit
  rw [Nat.shiftRight_eq_div_pow i 3, show (2 : Nat) ^ 3 = 8 from rfl]
  cases ip[i / 8]? with
  | none => rfl
  | some b =>
    simp only [Res.ok_bind]
    have h0 := b.toNat_lt
    rw [Nat.and_comm 255, show (255 : Nat) = 2 ^ 8 - 1 by decide, Nat.and_two_pow_sub_one_of_lt_two_pow h0, Nat.and_comm]

theorem bitAt_ok {ip : Bytes} {i b : Nat} (h : ipBit ip i = .ok b) : Java.bitAt ip i = .ok (b : Int) := by
  rw [bitAt_go, h]; rfl

theorem ipBit_two {ip : Bytes} {i b : Nat} (h : ipBit ip i = .ok b) : b < 2 := by
  unfold ipBit at h
  split at h
  · have h := Res.ok.inj h
    rw [← h, Nat.and_one_is_mod]
    omega
  · cases h

theorem ipBit_some {ip : Bytes} {i : Nat} (h : i < 8 * ip.length) : ∃ b, ipBit ip i = .ok b := by
  unfold ipBit
  have : i >>> 3 < ip.length := by rw [Nat.shiftRight_eq_div_pow]; omega
  rw [List.getElem?_eq_getElem this]
  exact ⟨_, rfl⟩

theorem readDepth_go {data : Bytes} {N : Nat} (h : Small data N) {ip : Bytes} : ∀ (s node i n i' : Nat),
    Ipdb.readDepth data N ip s node i = .ok (n, i') → Java.readDepth data N ip s node i = .ok (n : Int) := by
  intro s
  induction s with
  | zero => intro node i n i' hr; cases hr; rfl
  | succ s ih =>
    intro node i n i' hr
    simp only [Ipdb.readDepth] at hr
    simp only [Java.readDepth]
    split at hr
    · rename_i hc; cases hr; rw [if_pos hc]
    · rename_i hc
      rw [if_neg hc]
      obtain ⟨b, hb, hr⟩ := Res.bind_eq_ok.mp hr
      obtain ⟨m, hm, hr⟩ := Res.bind_eq_ok.mp hr
      have hlt : node < N := by omega
      rw [bitAt_ok hb, Res.ok_bind, readNode_go h hlt (ipBit_two hb) hm, Res.ok_bind]
      exact ih m (i + 1) n i' hr

theorem readDepth_total {data : Bytes} {N : Nat} (h : Small data N) {ip : Bytes} : ∀ (s node i : Nat),
    i + s ≤ 8 * ip.length → ∃ x, Ipdb.readDepth data N ip s node i = .ok x := by
  intro s
  induction s with
  | zero => intro node i _; exact ⟨_, rfl⟩
  | succ s ih =>
    intro node i hi
    simp only [Ipdb.readDepth]
    split
    · exact ⟨_, rfl⟩
    · obtain ⟨b, hb⟩ := ipBit_some (ip := ip) (i := i) (by omega)
      have hlt : node < N := by omega
      obtain ⟨x, hx, _⟩ := h.words node hlt b (ipBit_two hb)
      rw [hb, Res.ok_bind, hx, Res.ok_bind]
      exact ih _ _ (by omega)

theorem v4Loop_go {data : Bytes} {N : Nat} (h : Small data N) : ∀ (s i node n : Nat),
    v4offsetLoop data N s i node = .ok n → Java.v4Loop data N s i node = .ok (n : Int) := by
  intro s
  induction s with
  | zero => intro i node n hr; cases hr; rfl
  | succ s ih =>
    intro i node n hr
    simp only [v4offsetLoop] at hr
    simp only [Java.v4Loop]
    split at hr
    · rename_i hc
      rw [if_pos hc]
      rw [Res.bind_eq_ok] at hr
      obtain ⟨m, hm, hr⟩ := hr
      have e := readNode_go h (n := node) (by omega) (by split <;> omega) hm
      have e' : ((if i ≥ 80 then 1 else 0 : Nat) : Int) = (if i ≥ 80 then 1 else 0) := by split <;> rfl
      rw [e'] at e
      rw [e, Res.ok_bind]
      exact ih _ _ _ hr
    · rename_i hc; cases hr; rw [if_neg hc]

theorem v4Loop_rust {data : Bytes} {N : Nat} (h : Small data N) : ∀ (s i node n : Nat), node < N ∨ s = 0 →
    v4offsetLoop data N s i node = .ok n → Rust.v4Loop data N s i node = .ok (n : Int) := by
  intro s
  induction s with
  | zero => intro i node n _ hr; cases hr; rfl
  | succ s ih =>
    intro i node n hn hr
    simp only [v4offsetLoop] at hr
    simp only [Rust.v4Loop]
    have hn : node < N := by omega
    rw [if_pos (by omega), Res.bind_eq_ok] at hr
    obtain ⟨m, hm, hr⟩ := hr
    have e := readNode_go h (n := node) hn (by split <;> omega) hm
    have e' : ((if i ≥ 80 then 1 else 0 : Nat) : Int) = (if i ≥ 80 then 1 else 0) := by split <;> rfl
    rw [e'] at e
    rw [show @Rust.readNode = @Java.readNode from rfl, e, Res.ok_bind]
    by_cases hc : (m : Int) ≥ N
    · rw [if_pos hc]
      have : v4offsetLoop data N s (i + 1) m = .ok m := by
        cases s with
        | zero => rfl
        | succ s => simp only [v4offsetLoop]; rw [if_neg (by omega)]
      rw [this] at hr; cases hr; rfl
    · rw [if_neg hc]
      exact ih _ _ _ (by omega) hr

theorem rust_readDepth (data : Bytes) (nc : Int) (ip : Bytes) : ∀ (s : Nat) (node : Int) (i : Nat),
    Rust.readDepth data nc ip s node i = Java.readDepth data nc ip s node i := by
  intro s
  induction s with
  | zero => intros; rfl
  | succ s ih =>
    intro node i
    simp only [Rust.readDepth, Java.readDepth]
    split
    · rfl
    · rw [show @Rust.bitAt = @Java.bitAt from rfl, show @Rust.readNode = @Java.readNode from rfl]
      congr 1; funext b
      congr 1; funext m
      exact ih _ _

/-! ## The 12-bit table -/

theorem indexBits {ip : Bytes} (h : ip.length = 4) : ∃ i, Java.bytesToIndex ip = .ok i ∧ i < 2 ^ 12 ∧
    ∀ j, j < 12 → ipBit (Java.indexToBytes i) j = ipBit ip j := by
  match ip, h with
  | [b0, b1, b2, b3], _ =>
    have h0 := b0.toNat_lt
    have h1 := b1.toNat_lt
    have e0 : 255 &&& b0.toNat = b0.toNat := by
      rw [Nat.and_comm, show (255 : Nat) = 2 ^ 8 - 1 by decide, Nat.and_two_pow_sub_one_of_lt_two_pow h0]
    have e1 : 255 &&& b1.toNat = b1.toNat := by
      rw [Nat.and_comm, show (255 : Nat) = 2 ^ 8 - 1 by decide, Nat.and_two_pow_sub_one_of_lt_two_pow h1]
    have e2 : b0.toNat <<< 8 >>> 4 = b0.toNat <<< 4 := by
      rw [Nat.shiftLeft_eq, Nat.shiftLeft_eq, Nat.shiftRight_eq_div_pow]; omega
    have e3 : b1.toNat >>> 4 = b1.toNat / 16 := by rw [Nat.shiftRight_eq_div_pow]
    refine ⟨b0.toNat * 16 + b1.toNat / 16, ?_, by omega, ?_⟩
    · simp only [Java.bytesToIndex]
      refine congrArg Res.ok ?_
      rw [e0, e1, e2, e3, ← Nat.shiftLeft_add_eq_or_of_lt (by omega), Nat.shiftLeft_eq]
    have hx : Java.indexToBytes (b0.toNat * 16 + b1.toNat / 16) = [b0, UInt8.ofNat (b1.toNat / 16 * 16)] := by
      unfold Java.indexToBytes
      rw [Nat.shiftLeft_eq]
      congr 1
      · apply UInt8.toNat_inj.mp
        rw [UInt8.toNat_ofNat', Nat.shiftRight_eq_div_pow]; omega
      · congr 1
        apply UInt8.toNat_inj.mp
        rw [UInt8.toNat_ofNat', UInt8.toNat_ofNat', Nat.and_comm, show (255 : Nat) = 2 ^ 8 - 1 by decide,
          Nat.and_two_pow_sub_one_eq_mod]
        omega
    rw [hx]
    intro j hj
    unfold ipBit
    by_cases hj8 : j < 8
    · have : j >>> 3 = 0 := by rw [Nat.shiftRight_eq_div_pow]; omega
      rw [this]; rfl
    · have : j >>> 3 = 1 := by rw [Nat.shiftRight_eq_div_pow]; omega
      rw [this]
      simp only [List.getElem?_cons_succ, List.getElem?_cons_zero]
      congr 1
      have hbyte : ∀ k < 4, ((UInt8.ofNat (b1.toNat / 16 * 16)).toNat >>> (7 - k)) &&& 1 =
          (b1.toNat >>> (7 - k)) &&& 1 := by
        apply byte_all (fun b1 => ∀ k < 4, ((UInt8.ofNat (b1.toNat / 16 * 16)).toNat >>> (7 - k)) &&& 1 =
          (b1.toNat >>> (7 - k)) &&& 1)
        decide +kernel
      have := hbyte (j - 8) (by omega)
      rwa [show j - 8 = j % 8 by omega] at this

theorem initCache_go {data : Bytes} {N : Nat} (h : Small data N) (v4 : Nat) :
    ∃ c, Java.initCache data N v4 = .ok c ∧ c ≠ [] ∧ ∀ ip : Bytes, ip.length = 4 → ∃ idx, Java.bytesToIndex ip = .ok idx ∧
      ∀ n i', Ipdb.readDepth data N ip 12 v4 0 = .ok (n, i') → c[idx]? = some (n : Int) := by
  obtain ⟨c, hc⟩ := mapM_ok (f := fun i => Java.readDepth data N (Java.indexToBytes i) 12 v4 0) (xs := List.range (2 ^ 12)) (by
    intro i _
    obtain ⟨⟨n, i'⟩, hx⟩ := readDepth_total h (ip := Java.indexToBytes i) 12 v4 0 (by simp [Java.indexToBytes])
    exact ⟨_, readDepth_go h _ _ _ _ _ hx⟩)
  have hget : ∀ i, i < 2 ^ 12 → ∃ y, c[i]? = some y ∧ Java.readDepth data N (Java.indexToBytes i) 12 v4 0 = .ok y := by
    intro i hi
    exact Res.mapM_ok_get hc i i (by rw [List.getElem?_range hi])
  refine ⟨c, hc, ?_, ?_⟩
  · obtain ⟨y, hy, _⟩ := hget 0 (by decide)
    intro hn; rw [hn] at hy; simp at hy
  · intro ip hl
    obtain ⟨i, hi, hlt, hbits⟩ := indexBits hl
    refine ⟨i, hi, fun n i' hr => ?_⟩
    obtain ⟨y, hy1, hy2⟩ := hget i hlt
    rw [readDepth_congr (ip := ip) (ip' := Java.indexToBytes i) 12 v4 0 (fun j _ h2 => (hbits j (by omega)).symm)] at hr
    rw [readDepth_go h _ _ _ _ _ hr] at hy2
    cases hy2
    exact hy1

/-! ## Walking an address -/

/-- The walk of an IPv4 address from the IPv4 root is the walk of its 16-byte form. -/
theorem v4_full {data : Bytes} {N v4 n d : Nat} {b : Bytes} (hb : b.length = 4)
    (hv : v4offsetLoop data N 96 0 0 = .ok v4)
    (hw : Ipdb.readDepth data N (v4InV6Prefix ++ b) 128 0 0 = .ok (n, d)) :
    ∃ d', Ipdb.readDepth data N b 32 v4 0 = .ok (n, d') := by
  rw [v4offsetLoop_eq _ _ _ _ _ rfl, readDepth_trieWalk _ _ _ (by decide)] at hv
  rw [List.drop_zero, List.take_of_length_le (by decide)] at hv
  rw [readDepth_trieWalk _ _ _ (by rw [bits_length, List.length_append, hb]; decide), List.drop_zero,
    List.take_of_length_le (by rw [bits_length, List.length_append, hb]; decide), bits_append, trieWalk_append] at hw
  rw [readDepth_trieWalk _ _ _ (by rw [bits_length, hb]; decide), List.drop_zero,
    List.take_of_length_le (by rw [bits_length, hb]; decide)]
  cases ht : trieWalk data N (bits v4InV6Prefix) 0 0 with
  | none => rw [ht] at hv; cases hv
  | some x =>
    obtain ⟨v, e⟩ := x
    rw [ht] at hv hw
    simp only [Res.ofOption_some, Res.ok_bind, Res.ok.injEq] at hv
    subst hv
    simp only [Option.bind_some] at hw
    by_cases hc : (v : Int) ≥ N
    · rw [if_pos hc] at hw
      simp only [Res.ofOption_some, Res.ok.injEq, Prod.mk.injEq] at hw
      refine ⟨0, ?_⟩
      rw [← hw.1]
      cases bits b with
      | nil => rfl
      | cons y l => simp [trieWalk, hc]
    · rw [if_neg hc] at hw
      rw [show e = 0 + e by omega, trieWalk_shift] at hw
      cases ht2 : trieWalk data N (bits b) v 0 with
      | none => rw [ht2] at hw; cases hw
      | some x =>
        rw [ht2] at hw
        simp only [Option.map_some, Res.ofOption_some, Res.ok.injEq, Prod.mk.injEq] at hw
        exact ⟨x.2, by rw [← hw.1]; rfl⟩

/-- What a reader of either language needs for its lookups. -/
structure Ready (r : JReader) (N : Nat) : Prop where
  nodes : r.nodeCount = N
  small : Small r.data N
  v4 : r.isIPv4 = true → ∃ v4 : Nat, v4offsetLoop r.data N 96 0 0 = .ok v4 ∧ r.v4offset = v4 ∧
    ∃ c, r.ipv4BitsCache = some c ∧ Java.initCache r.data N v4 = .ok c

/-- The node found for an address is the end of the walk of its 16-byte form. -/
theorem findNode_walk {r : JReader} {N : Nat} (h : Ready r N) {a a16 : Bytes} (ha : To16 a = some a16)
    (h4 : a.length = 4 → r.isIPv4 = true) {n d : Nat}
    (hw : Ipdb.readDepth r.data N a16 128 0 0 = .ok (n, d)) (hge : N ≤ n) :
    r.findNode a = .ok (some (n : Int)) := by
  unfold To16 at ha
  split at ha
  · rename_i hl
    injection ha with ha
    subst ha
    obtain ⟨v4, hv, hvr, c, hc, hci⟩ := h.v4 (h4 hl)
    obtain ⟨d', hwa⟩ := v4_full hl hv hw
    obtain ⟨c', hc', _, hidx⟩ := initCache_go h.small v4
    rw [hci] at hc'; cases hc'
    obtain ⟨idx, hi, hget⟩ := hidx a hl
    have hadd := readDepth_add (data := r.data) (nc := N) (ip := a) 12 20 v4 0
    rw [show 12 + 20 = 32 from rfl, hwa] at hadd
    obtain ⟨⟨m, i⟩, h12, h20⟩ := Res.bind_eq_ok.mp hadd.symm
    have hg := hget _ _ h12
    unfold JReader.findNode
    rw [hc]
    simp only [hl, Nat.reduceMul, if_true, hi, Res.ok_bind, hg, Res.ofOption_some, Res.pure_eq, h.nodes]
    have hb := readDepth_bounds _ _ _ _ _ h12
    by_cases hm : (m : Int) ≥ N
    · simp only [hm, decide_true, if_true]
      rw [readDepth_stop hm] at h20
      cases h20; rfl
    · simp only [hm, decide_false, Bool.false_eq_true, if_false]
      have : i = 12 := by omega
      subst this
      rw [readDepth_go h.small _ _ _ _ _ h20, Res.ok_bind, if_pos (by omega)]
  · split at ha
    · rename_i hl
      injection ha with ha
      subst ha
      unfold JReader.findNode
      have := readDepth_go h.small _ _ _ _ _ hw
      rw [show ((0 : Nat) : Int) = 0 from rfl] at this
      have e32 : ¬ (a.length * 8 = 32) := by omega
      have e128 : a.length * 8 = 128 := by omega
      have hN : ((n : Int) ≥ (N : Int)) := by omega
      cases hcc : r.ipv4BitsCache with
      | none =>
        simp only [e32, if_false, Res.ok_bind, Bool.false_eq_true, h.nodes, Nat.sub_zero]
        rw [e128, this, Res.ok_bind, if_pos hN]; rfl
      | some c =>
        simp only [e32, if_false, Res.ok_bind, Bool.false_eq_true, h.nodes, Nat.sub_zero]
        rw [e128, this, Res.ok_bind, if_pos hN]; rfl
    · cases ha

end Uip.Java
