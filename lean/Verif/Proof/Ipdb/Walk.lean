import Verif.Proof.Ipdb.Insert
import Verif.Model.Ipdb.Reader
/-!
# Walking a database: `readDepth`, the 14-bit IPv4 cache, and the trie a writer produced
-/
namespace Uip.Ipdb
open Uip Uip.Spec

theorem val_le_32 {b : Bytes} (h : b.length ≤ 4) : val b < 2 ^ 32 := by
  have h1 := val_lt b
  have h2 : 256 ^ b.length ≤ 256 ^ 4 := Nat.pow_le_pow_right (by decide) h
  omega

theorem readNode_lt {data : Bytes} {node bit x : Nat} (h : readNode data node bit = .ok x) : x < 2 ^ 32 := by
  unfold readNode at h
  dsimp only at h
  split at h
  · cases h
  · cases h
    apply val_le_32
    rw [List.length_take]; omega

theorem readDepth_bounds {data : Bytes} {nc : Int} {ip : Bytes} :
    ∀ (steps node i n' i' : Nat), readDepth data nc ip steps node i = .ok (n', i') →
    i ≤ i' ∧ i' ≤ i + steps ∧ (node < 2 ^ 32 → n' < 2 ^ 32) ∧ ((n' : Int) ≥ nc ∨ i' = i + steps) ∧
    ((node : Int) ≥ nc → n' = node ∧ i' = i) := by
  intro steps
  induction steps with
  | zero => intro node i n' i' h; cases h; simp
  | succ steps ih =>
    intro node i n' i' h
    simp only [readDepth] at h
    split at h
    · cases h
      refine ⟨by omega, by omega, fun x => x, .inl (by assumption), fun _ => ⟨rfl, rfl⟩⟩
    · rename_i hlt
      rw [Res.bind_eq_ok] at h
      obtain ⟨b, _, h⟩ := h
      rw [Res.bind_eq_ok] at h
      obtain ⟨m, hm, h⟩ := h
      have := ih m (i + 1) n' i' h
      refine ⟨by omega, by omega, fun _ => this.2.2.1 (readNode_lt hm), ?_, fun hc => absurd hc hlt⟩
      rcases this.2.2.2.1 with h | h
      · exact .inl h
      · exact .inr (by omega)

theorem readDepth_stop {data : Bytes} {nc : Int} {ip : Bytes} {node : Nat} (h : (node : Int) ≥ nc) (steps i : Nat) :
    readDepth data nc ip steps node i = .ok (node, i) := by
  cases steps with
  | zero => rfl
  | succ s => simp [readDepth, h]

/-- A walk can be interrupted. -/
theorem readDepth_add {data : Bytes} {nc : Int} {ip : Bytes} (s t : Nat) : ∀ (node i : Nat),
    readDepth data nc ip (s + t) node i =
      (readDepth data nc ip s node i >>= fun p => readDepth data nc ip (i + s + t - p.2) p.1 p.2) := by
  induction s with
  | zero =>
    intro node i
    simp only [readDepth, Res.ok_bind, Nat.zero_add]
    congr 1; omega
  | succ s ih =>
    intro node i
    rw [show s + 1 + t = (s + t) + 1 by omega]
    simp only [readDepth]
    split
    · rename_i hge
      simp only [Res.ok_bind]
      rw [readDepth_stop hge]
    · rw [Res.bind_assoc]
      congr 1; funext b
      rw [Res.bind_assoc]
      congr 1; funext m
      rw [ih]
      congr 1; funext p
      congr 1; omega

theorem readDepth_congr {data : Bytes} {nc : Int} {ip ip' : Bytes} (s : Nat) : ∀ (node i : Nat),
    (∀ j, i ≤ j → j < i + s → ipBit ip j = ipBit ip' j) →
    readDepth data nc ip s node i = readDepth data nc ip' s node i := by
  induction s with
  | zero => intros; rfl
  | succ s ih =>
    intro node i h
    simp only [readDepth]
    rw [h i (by omega) (by omega)]
    split
    · rfl
    · congr 1; funext b
      congr 1; funext m
      exact ih m (i + 1) (fun j h1 h2 => h j (by omega) (by omega))

/-! ## The cache -/

theorem bytesToIndex_eq {ip : IP} (h : ip.length = 4) :
    ∃ b0 b1, ip.take 2 = [b0, b1] ∧ bytesToIndex ip = .ok (b0.toNat * 64 + b1.toNat / 4) := by
  match ip, h with
  | [b0, b1, b2, b3], _ =>
    refine ⟨b0, b1, rfl, ?_⟩
    simp only [bytesToIndex]
    congr 1
    have h0 := b0.toNat_lt
    have h1 := b1.toNat_lt
    have e0 : 255 &&& b0.toNat = b0.toNat := by
      rw [Nat.and_comm, show (255 : Nat) = 2 ^ 8 - 1 by decide, Nat.and_two_pow_sub_one_of_lt_two_pow h0]
    have e1 : 255 &&& b1.toNat = b1.toNat := by
      rw [Nat.and_comm, show (255 : Nat) = 2 ^ 8 - 1 by decide, Nat.and_two_pow_sub_one_of_lt_two_pow h1]
    rw [e0, e1]
    have e2 : b0.toNat <<< 8 >>> 2 = b0.toNat <<< 6 := by
      rw [Nat.shiftLeft_eq, Nat.shiftLeft_eq, Nat.shiftRight_eq_div_pow]; omega
    have e3 : b1.toNat >>> 2 = b1.toNat / 4 := by rw [Nat.shiftRight_eq_div_pow]
    rw [e2, e3, ← Nat.shiftLeft_add_eq_or_of_lt (by omega), Nat.shiftLeft_eq]

theorem indexToBytes_bits {ip : IP} (h : ip.length = 4) {i : Nat} (hi : bytesToIndex ip = .ok i) :
    i < 2 ^ 14 ∧ ∀ j, j < 14 → ipBit (indexToBytes i) j = ipBit ip j := by
  match ip, h with
  | [b0, b1, b2, b3], _ =>
    obtain ⟨c0, c1, hc, hi'⟩ := bytesToIndex_eq (ip := [b0, b1, b2, b3]) rfl
    simp at hc
    obtain ⟨rfl, rfl⟩ := hc
    rw [hi] at hi'
    cases hi'
    have h0 := b0.toNat_lt
    have h1 := b1.toNat_lt
    refine ⟨by omega, ?_⟩
    have hx : indexToBytes (b0.toNat * 64 + b1.toNat / 4) = [b0, UInt8.ofNat (b1.toNat / 4 * 4)] := by
      unfold indexToBytes
      rw [Nat.shiftLeft_eq]
      congr 1
      · apply UInt8.toNat_inj.mp
        rw [UInt8.toNat_ofNat', Nat.shiftRight_eq_div_pow]; omega
      · congr 1
        apply UInt8.toNat_inj.mp
        rw [UInt8.toNat_ofNat', UInt8.toNat_ofNat', Nat.and_comm, show (255 : Nat) = 2 ^ 8 - 1 by decide,
          Nat.and_two_pow_sub_one_eq_mod]
        omega
    rw [hx]
    intro j hj
    unfold ipBit
    by_cases hj8 : j < 8
    · have : j >>> 3 = 0 := by rw [Nat.shiftRight_eq_div_pow]; omega
      rw [this]; rfl
    · have : j >>> 3 = 1 := by rw [Nat.shiftRight_eq_div_pow]; omega
      rw [this]
      simp only [List.getElem?_cons_succ, List.getElem?_cons_zero]
      congr 1
      have hbyte : ∀ k < 6, ((UInt8.ofNat (b1.toNat / 4 * 4)).toNat >>> (7 - k)) &&& 1 =
          (b1.toNat >>> (7 - k)) &&& 1 := by
        apply byte_all (fun b1 => ∀ k < 6, ((UInt8.ofNat (b1.toNat / 4 * 4)).toNat >>> (7 - k)) &&& 1 =
          (b1.toNat >>> (7 - k)) &&& 1)
        decide +kernel
      have := hbyte (j - 8) (by omega)
      rwa [show j - 8 = j % 8 by omega] at this

theorem cacheWord_node {node off : Nat} (hn : node < 2 ^ 32) (ho : off < 32) :
    (((UInt64.ofNat node <<< 5) ||| UInt64.ofNat off) >>> 5).toNat = node ∧
    (((UInt64.ofNat node <<< 5) ||| UInt64.ofNat off) &&& 0x1F).toNat = off := by
  have e : ((UInt64.ofNat node <<< 5) ||| UInt64.ofNat off).toNat = node * 32 + off := by
    rw [UInt64.toNat_or, UInt64.toNat_shiftLeft]
    simp only [UInt64.toNat_ofNat']
    have h5 : (5 : UInt64).toNat % 64 = 5 := rfl
    rw [h5, Nat.mod_eq_of_lt (show node < 2 ^ 64 by omega), Nat.mod_eq_of_lt (show off < 2 ^ 64 by omega),
      Nat.mod_eq_of_lt (show node <<< 5 < 2 ^ 64 by rw [Nat.shiftLeft_eq]; omega),
      ← Nat.shiftLeft_add_eq_or_of_lt (by omega), Nat.shiftLeft_eq]
  constructor
  · rw [UInt64.toNat_shiftRight, e]
    have h5 : (5 : UInt64).toNat % 64 = 5 := rfl
    rw [h5, Nat.shiftRight_eq_div_pow]; omega
  · rw [UInt64.toNat_and, e]
    have h5 : (0x1F : UInt64).toNat = 2 ^ 5 - 1 := rfl
    rw [h5, Nat.and_two_pow_sub_one_eq_mod]; omega

theorem getCache_eq {data : Bytes} {nc : Int} {v4 : Nat} {c : List UInt64} (hc : initBitsCache data nc v4 = .ok c)
    (hv : v4 < 2 ^ 32) {ip : IP} (hl : ip.length = 4) :
    Reader.getCache c ip = readDepth data nc ip 14 v4 0 := by
  obtain ⟨b0, b1, _, hidx⟩ := bytesToIndex_eq hl
  obtain ⟨hi, hbits⟩ := indexToBytes_bits hl hidx
  generalize hii : b0.toNat * 64 + b1.toNat / 4 = i at *
  unfold initBitsCache at hc
  obtain ⟨y, hy1, hy2⟩ := Res.mapM_ok_get hc i i (by
    rw [List.getElem?_range hi])
  unfold Reader.getCache
  rw [hidx]
  simp only [Res.ok_bind, hy1, Res.ofOption_some]
  unfold cacheEntry at hy2
  rw [readDepth_congr (ip := indexToBytes i) (ip' := ip) 14 v4 0 (fun j _ h2 => hbits j (by omega))] at hy2
  rw [Res.bind_eq_ok] at hy2
  obtain ⟨⟨node, off⟩, hrd, hy⟩ := hy2
  rw [hrd]
  have hb := readDepth_bounds _ _ _ _ _ hrd
  have := cacheWord_node (node := node) (off := off) (hb.2.2.1 hv) (by omega)
  simp only [Res.pure_eq, Res.ok.injEq] at hy
  rw [← hy, Res.pure_eq, this.1, this.2]

/-- The walk without a cache. -/
def plainSearch (data : Bytes) (nc : Int) (root : Nat) (ip : IP) (bitCount : Nat) : Res (Nat × Nat) := do
  let (node, i) ← readDepth data nc ip bitCount root 0
  if (node : Int) > nc then return (node, i) else .err .dataNotExists

/-- What `newReaderFromBytes` guarantees about the cache. -/
def CacheOK (r : Reader) : Prop :=
  r.v4offset < 2 ^ 32 ∧ (r.cache = none ∨ ∃ c, r.cache = some c ∧ initBitsCache r.data r.nodeCount r.v4offset = .ok c)

theorem search_v6 (r : Reader) (ip : IP) : r.search ip 128 = plainSearch r.data r.nodeCount 0 ip 128 := by
  unfold Reader.search plainSearch
  cases r.cache <;> simp

theorem search_v4 {r : Reader} (h : CacheOK r) {ip : IP} (hl : ip.length = 4) :
    r.search ip 32 = plainSearch r.data r.nodeCount r.v4offset ip 32 := by
  unfold Reader.search plainSearch
  rcases h with ⟨hv, hc | ⟨c, hc, hinit⟩⟩
  · rw [hc]; simp
  · rw [hc]
    simp only [if_true, getCache_eq hinit hv hl, Option.isSome_some, true_and]
    have hadd := readDepth_add (data := r.data) (nc := r.nodeCount) (ip := ip) 14 18 r.v4offset 0
    simp only [Nat.zero_add] at hadd
    have hadd : readDepth r.data r.nodeCount ip 32 r.v4offset 0 =
      (readDepth r.data r.nodeCount ip 14 r.v4offset 0 >>= fun p =>
        readDepth r.data r.nodeCount ip (32 - p.2) p.1 p.2) := hadd
    rw [hadd, Res.bind_assoc]
    generalize readDepth r.data r.nodeCount ip 14 r.v4offset 0 = x
    cases x with
    | err e => rfl
    | panic => rfl
    | ok p =>
    obtain ⟨node, i⟩ := p
    simp only [Res.ok_bind]
    by_cases hgt : (node : Int) > r.nodeCount
    · simp only [hgt, if_true]
      rw [readDepth_stop (by omega)]
      simp [hgt]
    · simp only [hgt, if_false]

theorem v4offsetLoop_eq (data : Bytes) (nc : Int) : ∀ (steps i node : Nat), i + steps = 96 →
    v4offsetLoop data nc steps i node = (readDepth data nc v4InV6Prefix steps node i >>= fun p => .ok p.1) := by
  intro steps
  induction steps with
  | zero => intro i node _; rfl
  | succ s ih =>
    intro i node hi
    simp only [v4offsetLoop, readDepth]
    by_cases hlt : (node : Int) < nc
    · rw [if_pos hlt, if_neg (show ¬ ((node : Int) ≥ nc) by omega), Res.bind_assoc]
      have hbit : ipBit v4InV6Prefix i = .ok (if i ≥ 80 then 1 else 0) := by
        have : ∀ i < 96, ipBit v4InV6Prefix i = .ok (if i ≥ 80 then 1 else 0) := by decide +kernel
        exact this i (by omega)
      rw [hbit, Res.ok_bind, Res.bind_assoc]
      congr 1; funext m
      exact ih (i + 1) m (by omega)
    · rw [if_neg hlt, if_pos (by omega)]; rfl

theorem newReader_cacheOK {dec : Bytes → Option MetaData} {data : Bytes} {r : Reader}
    (h : newReaderFromBytes dec data = .ok r) : CacheOK r := by
  unfold newReaderFromBytes at h
  split at h
  · cases h
  · dsimp only at h
    split at h
    · cases h
    · split at h
      · cases h
      · split at h
        · cases h
        · split at h
          · cases h
          · split at h
            · rw [Res.bind_eq_ok] at h
              obtain ⟨node, hn, h⟩ := h
              rw [Res.bind_eq_ok] at h
              obtain ⟨c, hc, h⟩ := h
              cases h
              refine ⟨?_, .inr ⟨c, rfl, hc⟩⟩
              rw [v4offsetLoop_eq _ _ _ _ _ rfl, Res.bind_eq_ok] at hn
              obtain ⟨⟨n', i'⟩, h1, h2⟩ := hn
              cases h2
              exact (readDepth_bounds _ _ _ _ _ h1).2.2.1 (by omega)
            · cases h
              exact ⟨by show 0 < 2 ^ 32; decide, .inl rfl⟩

end Uip.Ipdb
