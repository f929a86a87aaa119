import Verif.Spec.Awdb
/-!
# The awdb decoder inverts the encoding
-/
namespace Uip.Awdb
open Uip Uip.Spec.Awdb

/-! ## Big-endian numbers -/

theorem be_length (k n : Nat) : (be k n).length = k := by
  induction k with
  | zero => rfl
  | succ k ih => simp [be, ih]

theorem uintFromBytes_eq (pre : Nat) (bs : Bytes) : uintFromBytes pre bs = pre * 256 ^ bs.length + val bs := by
  unfold uintFromBytes
  induction bs generalizing pre with
  | nil => simp [val]
  | cons b bs ih =>
    rw [List.foldl_cons, ih]
    simp only [List.length_cons, val, Nat.pow_succ]
    rw [Nat.add_mul, Nat.mul_assoc, Nat.mul_comm 256, Nat.add_assoc]

theorem val_be (k n : Nat) : val (be k n) = n % 256 ^ k := by
  induction k with
  | zero => simp [be, val, Nat.mod_one]
  | succ k ih =>
    simp only [be, val, be_length, ih]
    have : (UInt8.ofNat (n / 256 ^ k)).toNat = n / 256 ^ k % 256 := by simp
    rw [this, Nat.pow_succ, Nat.mod_mul, Nat.mul_comm, Nat.add_comm]

theorem uint_be {k n : Nat} (h : n < 256 ^ k) : uintFromBytes 0 (be k n) = n := by
  rw [uintFromBytes_eq, val_be, Nat.mod_eq_of_lt h]; simp

/-! ## Pieces of the buffer -/

theorem _root_.Uip.Spec.Awdb.At.left {buf : Bytes} {off : Nat} {a b : Bytes} (h : At buf off (a ++ b)) : At buf off a :=
  (List.prefix_append a b).trans h

theorem _root_.Uip.Spec.Awdb.At.right {buf : Bytes} {off : Nat} {a b : Bytes} (h : At buf off (a ++ b)) : At buf (off + a.length) b := by
  obtain ⟨t, ht⟩ := h
  refine ⟨t, ?_⟩
  rw [← List.drop_drop, ← ht, List.append_assoc, List.drop_left]

theorem _root_.Uip.Spec.Awdb.At.get {buf : Bytes} {off : Nat} {a : Bytes} (h : At buf off a) {j : Nat} (hj : j < a.length) : buf[off + j]? = a[j]? := by
  obtain ⟨t, ht⟩ := h
  rw [← List.getElem?_drop, ← ht, List.getElem?_append_left hj]

theorem _root_.Uip.Spec.Awdb.At.le {buf : Bytes} {off : Nat} {a : Bytes} (h : At buf off a) (hne : a ≠ []) : off + a.length ≤ buf.length := by
  have := h.length_le
  have hpos : 0 < a.length := List.length_pos_iff.mpr hne
  rw [List.length_drop] at this
  omega

theorem _root_.Uip.Spec.Awdb.At.slice {buf : Bytes} {off : Nat} {a : Bytes} (h : At buf off a) (hl : off + a.length ≤ buf.length) {e : Nat}
    (he : e = off + a.length) : goSlice buf off e = .ok a := by
  subst he
  unfold goSlice
  rw [if_pos ⟨by omega, hl⟩]
  obtain ⟨t, ht⟩ := h
  rw [← ht, Nat.add_sub_cancel_left, List.take_left]

theorem byte_top (b : UInt8) : (b >>> 5).toNat = b.toNat / 32 ∧ (b &&& 0x1f).toNat = b.toNat % 32 := by
  revert b
  exact byte_all _ (by decide +kernel)

/-! ## Control bytes -/

theorem sizeBits_lt (size : Nat) : (sizeBits size).1 < 32 := by
  unfold sizeBits
  split
  · simp only []; omega
  · split
    · simp
    · split <;> simp

theorem head_ne (t size : Nat) : head t size ≠ [] := by
  unfold head; split <;> simp

/-- The size is read back. -/
theorem size_back {buf : Bytes} {ctrl : UInt8} {off t size : Nat} (hc : ctrl.toNat % 32 = (sizeBits size).1) (ht : t ≠ 0)
    (hs : SizeOK size) (hat : At buf off (sizeBits size).2) :
    sizeFromCtrlByte buf ctrl off t = .ok (size, off + (sizeBits size).2.length) := by
  unfold sizeFromCtrlByte
  simp only [(byte_top ctrl).2, hc]
  rw [if_neg ht]
  unfold sizeBits at hat ⊢
  by_cases h1 : size < 29
  · simp only [if_pos h1]; rfl
  simp only [if_neg h1] at hat ⊢
  by_cases h2 : size < 285
  · simp only [if_pos h2] at hat ⊢
    have hle := hat.le (by simp [be])
    rw [be_length] at hle
    rw [if_neg (by omega), if_neg (by omega), if_pos trivial]
    have hg := hat.get (j := 0) (by rw [be_length]; omega)
    rw [Nat.add_zero] at hg
    rw [hg]
    simp only [be, List.getElem?_cons_zero, List.length_cons, List.length_nil]
    congr 2
    have : (UInt8.ofNat ((size - 29) / 256 ^ 0)).toNat = size - 29 := by simp; omega
    rw [this]; omega
  simp only [if_neg h2] at hat ⊢
  by_cases h3 : size < 65821
  · simp only [if_pos h3] at hat ⊢
    have hle := hat.le (by simp [be])
    rw [be_length] at hle
    rw [if_neg (by omega), if_neg (by omega), if_neg (by omega),
      hat.slice (by rw [be_length]; exact hle) (by rw [be_length]), Res.ok_bind, if_pos trivial, be_length,
      uint_be (by omega)]
    refine congrArg Res.ok (Prod.ext ?_ ?_) <;> simp only [] <;> omega
  · simp only [if_neg h3] at hat ⊢
    have hle := hat.le (by simp [be])
    rw [be_length] at hle
    unfold SizeOK at hs
    rw [if_neg (by omega), if_neg (by omega), if_neg (by omega),
      hat.slice (by rw [be_length]; exact hle) (by rw [be_length]), Res.ok_bind, if_neg (by omega), be_length,
      uint_be (by omega)]
    refine congrArg Res.ok (Prod.ext ?_ ?_) <;> simp only [] <;> omega

theorem head_length (t size : Nat) : (head t size).length = (if t < 8 then 1 else 2) + (sizeBits size).2.length := by
  unfold head; split <;> simp <;> omega

theorem ctrl_head {buf : Bytes} {off t size : Nat} (ht : 1 ≤ t) (ht' : t ≤ 15) (hs : SizeOK size) (h : At buf off (head t size)) :
    decodeCtrlData buf off = .ok (t, size, off + (head t size).length) := by
  have hlt := sizeBits_lt size
  unfold decodeCtrlData
  have hg := h.get (j := 0) (List.length_pos_iff.mpr (head_ne t size))
  rw [Nat.add_zero] at hg
  rw [hg, head_length]
  unfold head at h ⊢
  by_cases h8 : t < 8
  · simp only [if_pos h8] at h ⊢
    simp only [List.getElem?_cons_zero]
    have hb : (UInt8.ofNat (t * 32 + (sizeBits size).1)).toNat = t * 32 + (sizeBits size).1 := by simp; omega
    have hd : (UInt8.ofNat (t * 32 + (sizeBits size).1) >>> 5).toNat = t := by rw [(byte_top _).1, hb]; omega
    rw [hd, if_neg (by omega)]
    have hr : At buf (off + 1) (sizeBits size).2 := At.right (a := [_]) h
    rw [size_back (by rw [hb]; omega) (by omega) hs hr]
    simp only [Res.ok_bind, Res.pure_eq, List.length_cons, List.length_nil]
    congr 3; omega
  · simp only [if_neg h8] at h ⊢
    simp only [List.getElem?_cons_zero]
    have hb : (UInt8.ofNat (sizeBits size).1).toNat = (sizeBits size).1 := by simp; omega
    have hd : (UInt8.ofNat (sizeBits size).1 >>> 5).toNat = 0 := by rw [(byte_top _).1, hb]; omega
    rw [hd, if_pos rfl]
    have hg1 := h.get (j := 1) (by simp)
    rw [hg1]
    simp only [List.getElem?_cons_succ, List.getElem?_cons_zero]
    have ht7 : (UInt8.ofNat (t - 7) + 7).toNat = t := by
      rw [UInt8.toNat_add]; simp; omega
    rw [ht7]
    have hr : At buf (off + 2) (sizeBits size).2 := At.right (a := [_, _]) h
    rw [size_back (by rw [hb]; omega) (by omega) hs hr]
    simp only [Res.ok_bind, Res.pure_eq, List.length_cons, List.length_nil]
    congr 3; omega

/-! ## Pointers -/

theorem pointer_ne (p : Nat) : pointer p ≠ [] := by
  unfold pointer; repeat' split
  all_goals simp

/-- A pointer is read back. -/
theorem pointer_back {buf : Bytes} {off p : Nat} (hp : p < 2 ^ 32) (h : At buf off (pointer p)) :
    ∃ size off', decodeCtrlData buf off = .ok (1, size, off') ∧
      decodePointer buf size off' = .ok (p, off + (pointer p).length) := by
  have hg := h.get (j := 0) (List.length_pos_iff.mpr (pointer_ne p))
  rw [Nat.add_zero] at hg
  have key : ∀ (v k : Nat) (rest : Bytes), pointer p = UInt8.ofNat (32 + v) :: rest → v < 29 → rest.length = k + 1 → v / 8 = k →
      uintFromBytes (if k = 3 then 0 else v % 8) rest + (if k = 1 then 2048 else if k = 2 then 526336 else 0) = p →
      ∃ size off', decodeCtrlData buf off = .ok (1, size, off') ∧
        decodePointer buf size off' = .ok (p, off + (pointer p).length) := by
    intro v k rest he hv hl hk hval
    rw [he] at h hg ⊢
    have hb : (UInt8.ofNat (32 + v)).toNat = 32 + v := by simp; omega
    have hd : (UInt8.ofNat (32 + v) >>> 5).toNat = 1 := by rw [(byte_top _).1, hb]; omega
    have hs : (UInt8.ofNat (32 + v) &&& 0x1f).toNat = v := by rw [(byte_top _).2, hb]; omega
    refine ⟨v, off + 1, ?_, ?_⟩
    · unfold decodeCtrlData
      rw [hg]
      simp only [List.getElem?_cons_zero, hd]
      rw [if_neg (by omega)]
      unfold sizeFromCtrlByte
      simp only [hs]
      rw [if_neg (by omega), if_pos hv]
      rfl
    · unfold decodePointer
      have hrest := At.right (a := [_]) h
      have hle := hrest.le (by intro e; rw [e] at hl; simp at hl)
      simp only [List.length_cons, List.length_nil] at hrest hle
      rw [hl] at hle
      have hks : v / 8 % 4 + 1 = k + 1 := by omega
      simp only [hks]
      rw [if_neg (by omega), hrest.slice (by rw [hl]; omega) (by rw [hl])]
      simp only [Res.ok_bind, Res.pure_eq, List.length_cons, hl]
      rw [← hval]
      have e1 : (k + 1 = 4) = (k = 3) := by simp
      have e2 : (k + 1 = 2) = (k = 1) := by simp
      have e3 : (k + 1 = 3) = (k = 2) := by simp
      simp only [e1, e2, e3]
      congr 2; omega
  unfold pointer at key ⊢
  by_cases h1 : p < 2048
  · simp only [if_pos h1] at key ⊢
    refine key (p / 256) 0 (be 1 p) rfl (by omega) (be_length _ _) (by omega) ?_
    rw [if_neg (by omega), if_neg (by omega), if_neg (by omega), uintFromBytes_eq, be_length, val_be]
    omega
  simp only [if_neg h1] at key ⊢
  by_cases h2 : p < 526336
  · simp only [if_pos h2] at key ⊢
    refine key (8 + (p - 2048) / 2 ^ 16) 1 (be 2 (p - 2048)) (by rw [Nat.add_assoc]) (by omega) (be_length _ _) (by omega) ?_
    rw [if_neg (by omega), if_pos rfl, uintFromBytes_eq, be_length, val_be]
    omega
  simp only [if_neg h2] at key ⊢
  by_cases h3 : p < 134744064
  · simp only [if_pos h3] at key ⊢
    refine key (16 + (p - 526336) / 2 ^ 24) 2 (be 3 (p - 526336)) (by rw [Nat.add_assoc]) (by omega) (be_length _ _) (by omega) ?_
    rw [if_neg (by omega), if_neg (by omega), if_pos rfl, uintFromBytes_eq, be_length, val_be]
    omega
  · simp only [if_neg h3] at key ⊢
    refine key 24 3 (be 4 p) rfl (by omega) (be_length _ _) (by omega) ?_
    rw [if_pos rfl, if_neg (by omega), if_neg (by omega), uintFromBytes_eq, be_length, val_be]
    omega

end Uip.Awdb
