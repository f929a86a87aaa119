/-!
# Bytes, bit lists and the numbers they denote (no repository content)
-/
namespace Uip

abbrev Bytes := List UInt8

/-- Big-endian value of a byte list. -/
def val : Bytes → Nat
  | [] => 0
  | b :: bs => b.toNat * 256 ^ bs.length + val bs

/-- Big-endian value of a bit list (most significant first). -/
def bitsNat : List Bool → Nat
  | [] => 0
  | b :: bs => b.toNat * 2 ^ bs.length + bitsNat bs

/-- The eight bits of a byte, most significant first. -/
def byteBits (b : UInt8) : List Bool :=
  [b.toNat.testBit 7, b.toNat.testBit 6, b.toNat.testBit 5, b.toNat.testBit 4,
   b.toNat.testBit 3, b.toNat.testBit 2, b.toNat.testBit 1, b.toNat.testBit 0]

/-- The bits of a byte list, most significant first. -/
def bits (bs : Bytes) : List Bool := bs.flatMap byteBits

/-! ## Exhaustive reasoning about one byte -/

theorem byte_all (P : UInt8 → Prop) (h : ∀ n : Fin 256, P (UInt8.ofNat n.val)) (b : UInt8) : P b := by
  have := h ⟨b.toNat, b.toNat_lt⟩
  simpa using this

@[simp] theorem byteBits_length (b : UInt8) : (byteBits b).length = 8 := rfl

theorem bitsNat_byteBits (b : UInt8) : bitsNat (byteBits b) = b.toNat := by
  apply byte_all (fun b => bitsNat (byteBits b) = b.toNat)
  decide +kernel

/-! ## Bit lists -/

theorem bitsNat_lt (l : List Bool) : bitsNat l < 2 ^ l.length := by
  induction l with
  | nil => simp [bitsNat]
  | cons b l ih =>
    simp only [bitsNat, List.length_cons, Nat.pow_succ]
    cases b <;> simp <;> omega

theorem bitsNat_append (a b : List Bool) : bitsNat (a ++ b) = bitsNat a * 2 ^ b.length + bitsNat b := by
  induction a with
  | nil => simp [bitsNat]
  | cons x a ih =>
    simp only [List.cons_append, bitsNat, ih, List.length_append, Nat.pow_add]
    rw [Nat.add_mul, Nat.mul_assoc]
    omega

theorem bitsNat_inj {a b : List Bool} (hl : a.length = b.length) (h : bitsNat a = bitsNat b) : a = b := by
  induction a generalizing b with
  | nil => cases b <;> simp_all
  | cons x a ih =>
    cases b with
    | nil => simp at hl
    | cons y b =>
      simp only [List.length_cons, Nat.add_right_cancel_iff] at hl
      simp only [bitsNat] at h
      have h1 := bitsNat_lt a
      have h2 := bitsNat_lt b
      rw [hl] at h h1
      have hxy : x = y := by
        cases x <;> cases y <;> simp at h ⊢ <;> omega
      subst hxy
      rw [ih hl (by omega)]

theorem bitsNat_replicate_false (n : Nat) : bitsNat (List.replicate n false) = 0 := by
  induction n with
  | zero => rfl
  | succ n ih => simp [List.replicate_succ, bitsNat, ih]

theorem bitsNat_replicate_true (n : Nat) : bitsNat (List.replicate n true) = 2 ^ n - 1 := by
  induction n with
  | zero => rfl
  | succ n ih =>
    simp only [List.replicate_succ, bitsNat, ih, List.length_replicate, Bool.toNat_true, Nat.one_mul]
    have := Nat.two_pow_pos n
    rw [Nat.pow_succ]; omega

/-- Splitting at `k`: the quotient by `2^(n-k)` is the value of the first `k` bits. -/
theorem bitsNat_div (l : List Bool) (k : Nat) :
    bitsNat l / 2 ^ (l.length - k) = bitsNat (l.take k) := by
  have h : l = l.take k ++ l.drop k := (List.take_append_drop k l).symm
  have hd : (l.drop k).length = l.length - k := List.length_drop
  have : bitsNat l = bitsNat (l.take k) * 2 ^ (l.length - k) + bitsNat (l.drop k) := by
    conv => lhs; rw [h, bitsNat_append, hd]
  rw [this]
  have hlt := bitsNat_lt (l.drop k)
  rw [hd] at hlt
  rw [Nat.mul_comm, Nat.mul_add_div (Nat.two_pow_pos _), Nat.div_eq_of_lt hlt]; omega

theorem bitsNat_mod (l : List Bool) (k : Nat) :
    bitsNat l % 2 ^ (l.length - k) = bitsNat (l.drop k) := by
  have h : l = l.take k ++ l.drop k := (List.take_append_drop k l).symm
  have hd : (l.drop k).length = l.length - k := List.length_drop
  have : bitsNat l = bitsNat (l.take k) * 2 ^ (l.length - k) + bitsNat (l.drop k) := by
    conv => lhs; rw [h, bitsNat_append, hd]
  rw [this]
  have hlt := bitsNat_lt (l.drop k)
  rw [hd] at hlt
  rw [Nat.mul_comm, Nat.mul_add_mod, Nat.mod_eq_of_lt hlt]

/-- Two bit lists of equal length share the first `k` bits iff the quotients agree. -/
theorem take_eq_iff_div {a b : List Bool} (hl : a.length = b.length) (k : Nat) :
    a.take k = b.take k ↔ bitsNat a / 2 ^ (a.length - k) = bitsNat b / 2 ^ (a.length - k) := by
  conv => rhs; rhs; rw [hl]
  rw [bitsNat_div, bitsNat_div]
  constructor
  · intro h; rw [h]
  · intro h; exact bitsNat_inj (by simp [hl]) h

/-! ## Byte lists -/

theorem val_lt (l : Bytes) : val l < 256 ^ l.length := by
  induction l with
  | nil => simp [val]
  | cons b l ih =>
    simp only [val, List.length_cons, Nat.pow_succ]
    have hb := b.toNat_lt
    have : b.toNat * 256 ^ l.length + 256 ^ l.length ≤ 256 ^ l.length * 256 := by
      rw [← Nat.succ_mul, Nat.mul_comm]
      exact Nat.mul_le_mul_left _ (by omega)
    omega

theorem val_append (a b : Bytes) : val (a ++ b) = val a * 256 ^ b.length + val b := by
  induction a with
  | nil => simp [val]
  | cons x a ih =>
    simp only [List.cons_append, val, ih, List.length_append, Nat.pow_add]
    rw [Nat.add_mul, Nat.mul_assoc]
    omega

theorem bits_length (l : Bytes) : (bits l).length = 8 * l.length := by
  induction l with
  | nil => rfl
  | cons b l ih =>
    simp only [bits, List.flatMap_cons, List.length_append, byteBits_length, List.length_cons] at *
    omega

@[simp] theorem bits_nil : bits [] = [] := rfl

theorem bits_cons (b : UInt8) (l : Bytes) : bits (b :: l) = byteBits b ++ bits l := by
  simp [bits]

theorem bits_append (a b : Bytes) : bits (a ++ b) = bits a ++ bits b := by
  simp [bits]

theorem pow_256 (n : Nat) : (256 : Nat) ^ n = 2 ^ (8 * n) := by
  rw [show (256 : Nat) = 2 ^ 8 by decide, ← Nat.pow_mul]

theorem bitsNat_bits (l : Bytes) : bitsNat (bits l) = val l := by
  induction l with
  | nil => rfl
  | cons b l ih =>
    rw [bits_cons, bitsNat_append, bitsNat_byteBits, ih, bits_length, val, pow_256]

theorem byteBits_inj {a b : UInt8} (h : byteBits a = byteBits b) : a = b := by
  have := congrArg bitsNat h
  rw [bitsNat_byteBits, bitsNat_byteBits] at this
  exact UInt8.toNat_inj.mp this

theorem val_inj {a b : Bytes} (hl : a.length = b.length) (h : val a = val b) : a = b := by
  induction a generalizing b with
  | nil => cases b <;> simp_all
  | cons x a ih =>
    cases b with
    | nil => simp at hl
    | cons y b =>
      simp only [List.length_cons, Nat.add_right_cancel_iff] at hl
      simp only [val] at h
      have h1 := val_lt a
      have h2 := val_lt b
      rw [hl] at h h1
      have hp : 0 < 256 ^ b.length := Nat.pow_pos (by decide)
      have hx : x.toNat = y.toNat := by
        have e1 : (x.toNat * 256 ^ b.length + val a) / 256 ^ b.length = x.toNat := by
          rw [Nat.mul_comm, Nat.mul_add_div hp, Nat.div_eq_of_lt h1]; omega
        have e2 : (y.toNat * 256 ^ b.length + val b) / 256 ^ b.length = y.toNat := by
          rw [Nat.mul_comm, Nat.mul_add_div hp, Nat.div_eq_of_lt h2]; omega
        rw [← e1, ← e2, h]
      rw [hx] at h
      rw [ih hl (by omega), UInt8.toNat_inj.mp hx]

theorem bits_inj {a b : Bytes} (hl : a.length = b.length) (h : bits a = bits b) : a = b := by
  apply val_inj hl
  rw [← bitsNat_bits, ← bitsNat_bits, h]

theorem val_replicate_zero (n : Nat) : val (List.replicate n 0) = 0 := by
  induction n with
  | zero => rfl
  | succ n ih => simp [List.replicate_succ, val, ih]

theorem val_replicate_ff (n : Nat) : val (List.replicate n 0xff) = 256 ^ n - 1 := by
  induction n with
  | zero => rfl
  | succ n ih =>
    simp only [List.replicate_succ, val, ih, List.length_replicate]
    have : 0 < 256 ^ n := Nat.pow_pos (by decide)
    have e : (255 : UInt8).toNat = 255 := rfl
    rw [e, Nat.pow_succ]; omega

end Uip
