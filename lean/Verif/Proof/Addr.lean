import Verif.Spec.Addr
import Verif.Model.IpNet
/-!
# Lemmas: addresses as numbers
-/
namespace Uip
open Spec

theorem bytesLt_iff {a b : Bytes} (hl : a.length = b.length) :
    bytesLt a b = true ↔ val a < val b := by
  induction a generalizing b with
  | nil => cases b <;> simp_all [bytesLt, val]
  | cons x a ih =>
    cases b with
    | nil => simp at hl
    | cons y b =>
      simp only [List.length_cons, Nat.add_right_cancel_iff] at hl
      have h1 := val_lt a
      have h2 := val_lt b
      rw [hl] at h1
      simp only [bytesLt, val, hl]
      have hp : 0 < 256 ^ b.length := Nat.pow_pos (by decide)
      by_cases hxy : x < y
      · have hn : x.toNat + 1 ≤ y.toNat := UInt8.lt_iff_toNat_lt.mp hxy
        have := Nat.mul_le_mul_right (256 ^ b.length) hn
        rw [Nat.add_mul] at this
        simp only [hxy, if_true, true_iff]; omega
      · by_cases hyx : y < x
        · have hn : y.toNat + 1 ≤ x.toNat := UInt8.lt_iff_toNat_lt.mp hyx
          have := Nat.mul_le_mul_right (256 ^ b.length) hn
          rw [Nat.add_mul] at this
          simp only [hxy, hyx, if_true, if_false]
          constructor
          · intro h; simp at h
          · intro h; omega
        · have : x = y := by
            have h1 : ¬ x.toNat < y.toNat := fun h => hxy (UInt8.lt_iff_toNat_lt.mpr h)
            have h2 : ¬ y.toNat < x.toNat := fun h => hyx (UInt8.lt_iff_toNat_lt.mpr h)
            exact UInt8.toNat_inj.mp (by omega)
          subst this
          simp only [hxy, if_false, ih hl]; omega

@[simp] theorem v4InV6Prefix_length : v4InV6Prefix.length = 12 := rfl

theorem val_v4InV6Prefix : val v4InV6Prefix = 0xffff := by decide

theorem val_mapped {ip : IP} (h : ip.length = 4) : val (v4InV6Prefix ++ ip) = addrNum ip := by
  rw [val_append, val_v4InV6Prefix, h]; simp [addrNum, h]

theorem addrNum_16 {ip : IP} (h : ip.length = 16) : addrNum ip = val ip := by simp [addrNum, h]

theorem addrNum_4 {ip : IP} (h : ip.length = 4) : addrNum ip = 0xffff * 2 ^ 32 + val ip := by
  simp [addrNum, h]

theorem addrNum_lt {ip : IP} (h : ValidIP ip) : addrNum ip < 2 ^ 128 := by
  have := val_lt ip
  rcases h with h | h
  · rw [addrNum_4 h]; rw [h] at this; omega
  · rw [addrNum_16 h]; rw [h] at this; omega

theorem To16_4 {ip : IP} (h : ip.length = 4) : To16 ip = some (v4InV6Prefix ++ ip) := by simp [To16, h]
theorem To16_16 {ip : IP} (h : ip.length = 16) : To16 ip = some ip := by simp [To16, h]

theorem To16_valid {ip : IP} (h : ValidIP ip) :
    ∃ a, To16 ip = some a ∧ a.length = 16 ∧ val a = addrNum ip := by
  rcases h with h | h
  · exact ⟨_, To16_4 h, by simp [h], val_mapped h⟩
  · exact ⟨_, To16_16 h, h, (addrNum_16 h).symm⟩

theorem To16_eq_some {ip a : IP} : To16 ip = some a →
    ValidIP ip ∧ a.length = 16 ∧ val a = addrNum ip := by
  intro h
  unfold To16 at h
  split at h
  · rename_i hl; cases h; exact ⟨.inl hl, by simp [hl], val_mapped hl⟩
  · split at h
    · rename_i hl; cases h; exact ⟨.inr hl, hl, (addrNum_16 hl).symm⟩
    · simp at h

theorem To4_eq_some {ip a : IP} (h : To4 ip = some a) :
    ValidIP ip ∧ a.length = 4 ∧ addrNum ip = 0xffff * 2 ^ 32 + val a := by
  unfold To4 at h
  split at h
  · rename_i hl; cases h; exact ⟨.inl hl, hl, addrNum_4 hl⟩
  · split at h
    · rename_i hl; cases h
      refine ⟨.inr hl.1, by simp [hl.1], ?_⟩
      rw [addrNum_16 hl.1]
      conv => lhs; rw [← List.take_append_drop 12 ip, hl.2]
      rw [val_append, val_v4InV6Prefix]; simp [hl.1]
    · simp at h

/-- `To4` succeeds exactly on addresses inside `::ffff:0:0/96`. -/
theorem To4_isSome_iff {ip : IP} (hv : ValidIP ip) :
    (To4 ip).isSome ↔ addrNum ip / 2 ^ 32 = 0xffff := by
  unfold To4
  rcases hv with h | h
  · simp [h, addrNum_4 h]
    have := val_lt ip; rw [h] at this; omega
  · have hd : val ip / 2 ^ 32 = val (ip.take 12) := by
      have e : val ip = val (ip.take 12) * 256 ^ (ip.drop 12).length + val (ip.drop 12) := by
        rw [← val_append, List.take_append_drop]
      have l := val_lt (ip.drop 12)
      have : (ip.drop 12).length = 4 := by simp [h]
      rw [this] at e l
      omega
    simp only [h, addrNum_16 h, hd]
    by_cases hp : ip.take 12 = v4InV6Prefix
    · simp [hp, val_v4InV6Prefix]
    · simp only [hp]
      simp
      intro hc
      exact hp (val_inj (by simp [h]) (by rw [hc, val_v4InV6Prefix]))

theorem IPLess_iff {a b : IP} (ha : ValidIP a) (hb : ValidIP b) :
    IPLess a b = true ↔ addrNum a < addrNum b := by
  unfold IPLess
  rcases ha with ha | ha <;> rcases hb with hb | hb
  · simp only [ha, hb]; simp
    rw [bytesLt_iff (by rw [ha, hb]), addrNum_4 ha, addrNum_4 hb]; omega
  · simp only [ha, hb, To16_4 ha]; simp
    rw [bytesLt_iff (by simp [ha, hb]), val_mapped ha, addrNum_16 hb]
  · simp only [ha, hb, To16_4 hb]; simp
    rw [bytesLt_iff (by simp [ha, hb]), val_mapped hb, addrNum_16 ha]
  · simp only [ha, hb]; simp
    rw [bytesLt_iff (by rw [ha, hb]), addrNum_16 ha, addrNum_16 hb]

theorem IPLess_false_iff {a b : IP} (ha : ValidIP a) (hb : ValidIP b) :
    IPLess a b = false ↔ addrNum b ≤ addrNum a := by
  have := IPLess_iff ha hb
  cases h : IPLess a b <;> simp [h] at this ⊢ <;> omega

/-- Same length and same number: same address. -/
theorem addrNum_inj {a b : IP} (hl : a.length = b.length) (h : addrNum a = addrNum b) : a = b := by
  apply val_inj hl
  unfold addrNum at h
  rw [hl] at h
  split at h <;> omega

/-! ## NextIP -/

theorem nextIPLoop_spec (pre suf : IP) :
    (nextIPLoop (pre ++ suf) (List.replicate (pre ++ suf).length 0) pre.length).length
      = (pre ++ suf).length ∧
    (val suf = 256 ^ suf.length - 1 →
      val (nextIPLoop (pre ++ suf) (List.replicate (pre ++ suf).length 0) pre.length)
        = (val (pre ++ suf) + 1) % 256 ^ (pre ++ suf).length) := by
  induction h : pre.length generalizing pre suf with
  | zero =>
    have : pre = [] := List.length_eq_zero_iff.mp h
    subst this
    refine ⟨by simp [nextIPLoop], fun hs => ?_⟩
    simp only [nextIPLoop, List.nil_append, val_replicate_zero, hs]
    have : 0 < 256 ^ suf.length := Nat.pow_pos (by decide)
    rw [Nat.sub_add_cancel this, Nat.mod_self]
  | succ n ih =>
    obtain ⟨p, x, rfl⟩ : ∃ p x, pre = p ++ [x] := by
      have hne : pre ≠ [] := by intro hc; simp [hc] at h
      exact ⟨pre.dropLast, pre.getLast hne, (List.dropLast_concat_getLast hne).symm⟩
    have hp : p.length = n := by simpa using h
    have hget : ((p ++ [x]) ++ suf).getD n 0 = x := by simp [hp]
    simp only [nextIPLoop, hget]
    by_cases hx : x + 1 = 0
    · have hxv : x = 255 := by
        revert hx
        exact byte_all (fun x => x + 1 = 0 → x = 255) (by decide +kernel) x
      have hset : (List.replicate (p ++ [x] ++ suf).length (0 : UInt8)).set n 0
          = List.replicate (p ++ [x] ++ suf).length 0 := by
        apply List.ext_getElem
        · simp
        · intro i h1 h2; simp
      simp only [hx, hset]
      have := ih p ([x] ++ suf) hp
      rw [show p ++ ([x] ++ suf) = p ++ [x] ++ suf by simp] at this
      refine ⟨by simpa using this.1, fun hs => ?_⟩
      simp only [ne_eq, not_true, if_false]
      apply this.2
      subst hxv
      simp only [List.singleton_append, val, hs, List.length_cons, Nat.pow_succ]
      have : 0 < 256 ^ suf.length := Nat.pow_pos (by decide)
      have e : (255 : UInt8).toNat = 255 := rfl
      rw [e]; omega
    · simp only [ne_eq, hx, not_false_iff, if_true]
      have htake : (p ++ [x] ++ suf).take n = p := by
        rw [List.append_assoc, List.take_left' hp]
      have hdrop : ((List.replicate (p ++ [x] ++ suf).length (0 : UInt8)).set n (x + 1)).drop n
          = (x + 1) :: List.replicate suf.length 0 := by
        apply List.ext_getElem
        · simp [hp]
        · intro i h1 h2
          simp only [List.getElem_drop, List.getElem_set, List.getElem_replicate]
          cases i with
          | zero => simp
          | succ i => simp
      rw [htake, hdrop]
      refine ⟨by simp, fun hs => ?_⟩
      have hxs : (x + 1).toNat = x.toNat + 1 := by
        revert hx
        exact byte_all (fun x => ¬ x + 1 = 0 → (x+1).toNat = x.toNat + 1) (by decide +kernel) x
      have hps : 0 < 256 ^ suf.length := Nat.pow_pos (by decide)
      have key : val (p ++ (x + 1) :: List.replicate suf.length 0) = val (p ++ [x] ++ suf) + 1 := by
        rw [List.append_assoc, val_append, val_append]
        simp only [List.singleton_append, val, val_replicate_zero, List.length_replicate,
          List.length_cons, hxs, hs, Nat.add_mul]
        omega
      rw [key, Nat.mod_eq_of_lt]
      rw [← key]
      have := val_lt (p ++ (x + 1) :: List.replicate suf.length 0)
      simpa [Nat.add_assoc, Nat.add_comm, Nat.add_left_comm] using this

theorem NextIP_length (ip : IP) : (NextIP ip).length = ip.length := by
  have := (nextIPLoop_spec ip []).1
  simpa [NextIP] using this

theorem NextIP_val (ip : IP) : val (NextIP ip) = (val ip + 1) % 256 ^ ip.length := by
  have := (nextIPLoop_spec ip []).2 (by simp [val])
  simpa [NextIP] using this

theorem NextIP_valid {ip : IP} (h : ValidIP ip) : ValidIP (NextIP ip) := by
  unfold ValidIP; rw [NextIP_length]; exact h

/-- Not all-ones: the number grows by one. -/
theorem NextIP_addrNum {ip : IP} (h : val ip + 1 < 256 ^ ip.length) :
    addrNum (NextIP ip) = addrNum ip + 1 := by
  have := NextIP_val ip
  rw [Nat.mod_eq_of_lt h] at this
  unfold addrNum
  rw [NextIP_length, this]; split <;> omega

theorem NextIP_wrap {ip : IP} (h : val ip + 1 = 256 ^ ip.length) : val (NextIP ip) = 0 := by
  rw [NextIP_val, h, Nat.mod_self]

theorem IsAllMask_iff (ip : IP) : IsAllMask ip = true ↔ val ip + 1 = 256 ^ ip.length := by
  induction ip with
  | nil => simp [IsAllMask, val]
  | cons x ip ih =>
    have hx := x.toNat_lt
    have hl := val_lt ip
    have hp : 0 < 256 ^ ip.length := Nat.pow_pos (by decide)
    simp only [IsAllMask, val, List.length_cons, Nat.pow_succ]
    by_cases h : x = 255
    · subst h
      have e : (255 : UInt8).toNat = 255 := rfl
      simp only [ne_eq, not_true, if_false, ih, e]; omega
    · have hx' : x.toNat ≤ 254 := by
        have : x.toNat ≠ 255 := fun hc => h (UInt8.toNat_inj.mp hc)
        omega
      simp only [ne_eq, h, not_false_iff, if_true]
      have := Nat.mul_le_mul_right (256 ^ ip.length) hx'
      constructor
      · intro h; simp at h
      · intro h; omega

end Uip
