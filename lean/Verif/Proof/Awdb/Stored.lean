import Verif.Proof.Awdb.Decoder
/-!
# Stored documents are decoded
-/
namespace Uip.Awdb
open Uip Uip.Spec.Awdb

/-- A string key written in place. -/
theorem key_str {buf : Bytes} {off : Nat} {key : Str} (hs : SizeOK key.length) (h : At buf off (head 2 key.length ++ key))
    (fuel : Nat) : decodeKeyN buf (fuel + 1) off = .ok (key, off + (head 2 key.length ++ key).length) := by
  have hle := h.le (by simp [head_ne])
  rw [List.length_append] at hle ⊢
  rw [decodeKeyN, ctrl_head (by omega) (by omega) hs h.left]
  simp only [Res.ok_bind]
  rw [if_neg (by omega), if_neg (by omega), if_neg (by omega),
    h.right.slice (by omega) rfl]
  simp only [Res.ok_bind, Res.pure_eq, Nat.add_assoc]

theorem key_at {buf : Bytes} {off e : Nat} {key : Str} (h : KeyAt buf off key e) : decodeKey buf off = .ok (key, e) := by
  obtain ⟨hs, ⟨h, he⟩ | ⟨p, hp, h, he, hk⟩⟩ := h
  · rw [decodeKey, key_str hs h, he]
  · obtain ⟨size, off', h1, h2⟩ := pointer_back hp h
    have hle := h.le (pointer_ne p)
    have hpos : 0 < (pointer p).length := List.length_pos_iff.mpr (pointer_ne p)
    have hl : buf.length = buf.length - 1 + 1 := by omega
    rw [decodeKey, hl, decodeKeyN, h1]
    simp only [Res.ok_bind]
    rw [if_pos trivial, h2]
    simp only [Res.ok_bind]
    rw [key_str hs hk]
    simp only [Res.ok_bind, Res.pure_eq, he]

theorem vals_loop {dec : Nat → Res (Val × Nat)} {at_ : Nat → Doc → Nat → Prop}
    (hd : ∀ off d e, at_ off d e → dec off = .ok (d.val, e)) :
    ∀ (l : List Doc) (off e : Nat), Chain at_ off l e → sliceLoop dec l.length off = .ok (Doc.val.vals l, e) := by
  intro l
  induction l with
  | nil => intro off e h; cases h; rfl
  | cons d l ih =>
    rintro off e ⟨m, h1, h2⟩
    rw [List.length_cons, sliceLoop, hd _ _ _ h1]
    simp only [Res.ok_bind]
    rw [ih _ _ h2]
    simp [Doc.val.vals]

theorem entries_loop {buf : Bytes} {dec : Nat → Res (Val × Nat)} {at_ : Nat → Doc → Nat → Prop}
    (hd : ∀ off d e, at_ off d e → dec off = .ok (d.val, e)) :
    ∀ (l : List (Str × Doc)) (off e : Nat) (m : GoMap Val), KeyChain buf at_ off l e →
      mapLoop buf dec l.length off m = .ok (Doc.val.entries l m, e) := by
  intro l
  induction l with
  | nil => intro off e m h; cases h; rfl
  | cons kd l ih =>
    rintro off e m ⟨a, b, h1, h2, h3⟩
    rw [List.length_cons, mapLoop, key_at h1]
    simp only [Res.ok_bind]
    rw [hd _ _ _ h2]
    simp only [Res.ok_bind]
    rw [ih _ _ _ h3]
    obtain ⟨k, d⟩ := kd
    rfl

/-- The part after the control bytes, for the types whose content has the given size. -/
theorem scalar_back {buf : Bytes} {off t size : Nat} {body : Bytes} {v : Val} (hl : body.length = size)
    (h : At buf off (head t size ++ body))
    (hv : ∀ o, o + size ≤ buf.length → goSlice buf o (o + size) = .ok body → decodeScalar buf t size o = .ok (v, o + size)) :
    decodeScalar buf t size (off + (head t size).length) = .ok (v, off + (head t size ++ body).length) := by
  have hle := h.le (by simp [head_ne])
  rw [List.length_append] at hle
  rw [hv _ (by omega) (h.right.slice (by omega) (by rw [hl])), List.length_append, hl, Nat.add_assoc]

theorem sizeOK_small {n : Nat} (h : n ≤ 65820) : SizeOK n := by unfold SizeOK; omega

theorem decodeAny_scalar {buf : Bytes} {r off t size : Nat} {body : Bytes} {v : Val} (hl : body.length = size)
    (ht : 2 ≤ t) (ht' : t ≤ 15) (h7 : t ≠ 7) (h11 : t ≠ 11) (h14 : t ≠ 14) (hs : SizeOK size)
    (h : At buf off (head t size ++ body))
    (hv : ∀ o, o + size ≤ buf.length → goSlice buf o (o + size) = .ok body → decodeScalar buf t size o = .ok (v, o + size)) :
    decodeAny buf (r + 1) off = .ok (v, off + (head t size ++ body).length) := by
  rw [decodeAny, ctrl_head (by omega) ht' hs h.left]
  simp only [Res.ok_bind]
  rw [if_neg h14, if_neg h7, if_neg (by omega), if_neg h11]
  exact scalar_back hl h hv

theorem intOf_be {k : Nat} {z : Int} (h : (k = 4 ∧ -2 ^ 31 ≤ z ∧ z < 2 ^ 31) ∨ (k < 4 ∧ 0 ≤ z ∧ z < 256 ^ k)) :
    intOf (be k (z % 2 ^ 32).toNat) = z := by
  unfold intOf
  rw [uintFromBytes_eq, val_be]
  simp only [Nat.zero_mul, Nat.zero_add]
  rcases h with ⟨rfl, h1, h2⟩ | ⟨h1, h2, h3⟩
  · split <;> omega
  · have hk : k = 0 ∨ k = 1 ∨ k = 2 ∨ k = 3 := by omega
    rcases hk with rfl | rfl | rfl | rfl <;> split <;> omega

/-- A stored document is decoded to its value; the offset returned is just after it. -/
theorem decode_stored (buf : Bytes) : ∀ (levels off : Nat) (d : Doc) (e : Nat), Stored buf levels off d e →
    decodeAny buf levels off = .ok (d.val, e) := by
  intro levels
  induction levels with
  | zero => intro off d e h; exact h.elim
  | succ r ih =>
    intro off d e h
    rcases h with ⟨p, e', hp, h, he, hst⟩ | ⟨hf, h⟩
    · obtain ⟨size, off', h1, h2⟩ := pointer_back hp h
      rw [decodeAny, h1]
      simp only [Res.ok_bind]
      rw [if_neg (by omega), if_neg (by omega), if_pos trivial, h2]
      simp only [Res.ok_bind]
      rw [ih _ _ _ hst]
      simp only [Res.ok_bind, Res.pure_eq, he]
    · cases d with
      | array l =>
        obtain ⟨h1, h2⟩ := h
        rw [decodeAny, ctrl_head (by omega) (by omega) hf h1]
        simp only [Res.ok_bind]
        rw [if_neg (by omega), if_neg (by omega), if_neg (by omega), if_pos trivial, vals_loop ih _ _ _ h2]
        simp only [Res.ok_bind, Res.pure_eq, Doc.val]
      | map l =>
        obtain ⟨h1, h2⟩ := h
        rw [decodeAny, ctrl_head (by omega) (by omega) hf h1]
        simp only [Res.ok_bind]
        rw [if_neg (by omega), if_pos trivial, entries_loop ih _ _ _ _ h2]
        simp only [Res.ok_bind, Res.pure_eq, Doc.val]
      | str s =>
        obtain ⟨b, hb, h1, he⟩ := h
        injection hb with hb; subst hb; subst he
        refine decodeAny_scalar rfl (by omega) (by omega) (by omega) (by omega) (by omega) hf h1 ?_
        intro o ho hsl
        unfold decodeScalar
        rw [if_neg (by omega), if_pos (Or.inr rfl), hsl]; rfl
      | bytes s =>
        obtain ⟨b, hb, h1, he⟩ := h
        injection hb with hb; subst hb; subst he
        refine decodeAny_scalar rfl (by omega) (by omega) (by omega) (by omega) (by omega) hf h1 ?_
        intro o ho hsl
        unfold decodeScalar
        rw [if_neg (by omega), if_pos (Or.inl rfl), hsl]; rfl
      | double n =>
        obtain ⟨b, hb, h1, he⟩ := h
        injection hb with hb; subst hb; subst he
        refine decodeAny_scalar (be_length _ _) (by omega) (by omega) (by omega) (by omega) (by omega) (sizeOK_small (by omega)) h1 ?_
        intro o ho hsl
        unfold decodeScalar
        rw [if_neg (by omega), if_neg (by omega), if_neg (by omega), if_pos rfl, if_neg (by omega), hsl]
        simp only [Res.ok_bind, Res.pure_eq, Doc.val]
        rw [uint_be hf]
      | float n =>
        obtain ⟨b, hb, h1, he⟩ := h
        injection hb with hb; subst hb; subst he
        refine decodeAny_scalar (be_length _ _) (by omega) (by omega) (by omega) (by omega) (by omega) (sizeOK_small (by omega)) h1 ?_
        intro o ho hsl
        unfold decodeScalar
        rw [if_neg (by omega), if_neg (by omega), if_pos rfl, if_neg (by omega), hsl]
        simp only [Res.ok_bind, Res.pure_eq, Doc.val]
        rw [uint_be hf]
      | int32 k z =>
        obtain ⟨b, hb, h1, he⟩ := h
        injection hb with hb; subst hb; subst he
        have hk : k ≤ 4 := by rcases hf with hf | hf <;> omega
        refine decodeAny_scalar (be_length _ _) (by omega) (by omega) (by omega) (by omega) (by omega) (sizeOK_small (by omega)) h1 ?_
        intro o ho hsl
        unfold decodeScalar
        rw [if_neg (by omega), if_neg (by omega), if_neg (by omega), if_neg (by omega), if_pos rfl, if_neg (by omega), hsl]
        simp only [Res.ok_bind, Res.pure_eq, Doc.val]
        rw [intOf_be hf]
      | uint16 k n =>
        obtain ⟨b, hb, h1, he⟩ := h
        injection hb with hb; subst hb; subst he
        have hk : k ≤ 2 := hf.1
        refine decodeAny_scalar (be_length _ _) (by omega) (by omega) (by omega) (by omega) (by omega) (sizeOK_small (by omega)) h1 ?_
        intro o ho hsl
        unfold decodeScalar
        rw [if_neg (by omega), if_neg (by omega), if_neg (by omega), if_neg (by omega), if_neg (by omega), if_pos (Or.inl rfl),
          if_neg (by rw [if_pos rfl]; omega), hsl]
        simp only [Res.ok_bind, Res.pure_eq, Doc.val]
        rw [uint_be hf.2]
      | uint32 k n =>
        obtain ⟨b, hb, h1, he⟩ := h
        injection hb with hb; subst hb; subst he
        have hk : k ≤ 4 := hf.1
        refine decodeAny_scalar (be_length _ _) (by omega) (by omega) (by omega) (by omega) (by omega) (sizeOK_small (by omega)) h1 ?_
        intro o ho hsl
        unfold decodeScalar
        rw [if_neg (by omega), if_neg (by omega), if_neg (by omega), if_neg (by omega), if_neg (by omega),
          if_pos (Or.inr (Or.inl rfl)), if_neg (by rw [if_neg (by omega), if_pos rfl]; omega), hsl]
        simp only [Res.ok_bind, Res.pure_eq, Doc.val]
        rw [uint_be hf.2]
      | uint64 k n =>
        obtain ⟨b, hb, h1, he⟩ := h
        injection hb with hb; subst hb; subst he
        have hk : k ≤ 8 := hf.1
        refine decodeAny_scalar (be_length _ _) (by omega) (by omega) (by omega) (by omega) (by omega) (sizeOK_small (by omega)) h1 ?_
        intro o ho hsl
        unfold decodeScalar
        rw [if_neg (by omega), if_neg (by omega), if_neg (by omega), if_neg (by omega), if_neg (by omega),
          if_pos (Or.inr (Or.inr rfl)), if_neg (by rw [if_neg (by omega), if_neg (by omega)]; omega), hsl]
        simp only [Res.ok_bind, Res.pure_eq, Doc.val]
        rw [uint_be hf.2]
      | uint128 k n =>
        obtain ⟨b, hb, h1, he⟩ := h
        injection hb with hb; subst hb; subst he
        have hk : k ≤ 16 := hf.1
        refine decodeAny_scalar (be_length _ _) (by omega) (by omega) (by omega) (by omega) (by omega) (sizeOK_small (by omega)) h1 ?_
        intro o ho hsl
        unfold decodeScalar
        rw [if_neg (by omega), if_neg (by omega), if_neg (by omega), if_neg (by omega), if_neg (by omega),
          if_neg (by omega), if_pos rfl, if_neg (by omega), hsl]
        simp only [Res.ok_bind, Res.pure_eq, Doc.val]
        rw [uint_be hf.2]
      | bool v =>
        obtain ⟨b, hb, h1, he⟩ := h
        injection hb with hb; subst hb; subst he
        rw [decodeAny, ctrl_head (by omega) (by omega) (sizeOK_small (by cases v <;> decide)) h1]
        simp only [Res.ok_bind]
        rw [if_pos trivial, if_neg (by cases v <;> decide)]
        cases v <;> rfl

/-! ## Documents written without pointers -/

theorem at_append (pre d post : Bytes) : At (pre ++ d ++ post) pre.length d := by
  unfold At
  rw [List.append_assoc, List.drop_left]
  exact List.prefix_append d post

mutual
theorem enc_stored : ∀ (d : Doc) (buf : Bytes) (off levels : Nat), At buf off d.enc → d.AllFit → d.levels ≤ levels →
    Stored buf levels off d (off + d.enc.length)
  | d, buf, off, 0, _, _, hl => by cases d <;> simp [Doc.levels] at hl <;> omega
  | .array l, buf, off, r + 1, h, hf, hl => by
    refine Or.inr ⟨hf.1, ?_⟩
    simp only [Doc.enc] at h ⊢
    refine ⟨h.left, ?_⟩
    have := encs_chain l buf _ r h.right hf.2 (by simp [Doc.levels] at hl; omega)
    rw [List.length_append, ← Nat.add_assoc]; exact this
  | .map l, buf, off, r + 1, h, hf, hl => by
    refine Or.inr ⟨hf.1, ?_⟩
    simp only [Doc.enc] at h ⊢
    refine ⟨h.left, ?_⟩
    have := pairs_chain l buf _ r h.right hf.2 (by simp [Doc.levels] at hl; omega)
    rw [List.length_append, ← Nat.add_assoc]; exact this
  | .str _, buf, off, r + 1, h, hf, hl => Or.inr ⟨hf, _, rfl, h, rfl⟩
  | .bytes _, buf, off, r + 1, h, hf, hl => Or.inr ⟨hf, _, rfl, h, rfl⟩
  | .double _, buf, off, r + 1, h, hf, hl => Or.inr ⟨hf, _, rfl, h, rfl⟩
  | .float _, buf, off, r + 1, h, hf, hl => Or.inr ⟨hf, _, rfl, h, rfl⟩
  | .int32 _ _, buf, off, r + 1, h, hf, hl => Or.inr ⟨hf, _, rfl, h, rfl⟩
  | .uint16 _ _, buf, off, r + 1, h, hf, hl => Or.inr ⟨hf, _, rfl, h, rfl⟩
  | .uint32 _ _, buf, off, r + 1, h, hf, hl => Or.inr ⟨hf, _, rfl, h, rfl⟩
  | .uint64 _ _, buf, off, r + 1, h, hf, hl => Or.inr ⟨hf, _, rfl, h, rfl⟩
  | .uint128 _ _, buf, off, r + 1, h, hf, hl => Or.inr ⟨hf, _, rfl, h, rfl⟩
  | .bool _, buf, off, r + 1, h, hf, hl => Or.inr ⟨hf, _, rfl, h, rfl⟩
theorem encs_chain : ∀ (l : List Doc) (buf : Bytes) (off levels : Nat), At buf off (Doc.enc.encs l) → Doc.AllFit.fitAll l →
    Doc.levels.levelsAll l ≤ levels → Chain (Stored buf levels) off l (off + (Doc.enc.encs l).length)
  | [], buf, off, r, h, hf, hl => rfl
  | d :: l, buf, off, r, h, hf, hl => by
    simp only [Doc.enc.encs] at h ⊢
    simp only [Doc.levels.levelsAll] at hl
    refine ⟨_, enc_stored d buf off r h.left hf.1 (by omega), ?_⟩
    have := encs_chain l buf _ r h.right hf.2 (by omega)
    rw [List.length_append, ← Nat.add_assoc]; exact this
theorem pairs_chain : ∀ (l : List (Str × Doc)) (buf : Bytes) (off levels : Nat), At buf off (Doc.enc.encPairs l) →
    Doc.AllFit.fitPairs l → Doc.levels.levelsPairs l ≤ levels →
    KeyChain buf (Stored buf levels) off l (off + (Doc.enc.encPairs l).length)
  | [], buf, off, r, h, hf, hl => rfl
  | (k, d) :: l, buf, off, r, h, hf, hl => by
    simp only [Doc.enc.encPairs] at h ⊢
    simp only [Doc.levels.levelsPairs] at hl
    refine ⟨_, _, ⟨hf.1, Or.inl ⟨h.left.left, rfl⟩⟩, enc_stored d buf _ r h.left.right hf.2.1 (by omega), ?_⟩
    have := pairs_chain l buf _ r h.right hf.2.2 (by omega)
    simp only [List.length_append, Nat.add_assoc] at this ⊢
    exact this
end

end Uip.Awdb
