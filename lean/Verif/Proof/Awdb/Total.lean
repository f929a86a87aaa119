import Verif.Spec.Awdb
/-!
# Decoding arbitrary bytes: no reads out of range, how far the recursion goes
-/
namespace Uip.Awdb
open Uip Uip.Spec.Awdb

theorem bind_ne_panic {α β : Type} {x : Res α} {f : α → Res β} (hx : x ≠ .panic) (hf : ∀ a, x = .ok a → f a ≠ .panic) :
    (x >>= f) ≠ .panic := by
  cases x with
  | ok a => simpa using hf a rfl
  | err e => simp
  | panic => exact absurd rfl hx

theorem goSlice_ne_panic {b : Bytes} {lo hi : Nat} (h : lo ≤ hi) (h' : hi ≤ b.length) : goSlice b lo hi ≠ .panic := by
  unfold goSlice; rw [if_pos ⟨h, h'⟩]; simp

theorem size_ne_panic (buf : Bytes) (c : UInt8) (off t : Nat) : sizeFromCtrlByte buf c off t ≠ .panic := by
  unfold sizeFromCtrlByte
  simp only []
  split
  · simp
  split
  · simp
  split
  · simp
  split
  · cases h : buf[off]? with
    | some b => simp
    | none => rw [List.getElem?_eq_none_iff] at h; omega
  · refine bind_ne_panic (goSlice_ne_panic (by omega) (by omega)) ?_
    intro a _
    split <;> simp

theorem size_ok {buf : Bytes} {c : UInt8} {off t size off' : Nat} (h : sizeFromCtrlByte buf c off t = .ok (size, off')) :
    off ≤ off' := by
  unfold sizeFromCtrlByte at h
  simp only [] at h
  split at h
  · cases h; omega
  split at h
  · cases h; omega
  split at h
  · simp at h
  split at h
  · split at h
    · cases h; omega
    · simp at h
  · obtain ⟨a, _, h⟩ := Res.bind_eq_ok.mp h
    split at h <;> cases h <;> omega

theorem ctrl_ne_panic (buf : Bytes) (off : Nat) : decodeCtrlData buf off ≠ .panic := by
  unfold decodeCtrlData
  split
  · simp
  · split
    · split
      · simp
      · refine bind_ne_panic (size_ne_panic _ _ _ _) ?_
        intro a _; simp
    · refine bind_ne_panic (size_ne_panic _ _ _ _) ?_
      intro a _; simp

theorem ctrl_ok {buf : Bytes} {off t size off' : Nat} (h : decodeCtrlData buf off = .ok (t, size, off')) :
    off < buf.length ∧ off < off' := by
  unfold decodeCtrlData at h
  split at h
  · simp at h
  · rename_i c hc
    have hlt := (List.getElem?_eq_some_iff.mp hc).1
    refine ⟨hlt, ?_⟩
    split at h
    · split at h
      · simp at h
      · obtain ⟨⟨a, b⟩, h1, h2⟩ := Res.bind_eq_ok.mp h
        have := size_ok h1
        cases h2; omega
    · obtain ⟨⟨a, b⟩, h1, h2⟩ := Res.bind_eq_ok.mp h
      have := size_ok h1
      cases h2; omega

theorem pointer_ne_panic (buf : Bytes) (size off : Nat) : decodePointer buf size off ≠ .panic := by
  unfold decodePointer
  simp only []
  split
  · simp
  · refine bind_ne_panic (goSlice_ne_panic (by omega) (by omega)) ?_
    intro a _; simp

theorem pointer_ok {buf : Bytes} {size off p off' : Nat} (h : decodePointer buf size off = .ok (p, off')) :
    off < off' ∧ off' ≤ buf.length := by
  unfold decodePointer at h
  simp only [] at h
  split at h
  · simp at h
  · obtain ⟨a, _, h⟩ := Res.bind_eq_ok.mp h
    cases h; omega

theorem scalar_ne_panic (buf : Bytes) (t size off : Nat) : decodeScalar buf t size off ≠ .panic := by
  unfold decodeScalar
  split
  · simp
  have hs : goSlice buf off (off + size) ≠ .panic := goSlice_ne_panic (by omega) (by omega)
  repeat' split
  all_goals first
    | (exact bind_ne_panic hs (by intro a _; simp))
    | simp

/-! ## Skipping a value -/

theorem next_ne_panic (buf : Bytes) : ∀ (fuel off n : Nat), buf.length - off + 1 ≤ fuel →
    nextValueOffsetN buf fuel off n ≠ .panic := by
  intro fuel
  induction fuel with
  | zero => intro off n h; omega
  | succ fuel ih =>
    intro off n h
    rw [nextValueOffsetN]
    split
    · simp
    refine bind_ne_panic (ctrl_ne_panic _ _) ?_
    rintro ⟨t, size, o⟩ hc
    obtain ⟨h1, h2⟩ := ctrl_ok hc
    simp only []
    split
    · refine bind_ne_panic (pointer_ne_panic _ _ _) ?_
      rintro ⟨p, o'⟩ hp
      have := pointer_ok hp
      exact ih _ _ (by omega)
    repeat' split
    all_goals exact ih _ _ (by omega)

/-- More rounds than the length of the buffer plus one change nothing. -/
theorem next_fuel (buf : Bytes) : ∀ (fuel off n : Nat), buf.length - off + 1 ≤ fuel → ∀ k,
    nextValueOffsetN buf (fuel + k) off n = nextValueOffsetN buf fuel off n := by
  intro fuel
  induction fuel with
  | zero => intro off n h; omega
  | succ fuel ih =>
    intro off n h k
    rw [Nat.add_right_comm, nextValueOffsetN, nextValueOffsetN]
    by_cases hn : n = 0
    · rw [if_pos hn, if_pos hn]
    rw [if_neg hn, if_neg hn]
    cases hc : decodeCtrlData buf off with
    | err e => rfl
    | panic => rfl
    | ok x =>
      obtain ⟨t, size, o⟩ := x
      obtain ⟨h1, h2⟩ := ctrl_ok hc
      simp only [Res.ok_bind]
      split
      · cases hp : decodePointer buf size o with
        | err e => rfl
        | panic => rfl
        | ok y =>
          obtain ⟨p, o'⟩ := y
          have := pointer_ok hp
          simp only [Res.ok_bind]
          exact ih _ _ (by omega) k
      repeat' split
      all_goals exact ih _ _ (by omega) k

theorem nextValueOffset_fuel (buf : Bytes) (off n k : Nat) :
    nextValueOffsetN buf (buf.length + 2 + k) off n = nextValueOffset buf off n := next_fuel _ _ _ _ (by omega) k

theorem nextValueOffset_ne_panic (buf : Bytes) (off n : Nat) : nextValueOffset buf off n ≠ .panic :=
  next_ne_panic _ _ _ _ (by omega)

/-! ## Keys -/

/-- The pointer the decoder reads at an offset, if it reads one there. -/
def step (buf : Bytes) (off : Nat) : Option Nat := match decodeCtrlData buf off with
  | .ok (t, size, o) => if t = 1 then (match decodePointer buf size o with
      | .ok (p, _) => some p
      | _ => none) else none
  | _ => none

def steps (buf : Bytes) : Nat → Nat → Option Nat
  | 0, off => some off
  | n + 1, off => (step buf off).bind (steps buf n)

theorem step_lt {buf : Bytes} {off p : Nat} (h : step buf off = some p) : off < buf.length := by
  unfold step at h
  split at h
  · rename_i hc; exact (ctrl_ok hc).1
  · simp at h

/-- Reading a key crashes exactly when the chain of pointers is not over after `fuel` steps. -/
theorem key_panic (buf : Bytes) : ∀ (fuel off : Nat), decodeKeyN buf fuel off = .panic ↔ (steps buf fuel off).isSome := by
  intro fuel
  induction fuel with
  | zero => intro off; simp [decodeKeyN, steps]
  | succ fuel ih =>
    intro off
    rw [decodeKeyN, steps, step]
    cases hc : decodeCtrlData buf off with
    | err e => simp
    | panic => exact absurd hc (ctrl_ne_panic _ _)
    | ok x =>
      obtain ⟨t, size, o⟩ := x
      simp only [Res.ok_bind]
      by_cases ht : t = 1
      · rw [if_pos ht, if_pos ht]
        cases hp : decodePointer buf size o with
        | err e => simp
        | panic => exact absurd hp (pointer_ne_panic _ _ _)
        | ok y =>
          obtain ⟨p, o'⟩ := y
          simp only [Res.ok_bind, Option.bind_some]
          rw [← ih p]
          cases decodeKeyN buf fuel p <;> simp
      · rw [if_neg ht, if_neg ht]
        simp only [Option.bind_none, Option.isSome_none, Bool.false_eq_true, iff_false]
        split
        · simp
        split
        · simp
        · exact bind_ne_panic (goSlice_ne_panic (by omega) (by omega)) (by intro a _; simp)

/-- Once a key is read, more fuel changes nothing. -/
theorem key_mono (buf : Bytes) : ∀ (fuel off k : Nat), decodeKeyN buf fuel off ≠ .panic →
    decodeKeyN buf (fuel + k) off = decodeKeyN buf fuel off := by
  intro fuel
  induction fuel with
  | zero => intro off k h; exact absurd rfl h
  | succ fuel ih =>
    intro off k h
    rw [Nat.add_right_comm, decodeKeyN, decodeKeyN]
    rw [decodeKeyN] at h
    cases hc : decodeCtrlData buf off with
    | err e => rfl
    | panic => rfl
    | ok x =>
      obtain ⟨t, size, o⟩ := x
      rw [hc] at h
      simp only [Res.ok_bind] at h ⊢
      by_cases ht : t = 1
      · rw [if_pos ht] at h ⊢
        rw [if_pos ht]
        cases hp : decodePointer buf size o with
        | err e => rfl
        | panic => rfl
        | ok y =>
          obtain ⟨p, o'⟩ := y
          rw [hp] at h
          simp only [Res.ok_bind] at h ⊢
          rw [ih p k (by intro hpan; rw [hpan] at h; exact h rfl)]
      · rw [if_neg ht, if_neg ht]

theorem nodup_length : ∀ (n : Nat) (l : List Nat), l.Nodup → (∀ x ∈ l, x < n) → l.length ≤ n := by
  intro n
  induction n with
  | zero =>
    intro l _ h
    cases l with
    | nil => simp
    | cons a l => exact absurd (h a (by simp)) (by omega)
  | succ n ih =>
    intro l hd h
    by_cases hm : n ∈ l
    · have h1 := ih (l.erase n) (hd.erase n) (by
        intro x hx
        have h2 := h x (List.mem_of_mem_erase hx)
        have h3 : x ≠ n := by
          intro e
          rw [e, hd.mem_erase_iff] at hx
          exact hx.1 rfl
        omega)
      rw [List.length_erase_of_mem hm] at h1
      omega
    · have h1 := ih l hd (by
        intro x hx
        have h2 := h x hx
        have h3 : x ≠ n := by intro e; exact hm (e ▸ hx)
        omega)
      omega

theorem pigeon (f : Nat → Nat) (n : Nat) (h : ∀ i, i ≤ n → f i < n) : ∃ i j, i < j ∧ j ≤ n ∧ f i = f j := by
  apply Classical.byContradiction
  intro hno
  have hnd : ((List.range (n + 1)).map f).Nodup := by
    unfold List.Nodup
    rw [List.pairwise_map]
    refine List.Pairwise.imp_of_mem ?_ List.pairwise_lt_range
    intro a b _ hb hab e
    exact hno ⟨a, b, hab, by rw [List.mem_range] at hb; omega, e⟩
  have := nodup_length n _ hnd (by
    intro x hx
    obtain ⟨i, hi, rfl⟩ := List.mem_map.mp hx
    rw [List.mem_range] at hi
    exact h i (by omega))
  simp at this
  omega

theorem steps_add (buf : Bytes) (m n off : Nat) : steps buf (m + n) off = (steps buf m off).bind (steps buf n) := by
  induction m generalizing off with
  | zero => simp [steps]
  | succ m ih =>
    rw [Nat.add_right_comm, steps, steps]
    cases step buf off with
    | none => rfl
    | some p => simp only [Option.bind_some, ih]

theorem steps_le {buf : Bytes} {m n off : Nat} (h : (steps buf n off).isSome) (hmn : m ≤ n) : (steps buf m off).isSome := by
  obtain ⟨k, rfl⟩ := Nat.exists_eq_add_of_le hmn
  rw [steps_add] at h
  cases hs : steps buf m off with
  | none => rw [hs] at h; simp at h
  | some p => rfl

/-- A chain longer than the buffer never ends. -/
theorem steps_endless {buf : Bytes} {off : Nat} (h : (steps buf (buf.length + 1) off).isSome) :
    ∀ n, (steps buf n off).isSome := by
  let f : Nat → Nat := fun i => (steps buf i off).getD 0
  have hf : ∀ i, i ≤ buf.length + 1 → steps buf i off = some (f i) := by
    intro i hi
    have := steps_le h hi
    show _ = some ((steps buf i off).getD 0)
    cases hs : steps buf i off with
    | none => rw [hs] at this; simp at this
    | some p => rfl
  obtain ⟨i, j, hij, hj, he⟩ := pigeon f buf.length (by
    intro i hi
    have h1 := hf i (by omega)
    have h2 := hf (i + 1) (by omega)
    rw [steps_add, h1, Option.bind_some, steps] at h2
    cases hs : step buf (f i) with
    | none => rw [hs] at h2; simp at h2
    | some p => exact step_lt hs)
  have hcyc : ∀ m, i ≤ m → steps buf (m + (j - i)) off = steps buf m off := by
    intro m hm
    have e1 : m + (j - i) = j + (m - i) := by omega
    have e2 : m = i + (m - i) := by omega
    rw [e1, steps_add, hf j (by omega)]
    conv => rhs; rw [e2, steps_add, hf i (by omega)]
    rw [he]
  have hmul : ∀ k, (steps buf (i + k * (j - i)) off).isSome := by
    intro k
    induction k with
    | zero => rw [Nat.zero_mul, Nat.add_zero, hf i (by omega)]; rfl
    | succ k ih =>
      rw [Nat.succ_mul, ← Nat.add_assoc, hcyc _ (by omega)]; exact ih
  intro n
  refine steps_le (hmul n) ?_
  have : 1 ≤ j - i := by omega
  have := Nat.mul_le_mul_left n this
  omega

/-! ## Values -/

theorem mapLoop_ne_panic {α : Type} {buf : Bytes} {dec : Nat → Res (α × Nat)} (hk : ∀ o, decodeKey buf o ≠ .panic)
    (hd : ∀ o, dec o ≠ .panic) : ∀ (n off : Nat) (m : GoMap α), mapLoop buf dec n off m ≠ .panic := by
  intro n
  induction n with
  | zero => intro off m; simp [mapLoop]
  | succ n ih =>
    intro off m
    rw [mapLoop]
    refine bind_ne_panic (hk _) ?_
    rintro ⟨k, o⟩ _
    refine bind_ne_panic (hd _) ?_
    rintro ⟨v, o'⟩ _
    exact ih _ _

theorem sliceLoop_ne_panic {α : Type} {dec : Nat → Res (α × Nat)} (hd : ∀ o, dec o ≠ .panic) :
    ∀ (n off : Nat), sliceLoop dec n off ≠ .panic := by
  intro n
  induction n with
  | zero => intro off; simp [sliceLoop]
  | succ n ih =>
    intro off
    rw [sliceLoop]
    refine bind_ne_panic (hd _) ?_
    rintro ⟨v, o⟩ _
    refine bind_ne_panic (ih _) ?_
    rintro ⟨vs, o'⟩ _
    simp

theorem decodeAny_ne_panic {buf : Bytes} (hk : ∀ o, decodeKey buf o ≠ .panic) :
    ∀ (r off : Nat), decodeAny buf r off ≠ .panic := by
  intro r
  induction r with
  | zero => intro off; simp [decodeAny]
  | succ r ih =>
    intro off
    rw [decodeAny]
    refine bind_ne_panic (ctrl_ne_panic _ _) ?_
    rintro ⟨t, size, o⟩ _
    simp only []
    split
    · split <;> simp
    split
    · refine bind_ne_panic (mapLoop_ne_panic hk ih _ _ _) ?_
      intro a _; simp
    split
    · refine bind_ne_panic (pointer_ne_panic _ _ _) ?_
      rintro ⟨p, o'⟩ _
      refine bind_ne_panic (ih _) ?_
      intro a _; simp
    split
    · refine bind_ne_panic (sliceLoop_ne_panic ih _ _) ?_
      intro a _; simp
    · exact scalar_ne_panic _ _ _ _

theorem typed_ne_panic {α : Type} {buf : Bytes} {leaf : Nat → Nat → Nat → Nat → Res (α × Nat)}
    (hl : ∀ r t s o, leaf r t s o ≠ .panic) : ∀ (r off : Nat), decodeTyped buf leaf r off ≠ .panic := by
  intro r
  induction r with
  | zero => intro off; simp [decodeTyped]
  | succ r ih =>
    intro off
    rw [decodeTyped]
    refine bind_ne_panic (ctrl_ne_panic _ _) ?_
    rintro ⟨t, size, o⟩ _
    simp only []
    split
    · refine bind_ne_panic (pointer_ne_panic _ _ _) ?_
      rintro ⟨p, o'⟩ _
      refine bind_ne_panic (ih _) ?_
      intro a _; simp
    · exact hl _ _ _ _

theorem uintLeaf_ne_panic (buf : Bytes) (r t s o : Nat) : uintLeaf buf r t s o ≠ .panic := by
  unfold uintLeaf
  split
  · refine bind_ne_panic (scalar_ne_panic _ _ _ _) ?_
    rintro ⟨v, o'⟩ _
    cases v <;> simp
  · simp

theorem strLeaf_ne_panic (buf : Bytes) (r t s o : Nat) : strLeaf buf r t s o ≠ .panic := by
  unfold strLeaf
  split
  · split
    · simp
    · exact bind_ne_panic (goSlice_ne_panic (by omega) (by omega)) (by intro a _; simp)
  · simp

theorem strMapLeaf_ne_panic {buf : Bytes} (hk : ∀ o, decodeKey buf o ≠ .panic) (m : GoMap Str) (r t s o : Nat) :
    strMapLeaf buf m r t s o ≠ .panic := by
  unfold strMapLeaf
  split
  · exact mapLoop_ne_panic hk (typed_ne_panic (strLeaf_ne_panic buf) r) _ _ _
  · simp

theorem strsLeaf_ne_panic (buf : Bytes) (r t s o : Nat) : strsLeaf buf r t s o ≠ .panic := by
  unfold strsLeaf
  split
  · exact sliceLoop_ne_panic (typed_ne_panic (buf := buf) (strLeaf_ne_panic buf) r) _ _
  · simp

theorem metaField_ne_panic {buf : Bytes} (hk : ∀ o, decodeKey buf o ≠ .panic) (r : Nat) (md : Metadata) (key : Str) (o : Nat) :
    metaField buf r md key o ≠ .panic := by
  have hu := typed_ne_panic (buf := buf) (uintLeaf_ne_panic buf) r o
  have hs := typed_ne_panic (buf := buf) (strLeaf_ne_panic buf) r o
  have hm := typed_ne_panic (buf := buf) (strMapLeaf_ne_panic hk md.description) r o
  have hl := typed_ne_panic (buf := buf) (strsLeaf_ne_panic buf) r o
  have hn := nextValueOffset_ne_panic buf o 1
  unfold metaField
  repeat' split
  all_goals first
    | exact bind_ne_panic hu (by intro a _; simp)
    | exact bind_ne_panic hs (by intro a _; simp)
    | exact bind_ne_panic hm (by intro a _; simp)
    | exact bind_ne_panic hl (by intro a _; simp)
    | exact bind_ne_panic hn (by intro a _; simp)

theorem metaLoop_ne_panic {buf : Bytes} (hk : ∀ o, decodeKey buf o ≠ .panic) (r : Nat) : ∀ (n off : Nat) (md : Metadata),
    metaLoop buf r n off md ≠ .panic := by
  intro n
  induction n with
  | zero => intro off md; simp [metaLoop]
  | succ n ih =>
    intro off md
    rw [metaLoop]
    refine bind_ne_panic (hk _) ?_
    rintro ⟨k, o⟩ _
    refine bind_ne_panic (metaField_ne_panic hk _ _ _ _) ?_
    rintro ⟨v, o'⟩ _
    exact ih _ _

theorem decodeMeta_ne_panic {buf : Bytes} (hk : ∀ o, decodeKey buf o ≠ .panic) : decodeMeta buf ≠ .panic := by
  unfold decodeMeta
  refine bind_ne_panic (typed_ne_panic ?_ _ _) (by intro a _; simp)
  intro r t s o
  unfold metaLeaf
  split
  · exact metaLoop_ne_panic hk _ _ _ _
  · simp

end Uip.Awdb
