import Verif.Proof.Awdb.Stored
import Verif.Proof.Awdb.Total
/-!
# Decoding the metadata
-/
namespace Uip.Awdb
open Uip Uip.Spec.Awdb

/-- Written at this place, not by a pointer. -/
def InPlace (buf : Bytes) (levels off : Nat) (d : Doc) (e : Nat) : Prop :=
  d.Fits ∧ match d with
    | .array l => At buf off (head 11 l.length) ∧ Chain (Stored buf levels) (off + (head 11 l.length).length) l e
    | .map l => At buf off (head 7 l.length) ∧ KeyChain buf (Stored buf levels) (off + (head 7 l.length).length) l e
    | d => ∃ b, d.scalar = some b ∧ At buf off b ∧ e = off + b.length

theorem stored_cases {buf : Bytes} {r off : Nat} {d : Doc} {e : Nat} (h : Stored buf (r + 1) off d e) :
    (∃ p e', p < 2 ^ 32 ∧ At buf off (pointer p) ∧ e = off + (pointer p).length ∧ Stored buf r p d e') ∨ InPlace buf r off d e := by
  rcases h with h | h
  · exact Or.inl h
  · exact Or.inr h

theorem inPlace_stored {buf : Bytes} {r off : Nat} {d : Doc} {e : Nat} (h : InPlace buf r off d e) : Stored buf (r + 1) off d e :=
  Or.inr h

/-- The form of a value without parts. -/
theorem scalar_form {d : Doc} (hf : d.Fits) {b : Bytes} (hb : d.scalar = some b) :
    (∃ t size body, b = head t size ++ body ∧ body.length = size ∧ 2 ≤ t ∧ t ≤ 15 ∧ t ≠ 7 ∧ t ≠ 11 ∧ t ≠ 14 ∧ SizeOK size) ∨
    ∃ v, d = .bool v := by
  have hsm : ∀ {n : Nat}, n ≤ 16 → SizeOK n := fun h => sizeOK_small (by omega)
  cases d with
  | array l => cases hb
  | map l => cases hb
  | bool v => exact Or.inr ⟨v, rfl⟩
  | str s => cases hb; exact Or.inl ⟨2, _, s, rfl, rfl, by omega, by omega, by omega, by omega, by omega, hf⟩
  | bytes s => cases hb; exact Or.inl ⟨4, _, s, rfl, rfl, by omega, by omega, by omega, by omega, by omega, hf⟩
  | double n => cases hb; exact Or.inl ⟨3, _, _, rfl, be_length _ _, by omega, by omega, by omega, by omega, by omega, hsm (by omega)⟩
  | float n => cases hb; exact Or.inl ⟨15, _, _, rfl, be_length _ _, by omega, by omega, by omega, by omega, by omega, hsm (by omega)⟩
  | int32 k z =>
    cases hb
    have : k ≤ 4 := by rcases hf with h | h <;> omega
    exact Or.inl ⟨8, _, _, rfl, be_length _ _, by omega, by omega, by omega, by omega, by omega, hsm (by omega)⟩
  | uint16 k n =>
    cases hb
    have : k ≤ 2 := hf.1
    exact Or.inl ⟨5, _, _, rfl, be_length _ _, by omega, by omega, by omega, by omega, by omega, hsm (by omega)⟩
  | uint32 k n =>
    cases hb
    have : k ≤ 4 := hf.1
    exact Or.inl ⟨6, _, _, rfl, be_length _ _, by omega, by omega, by omega, by omega, by omega, hsm (by omega)⟩
  | uint64 k n =>
    cases hb
    have : k ≤ 8 := hf.1
    exact Or.inl ⟨9, _, _, rfl, be_length _ _, by omega, by omega, by omega, by omega, by omega, hsm (by omega)⟩
  | uint128 k n =>
    cases hb
    have : k ≤ 16 := hf.1
    exact Or.inl ⟨10, _, _, rfl, be_length _ _, by omega, by omega, by omega, by omega, by omega, hsm (by omega)⟩

/-! ## Skipping -/

theorem nv_step (buf : Bytes) (off n : Nat) : nextValueOffset buf off (n + 1) = (decodeCtrlData buf off >>= fun x =>
    if x.1 = 1 then decodePointer buf x.2.1 x.2.2 >>= fun y => nextValueOffset buf y.2 n
    else if x.1 = 7 then nextValueOffset buf x.2.2 (n + 2 * x.2.1)
    else if x.1 = 11 then nextValueOffset buf x.2.2 (n + x.2.1)
    else if x.1 = 14 then nextValueOffset buf x.2.2 n
    else nextValueOffset buf (x.2.2 + x.2.1) n) := by
  have h1 : ∀ o m, nextValueOffsetN buf (buf.length + 1) o m = nextValueOffset buf o m :=
    fun o m => (next_fuel buf (buf.length + 1) o m (by omega) 1).symm
  have e1 : ∀ k, n + 1 + k - 1 = n + k := fun k => by omega
  unfold nextValueOffset
  rw [nextValueOffsetN, if_neg (by omega)]
  simp only [h1, e1, Nat.add_sub_cancel]
  rfl

theorem nv_scalar {buf : Bytes} {off t size : Nat} {body : Bytes} (hl : body.length = size) (ht : 2 ≤ t) (ht' : t ≤ 15)
    (h7 : t ≠ 7) (h11 : t ≠ 11) (h14 : t ≠ 14) (hs : SizeOK size) (h : At buf off (head t size ++ body)) (n : Nat) :
    nextValueOffset buf off (n + 1) = nextValueOffset buf (off + (head t size ++ body).length) n := by
  rw [nv_step, ctrl_head (by omega) ht' hs h.left, Res.ok_bind]
  simp only []
  rw [if_neg (by omega), if_neg h7, if_neg h11, if_neg h14, List.length_append, hl, Nat.add_assoc]

theorem nv_pointer {buf : Bytes} {off p : Nat} (hp : p < 2 ^ 32) (h : At buf off (pointer p)) (n : Nat) :
    nextValueOffset buf off (n + 1) = nextValueOffset buf (off + (pointer p).length) n := by
  obtain ⟨size, off', h1, h2⟩ := pointer_back hp h
  rw [nv_step, h1, Res.ok_bind]
  simp only [if_true]
  rw [h2, Res.ok_bind]

theorem nv_key {buf : Bytes} {off e : Nat} {key : Str} (h : KeyAt buf off key e) (n : Nat) :
    nextValueOffset buf off (n + 1) = nextValueOffset buf e n := by
  obtain ⟨hs, ⟨h, he⟩ | ⟨p, hp, h, he, hk⟩⟩ := h
  · subst he; exact nv_scalar rfl (by omega) (by omega) (by omega) (by omega) (by omega) hs h n
  · subst he; exact nv_pointer hp h n

theorem nv_stored (buf : Bytes) : ∀ (levels off : Nat) (d : Doc) (e n : Nat), Stored buf levels off d e →
    nextValueOffset buf off (n + 1) = nextValueOffset buf e n := by
  intro levels
  induction levels with
  | zero => intro off d e n h; exact h.elim
  | succ r ih =>
    intro off d e n h
    have chain : ∀ (l : List Doc) (o e n : Nat), Chain (Stored buf r) o l e → nextValueOffset buf o (n + l.length) = nextValueOffset buf e n := by
      intro l
      induction l with
      | nil => intro o e n h; cases h; rfl
      | cons d l ihl =>
        rintro o e n ⟨m, h1, h2⟩
        rw [List.length_cons, ← Nat.add_assoc, ih _ _ _ _ h1]
        exact ihl _ _ _ h2
    have keys : ∀ (l : List (Str × Doc)) (o e n : Nat), KeyChain buf (Stored buf r) o l e →
        nextValueOffset buf o (n + 2 * l.length) = nextValueOffset buf e n := by
      intro l
      induction l with
      | nil => intro o e n h; cases h; rfl
      | cons d l ihl =>
        rintro o e n ⟨m, k, h1, h2, h3⟩
        rw [List.length_cons, show n + 2 * (l.length + 1) = n + 2 * l.length + 1 + 1 by omega, nv_key h1, ih _ _ _ _ h2]
        exact ihl _ _ _ h3
    rcases stored_cases h with ⟨p, e', hp, hat, he, hst⟩ | ⟨hf, h⟩
    · subst he; exact nv_pointer hp hat n
    · have sc : ∀ b, d.scalar = some b → At buf off b → e = off + b.length →
          nextValueOffset buf off (n + 1) = nextValueOffset buf e n := by
        intro b hb hat he
        rcases scalar_form hf hb with ⟨t, size, body, rfl, hl, h2, h15, h7, h11, h14, hs⟩ | ⟨v, rfl⟩
        · subst he; exact nv_scalar hl h2 h15 h7 h11 h14 hs hat n
        · cases hb
          rw [nv_step, ctrl_head (by omega) (by omega) (sizeOK_small (by cases v <;> decide)) hat, Res.ok_bind]
          simp only []
          rw [if_neg (by omega), if_neg (by omega), if_neg (by omega), if_pos trivial, he]
      cases d with
      | array l =>
        obtain ⟨h1, h2⟩ := h
        rw [nv_step, ctrl_head (by omega) (by omega) hf h1, Res.ok_bind]
        simp only []
        rw [if_neg (by omega), if_neg (by omega), if_pos trivial]
        exact chain _ _ _ _ h2
      | map l =>
        obtain ⟨h1, h2⟩ := h
        rw [nv_step, ctrl_head (by omega) (by omega) hf h1, Res.ok_bind]
        simp only []
        rw [if_neg (by omega), if_pos trivial]
        exact keys _ _ _ _ h2
      | _ => obtain ⟨b, h1, h2, h3⟩ := h; exact sc b h1 h2 h3

/-- Skipping a stored value leads just past it. -/
theorem skip_stored {buf : Bytes} {levels off : Nat} {d : Doc} {e : Nat} (h : Stored buf levels off d e) :
    nextValueOffset buf off 1 = .ok e := by
  rw [nv_stored buf levels off d e 0 h]
  unfold nextValueOffset
  rw [nextValueOffsetN, if_pos rfl]

/-! ## Typed targets -/

theorem typed_stored {α : Type} {buf : Bytes} {leaf : Nat → Nat → Nat → Nat → Res (α × Nat)} {sem : Doc → Option α}
    (hl : ∀ r off d e v, InPlace buf r off d e → sem d = some v →
      ∃ t size o, decodeCtrlData buf off = .ok (t, size, o) ∧ t ≠ 1 ∧ leaf r t size o = .ok (v, e)) :
    ∀ (levels off : Nat) (d : Doc) (e : Nat) (v : α), Stored buf levels off d e → sem d = some v →
      decodeTyped buf leaf levels off = .ok (v, e) := by
  intro levels
  induction levels with
  | zero => intro off d e v h; exact h.elim
  | succ r ih =>
    intro off d e v h hv
    rw [decodeTyped]
    rcases stored_cases h with ⟨p, e', hp, h, he, hst⟩ | h
    · obtain ⟨size, off', h1, h2⟩ := pointer_back hp h
      rw [h1]
      simp only [Res.ok_bind]
      rw [if_pos trivial, h2]
      simp only [Res.ok_bind]
      rw [ih _ _ _ _ hst hv]
      simp only [Res.ok_bind, Res.pure_eq, he]
    · obtain ⟨t, size, o, h1, h2, h3⟩ := hl _ _ _ _ _ h hv
      rw [h1]
      simp only [Res.ok_bind]
      rw [if_neg h2]; exact h3

/-- The control bytes and the content of a value without parts. -/
theorem scalar_parts {buf : Bytes} {r off : Nat} {d : Doc} {e : Nat} (h : InPlace buf r off d e) {b : Bytes} (hb : d.scalar = some b)
    (hnb : ∀ v, d ≠ .bool v) :
    ∃ t size o body, b = head t size ++ body ∧ decodeCtrlData buf off = .ok (t, size, o) ∧ t ≠ 1 ∧ decodeScalar buf t size o = .ok (d.val, e) := by
  have hat : At buf off b ∧ e = off + b.length := by
    obtain ⟨_, h⟩ := h
    cases d with
    | array l => cases hb
    | map l => cases hb
    | _ => obtain ⟨b', h1, h2, h3⟩ := h; rw [hb] at h1; cases h1; exact ⟨h2, h3⟩
  rcases scalar_form h.1 hb with ⟨t, size, body, rfl, hl, h2, h15, h7, h11, h14, hs⟩ | ⟨v, hv⟩
  · have hc := ctrl_head (by omega) h15 hs hat.1.left
    refine ⟨t, size, _, body, rfl, hc, by omega, ?_⟩
    have := decode_stored buf (r + 1) off d e (inPlace_stored h)
    rw [decodeAny, hc] at this
    simp only [Res.ok_bind] at this
    rw [if_neg h14, if_neg h7, if_neg (by omega), if_neg h11] at this
    exact this
  · exact absurd hv (hnb v)

theorem uint_leaf {buf : Bytes} (r off : Nat) (d : Doc) (e v : Nat) (h : InPlace buf r off d e) (hv : d.asUint = some v) :
    ∃ t size o, decodeCtrlData buf off = .ok (t, size, o) ∧ t ≠ 1 ∧ uintLeaf buf r t size o = .ok (v, e) := by
  have main : ∀ {k x : Nat} {t : Nat}, (t = 8 ∨ t = 5 ∨ t = 6 ∨ t = 9) → d.scalar = some (head t k ++ be k x) → SizeOK k →
      (∀ b, d ≠ .bool b) → ((∃ z, d.val = .int z ∧ (z % 2 ^ 64).toNat = v) ∨ d.val = .uint v) →
      ∃ t size o, decodeCtrlData buf off = .ok (t, size, o) ∧ t ≠ 1 ∧ uintLeaf buf r t size o = .ok (v, e) := by
    intro k x t ht hb hk hnb hval
    obtain ⟨t', size, o, body, h1, h2, h3, h4⟩ := scalar_parts h hb hnb
    have hat : At buf off (head t k) := by
      obtain ⟨_, h⟩ := h
      cases d with
      | array l => cases hb
      | map l => cases hb
      | _ => obtain ⟨b', h5, h6, _⟩ := h; rw [hb] at h5; cases h5; exact h6.left
    have ht1 : 1 ≤ t := by clear hval; omega
    have ht2 : t ≤ 15 := by clear hval; omega
    have hc := ctrl_head ht1 ht2 hk hat
    have htt : t' = t := by
      rw [h2] at hc
      injection hc with hc
      injection hc
    subst htt
    refine ⟨t', size, o, h2, h3, ?_⟩
    unfold uintLeaf
    rw [if_pos ht, h4, Res.ok_bind]
    rcases hval with ⟨z, hz, hz'⟩ | hz
    · simp only [hz, Res.pure_eq, hz']
    · simp only [hz, Res.pure_eq]
  have hf := h.1
  cases d with
  | uint16 k n => cases hv; have : k ≤ 2 := hf.1; exact main (Or.inr (Or.inl rfl)) rfl (sizeOK_small (by omega)) (by simp) (Or.inr rfl)
  | uint32 k n => cases hv; have : k ≤ 4 := hf.1; exact main (Or.inr (Or.inr (Or.inl rfl))) rfl (sizeOK_small (by omega)) (by simp) (Or.inr rfl)
  | uint64 k n => cases hv; have : k ≤ 8 := hf.1; exact main (Or.inr (Or.inr (Or.inr rfl))) rfl (sizeOK_small (by omega)) (by simp) (Or.inr rfl)
  | int32 k z =>
    have hk : k ≤ 4 := by rcases hf with h | h <;> omega
    have hz : z < 2 ^ 31 := by
      rcases hf with h | ⟨h1, h2, h3⟩
      · exact h.2.2
      · have hk' : k = 0 ∨ k = 1 ∨ k = 2 ∨ k = 3 := by omega
        rcases hk' with rfl | rfl | rfl | rfl <;> omega
    simp only [Doc.asUint] at hv
    split at hv
    · cases hv
      exact main (Or.inl rfl) rfl (sizeOK_small (by omega)) (by simp) (Or.inl ⟨z, rfl, by omega⟩)
    · cases hv
  | _ => cases hv

theorem str_leaf {buf : Bytes} (r off : Nat) (d : Doc) (e : Nat) (v : Str) (h : InPlace buf r off d e) (hv : d.asStr = some v) :
    ∃ t size o, decodeCtrlData buf off = .ok (t, size, o) ∧ t ≠ 1 ∧ strLeaf buf r t size o = .ok (v, e) := by
  cases d with
  | str s =>
    cases hv
    obtain ⟨hf, b, hb, hat, he⟩ := h
    injection hb with hb; subst hb; subst he
    have hc := ctrl_head (by omega) (by omega) hf hat.left
    refine ⟨2, _, _, hc, by omega, ?_⟩
    have hle := hat.le (by simp [head_ne])
    rw [List.length_append] at hle
    unfold strLeaf
    rw [if_pos rfl, if_neg (by omega), hat.right.slice (by omega) rfl, List.length_append, ← Nat.add_assoc]; rfl
  | _ => cases hv

theorem all_loop {α : Type} {dec : Nat → Res (α × Nat)} {at_ : Nat → Doc → Nat → Prop} {sem : Doc → Option α}
    (hd : ∀ off d e v, at_ off d e → sem d = some v → dec off = .ok (v, e)) :
    ∀ (l : List Doc) (off e : Nat) (vs : List α), Chain at_ off l e → readAll sem l = some vs →
      sliceLoop dec l.length off = .ok (vs, e) := by
  intro l
  induction l with
  | nil => intro off e vs h hv; cases h; cases hv; rfl
  | cons d l ih =>
    rintro off e vs ⟨m, h1, h2⟩ hv
    rw [readAll] at hv
    cases hd1 : sem d with
    | none => rw [hd1] at hv; cases hv
    | some v =>
      cases hl : readAll sem l with
      | none => rw [hd1, hl] at hv; cases hv
      | some ws =>
        rw [hd1, hl] at hv
        injection hv with hv; subst hv
        rw [List.length_cons, sliceLoop, hd _ _ _ _ h1 hd1]
        simp only [Res.ok_bind]
        rw [ih _ _ _ h2 hl]; rfl

theorem pairs_loop {α : Type} {buf : Bytes} {dec : Nat → Res (α × Nat)} {at_ : Nat → Doc → Nat → Prop} {sem : Doc → Option α}
    (hd : ∀ off d e v, at_ off d e → sem d = some v → dec off = .ok (v, e)) :
    ∀ (l : List (Str × Doc)) (off e : Nat) (m m' : GoMap α), KeyChain buf at_ off l e → readPairs sem l m = some m' →
      mapLoop buf dec l.length off m = .ok (m', e) := by
  intro l
  induction l with
  | nil => intro off e m m' h hv; cases h; cases hv; rfl
  | cons kd l ih =>
    rintro off e m m' ⟨a, b, h1, h2, h3⟩ hv
    obtain ⟨k, d⟩ := kd
    rw [readPairs] at hv
    cases hd1 : sem d with
    | none => rw [hd1] at hv; cases hv
    | some v =>
      rw [hd1] at hv
      rw [List.length_cons, mapLoop, key_at h1]
      simp only [Res.ok_bind]
      rw [hd _ _ _ _ h2 hd1]
      simp only [Res.ok_bind]
      exact ih _ _ _ _ h3 hv

def semStrs : Doc → Option (List Str)
  | .array l => readAll Doc.asStr l
  | _ => none

def semStrMap (m : GoMap Str) : Doc → Option (GoMap Str)
  | .map l => readPairs Doc.asStr l m
  | _ => none

theorem strs_leaf {buf : Bytes} (r off : Nat) (d : Doc) (e : Nat) (v : List Str) (h : InPlace buf r off d e) (hv : semStrs d = some v) :
    ∃ t size o, decodeCtrlData buf off = .ok (t, size, o) ∧ t ≠ 1 ∧ strsLeaf buf r t size o = .ok (v, e) := by
  cases d with
  | array l =>
    obtain ⟨hf, h1, h2⟩ := h
    refine ⟨11, _, _, ctrl_head (by omega) (by omega) hf h1, by omega, ?_⟩
    unfold strsLeaf
    rw [if_pos rfl]
    exact all_loop (typed_stored str_leaf r) _ _ _ _ h2 hv
  | _ => cases hv

theorem strMap_leaf {buf : Bytes} (m : GoMap Str) (r off : Nat) (d : Doc) (e : Nat) (v : GoMap Str) (h : InPlace buf r off d e)
    (hv : semStrMap m d = some v) :
    ∃ t size o, decodeCtrlData buf off = .ok (t, size, o) ∧ t ≠ 1 ∧ strMapLeaf buf m r t size o = .ok (v, e) := by
  cases d with
  | map l =>
    obtain ⟨hf, h1, h2⟩ := h
    refine ⟨7, _, _, ctrl_head (by omega) (by omega) hf h1, by omega, ?_⟩
    unfold strMapLeaf
    rw [if_pos rfl]
    exact pairs_loop (typed_stored str_leaf r) _ _ _ _ _ h2 hv
  | _ => cases hv

theorem field_stored {buf : Bytes} {r off : Nat} {d : Doc} {e : Nat} (h : Stored buf r off d e) {md md' : Metadata} {key : Str}
    (hv : metaEntry md key d = some md') : metaField buf r md key off = .ok (md', e) := by
  have hu : ∀ n, d.asUint = some n → decodeTyped buf (uintLeaf buf) r off = .ok (n, e) := fun n hn => typed_stored uint_leaf _ _ _ _ _ h hn
  have hs : ∀ n, d.asStr = some n → decodeTyped buf (strLeaf buf) r off = .ok (n, e) := fun n hn => typed_stored str_leaf _ _ _ _ _ h hn
  unfold metaEntry at hv
  unfold metaField
  generalize gs "binary_format_major_version" = k1 at hv ⊢
  generalize gs "binary_format_minor_version" = k2 at hv ⊢
  generalize gs "build_epoch" = k3 at hv ⊢
  generalize gs "database_type" = k4 at hv ⊢
  generalize gs "description" = k5 at hv ⊢
  generalize gs "ip_version" = k6 at hv ⊢
  generalize gs "languages" = k7 at hv ⊢
  generalize gs "node_count" = k8 at hv ⊢
  generalize gs "record_size" = k9 at hv ⊢
  by_cases c1 : key = k1
  · rw [if_pos c1] at hv ⊢
    obtain ⟨n, hn, rfl⟩ := Option.map_eq_some_iff.mp hv
    rw [hu n hn]; rfl
  rw [if_neg c1] at hv ⊢
  by_cases c2 : key = k2
  · rw [if_pos c2] at hv ⊢
    obtain ⟨n, hn, rfl⟩ := Option.map_eq_some_iff.mp hv
    rw [hu n hn]; rfl
  rw [if_neg c2] at hv ⊢
  by_cases c3 : key = k3
  · rw [if_pos c3] at hv ⊢
    obtain ⟨n, hn, rfl⟩ := Option.map_eq_some_iff.mp hv
    rw [hu n hn]; rfl
  rw [if_neg c3] at hv ⊢
  by_cases c4 : key = k4
  · rw [if_pos c4] at hv ⊢
    obtain ⟨n, hn, rfl⟩ := Option.map_eq_some_iff.mp hv
    rw [hs n hn]; rfl
  rw [if_neg c4] at hv ⊢
  by_cases c5 : key = k5
  · rw [if_pos c5] at hv ⊢
    cases d with
    | map l =>
      obtain ⟨n, hn, rfl⟩ := Option.map_eq_some_iff.mp hv
      rw [typed_stored (strMap_leaf md.description) _ _ _ _ _ h hn]; rfl
    | _ => cases hv
  rw [if_neg c5] at hv ⊢
  by_cases c6 : key = k6
  · rw [if_pos c6] at hv ⊢
    obtain ⟨n, hn, rfl⟩ := Option.map_eq_some_iff.mp hv
    rw [hu n hn]; rfl
  rw [if_neg c6] at hv ⊢
  by_cases c7 : key = k7
  · rw [if_pos c7] at hv ⊢
    cases d with
    | array l =>
      obtain ⟨n, hn, rfl⟩ := Option.map_eq_some_iff.mp hv
      rw [typed_stored strs_leaf _ _ _ _ _ h hn]; rfl
    | _ => cases hv
  rw [if_neg c7] at hv ⊢
  by_cases c8 : key = k8
  · rw [if_pos c8] at hv ⊢
    obtain ⟨n, hn, rfl⟩ := Option.map_eq_some_iff.mp hv
    rw [hu n hn]; rfl
  rw [if_neg c8] at hv ⊢
  by_cases c9 : key = k9
  · rw [if_pos c9] at hv ⊢
    obtain ⟨n, hn, rfl⟩ := Option.map_eq_some_iff.mp hv
    rw [hu n hn]; rfl
  rw [if_neg c9] at hv ⊢
  cases hv
  rw [skip_stored h]; rfl

theorem metaLoop_stored {buf : Bytes} {r : Nat} : ∀ (l : List (Str × Doc)) (off e : Nat) (md md' : Metadata),
    KeyChain buf (Stored buf r) off l e → metaOf l md = some md' → metaLoop buf r l.length off md = .ok (md', e) := by
  intro l
  induction l with
  | nil => intro off e md md' h hv; cases h; cases hv; rfl
  | cons kd l ih =>
    rintro off e md md' ⟨a, b, h1, h2, h3⟩ hv
    obtain ⟨k, d⟩ := kd
    rw [metaOf] at hv
    cases hm : metaEntry md k d with
    | none => rw [hm] at hv; cases hv
    | some m =>
      rw [hm] at hv
      rw [List.length_cons, metaLoop, key_at h1]
      simp only [Res.ok_bind]
      rw [field_stored h2 hm]
      simp only [Res.ok_bind]
      exact ih _ _ _ _ h3 hv

def semMeta : Doc → Option Metadata
  | .map l => metaOf l {}
  | _ => none

/-- A stored metadata map is decoded to what it says. -/
theorem decodeMeta_stored {buf : Bytes} {l : List (Str × Doc)} {e : Nat} {md : Metadata} (h : Stored buf 513 0 (.map l) e)
    (hv : metaOf l {} = some md) : decodeMeta buf = .ok md := by
  unfold decodeMeta
  have := typed_stored (buf := buf) (leaf := metaLeaf buf) (sem := semMeta) (by
    intro r off d e v h hv
    cases d with
    | map l =>
      obtain ⟨hf, h1, h2⟩ := h
      refine ⟨7, _, _, ctrl_head (by omega) (by omega) hf h1, by omega, ?_⟩
      unfold metaLeaf
      rw [if_pos rfl]
      exact metaLoop_stored _ _ _ _ _ h2 hv
    | _ => cases hv) 513 0 (.map l) e md h hv
  rw [this]; rfl

end Uip.Awdb
