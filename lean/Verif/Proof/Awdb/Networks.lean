import Verif.Proof.Awdb.Lookup
/-!
# Enumerating the networks of the tree
-/
namespace Uip.Awdb
open Uip Uip.Spec Uip.Spec.Awdb

/-- All networks below a node, by recursion on the bits left. -/
def collect (r : Reader) : Nat → NetNode → Res (List NetNode)
  | 0, x =>
    if x.pointer = r.md.nodeCount then .ok []
    else if x.pointer > r.md.nodeCount then .ok [x]
    else .err invalidErr
  | rem + 1, x =>
    if x.pointer = r.md.nodeCount then .ok []
    else if x.pointer > r.md.nodeCount then .ok [x]
    else
      child r.nodes r.md.recordSize x.pointer true >>= fun right =>
      child r.nodes r.md.recordSize x.pointer false >>= fun left =>
      collect r rem ⟨x.ip, x.bit + 1, left⟩ >>= fun a =>
      collect r rem ⟨setBit x.ip x.bit, x.bit + 1, right⟩ >>= fun b => .ok (a ++ b)

/-- Bits left below a node. -/
def left_ (x : NetNode) : Nat := 8 * x.ip.length - x.bit

def collects (r : Reader) : List NetNode → Res (List NetNode)
  | [] => .ok []
  | x :: xs => collect r (left_ x) x >>= fun a => collects r xs >>= fun b => .ok (a ++ b)

def weight : List NetNode → Nat
  | [] => 0
  | x :: xs => 2 ^ (left_ x + 1) + weight xs

theorem setBit_length (ip : IP) (b : Nat) : (setBit ip b).length = ip.length := by simp [setBit]

theorem collect_done {r : Reader} {x : NetNode} (h : ¬ x.pointer < r.md.nodeCount) (rem : Nat) :
    collect r rem x = .ok (if x.pointer = r.md.nodeCount then [] else [x]) := by
  cases rem <;>
  · rw [collect]
    split
    · rfl
    · rw [if_pos (by omega)]

theorem collects_step {r : Reader} {x : NetNode} {xs : List NetNode} (hb : x.bit < 8 * x.ip.length) (h : x.pointer < r.md.nodeCount) :
    collects r (x :: xs) = (child r.nodes r.md.recordSize x.pointer true >>= fun right =>
      child r.nodes r.md.recordSize x.pointer false >>= fun left =>
      collects r (⟨x.ip, x.bit + 1, left⟩ :: ⟨setBit x.ip x.bit, x.bit + 1, right⟩ :: xs)) := by
  rw [collects, show left_ x = (8 * x.ip.length - x.bit - 1) + 1 by unfold left_; omega, collect, if_neg (by omega),
    if_neg (by omega)]
  cases child r.nodes r.md.recordSize x.pointer true with
  | err e => rfl
  | panic => rfl
  | ok right =>
    simp only [Res.ok_bind]
    cases child r.nodes r.md.recordSize x.pointer false with
    | err e => rfl
    | panic => rfl
    | ok left =>
      simp only [Res.ok_bind]
      rw [collects, collects]
      have e1 : left_ ⟨x.ip, x.bit + 1, left⟩ = 8 * x.ip.length - x.bit - 1 := by unfold left_; simp only []; omega
      have e2 : left_ ⟨setBit x.ip x.bit, x.bit + 1, right⟩ = 8 * x.ip.length - x.bit - 1 := by
        unfold left_; simp only [setBit_length]; omega
      rw [e1, e2]
      cases collect r (8 * x.ip.length - x.bit - 1) ⟨x.ip, x.bit + 1, left⟩ with
      | err e => rfl
      | panic => rfl
      | ok a =>
        simp only [Res.ok_bind]
        cases collect r (8 * x.ip.length - x.bit - 1) ⟨setBit x.ip x.bit, x.bit + 1, right⟩ with
        | err e => rfl
        | panic => rfl
        | ok b =>
          simp only [Res.ok_bind]
          cases collects r xs with
          | err e => rfl
          | panic => rfl
          | ok c => simp [List.append_assoc]

theorem weight_step {x : NetNode} {l rt : Nat} {xs : List NetNode} (hb : x.bit < 8 * x.ip.length) :
    weight (⟨x.ip, x.bit + 1, l⟩ :: ⟨setBit x.ip x.bit, x.bit + 1, rt⟩ :: xs) = weight (x :: xs) := by
  simp only [weight, left_, setBit_length]
  rw [show 8 * x.ip.length - x.bit = (8 * x.ip.length - (x.bit + 1)) + 1 by omega, Nat.pow_succ]
  simp only [Nat.pow_succ]
  omega

/-- What one descent does. -/
theorem descend_spec (r : Reader) : ∀ (fuel : Nat) (x : NetNode) (xs : List NetNode), left_ x + 1 ≤ fuel →
    match descend r fuel x xs with
    | .ok (none, ys) => collects r (x :: xs) = collects r ys ∧ weight ys < weight (x :: xs)
    | .ok (some n, ys) => collects r (x :: xs) = (collects r ys >>= fun l => .ok (n :: l)) ∧ weight ys < weight (x :: xs)
    | .err e => collects r (x :: xs) = .err e
    | .panic => collects r (x :: xs) = .panic := by
  intro fuel
  induction fuel with
  | zero => intro x xs h; omega
  | succ fuel ih =>
    intro x xs h
    have hpos : 0 < 2 ^ (left_ x + 1) := Nat.pow_pos (by omega)
    rw [descend]
    by_cases h1 : x.pointer = r.md.nodeCount
    · rw [if_pos h1]
      simp only []
      rw [collects, collect_done (by omega), if_pos h1]
      refine ⟨?_, by simp only [weight]; omega⟩
      cases collects r xs <;> rfl
    rw [if_neg h1]
    by_cases h2 : x.pointer > r.md.nodeCount
    · rw [if_pos h2]
      simp only []
      rw [collects, collect_done (by omega), if_neg h1]
      refine ⟨?_, by simp only [weight]; omega⟩
      cases collects r xs <;> rfl
    rw [if_neg h2]
    by_cases h3 : x.ip.length ≤ x.bit / 8
    · rw [if_pos h3]
      simp only []
      have e : left_ x = 0 := by unfold left_; omega
      rw [collects, e, collect, if_neg h1, if_neg h2]; rfl
    rw [if_neg h3]
    have hb : x.bit < 8 * x.ip.length := by omega
    rw [collects_step hb (by omega)]
    cases child r.nodes r.md.recordSize x.pointer true with
    | err e => rfl
    | panic => rfl
    | ok right =>
      simp only [Res.ok_bind]
      cases child r.nodes r.md.recordSize x.pointer false with
      | err e => rfl
      | panic => rfl
      | ok left =>
        simp only [Res.ok_bind]
        rw [← weight_step (l := left) (rt := right) hb]
        refine ih ⟨x.ip, x.bit + 1, left⟩ _ ?_
        unfold left_ at h ⊢
        simp only []
        omega

theorem nextNet_spec (r : Reader) : ∀ (fuel : Nat) (xs : List NetNode), weight xs + 1 ≤ fuel →
    match nextNet r fuel xs with
    | none => False
    | some (.ok (none, _)) => collects r xs = .ok []
    | some (.ok (some n, ys)) => collects r xs = (collects r ys >>= fun l => .ok (n :: l)) ∧ weight ys < weight xs
    | some (.err e) => collects r xs = .err e
    | some .panic => collects r xs = .panic := by
  intro fuel
  induction fuel with
  | zero => intro xs h; omega
  | succ fuel ih =>
    intro xs h
    cases xs with
    | nil => rw [nextNet]; rfl
    | cons x xs =>
      rw [nextNet]
      have hd := descend_spec r (8 * x.ip.length + 1) x xs (by unfold left_; omega)
      cases hres : descend r (8 * x.ip.length + 1) x xs with
      | err e => rw [hres] at hd; exact hd
      | panic => rw [hres] at hd; exact hd
      | ok y =>
        obtain ⟨n, ys⟩ := y
        rw [hres] at hd
        cases n with
        | some n => exact hd
        | none =>
          simp only [] at hd ⊢
          rw [hd.1]
          have := ih ys (by omega)
          cases hn : nextNet r fuel ys with
          | none => rw [hn] at this; exact this
          | some z =>
            rw [hn] at this
            cases z with
            | err e => exact this
            | panic => exact this
            | ok w =>
              obtain ⟨m, zs⟩ := w
              cases m with
              | none => exact this
              | some m => exact ⟨this.1, by simp only [] at this; omega⟩

/-- The iteration ends, and is the recursive collection. -/
theorem allNets_eq (r : Reader) : ∀ (fuel : Nat) (xs : List NetNode), weight xs + 2 ≤ fuel →
    allNets r fuel xs = some (collects r xs) := by
  intro fuel
  induction fuel with
  | zero => intro xs h; omega
  | succ fuel ih =>
    intro xs h
    rw [allNets]
    have hn := nextNet_spec r fuel xs (by omega)
    cases hres : nextNet r fuel xs with
    | none => rw [hres] at hn; exact hn.elim
    | some z =>
      rw [hres] at hn
      cases z with
      | err e => simp only [] at hn ⊢; rw [hn]
      | panic => simp only [] at hn ⊢; rw [hn]
      | ok w =>
        obtain ⟨m, ys⟩ := w
        cases m with
        | none => simp only [] at hn ⊢; rw [hn]
        | some m =>
          simp only [] at hn ⊢
          rw [hn.1, ih ys (by omega)]; rfl

/-! ## What is collected -/

theorem byteBits_setBit (b : UInt8) {j : Nat} (hj : j < 8) :
    byteBits (b ||| UInt8.ofNat (2 ^ (7 - j))) = (byteBits b).set j true := by
  have h : ∀ (b : UInt8) (j : Fin 8), byteBits (b ||| UInt8.ofNat (2 ^ (7 - j.val))) = (byteBits b).set j.val true :=
    byte_all _ (by decide +kernel)
  exact h b ⟨j, hj⟩

theorem bits_setBit {ip : IP} {i : Nat} (h : i < 8 * ip.length) : bits (setBit ip i) = (bits ip).set i true := by
  unfold setBit
  induction ip generalizing i with
  | nil => simp at h
  | cons b ip ih =>
    by_cases hi : i < 8
    · rw [show i / 8 = 0 by omega, show i % 8 = i by omega, List.modify_zero_cons, bits_cons, bits_cons, byteBits_setBit b hi,
        List.set_append_left _ _ (by simpa using hi)]
    · have := ih (i := i - 8) (by simp only [List.length_cons] at h; omega)
      rw [show i / 8 = (i - 8) / 8 + 1 by omega, show i % 8 = (i - 8) % 8 by omega, List.modify_succ_cons, bits_cons, bits_cons,
        this, List.set_append_right _ _ (by simpa using hi)]
      simp

/-- The bits of the address below the node are zero. -/
def Clean (x : NetNode) : Prop :=
  x.bit ≤ 8 * x.ip.length ∧ (bits x.ip).drop x.bit = List.replicate (8 * x.ip.length - x.bit) false

theorem clean_left {x : NetNode} (h : Clean x) (hb : x.bit < 8 * x.ip.length) (p : Nat) : Clean ⟨x.ip, x.bit + 1, p⟩ ∧
    (bits x.ip).take (x.bit + 1) = (bits x.ip).take x.bit ++ [false] := by
  obtain ⟨_, h2⟩ := h
  rw [show 8 * x.ip.length - x.bit = (8 * x.ip.length - (x.bit + 1)) + 1 by omega, List.replicate_succ] at h2
  have hlt : x.bit < (bits x.ip).length := by rw [bits_length]; exact hb
  rw [List.drop_eq_getElem_cons hlt] at h2
  injection h2 with h3 h4
  refine ⟨⟨by simp only []; omega, h4⟩, ?_⟩
  rw [List.take_succ_eq_append_getElem hlt, h3]

theorem clean_right {x : NetNode} (h : Clean x) (hb : x.bit < 8 * x.ip.length) (p : Nat) :
    Clean ⟨setBit x.ip x.bit, x.bit + 1, p⟩ ∧
    (bits (setBit x.ip x.bit)).take (x.bit + 1) = (bits x.ip).take x.bit ++ [true] ∧
    val (setBit x.ip x.bit) = val x.ip + 2 ^ (8 * x.ip.length - (x.bit + 1)) := by
  have hlt : x.bit < (bits x.ip).length := by rw [bits_length]; exact hb
  have hset : bits (setBit x.ip x.bit) = (bits x.ip).take x.bit ++ true :: (bits x.ip).drop (x.bit + 1) := by
    rw [bits_setBit hb, List.set_eq_take_append_cons_drop, if_pos hlt]
  have hl : ((bits x.ip).take x.bit).length = x.bit := by rw [List.length_take]; omega
  obtain ⟨⟨hc1, hc2⟩, hc3⟩ := clean_left h hb p
  simp only [] at hc1 hc2
  refine ⟨⟨?_, ?_⟩, ?_, ?_⟩
  · simp only [setBit_length]; omega
  · simp only [setBit_length, hset]
    rw [List.drop_append, hl, List.drop_eq_nil_of_le (by omega), List.nil_append, show x.bit + 1 - x.bit = 1 by omega]
    exact hc2
  · rw [hset, List.take_append, hl, List.take_of_length_le (by omega), show x.bit + 1 - x.bit = 1 by omega]; rfl
  · rw [← bitsNat_bits, ← bitsNat_bits, hset]
    conv => rhs; rw [← List.take_append_drop (x.bit + 1) (bits x.ip), hc3]
    rw [bitsNat_append, bitsNat_append, bitsNat_append]
    simp only [bitsNat, List.length_cons, List.length_drop, bits_length, Bool.toNat_true, Bool.toNat_false, List.length_nil]
    simp only [Nat.pow_add, Nat.pow_one, Nat.zero_add, Nat.zero_mul, Nat.add_zero, Nat.one_mul]
    generalize 2 ^ (8 * x.ip.length - (x.bit + 1)) = P
    generalize bitsNat (List.take x.bit (bits x.ip)) = T
    rw [Nat.mul_right_comm, Nat.mul_assoc T]
    generalize bitsNat (List.drop (x.bit + 1) (bits x.ip)) = D
    omega

/-- What holds of the networks collected below a node. -/
structure Good (r : Reader) (len : Nat) (x : NetNode) (L : List NetNode) : Prop where
  each : ∀ y ∈ L, y.ip.length = len ∧ Clean y ∧ r.md.nodeCount < y.pointer
  under : ∀ y ∈ L, ∀ p : List Bool, p.length = 8 * len → p.take y.bit = (bits y.ip).take y.bit →
    p.take x.bit = (bits x.ip).take x.bit ∧ walk r (p.drop x.bit) x.pointer x.bit = .ok (y.pointer, y.bit)
  bounds : ∀ y ∈ L, val x.ip ≤ val y.ip ∧ val y.ip + 2 ^ (8 * len - y.bit) ≤ val x.ip + 2 ^ (8 * len - x.bit)
  order : L.Pairwise fun y z => val y.ip + 2 ^ (8 * len - y.bit) ≤ val z.ip
  rest : ∀ p : List Bool, p.length = 8 * len → p.take x.bit = (bits x.ip).take x.bit →
    (∃ y ∈ L, p.take y.bit = (bits y.ip).take y.bit) ∨
    ∃ k, walk r (p.drop x.bit) x.pointer x.bit = .ok (r.md.nodeCount, k)

theorem collect_good (r : Reader) (len : Nat) : ∀ (rem : Nat) (x : NetNode) (L : List NetNode), x.ip.length = len → Clean x →
    rem = 8 * len - x.bit → collect r rem x = .ok L → Good r len x L := by
  intro rem
  induction rem with
  | zero =>
    intro x L hl hc hr h
    by_cases hp : x.pointer < r.md.nodeCount
    · rw [collect, if_neg (by omega), if_neg (by omega)] at h; simp at h
    exact done hl hc hp h
  | succ rem ih =>
    intro x L hl hc hr h
    by_cases hp : x.pointer < r.md.nodeCount
    · rw [collect, if_neg (by omega), if_neg (by omega)] at h
      obtain ⟨right, hright, h⟩ := Res.bind_eq_ok.mp h
      obtain ⟨left, hleft, h⟩ := Res.bind_eq_ok.mp h
      obtain ⟨a, ha, h⟩ := Res.bind_eq_ok.mp h
      obtain ⟨b, hb, h⟩ := Res.bind_eq_ok.mp h
      injection h with h
      subst h
      have hbit : x.bit < 8 * x.ip.length := by omega
      obtain ⟨cl, tl⟩ := clean_left hc hbit left
      obtain ⟨cr, tr, vr⟩ := clean_right hc hbit right
      have ga := ih _ _ (by simpa using hl) cl (by simp only []; omega) ha
      have gb := ih _ _ (by simpa [setBit_length] using hl) cr (by simp only []; omega) hb
      have hpow : 2 ^ (8 * len - x.bit) = 2 ^ (8 * len - (x.bit + 1)) + 2 ^ (8 * len - (x.bit + 1)) := by
        rw [show 8 * len - x.bit = (8 * len - (x.bit + 1)) + 1 by omega, Nat.pow_succ]; omega
      have hpos : 0 < 2 ^ (8 * len - (x.bit + 1)) := Nat.pow_pos (by omega)
      have hxl : ((bits x.ip).take x.bit).length = x.bit := by rw [List.length_take, bits_length]; omega
      -- a path that goes on with bit `c` below the node
      have key : ∀ (p : List Bool) (c : Bool), p.length = 8 * len → p.take (x.bit + 1) = (bits x.ip).take x.bit ++ [c] →
          p.take x.bit = (bits x.ip).take x.bit ∧ p.drop x.bit = c :: p.drop (x.bit + 1) := by
        intro p c hpl ht
        have hlt : x.bit < p.length := by omega
        rw [List.take_succ_eq_append_getElem hlt] at ht
        have := List.append_inj ht (by rw [List.length_take, hxl]; omega)
        refine ⟨this.1, ?_⟩
        rw [List.drop_eq_getElem_cons hlt]
        have h2 := this.2
        injection h2 with h2
        rw [h2]
      rw [hl] at vr
      refine ⟨?_, ?_, ?_, ?_, ?_⟩
      · intro y hy
        rcases List.mem_append.mp hy with hy | hy
        · exact ga.each y hy
        · exact gb.each y hy
      · intro y hy p hpl hpt
        rcases List.mem_append.mp hy with hy | hy
        · obtain ⟨h1, h2⟩ := ga.under y hy p hpl hpt
          simp only [tl] at h1
          obtain ⟨k1, k2⟩ := key p false hpl h1
          refine ⟨k1, ?_⟩
          rw [k2, walk, if_pos hp, hleft, Res.ok_bind]; exact h2
        · obtain ⟨h1, h2⟩ := gb.under y hy p hpl hpt
          simp only [tr] at h1
          obtain ⟨k1, k2⟩ := key p true hpl h1
          refine ⟨k1, ?_⟩
          rw [k2, walk, if_pos hp, hright, Res.ok_bind]; exact h2
      · intro y hy
        rcases List.mem_append.mp hy with hy | hy
        · have := ga.bounds y hy
          simp only [] at this
          omega
        · have := gb.bounds y hy
          simp only [] at this
          omega
      · rw [List.pairwise_append]
        refine ⟨ga.order, gb.order, ?_⟩
        intro y hy z hz
        have h1 := ga.bounds y hy
        have h2 := gb.bounds z hz
        simp only [] at h1 h2
        omega
      · intro p hpl hpt
        have hlt : x.bit < p.length := by omega
        have hpt' : p.take (x.bit + 1) = (bits x.ip).take x.bit ++ [p[x.bit]] := by
          rw [List.take_succ_eq_append_getElem hlt, hpt]
        cases hc : p[x.bit] with
        | false =>
          rw [hc] at hpt'
          obtain ⟨_, k2⟩ := key p false hpl hpt'
          rcases ga.rest p hpl (by simp only [tl]; exact hpt') with ⟨y, hy, h1⟩ | ⟨k, h1⟩
          · exact Or.inl ⟨y, List.mem_append_left _ hy, h1⟩
          · refine Or.inr ⟨k, ?_⟩
            rw [k2, walk, if_pos hp, hleft, Res.ok_bind]; exact h1
        | true =>
          rw [hc] at hpt'
          obtain ⟨_, k2⟩ := key p true hpl hpt'
          rcases gb.rest p hpl (by simp only [tr]; exact hpt') with ⟨y, hy, h1⟩ | ⟨k, h1⟩
          · exact Or.inl ⟨y, List.mem_append_right _ hy, h1⟩
          · refine Or.inr ⟨k, ?_⟩
            rw [k2, walk, if_pos hp, hright, Res.ok_bind]; exact h1
    · exact done hl hc hp h
where
  done {rem : Nat} {x : NetNode} {L : List NetNode} (hl : x.ip.length = len) (hc : Clean x) (hp : ¬ x.pointer < r.md.nodeCount)
      (h : collect r rem x = .ok L) : Good r len x L := by
    rw [collect_done hp] at h
    injection h with h
    subst h
    by_cases he : x.pointer = r.md.nodeCount
    · rw [if_pos he]
      refine ⟨by simp, by simp, by simp, by simp, ?_⟩
      intro p _ _
      exact Or.inr ⟨x.bit, by rw [walk_stop hp, he]⟩
    · rw [if_neg he]
      refine ⟨?_, ?_, ?_, by simp, ?_⟩
      · intro y hy; rw [List.mem_singleton] at hy; subst hy; exact ⟨hl, hc, by omega⟩
      · intro y hy p _ ht; rw [List.mem_singleton] at hy; subst hy; exact ⟨ht, walk_stop hp _ _⟩
      · intro y hy; rw [List.mem_singleton] at hy; subst hy; omega
      · intro p _ ht; exact Or.inl ⟨x, by simp, ht⟩

end Uip.Awdb
