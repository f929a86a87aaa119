import Verif.Model.Ipdb.Reader
/-!
# Lemmas: the node array of the ipdb writer as a binary trie

`lab` is a ghost list: the path from the root of each node.  `row` maps each stored prefix to its data
offset.
-/
namespace Uip.Ipdb
open Uip

/-- Entry of a node. -/
def cell (nodes : List (Int × Int)) (n : Nat) (b : Bool) : Option Int :=
  (nodes[n]?).map (fun e => if b then e.2 else e.1)

/-- Update of an entry. -/
def setCell (nodes : List (Int × Int)) (n : Nat) (b : Bool) (v : Int) : List (Int × Int) :=
  match nodes[n]? with
  | some e => nodes.set n (if b then (e.1, v) else (v, e.2))
  | none => nodes

theorem cell_isSome {nodes : List (Int × Int)} {n : Nat} {b : Bool} :
    (∃ e, cell nodes n b = some e) ↔ n < nodes.length := by
  unfold cell
  constructor
  · rintro ⟨e, h⟩
    rw [Option.map_eq_some_iff] at h
    obtain ⟨a, ha, _⟩ := h
    exact (List.getElem?_eq_some_iff.mp ha).1
  · intro h
    rw [List.getElem?_eq_getElem h]; simp

theorem cell_lt {nodes : List (Int × Int)} {n : Nat} {b : Bool} {e : Int} (h : cell nodes n b = some e) :
    n < nodes.length := cell_isSome.mp ⟨e, h⟩

theorem setCell_length (nodes : List (Int × Int)) (n : Nat) (b : Bool) (v : Int) :
    (setCell nodes n b v).length = nodes.length := by
  unfold setCell; split <;> simp

theorem cell_setCell {nodes : List (Int × Int)} {n : Nat} (h : n < nodes.length) (b : Bool) (v : Int)
    (n' : Nat) (b' : Bool) :
    cell (setCell nodes n b v) n' b' = if n' = n ∧ b' = b then some v else cell nodes n' b' := by
  unfold setCell cell
  rw [List.getElem?_eq_getElem h]
  simp only [List.getElem?_set]
  by_cases hn : n = n'
  · subst hn
    simp only [h, if_true, List.getElem?_eq_getElem h, Option.map_some]
    cases b <;> cases b' <;> simp
  · rw [if_neg hn, if_neg (fun hc => hn hc.1.symm)]

theorem cell_append (nodes : List (Int × Int)) (n : Nat) (b : Bool) :
    cell (nodes ++ [(0, 0)]) n b = if n = nodes.length then some 0 else cell nodes n b := by
  unfold cell
  rw [List.getElem?_append]
  by_cases h : n < nodes.length
  · rw [if_pos h, if_neg (by omega)]
  · rw [if_neg h]
    by_cases h' : n = nodes.length
    · subst h'; simp
    · rw [if_neg h', List.getElem?_eq_none (by simp; omega), List.getElem?_eq_none (by omega)]

theorem Writer.get_eq (w : Writer) (n : Nat) (b : Bool) :
    w.get n b.toNat = Res.ofOption (cell w.node n b) := by
  unfold Writer.get cell
  cases h : w.node[n]? with
  | none => rfl
  | some e => cases b <;> rfl

theorem Writer.put_eq (w : Writer) {n : Nat} (h : n < w.node.length) (b : Bool) (v : Int) :
    w.put n b.toNat v = .ok { w with node := setCell w.node n b v } := by
  unfold Writer.put setCell
  rw [List.getElem?_eq_getElem h]
  cases b <;> rfl

/-! ## Bits of an address as the code reads them -/

theorem ipBit_eq (ip : Bytes) (i : Nat) : ipBit ip i = Res.ofOption ((bits ip)[i]?.map Bool.toNat) := by
  unfold ipBit
  induction ip generalizing i with
  | nil => simp
  | cons x ip ih =>
    rw [bits_cons]
    by_cases h : i < 8
    · have h0 : i >>> 3 = 0 := by rw [Nat.shiftRight_eq_div_pow]; omega
      rw [h0, List.getElem?_append_left (by simpa using h)]
      have : ∀ i < 8, (byteBits x)[i]?.map Bool.toNat = some ((x.toNat >>> (7 - i % 8)) &&& 1) := by
        apply byte_all (fun x => ∀ i < 8, (byteBits x)[i]?.map Bool.toNat = some ((x.toNat >>> (7 - i % 8)) &&& 1))
        decide +kernel
      rw [this i h]; simp
    · have h1 : i >>> 3 = (i - 8) >>> 3 + 1 := by
        rw [Nat.shiftRight_eq_div_pow, Nat.shiftRight_eq_div_pow]; omega
      rw [List.getElem?_append_right (by simpa using h), byteBits_length, ← ih (i - 8), h1,
        List.getElem?_cons_succ]
      have : i % 8 = (i - 8) % 8 := by omega
      rw [this]

theorem ipBit_lt {ip : Bytes} {i : Nat} {b : Bool} (h : (bits ip)[i]? = some b) :
    ipBit ip i = .ok b.toNat := by
  rw [ipBit_eq, h]; rfl

/-! ## The invariant -/

/-- `occ` says which prefixes count as stored (used to tie nodes to rows below them). -/
structure Trie (nodes : List (Int × Int)) (lab : List (List Bool)) (row : List Bool → Option Nat)
    (occ : List Bool → Prop) : Prop where
  len : lab.length = nodes.length
  root : lab[0]? = some []
  child : ∀ (n : Nat) (b : Bool) (m : Int) (q : List Bool), cell nodes n b = some m → 0 < m →
    lab[n]? = some q → lab[m.toNat]? = some (q ++ [b])
  parent : ∀ (m : Nat) (q : List Bool), 0 < m → lab[m]? = some q →
    ∃ (n : Nat) (q' : List Bool) (b : Bool), q = q' ++ [b] ∧ lab[n]? = some q' ∧ cell nodes n b = some (m : Int)
  inj : ∀ (m m' : Nat) (q : List Bool), lab[m]? = some q → lab[m']? = some q → m = m'
  leaf : ∀ (n : Nat) (q : List Bool) (b : Bool) (e : Int), lab[n]? = some q → cell nodes n b = some e →
    e < 0 → row (q ++ [b]) = some (-e).toNat
  rows : ∀ (q : List Bool) (v : Nat), row q = some v → 0 < v ∧
    ∃ (n : Nat) (q' : List Bool) (b : Bool), q = q' ++ [b] ∧ lab[n]? = some q' ∧ cell nodes n b = some (-(v : Int))
  nonempty : ∀ (m : Nat) (q : List Bool), 0 < m → lab[m]? = some q → ∃ s, s ≠ [] ∧ occ (q ++ s)

theorem Trie.lab_lt {nodes lab row occ} (h : Trie nodes lab row occ) {n : Nat} {q : List Bool}
    (hq : lab[n]? = some q) : n < nodes.length := by
  rw [← h.len]; exact (List.getElem?_eq_some_iff.mp hq).1

/-- The stored entry below the node labelled `q`. -/
theorem Trie.cell_cases {nodes lab row occ} (h : Trie nodes lab row occ) {n : Nat} {q : List Bool} (b : Bool)
    (hq : lab[n]? = some q) :
    ∃ e : Int, cell nodes n b = some e ∧
      ((∃ v : Nat, e = -(v : Int) ∧ 0 < v ∧ row (q ++ [b]) = some v) ∨
       (e = 0 ∧ row (q ++ [b]) = none) ∨
       (0 < e ∧ lab[e.toNat]? = some (q ++ [b]) ∧ row (q ++ [b]) = none)) := by
  obtain ⟨e, he⟩ := (cell_isSome (b := b)).mpr (h.lab_lt hq)
  refine ⟨e, he, ?_⟩
  have key : ∀ v : Nat, row (q ++ [b]) = some v → e = -(v : Int) ∧ 0 < v := by
    intro v hv
    obtain ⟨h0, n', q', b', h1, h2, h3⟩ := h.rows _ _ hv
    obtain ⟨rfl, hb⟩ := List.append_inj' h1 rfl
    cases hb
    have := h.inj _ _ _ hq h2
    subst this
    rw [he] at h3
    cases h3
    exact ⟨rfl, h0⟩
  rcases Int.lt_trichotomy e 0 with hneg | hz | hpos
  · left
    have := h.leaf n q b e hq he hneg
    exact ⟨(-e).toNat, by omega, by omega, this⟩
  · right; left
    refine ⟨hz, ?_⟩
    cases hr : row (q ++ [b]) with
    | none => rfl
    | some v => have := key v hr; omega
  · right; right
    refine ⟨hpos, h.child n b e q he hpos hq, ?_⟩
    cases hr : row (q ++ [b]) with
    | none => rfl
    | some v => have := key v hr; omega

/-- No node is labelled with a stored prefix. -/
theorem Trie.row_no_node {nodes lab row occ} (h : Trie nodes lab row occ) {q : List Bool} {v : Nat}
    (hr : row q = some v) (n : Nat) : lab[n]? ≠ some q := by
  intro hn
  rcases Nat.eq_zero_or_pos n with h0 | h0
  · subst h0
    rw [h.root] at hn
    cases hn
    obtain ⟨_, _, q', b, h1, _⟩ := h.rows _ _ hr
    simp at h1
  · obtain ⟨n', q', b, rfl, h2, h3⟩ := h.parent _ _ h0 hn
    obtain ⟨_, n'', q'', b', h4, h5, h6⟩ := h.rows _ _ hr
    obtain ⟨rfl, hb⟩ := List.append_inj' h4 rfl
    cases hb
    have := h.inj _ _ _ h2 h5
    subst this
    rw [h3] at h6
    injection h6 with h6
    omega

/-- If a node is labelled `q` then all prefixes of `q` label nodes; hence no stored prefix lies above. -/
theorem Trie.label_prefix {nodes lab row occ} (h : Trie nodes lab row occ) (q s : List Bool) :
    ∀ n : Nat, lab[n]? = some (q ++ s) → ∃ m : Nat, lab[m]? = some q := by
  generalize hk : s.length = k
  induction k generalizing s with
  | zero => intro n hn
            have : s = [] := List.length_eq_zero_iff.mp hk
            subst this; exact ⟨n, by simpa using hn⟩
  | succ k ih =>
    intro n hn
    obtain ⟨s', x, rfl⟩ : ∃ p x, s = p ++ [x] := by
      have hne : s ≠ [] := by intro hc; simp [hc] at hk
      exact ⟨s.dropLast, s.getLast hne, (List.dropLast_concat_getLast hne).symm⟩
    rcases Nat.eq_zero_or_pos n with h0 | h0
    · subst h0; rw [h.root] at hn
      simp only [Option.some.injEq] at hn
      have := congrArg List.length hn
      simp at this
    · obtain ⟨n', q', b, h1, h2, _⟩ := h.parent _ _ h0 hn
      rw [← List.append_assoc] at h1
      obtain ⟨h1, _⟩ := List.append_inj' h1 rfl
      subst h1
      exact ih s' (by simpa using hk) n' h2

/-- Stored prefixes are prefix-free. -/
theorem Trie.prefix_free {nodes lab row occ} (h : Trie nodes lab row occ) {q s : List Bool} {v v' : Nat}
    (h1 : row q = some v) (h2 : row (q ++ s) = some v') : s = [] := by
  rcases List.eq_nil_or_concat s with hs | ⟨s', x, hs⟩
  · exact hs
  · exfalso
    rw [hs] at h2
    obtain ⟨_, n, q', b, h3, h4, _⟩ := h.rows _ _ h2
    rw [List.concat_eq_append, ← List.append_assoc] at h3
    obtain ⟨h3, _⟩ := List.append_inj' h3 rfl
    subst h3
    obtain ⟨m, hm⟩ := h.label_prefix q s' n h4
    exact h.row_no_node h1 m hm

/-- The initial trie. -/
theorem Trie.init : Trie [(0, 0)] [[]] (fun _ => none) (fun _ => False) where
  len := rfl
  root := rfl
  child := by
    intro n b m q hc hm
    have hn := cell_lt hc
    have : n = 0 := by simpa using hn
    subst this
    cases b <;> simp [cell] at hc <;> omega
  parent := by
    intro m q hm hq
    have := (List.getElem?_eq_some_iff.mp hq).1
    simp at this; omega
  inj := by
    intro m m' q h1 h2
    have h1 := (List.getElem?_eq_some_iff.mp h1).1
    have h2 := (List.getElem?_eq_some_iff.mp h2).1
    simp at h1 h2; omega
  leaf := by
    intro n q b e _ hc he
    have hn := cell_lt hc
    have : n = 0 := by simpa using hn
    subst this
    cases b <;> simp [cell] at hc <;> omega
  rows := by intro q v h; simp at h
  nonempty := by
    intro m q hm hq
    have := (List.getElem?_eq_some_iff.mp hq).1
    simp at this; omega

/-- Adding an empty child below a node at an empty entry. -/
theorem Trie.addNode {nodes lab row occ} (h : Trie nodes lab row occ) {n : Nat} {q : List Bool} {b : Bool}
    (hq : lab[n]? = some q) (hc : cell nodes n b = some 0) {s : List Bool} (hs : s ≠ [])
    (hocc : occ (q ++ [b] ++ s)) :
    Trie (setCell (nodes ++ [(0, 0)]) n b (nodes.length : Int)) (lab ++ [q ++ [b]]) row occ := by
  have hn := cell_lt hc
  have hnl : n < (nodes ++ [((0 : Int), (0 : Int))]).length := by simp; omega
  have hcell : ∀ n' b', cell (setCell (nodes ++ [(0, 0)]) n b (nodes.length : Int)) n' b' =
      if n' = n ∧ b' = b then some (nodes.length : Int)
      else if n' = nodes.length then some 0 else cell nodes n' b' := by
    intro n' b'
    rw [cell_setCell hnl, cell_append]
  have hlab : ∀ m : Nat, (lab ++ [q ++ [b]])[m]? = if m = nodes.length then some (q ++ [b]) else lab[m]? := by
    intro m
    rw [List.getElem?_append, h.len]
    by_cases h1 : m < nodes.length
    · rw [if_pos h1, if_neg (by omega)]
    · rw [if_neg h1]
      by_cases h2 : m = nodes.length
      · subst h2; simp
      · rw [if_neg h2, List.getElem?_eq_none (by simp; omega),
          List.getElem?_eq_none (by rw [h.len]; omega)]
  have hfresh : ∀ m : Nat, lab[m]? ≠ some (q ++ [b]) := by
    intro m hm
    rcases Nat.eq_zero_or_pos m with h0 | h0
    · subst h0; rw [h.root] at hm; simp at hm
    · obtain ⟨n', q', b', h1, h2, h3⟩ := h.parent _ _ h0 hm
      obtain ⟨rfl, hb⟩ := List.append_inj' h1 rfl
      cases hb
      have := h.inj _ _ _ hq h2
      subst this
      rw [hc] at h3
      injection h3 with h3; omega
  have hrown : row (q ++ [b]) = none := by
    obtain ⟨e, he, hcase⟩ := h.cell_cases b hq
    rw [hc] at he
    cases he
    rcases hcase with ⟨v, h1, h2, _⟩ | ⟨_, h1⟩ | ⟨h1, _⟩
    · omega
    · exact h1
    · omega
  refine ⟨?_, ?_, ?_, ?_, ?_, ?_, ?_, ?_⟩
  · rw [setCell_length]; simp [h.len]
  · rw [hlab, if_neg (by omega)]; exact h.root
  · intro n' b' m q' hc' hm hq'
    rw [hcell] at hc'
    rw [hlab] at hq'
    split at hc'
    · rename_i he
      obtain ⟨rfl, rfl⟩ := he
      cases hc'
      rw [if_neg (by omega)] at hq'
      rw [hq] at hq'
      cases hq'
      rw [hlab, if_pos (by simp)]
    · split at hc'
      · cases hc'; omega
      · rename_i hne
        rw [if_neg hne] at hq'
        have := h.child n' b' m q' hc' hm hq'
        rw [hlab, if_neg]
        · exact this
        · have := h.lab_lt this; omega
  · intro m q' hm hq'
    rw [hlab] at hq'
    split at hq'
    · rename_i he
      subst he
      cases hq'
      exact ⟨n, q, b, rfl, by rw [hlab, if_neg (by omega)]; exact hq, by rw [hcell, if_pos ⟨rfl, rfl⟩]⟩
    · obtain ⟨n', q'', b', h1, h2, h3⟩ := h.parent m q' hm hq'
      have hn' := h.lab_lt h2
      refine ⟨n', q'', b', h1, by rw [hlab, if_neg (by omega)]; exact h2, ?_⟩
      rw [hcell, if_neg, if_neg (by omega)]
      · exact h3
      · rintro ⟨rfl, rfl⟩
        rw [hc] at h3
        injection h3 with h3; omega
  · intro m m' q' h1 h2
    rw [hlab] at h1 h2
    split at h1 <;> split at h2
    · omega
    · cases h1; exact absurd h2 (hfresh _)
    · cases h2; exact absurd h1 (hfresh _)
    · exact h.inj _ _ _ h1 h2
  · intro n' q' b' e hq' hc' he
    rw [hcell] at hc'
    rw [hlab] at hq'
    split at hc'
    · cases hc'; omega
    · split at hc'
      · cases hc'; omega
      · rename_i hne
        rw [if_neg hne] at hq'
        exact h.leaf n' q' b' e hq' hc' he
  · intro q' v hv
    obtain ⟨h0, n', q'', b', h1, h2, h3⟩ := h.rows q' v hv
    have hn' := h.lab_lt h2
    refine ⟨h0, n', q'', b', h1, by rw [hlab, if_neg (by omega)]; exact h2, ?_⟩
    rw [hcell, if_neg, if_neg (by omega)]
    · exact h3
    · rintro ⟨rfl, rfl⟩
      rw [hc] at h3
      injection h3 with h3; omega
  · intro m q' hm hq'
    rw [hlab] at hq'
    split at hq'
    · cases hq'; exact ⟨s, hs, hocc⟩
    · exact h.nonempty m q' hm hq'

/-- Storing a data offset at an entry that is empty or already holds data. -/
theorem Trie.setRow {nodes lab row occ} (h : Trie nodes lab row occ) {n : Nat} {q : List Bool} {b : Bool} {e : Int}
    (hq : lab[n]? = some q) (hc : cell nodes n b = some e) (he : e ≤ 0) {v : Nat} (hv : 0 < v)
    (occ' : List Bool → Prop) (hocc : ∀ p, occ p → occ' p) :
    Trie (setCell nodes n b (-(v : Int))) lab (fun p => if p = q ++ [b] then some v else row p) occ' := by
  have hn := cell_lt hc
  have hcell := cell_setCell hn b (-(v : Int))
  have huniq : ∀ (n' : Nat) (b' : Bool), lab[n']? = some q → b' = b → n' = n := fun n' b' h1 _ => h.inj _ _ _ h1 hq
  refine ⟨?_, h.root, ?_, ?_, h.inj, ?_, ?_, ?_⟩
  · rw [setCell_length]; exact h.len
  · intro n' b' m q' hc' hm hq'
    rw [hcell] at hc'
    split at hc'
    · cases hc'; omega
    · exact h.child n' b' m q' hc' hm hq'
  · intro m q' hm hq'
    obtain ⟨n', q'', b', h1, h2, h3⟩ := h.parent m q' hm hq'
    refine ⟨n', q'', b', h1, h2, ?_⟩
    rw [hcell, if_neg]
    · exact h3
    · rintro ⟨rfl, rfl⟩
      rw [hc] at h3
      cases h3; omega
  · intro n' q' b' e' hq' hc' he'
    rw [hcell] at hc'
    split at hc'
    · rename_i heq
      obtain ⟨rfl, rfl⟩ := heq
      cases hc'
      rw [hq] at hq'
      cases hq'
      rw [if_pos rfl]; simp
    · rename_i hne
      rw [if_neg]
      · exact h.leaf n' q' b' e' hq' hc' he'
      · intro hc2
        obtain ⟨rfl, hb⟩ := List.append_inj' hc2 rfl
        cases hb
        exact hne ⟨h.inj _ _ _ hq' hq, rfl⟩
  · intro q' v' hv'
    split at hv'
    · rename_i heq
      cases hv'
      exact ⟨hv, n, q, b, heq, hq, by rw [hcell, if_pos ⟨rfl, rfl⟩]⟩
    · rename_i hne
      obtain ⟨h0, n', q'', b', h1, h2, h3⟩ := h.rows q' v' hv'
      refine ⟨h0, n', q'', b', h1, h2, ?_⟩
      rw [hcell, if_neg]
      · exact h3
      · rintro ⟨rfl, rfl⟩
        rw [hq] at h2
        cases h2
        exact hne h1
  · intro m q' hm hq'
    obtain ⟨s, hs, ho⟩ := h.nonempty m q' hm hq'
    exact ⟨s, hs, hocc _ ho⟩

/-- Changing what counts as stored. -/
theorem Trie.mono {nodes lab row occ} (h : Trie nodes lab row occ) {occ' : List Bool → Prop}
    (hocc : ∀ p, occ p → occ' p) : Trie nodes lab row occ' :=
  ⟨h.len, h.root, h.child, h.parent, h.inj, h.leaf, h.rows, fun m q hm hq => by
      obtain ⟨s, hs, ho⟩ := h.nonempty m q hm hq
      exact ⟨s, hs, hocc _ ho⟩⟩

end Uip.Ipdb
