import Verif.Proof.Ipdb.Walk
/-!
# A database written by `Save` and read back
-/
namespace Uip.Ipdb
open Uip Uip.Spec

/-! ## Words -/

theorem val_intToBE32 {x : Nat} (h : x < 2 ^ 32) : val (intToBE32 x) = x := by
  simp only [intToBE32, val, List.length_cons, List.length_nil, UInt8.toNat_ofNat']
  omega

theorem val_intToBE16 {x : Nat} (h : x < 65536) : val (intToBE16 x) = x := by
  simp only [intToBE16, val, List.length_cons, List.length_nil, UInt8.toNat_ofNat']
  omega

theorem nodeWord_length (n : Nat) (e : Int) : (nodeWord n e).length = 4 := rfl

theorem flatMap_drop {α : Type} (f : α → Bytes) (k : Nat) (hf : ∀ a, (f a).length = k) (l : List α) (n : Nat) :
    (l.flatMap f).drop (k * n) = (l.drop n).flatMap f := by
  induction n generalizing l with
  | zero => simp
  | succ n ih =>
    cases l with
    | nil => simp
    | cons a l =>
      rw [List.flatMap_cons, List.drop_succ_cons, ← ih l, List.drop_append, hf]
      rw [List.drop_of_length_le (by rw [hf, Nat.mul_add]; omega)]
      rw [List.nil_append]
      congr 1
      rw [Nat.mul_add]; omega

/-- The stored value of an entry. -/
def wordOf (n : Nat) (e : Int) : Nat := (if e ≤ 0 then (n : Int) - e else e).toNat

theorem nodeChunk_length (w : Writer) : w.nodeChunk.length = 8 * w.node.length + 8 := by
  unfold Writer.nodeChunk
  have : ∀ l : List (Int × Int), (l.flatMap (fun e => nodeWord w.node.length e.1 ++ nodeWord w.node.length e.2)).length
      = 8 * l.length := by
    intro l
    induction l with
    | nil => rfl
    | cons a l ih =>
      rw [List.flatMap_cons, List.length_append, ih]
      simp [nodeWord_length]; omega
  simp only [List.length_append, this]
  simp [intToBE32]

theorem readNode_nodeChunk (w : Writer) (rest : Bytes) {n : Nat} {b : Bool} {e : Int}
    (hc : cell w.node n b = some e) (hw : wordOf w.node.length e < 2 ^ 32) :
    readNode (w.nodeChunk ++ rest) n b.toNat = .ok (wordOf w.node.length e) := by
  have hn := cell_lt hc
  have hlen := nodeChunk_length w
  unfold readNode
  dsimp only
  have hbl : b.toNat ≤ 1 := by cases b <;> simp
  rw [if_neg (by rw [List.length_append, hlen]; omega)]
  congr 1
  unfold Writer.nodeChunk
  rw [List.append_assoc, List.append_assoc, show n * 8 + b.toNat * 4 = 8 * n + b.toNat * 4 by omega,
    ← List.drop_drop, List.drop_append_of_le_length]
  · rw [flatMap_drop _ 8 (by intro a; rfl)]
    have hd : w.node.drop n = w.node[n] :: w.node.drop (n + 1) := List.drop_eq_getElem_cons hn
    rw [hd, List.flatMap_cons]
    have hcell : e = if b then w.node[n].2 else w.node[n].1 := by
      unfold cell at hc
      rw [List.getElem?_eq_getElem hn] at hc
      simp at hc
      exact hc.symm
    cases b with
    | false =>
      simp only [Bool.toNat_false, Nat.zero_mul, List.drop_zero, List.append_assoc]
      rw [List.take_left' (nodeWord_length _ _)]
      simp at hcell
      rw [← hcell]
      exact val_intToBE32 hw
    | true =>
      simp only [Bool.toNat_true, Nat.one_mul, List.append_assoc]
      rw [List.drop_left' (nodeWord_length _ _), List.take_left' (nodeWord_length _ _)]
      simp at hcell
      rw [← hcell]
      exact val_intToBE32 hw
  · have : ∀ l : List (Int × Int), (l.flatMap (fun e => nodeWord w.node.length e.1 ++ nodeWord w.node.length e.2)).length
      = 8 * l.length := by
      intro l
      induction l with
      | nil => rfl
      | cons a l ih =>
        rw [List.flatMap_cons, List.length_append, ih]
        simp [nodeWord_length]; omega
    rw [this]; omega

/-! ## Walking the trie -/

/-- Reading entries from `data` gives what the trie holds. -/
def Reads (data : Bytes) (nodes : List (Int × Int)) : Prop :=
  ∀ n b e, cell nodes n b = some e → readNode data n b.toNat = .ok (wordOf nodes.length e)

theorem walk_hit {nodes lab row occ} (h : Trie nodes lab row occ) {data : Bytes} (hr : Reads data nodes)
    {ip : Bytes} {pre : List Bool} : ∀ (steps node i j v : Nat), i + steps ≤ (bits ip).length →
    lab[node]? = some (pre ++ (bits ip).take i) → i < j → j ≤ i + steps →
    row (pre ++ (bits ip).take j) = some v →
    readDepth data nodes.length ip steps node i = .ok (nodes.length + v, j) := by
  intro steps
  induction steps with
  | zero => intros; omega
  | succ steps ih =>
    intro node i j v hlen hlab hij hj hrow
    have hnode := h.lab_lt hlab
    obtain ⟨b, hb⟩ : ∃ b, (bits ip)[i]? = some b := ⟨_, List.getElem?_eq_getElem (by omega)⟩
    have htake := take_succ_of_getElem? hb
    obtain ⟨e, he, hcase⟩ := h.cell_cases b hlab
    rw [List.append_assoc, ← htake] at hcase
    simp only [readDepth]
    rw [if_neg (by omega), ipBit_lt hb, Res.ok_bind, hr _ _ _ he, Res.ok_bind]
    rcases Nat.lt_or_ge (i + 1) j with hlt | hge
    · -- the row is further down: the entry must be a node
      rcases hcase with ⟨v', rfl, hv', hrow'⟩ | ⟨rfl, hrow'⟩ | ⟨hpos, hl, _⟩
      · exfalso
        have hsplit : (bits ip).take j = (bits ip).take (i + 1) ++ ((bits ip).take j).drop (i + 1) := by
          have := (List.take_append_drop (i + 1) ((bits ip).take j))
          rw [List.take_take, Nat.min_eq_left (by omega)] at this
          exact this.symm
        rw [hsplit, ← List.append_assoc] at hrow
        have := h.prefix_free hrow' hrow
        have := congrArg List.length this
        simp at this; omega
      · exfalso
        obtain ⟨_, n2, q2, b2, h7, h8, _⟩ := h.rows _ v hrow
        obtain ⟨b', hb'⟩ : ∃ b, (bits ip)[j - 1]? = some b := ⟨_, List.getElem?_eq_getElem (by omega)⟩
        rw [show j = (j - 1) + 1 by omega, take_succ_of_getElem? hb', ← List.append_assoc] at h7
        obtain ⟨h7, _⟩ := List.append_inj' h7 rfl
        subst h7
        have hsplit : (bits ip).take (j - 1) = (bits ip).take (i + 1) ++ ((bits ip).take (j - 1)).drop (i + 1) := by
          have := (List.take_append_drop (i + 1) ((bits ip).take (j - 1)))
          rw [List.take_take, Nat.min_eq_left (by omega)] at this
          exact this.symm
        rw [hsplit, ← List.append_assoc] at h8
        obtain ⟨m, hm⟩ := h.label_prefix _ _ _ h8
        rw [htake, ← List.append_assoc] at hm
        have hm0 : 0 < m := by
          rcases Nat.eq_zero_or_pos m with h0 | h0
          · subst h0; rw [h.root] at hm; simp at hm
          · exact h0
        obtain ⟨n3, q3, b3, h9, h10, h11⟩ := h.parent _ _ hm0 hm
        obtain ⟨h9', hb3⟩ := List.append_inj' h9 rfl
        cases hb3
        subst h9'
        have := h.inj _ _ _ hlab h10
        subst this
        rw [he] at h11
        injection h11 with h11
        omega
      · have : wordOf nodes.length e = e.toNat := by unfold wordOf; rw [if_neg (by omega)]
        rw [this]
        exact ih e.toNat (i + 1) j v (by omega) hl hlt (by omega) hrow
    · have : j = i + 1 := by omega
      subst this
      rcases hcase with ⟨v', rfl, hv', hrow'⟩ | ⟨rfl, hrow'⟩ | ⟨hpos, hl, hrow'⟩
      · rw [hrow] at hrow'
        cases hrow'
        have : wordOf nodes.length (-(v : Int)) = nodes.length + v := by unfold wordOf; rw [if_pos (by omega)]; omega
        rw [this, readDepth_stop (by omega)]
      · rw [hrow] at hrow'; cases hrow'
      · rw [hrow] at hrow'; cases hrow'

theorem walk_miss {nodes lab row occ} (h : Trie nodes lab row occ) {data : Bytes} (hr : Reads data nodes)
    {ip : Bytes} {pre : List Bool} : ∀ (steps node i : Nat), i + steps ≤ (bits ip).length →
    lab[node]? = some (pre ++ (bits ip).take i) →
    (∀ j, i < j → j ≤ i + steps → row (pre ++ (bits ip).take j) = none) →
    ∃ node' i', readDepth data nodes.length ip steps node i = .ok (node', i') ∧
      (node' = nodes.length ∨ (i' = i + steps ∧ lab[node']? = some (pre ++ (bits ip).take (i + steps)))) := by
  intro steps
  induction steps with
  | zero => intro node i _ hlab _; exact ⟨node, i, rfl, .inr ⟨rfl, hlab⟩⟩
  | succ steps ih =>
    intro node i hlen hlab hnone
    have hnode := h.lab_lt hlab
    obtain ⟨b, hb⟩ : ∃ b, (bits ip)[i]? = some b := ⟨_, List.getElem?_eq_getElem (by omega)⟩
    have htake := take_succ_of_getElem? hb
    obtain ⟨e, he, hcase⟩ := h.cell_cases b hlab
    rw [List.append_assoc, ← htake] at hcase
    have hn1 := hnone (i + 1) (by omega) (by omega)
    simp only [readDepth]
    rw [if_neg (by omega), ipBit_lt hb, Res.ok_bind, hr _ _ _ he, Res.ok_bind]
    rcases hcase with ⟨v', rfl, hv', hrow'⟩ | ⟨rfl, hrow'⟩ | ⟨hpos, hl, _⟩
    · rw [hn1] at hrow'; cases hrow'
    · have : wordOf nodes.length 0 = nodes.length := by unfold wordOf; rw [if_pos (by omega)]; omega
      rw [this, readDepth_stop (by omega)]
      exact ⟨_, _, rfl, .inl rfl⟩
    · have : wordOf nodes.length e = e.toNat := by unfold wordOf; rw [if_neg (by omega)]
      rw [this]
      obtain ⟨n', i', h1, h2⟩ := ih e.toNat (i + 1) (by omega) hl (fun j h1 h2 => hnone j (by omega) (by omega))
      refine ⟨n', i', h1, ?_⟩
      rcases h2 with h2 | ⟨h2, h3⟩
      · exact .inl h2
      · exact .inr ⟨by omega, by rw [h3]; congr 3; omega⟩

/-- A full-length path with no stored prefix leads to the empty entry. -/
theorem no_full_label {nodes lab row} (h : Trie nodes lab row (fun p => row p ≠ none))
    (hlen : ∀ q v, row q = some v → q.length ≤ 128) {m : Nat} {q : List Bool} (hq : q.length = 128)
    (hm : lab[m]? = some q) : False := by
  have hm0 : 0 < m := by
    rcases Nat.eq_zero_or_pos m with h0 | h0
    · subst h0; rw [h.root] at hm; cases hm; simp at hq
    · exact h0
  obtain ⟨s, hs, ho⟩ := h.nonempty m q hm0 hm
  obtain ⟨v, hv⟩ := Option.ne_none_iff_exists'.mp ho
  have := hlen _ _ hv
  rw [List.length_append] at this
  exact hs (List.length_eq_zero_iff.mp (by omega))

/-- Search from the root along 128 bits. -/
theorem plainSearch_v6 {nodes lab row} (h : Trie nodes lab row (fun p => row p ≠ none))
    (hlen : ∀ q v, row q = some v → q.length ≤ 128) {data : Bytes} (hr : Reads data nodes)
    {ip : IP} (hip : ip.length = 16) :
    (∀ q v, q <+: bits ip → row q = some v →
      plainSearch data nodes.length 0 ip 128 = .ok (nodes.length + v, q.length)) ∧
    ((∀ q, q <+: bits ip → row q = none) → plainSearch data nodes.length 0 ip 128 = .err .dataNotExists) := by
  have hb : (bits ip).length = 128 := by rw [bits_length, hip]
  have hroot : lab[0]? = some ([] ++ (bits ip).take 0) := by simpa using h.root
  constructor
  · intro q v hq hrow
    obtain ⟨hv, _, q', b', hq', _⟩ := h.rows q v hrow
    have hle := hq.length_le
    have hq0 : 0 < q.length := by rw [hq']; simp
    have hqt := List.prefix_iff_eq_take.mp hq
    have := walk_hit h hr (pre := []) 128 0 0 q.length v (by omega) hroot hq0 (by omega)
      (by rw [List.nil_append, ← hqt]; exact hrow)
    unfold plainSearch
    rw [this, Res.ok_bind]
    dsimp only
    rw [if_pos (by omega)]; rfl
  · intro hnone
    obtain ⟨n', i', h1, h2⟩ := walk_miss h hr (pre := []) 128 0 0 (by omega) hroot
      (fun j _ _ => hnone _ (List.take_prefix _ _))
    unfold plainSearch
    rw [h1, Res.ok_bind]
    dsimp only
    rcases h2 with h2 | ⟨_, h2⟩
    · rw [if_neg (by omega)]
    · exact absurd h2 (fun hc => no_full_label h hlen (by simp [hb]) hc)

/-- Search of an IPv4 address: the first 96 steps are those of the reader's construction. -/
theorem plainSearch_v4 {nodes lab row} (h : Trie nodes lab row (fun p => row p ≠ none))
    (hlen : ∀ q v, row q = some v → q.length ≤ 128) {data : Bytes} (hr : Reads data nodes) :
    ∃ v4, v4offsetLoop data nodes.length 96 0 0 = .ok v4 ∧
    (∀ ip : Bytes, ∀ s, s ≤ (bits ip).length → s + 96 ≤ 128 →
      ∃ x, readDepth data nodes.length ip s v4 0 = .ok x) ∧
    ∀ ip : IP, ip.length = 4 →
    (∀ q v, q <+: bits v4InV6Prefix ++ bits ip → row q = some v →
      plainSearch data nodes.length v4 ip 32 = .ok (nodes.length + v, q.length - 96)) ∧
    ((∀ q, q <+: bits v4InV6Prefix ++ bits ip → row q = none) →
      plainSearch data nodes.length v4 ip 32 = .err .dataNotExists) := by
  have hb12 : (bits v4InV6Prefix).length = 96 := by rw [bits_length]; rfl
  have hroot : lab[0]? = some ([] ++ (bits v4InV6Prefix).take 0) := by simpa using h.root
  rw [v4offsetLoop_eq _ _ _ _ _ rfl]
  by_cases hex : ∃ j v, 0 < j ∧ j ≤ 96 ∧ row ((bits v4InV6Prefix).take j) = some v
  · obtain ⟨j, v, hj0, hj, hrow⟩ := hex
    have := walk_hit h hr (pre := []) 96 0 0 j v (by omega) hroot hj0 (by omega) (by simpa using hrow)
    refine ⟨nodes.length + v, by rw [this]; rfl, ?_, ?_⟩
    · intro ip s _ _
      exact ⟨_, readDepth_stop (by omega) _ _⟩
    intro ip hip
    have hv := (h.rows _ _ hrow).1
    constructor
    · intro q v' hq hrow'
      have hqj : q = (bits v4InV6Prefix).take j := by
        have hp : (bits v4InV6Prefix).take j <+: bits v4InV6Prefix ++ bits ip :=
          (List.take_prefix _ _).trans (List.prefix_append _ _)
        rcases List.prefix_or_prefix_of_prefix hq hp with ⟨s, hs⟩ | ⟨s, hs⟩
        · rw [← hs] at hrow
          have := h.prefix_free hrow' hrow
          rw [← hs, this, List.append_nil]
        · rw [← hs] at hrow'
          have := h.prefix_free hrow hrow'
          rw [← hs, this, List.append_nil]
      subst hqj
      rw [hrow] at hrow'
      cases hrow'
      unfold plainSearch
      rw [readDepth_stop (by omega), Res.ok_bind]
      dsimp only
      rw [if_pos (by omega), List.length_take, hb12, Nat.min_eq_left hj]
      congr 2; omega
    · intro hnone
      have := hnone _ ((List.take_prefix j _).trans (List.prefix_append _ _))
      rw [hrow] at this; cases this
  · have hnone : ∀ j, 0 < j → j ≤ 0 + 96 → row ([] ++ (bits v4InV6Prefix).take j) = none := by
      intro j h1 h2
      rw [List.nil_append]
      cases hr' : row ((bits v4InV6Prefix).take j) with
      | none => rfl
      | some v => exact absurd ⟨j, v, h1, by omega, hr'⟩ hex
    obtain ⟨n', i', h1, h2⟩ := walk_miss h hr (pre := []) 96 0 0 (by omega) hroot hnone
    refine ⟨n', by rw [h1]; rfl, ?_, ?_⟩
    · intro ip s hs hs'
      rcases h2 with rfl | ⟨_, h2⟩
      · exact ⟨_, readDepth_stop (by omega) _ _⟩
      · rw [List.nil_append, List.take_of_length_le (by omega)] at h2
        have hl0 : lab[n']? = some (bits v4InV6Prefix ++ (bits ip).take 0) := by simpa using h2
        by_cases hex2 : ∃ j v, 0 < j ∧ j ≤ 0 + s ∧ row (bits v4InV6Prefix ++ (bits ip).take j) = some v
        · obtain ⟨j, v, hj0, hj, hrow⟩ := hex2
          exact ⟨_, walk_hit h hr s n' 0 j v (by omega) hl0 hj0 hj hrow⟩
        · obtain ⟨n2, i2, h3, _⟩ := walk_miss h hr (pre := bits v4InV6Prefix) (ip := ip) s n' 0 (by omega) hl0 (by
            intro j h1 h2
            cases hr' : row (bits v4InV6Prefix ++ (bits ip).take j) with
            | none => rfl
            | some v => exact absurd ⟨j, v, h1, h2, hr'⟩ hex2)
          exact ⟨_, h3⟩
    intro ip hip
    have hb4 : (bits ip).length = 32 := by rw [bits_length, hip]
    have hshort : ∀ q v, q <+: bits v4InV6Prefix ++ bits ip → row q = some v →
        96 < q.length ∧ q = bits v4InV6Prefix ++ (bits ip).take (q.length - 96) := by
      intro q v hq hrow
      have hqt := List.prefix_iff_eq_take.mp hq
      obtain ⟨_, _, q', b', hq', _⟩ := h.rows q v hrow
      have hq0 : 0 < q.length := by rw [hq']; simp
      have hlt : 96 < q.length := by
        rcases Nat.lt_or_ge 96 q.length with hh | hh
        · exact hh
        · exfalso
          have := hnone q.length hq0 (by omega)
          rw [List.take_append_of_le_length (by omega)] at hqt
          rw [List.nil_append, ← hqt, hrow] at this
          cases this
      refine ⟨hlt, ?_⟩
      rw [List.take_append, List.take_of_length_le (by omega), hb12] at hqt
      exact hqt
    constructor
    · intro q v hq hrow
      obtain ⟨hlt, hqe⟩ := hshort q v hq hrow
      have hqle := hq.length_le
      rw [List.length_append] at hqle
      have hv := (h.rows _ _ hrow).1
      rcases h2 with rfl | ⟨_, h2⟩
      · -- impossible: the path to the row runs through the node for the first 96 bits
        exfalso
        obtain ⟨_, m, q', b', hq', hm, _⟩ := h.rows q v hrow
        have hm' : ∃ k : Nat, lab[k]? = some (bits v4InV6Prefix) := by
          have hql : q'.length = q.length - 1 := by rw [hq']; simp
          have hq'p : q' <+: bits v4InV6Prefix ++ bits ip := by
            refine List.IsPrefix.trans ?_ hq
            rw [hq']; exact List.prefix_append _ _
          have : bits v4InV6Prefix <+: q' := List.prefix_of_prefix_length_le (List.prefix_append _ _) hq'p (by omega)
          obtain ⟨s, hs⟩ := this
          rw [← hs] at hm
          exact h.label_prefix _ _ _ hm
        obtain ⟨k, hk⟩ := hm'
        -- walking 96 steps reaches the node
        have hreach : ∀ s, s ≤ 96 → ∃ n2 : Nat, lab[n2]? = some ((bits v4InV6Prefix).take s) ∧
            readDepth data nodes.length v4InV6Prefix s 0 0 = .ok (n2, s) := by
          intro s
          induction s with
          | zero => intro _; exact ⟨0, by simpa using hroot, rfl⟩
          | succ s ihs =>
            intro hs
            obtain ⟨n2, hl2, hr2⟩ := ihs (by omega)
            have hbit : ∃ b, (bits v4InV6Prefix)[s]? = some b := ⟨_, List.getElem?_eq_getElem (by omega)⟩
            obtain ⟨b, hb⟩ := hbit
            have htk := take_succ_of_getElem? hb
            have hex2 : ∃ k2 : Nat, lab[k2]? = some ((bits v4InV6Prefix).take (s + 1)) := by
              have hsp := List.take_append_drop (s + 1) (bits v4InV6Prefix)
              rw [← hsp] at hk
              exact h.label_prefix _ _ _ hk
            obtain ⟨k2, hk2⟩ := hex2
            have hk20 : 0 < k2 := by
              rcases Nat.eq_zero_or_pos k2 with h0 | h0
              · subst h0; rw [h.root, htk] at hk2; simp at hk2
              · exact h0
            have hk2' := hk2
            rw [htk] at hk2'
            obtain ⟨n3, q3, b3, h9, h10, h11⟩ := h.parent _ _ hk20 hk2'
            obtain ⟨h9', hb3⟩ := List.append_inj' h9 rfl
            cases hb3
            subst h9'
            have := h.inj _ _ _ hl2 h10
            subst this
            refine ⟨k2, hk2, ?_⟩
            rw [readDepth_add s 1, hr2, Res.ok_bind]
            have hn2 := h.lab_lt hl2
            have hw : wordOf nodes.length (k2 : Int) = k2 := by unfold wordOf; rw [if_neg (by omega)]; omega
            rw [show 0 + s + 1 - (n2, s).2 = 1 by simp]
            simp only [readDepth]
            rw [if_neg (by omega), ipBit_lt hb, Res.ok_bind, hr _ _ _ h11, hw]
            rfl
        obtain ⟨n2, hl2, hr2⟩ := hreach 96 (by omega)
        rw [h1] at hr2
        cases hr2
        have := h.lab_lt hl2
        omega
      · rw [List.nil_append, List.take_of_length_le (by omega)] at h2
        have hl0 : lab[n']? = some (bits v4InV6Prefix ++ (bits ip).take 0) := by simpa using h2
        have := walk_hit h hr 32 n' 0 (q.length - 96) v (by omega) hl0 (by omega) (by omega)
          (by rw [← hqe]; exact hrow)
        unfold plainSearch
        rw [this, Res.ok_bind]
        dsimp only
        rw [if_pos (by omega)]; rfl
    · intro hn
      rcases h2 with rfl | ⟨_, h2⟩
      · unfold plainSearch
        rw [readDepth_stop (by omega), Res.ok_bind]
        dsimp only
        rw [if_neg (by omega)]
      · rw [List.nil_append, List.take_of_length_le (by omega)] at h2
        have hl0 : lab[n']? = some (bits v4InV6Prefix ++ (bits ip).take 0) := by simpa using h2
        obtain ⟨n2, i2, h3, h4⟩ := walk_miss h hr (pre := bits v4InV6Prefix) (ip := ip) 32 n' 0 (by omega) hl0 (by
          intro j _ _
          apply hn
          rw [List.prefix_append_right_inj]
          exact List.take_prefix _ _)
        unfold plainSearch
        rw [h3, Res.ok_bind]
        dsimp only
        rcases h4 with h4 | ⟨_, h4⟩
        · rw [if_neg (by omega)]
        · exact absurd h4 (fun hc => no_full_label h hlen (by simp [hb4, hb12]) hc)

end Uip.Ipdb
