import Verif.Proof.Awdb.Meta
import Verif.Proof.Awdb.Open
/-!
# Files laid out as the format prescribes
-/
namespace Uip.Awdb
open Uip Uip.Spec Uip.Spec.Awdb

theorem marker_eq : metaMarker = marker := by decide +kernel

theorem lastIndex_none {sep : Bytes} : ∀ (b : Bytes), (∀ i, i < b.length → ¬ sep <+: b.drop i) → lastIndex sep b = none := by
  intro b
  induction b with
  | nil => intro _; rfl
  | cons x b ih =>
    intro h
    rw [lastIndex, ih (fun i hi => by simpa using h (i + 1) (by simpa using hi))]
    simp only []
    rw [if_neg]
    intro hp
    exact h 0 (by simp) (List.isPrefixOf_iff_prefix.mp hp)

theorem lastIndex_at {sep : Bytes} : ∀ (b : Bytes) (j : Nat), j < b.length → sep <+: b.drop j → (∀ i, j < i → ¬ sep <+: b.drop i) →
    lastIndex sep b = some j := by
  intro b
  induction b with
  | nil => intro j hj; simp at hj
  | cons x b ih =>
    intro j hj h1 h2
    rw [lastIndex]
    cases j with
    | zero =>
      rw [lastIndex_none b (fun i _ => by simpa using h2 (i + 1) (by omega))]
      simp only []
      rw [if_pos (List.isPrefixOf_iff_prefix.mpr (by simpa using h1))]
    | succ j =>
      rw [ih j (by simpa using hj) (by simpa using h1) (fun i hi => by simpa using h2 (i + 1) (by omega))]

theorem treeBytes_length {rs : Nat} (h : rs = 24 ∨ rs = 28 ∨ rs = 32) (nodes : List (Nat × Nat)) :
    (treeBytes rs nodes).length = nodes.length * rs / 4 := by
  have hq : (treeBytes rs nodes).length = nodes.length * (rs / 4) := by
    induction nodes with
    | nil => simp [treeBytes]
    | cons n nodes ih =>
      unfold treeBytes at ih ⊢
      rw [List.flatMap_cons, List.length_append, ih, nodeBytes_length h, List.length_cons, Nat.succ_mul, Nat.add_comm]
  rw [hq]
  rcases h with rfl | rfl | rfl <;> omega

theorem walk_tree {r : Reader} {nodes : List (Nat × Nat)} (hs : r.md.recordSize = 24 ∨ r.md.recordSize = 28 ∨ r.md.recordSize = 32)
    (hn : r.nodes = treeBytes r.md.recordSize nodes) (hc : r.md.nodeCount = nodes.length)
    (hf : ∀ n ∈ nodes, n.1 < 2 ^ r.md.recordSize ∧ n.2 < 2 ^ r.md.recordSize) :
    ∀ (p : List Bool) (node i : Nat), walk r p node i = .ok (treeWalk nodes p node i) := by
  intro p
  induction p with
  | nil => intro node i; rfl
  | cons b p ih =>
    intro node i
    rw [walk, treeWalk, hc]
    by_cases hlt : node < nodes.length
    · rw [if_pos hlt, List.getElem?_eq_getElem hlt]
      have hmem := hf _ (List.getElem_mem hlt)
      rw [hn, child_tree hs (List.getElem?_eq_getElem hlt) hmem.1 hmem.2 b, Res.ok_bind]
      exact ih _ _
    · rw [if_neg hlt, List.getElem?_eq_none (by omega)]

/-- A well-formed file is opened. -/
theorem file_opens {f : File} (h : f.OK) :
    ∃ r, FromBytes f.bytes = .ok r ∧ r.bufLen = f.bytes.length ∧ r.nodes = treeBytes f.recordSize f.nodes ∧ r.data = f.data ∧
      r.md = f.md := by
  obtain ⟨l, e, hst, hmd⟩ := h.metadata
  have htl := treeBytes_length h.size f.nodes
  have hml : metaMarker.length = 16 := by rw [marker_eq]; rfl
  generalize hX : treeBytes f.recordSize f.nodes ++ List.replicate 16 0 ++ f.data = X
  have hb : f.bytes = X ++ (metaMarker ++ f.meta_) := by
    unfold File.bytes; rw [← hX]; simp only [List.append_assoc]
  have hlen : f.bytes.length = X.length + 16 + f.meta_.length := by
    rw [hb, List.length_append, List.length_append, hml]; omega
  have hlong := h.long
  have htail := h.tail
  have hXl : X.length = f.nodes.length * f.recordSize / 4 + 16 + f.data.length := by
    rw [← hX, List.length_append, List.length_append, htl, List.length_replicate]
  have hdrop : f.bytes.drop (f.bytes.length - 2000) = X.drop (f.bytes.length - 2000) ++ (metaMarker ++ f.meta_) := by
    conv => lhs; rw [hb]
    rw [List.drop_append_of_le_length (by rw [← hb]; omega), ← hb]
  have hXd : (X.drop (f.bytes.length - 2000)).length = X.length - (f.bytes.length - 2000) := List.length_drop
  have hidx : lastIndex marker (f.bytes.drop (f.bytes.length - 2000)) = some (X.length - (f.bytes.length - 2000)) := by
    rw [hdrop]
    refine lastIndex_at _ _ ?_ ?_ ?_
    · rw [List.length_append, hXd, List.length_append, hml]; omega
    · rw [List.drop_left' hXd, marker_eq]; exact List.prefix_append _ _
    · intro i hi hp
      refine h.once (i - (X.length - (f.bytes.length - 2000))) (by omega) ?_
      unfold At
      rw [List.drop_append, List.drop_eq_nil_of_le (by omega), List.nil_append, hXd] at hp
      rw [marker_eq] at hp ⊢
      exact hp
  have hmeta : (f.bytes.drop (f.bytes.length - 2000)).drop (X.length - (f.bytes.length - 2000) + 16) = f.meta_ := by
    rw [hdrop, ← List.append_assoc]
    rw [List.drop_left' (by rw [List.length_append, hXd, hml])]
  have hsts : f.md.nodeCount * f.md.recordSize % 2 ^ 64 / 4 = f.nodes.length * f.recordSize / 4 := by
    rw [h.mdCount, h.mdSize, Nat.mod_eq_of_lt h.count]
  have hdata : goSlice f.bytes (f.nodes.length * f.recordSize / 4 + 16) X.length = .ok f.data := by
    unfold goSlice
    rw [if_pos ⟨by omega, by omega⟩]
    refine congrArg Res.ok ?_
    rw [hb, ← hX, List.append_assoc (_ ++ _), List.drop_left' (by rw [List.length_append, htl, List.length_replicate]),
      List.take_left' (by rw [List.length_append, List.length_append, htl, List.length_replicate]; omega)]
  have hnodes : goSlice f.bytes 0 (f.nodes.length * f.recordSize / 4) = .ok (treeBytes f.recordSize f.nodes) := by
    unfold goSlice
    rw [if_pos ⟨by omega, by omega⟩]
    refine congrArg Res.ok ?_
    rw [hb, ← hX, List.drop_zero, Nat.sub_zero]
    simp only [List.append_assoc]
    rw [List.take_left' htl]
  obtain ⟨s, d, hstart⟩ : ∃ s d, setIPv4Start (treeBytes f.recordSize f.nodes) f.md = .ok (s, d) := by
    unfold setIPv4Start
    split
    · exact ⟨0, 0, rfl⟩
    · rw [ipv4StartLoop_walk (r := ⟨0, treeBytes f.recordSize f.nodes, [], f.md, 0, 0⟩) rfl rfl,
        walk_tree (nodes := f.nodes) (by rw [h.mdSize]; exact h.size) (by rw [h.mdSize]) h.mdCount (by rw [h.mdSize]; exact h.fit)]
      exact ⟨_, _, rfl⟩
  refine ⟨⟨f.bytes.length, treeBytes f.recordSize f.nodes, f.data, f.md, s, d⟩, ?_, rfl, rfl, rfl, rfl⟩
  unfold FromBytes
  rw [if_neg (by omega)]
  simp only [hidx]
  rw [hmeta, decodeMeta_stored hst hmd]
  simp only [Res.ok_bind]
  rw [hsts]
  rw [if_neg (by omega)]
  rw [show X.length - (f.bytes.length - 2000) + (f.bytes.length - 2000) = X.length by omega, hdata, Res.ok_bind, hnodes, Res.ok_bind,
    if_pos (by rw [h.mdSize]; exact h.size), hstart]
  rfl

theorem treeWalk_append (nodes : List (Nat × Nat)) : ∀ (p q : List Bool) (node i : Nat),
    treeWalk nodes (p ++ q) node i = treeWalk nodes q (treeWalk nodes p node i).1 (treeWalk nodes p node i).2 := by
  intro p
  induction p with
  | nil => intro q node i; rfl
  | cons b p ih =>
    intro q node i
    rw [List.cons_append, treeWalk, treeWalk]
    cases h : nodes[node]? with
    | none =>
      cases q with
      | nil => rfl
      | cons c q => simp only [treeWalk, h]
    | some n => exact ih _ _ _

theorem treeWalk_shift (nodes : List (Nat × Nat)) : ∀ (p : List Bool) (node i j : Nat),
    treeWalk nodes p node (i + j) = ((treeWalk nodes p node i).1, (treeWalk nodes p node i).2 + j) := by
  intro p
  induction p with
  | nil => intro node i j; rfl
  | cons b p ih =>
    intro node i j
    rw [treeWalk, treeWalk]
    cases nodes[node]? with
    | none => rfl
    | some n => rw [Nat.add_right_comm]; exact ih _ _ _

theorem head_nonempty_at {buf : Bytes} {off : Nat} {b : Bytes} (h : At buf off b) (hb : b ≠ []) : off < buf.length := by
  have := h.le hb
  have hpos : 0 < b.length := List.length_pos_iff.mpr hb
  omega

theorem stored_lt {buf : Bytes} {levels off : Nat} {d : Doc} {e : Nat} (h : Stored buf levels off d e) : off < buf.length := by
  cases levels with
  | zero => exact h.elim
  | succ r =>
    have := decode_stored buf (r + 1) off d e h
    rw [decodeAny] at this
    obtain ⟨⟨t, size, o⟩, h1, _⟩ := Res.bind_eq_ok.mp this
    exact (ctrl_ok h1).1

end Uip.Awdb
