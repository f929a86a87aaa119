import Verif.Proof.Awdb.Lookup
/-!
# Opening and reading arbitrary files
-/
namespace Uip.Awdb
open Uip Uip.Spec Uip.Spec.Awdb

theorem at_ne_panic {b : Bytes} {i : Nat} (h : i < b.length) : at_ b i ≠ .panic := by
  unfold at_
  rw [List.getElem?_eq_getElem h]; simp

theorem child_ne_panic {b : Bytes} {rs n node : Nat} (hs : rs = 24 ∨ rs = 28 ∨ rs = 32) (hb : b.length = n * rs / 4) (hn : node < n)
    (bit : Bool) : child b rs node bit ≠ .panic := by
  have hle : node * (rs / 4) + rs / 4 ≤ b.length := by
    rw [hb]
    rcases hs with rfl | rfl | rfl <;> omega
  unfold child
  have g : ∀ j, j < rs / 4 → at_ b (node * (rs / 4) + j) ≠ .panic := fun j hj => at_ne_panic (by omega)
  have g0 : 0 < rs / 4 → at_ b (node * (rs / 4)) ≠ .panic := g 0
  have f : ∀ (x y : Nat), (pure x : Res Nat) ≠ .panic := fun x y => by simp
  rcases hs with rfl | rfl | rfl
  · cases bit
    · simp only [Bool.false_eq_true, if_false, readLeft, if_true]
      exact bind_ne_panic (g0 (by omega)) fun _ _ => bind_ne_panic (g 1 (by omega)) fun _ _ =>
        bind_ne_panic (g 2 (by omega)) fun _ _ => by simp
    · simp only [readRight, if_true]
      exact bind_ne_panic (g 3 (by omega)) fun _ _ => bind_ne_panic (g 4 (by omega)) fun _ _ =>
        bind_ne_panic (g 5 (by omega)) fun _ _ => by simp
  · cases bit
    · simp only [Bool.false_eq_true, if_false, readLeft, if_true]
      exact bind_ne_panic (g 3 (by omega)) fun _ _ => bind_ne_panic (g0 (by omega)) fun _ _ => bind_ne_panic (g 1 (by omega)) fun _ _ =>
        bind_ne_panic (g 2 (by omega)) fun _ _ => by simp
    · simp only [readRight, if_true]
      exact bind_ne_panic (g 3 (by omega)) fun _ _ => bind_ne_panic (g 4 (by omega)) fun _ _ => bind_ne_panic (g 5 (by omega)) fun _ _ =>
        bind_ne_panic (g 6 (by omega)) fun _ _ => by simp
  · cases bit
    · simp only [Bool.false_eq_true, if_false, readLeft]
      exact bind_ne_panic (g0 (by omega)) fun _ _ => bind_ne_panic (g 1 (by omega)) fun _ _ => bind_ne_panic (g 2 (by omega)) fun _ _ =>
        bind_ne_panic (g 3 (by omega)) fun _ _ => by simp
    · simp only [readRight, if_true]
      exact bind_ne_panic (g 4 (by omega)) fun _ _ => bind_ne_panic (g 5 (by omega)) fun _ _ => bind_ne_panic (g 6 (by omega)) fun _ _ =>
        bind_ne_panic (g 7 (by omega)) fun _ _ => by simp

/-- The node table has room for every node. -/
def TreeOK (r : Reader) : Prop :=
  (r.md.recordSize = 24 ∨ r.md.recordSize = 28 ∨ r.md.recordSize = 32) ∧ r.nodes.length = r.md.nodeCount * r.md.recordSize / 4

theorem walk_ne_panic {r : Reader} (h : TreeOK r) : ∀ (p : List Bool) (node i : Nat), walk r p node i ≠ .panic := by
  intro p
  induction p with
  | nil => intro node i; simp [walk]
  | cons b p ih =>
    intro node i
    rw [walk]
    split
    · exact bind_ne_panic (child_ne_panic h.1 h.2 (by assumption) b) fun n _ => ih _ _
    · simp

theorem retrieve_ne_panic {r : Reader} (hk : ∀ o, decodeKey r.data o ≠ .panic) (p : Nat) : r.retrieveData p ≠ .panic := by
  unfold Reader.retrieveData
  refine bind_ne_panic ?_ fun o _ => bind_ne_panic (decodeAny_ne_panic hk _ _) fun x _ => by simp
  unfold Reader.resolveDataPointer
  split
  · simp
  split <;> simp

theorem lookup_ne_panic {r : Reader} (h : TreeOK r) (hk : ∀ o, decodeKey r.data o ≠ .panic) {ip : IP} (hv : ValidIP ip) :
    r.LookupNetwork ip ≠ .panic := by
  rw [lookup_eq hv]
  split
  · simp
  · refine bind_ne_panic (walk_ne_panic h _ _ _) fun x _ => ?_
    unfold answer
    split
    · simp
    split
    · simp
    · exact bind_ne_panic (retrieve_ne_panic hk _) fun v _ => by simp

theorem lastIndex_le {sep : Bytes} : ∀ {b : Bytes} {i : Nat}, lastIndex sep b = some i → i + sep.length ≤ b.length := by
  intro b
  induction b with
  | nil => intro i h; simp [lastIndex] at h
  | cons x b ih =>
    intro i h
    rw [lastIndex] at h
    split at h
    · rename_i j hj
      cases h
      have := ih hj
      simp only [List.length_cons]; omega
    · split at h
      · rename_i hp
        cases h
        have := (List.isPrefixOf_iff_prefix.mp hp).length_le
        omega
      · simp at h

/-- The bytes after the last marker. -/
def metaBytes (data : Bytes) : Bytes :=
  match lastIndex marker (data.drop (data.length - 2000)) with
  | none => []
  | some i => (data.drop (data.length - 2000)).drop (i + 16)

theorem from_ne_panic {data : Bytes} (hl : 2000 ≤ data.length) (hk : ∀ o, decodeKey (metaBytes data) o ≠ .panic)
    (hw : ∀ md, decodeMeta (metaBytes data) = .ok md → md.nodeCount * md.recordSize < 2 ^ 64) : FromBytes data ≠ .panic := by
  unfold FromBytes
  rw [if_neg (by omega)]
  simp only []
  unfold metaBytes at hk hw
  cases hi : lastIndex marker (data.drop (data.length - 2000)) with
  | none => simp
  | some i =>
    have hle := lastIndex_le hi
    simp only [hi] at hk hw
    simp only []
    refine bind_ne_panic (decodeMeta_ne_panic hk) fun md hmd => ?_
    have hlt := hw md hmd
    rw [Nat.mod_eq_of_lt hlt]
    split
    · simp
    rename_i hst
    rw [List.length_drop] at hle
    have hm : marker.length = 16 := rfl
    refine bind_ne_panic (goSlice_ne_panic (by omega) (by omega)) fun d _ => ?_
    refine bind_ne_panic (goSlice_ne_panic (by omega) (by omega)) fun ns hns => ?_
    split
    · rename_i hs
      refine bind_ne_panic ?_ fun x _ => by simp
      unfold setIPv4Start
      split
      · simp
      · rw [ipv4StartLoop_walk (r := ⟨0, ns, [], md, 0, 0⟩) rfl rfl]
        refine walk_ne_panic ⟨hs, ?_⟩ _ _ _
        have := (goSlice_ok hns).1
        simp only [this, Nat.sub_zero]
    · simp

end Uip.Awdb
