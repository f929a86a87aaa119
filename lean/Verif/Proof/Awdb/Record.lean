import Verif.Proof.Awdb.File
import Verif.Proof.Awdb.Path
/-!
# Records of strings
-/
namespace Uip.Awdb
open Uip Uip.Spec Uip.Spec.Awdb

theorem entries_eq (l : List (Str × Str)) : ∀ m, Doc.val.entries (l.map fun p => (p.1, Doc.str p.2)) m =
    (l.map fun p => (p.1, Val.bytes p.2)).reverse ++ m := by
  induction l with
  | nil => intro m; rfl
  | cons p l ih =>
    intro m
    rw [List.map_cons, Doc.val.entries, ih, List.map_cons, List.reverse_cons, List.append_assoc]
    rfl

theorem mapRange_map {α β : Type} (f : α → β) : ∀ m : GoMap α, mapRange (m.map fun p => (p.1, f p.2)) = (mapRange m).map fun p => (p.1, f p.2)
  | [] => rfl
  | (k, v) :: m => by
    rw [List.map_cons, mapRange, mapRange_map f m, mapRange, List.map_cons, List.filter_map]
    rfl

theorem mapGet_filter {α : Type} (k : Str) : ∀ (m : GoMap α) (key : Str), key ≠ k →
    mapGet (m.filter fun p => decide (p.1 ≠ k)) key = mapGet m key
  | [], _, _ => rfl
  | (k', v) :: m, key, h => by
    by_cases hk : k' = k
    · rw [List.filter_cons_of_neg (by simp [hk]), mapGet_filter k m key h, mapGet, if_neg (by rw [hk]; exact fun h' => h h'.symm)]
    · rw [List.filter_cons_of_pos (by simp [hk]), mapGet, mapGet, mapGet_filter k m key h]

theorem mapGet_mapRange {α : Type} : ∀ (m : GoMap α) (key : Str), mapGet (mapRange m) key = mapGet m key
  | [], _ => rfl
  | (k, v) :: m, key => by
    rw [mapRange, mapGet, mapGet]
    split
    · rfl
    · rename_i h
      rw [mapGet_filter k _ key (fun h' => h h'.symm), mapGet_mapRange m key]

theorem mapGet_append {α : Type} : ∀ (a b : GoMap α) (key : Str), mapGet (a ++ b) key = (mapGet a key).or (mapGet b key)
  | [], _, _ => rfl
  | (k, v) :: a, b, key => by
    rw [List.cons_append, mapGet, mapGet]
    split
    · rfl
    · exact mapGet_append a b key

theorem mapGet_isSome {α : Type} : ∀ (m : GoMap α) (key : Str), (mapGet m key).isSome ↔ ∃ p ∈ m, p.1 = key
  | [], _ => by simp [mapGet]
  | (k, v) :: m, key => by
    rw [mapGet]
    split
    · rename_i h; simp [h]
    · rename_i h; rw [mapGet_isSome m key]; simp [h]

theorem get_lastVal : ∀ (l : List (Str × Str)) (key : Str), (mapGet l.reverse key).getD [] = lastVal l key
  | [], _ => rfl
  | (k, v) :: l, key => by
    rw [List.reverse_cons, mapGet_append, lastVal]
    have hs := mapGet_isSome l.reverse key
    have hr := get_lastVal l key
    cases hg : mapGet l.reverse key with
    | some w =>
      rw [hg] at hs hr
      obtain ⟨p, hp, hk⟩ := hs.mp rfl
      rw [if_neg (fun h => h.2 p (List.mem_reverse.mp hp) hk)]
      exact hr
    | none =>
      rw [hg] at hs hr
      have hno : ∀ p ∈ l, p.1 ≠ key := fun p hp hk => by
        have := hs.mpr ⟨p, List.mem_reverse.mpr hp, hk⟩
        cases this
      rw [mapGet]
      by_cases hk : k = key
      · rw [if_pos hk, if_pos ⟨hk, hno⟩]; rfl
      · rw [if_neg hk, if_neg (fun h => hk h.1)]; exact hr

/-- A record of strings becomes a map with the last value of each key. -/
theorem toStrings_record (l : List (Str × Str)) : ∃ m, toStrings (some (strRecord l).val) = .ok m ∧ (∀ key, strAt m key = lastVal l key) ∧
    m = mapRange l.reverse := by
  have hv : (strRecord l).val = .map (l.map fun p => (p.1, Val.bytes p.2)).reverse := by
    unfold strRecord
    rw [Doc.val, entries_eq, List.append_nil]
  refine ⟨mapRange l.reverse, ?_, ?_, rfl⟩
  · rw [hv, toStrings, ← List.map_reverse, mapRange_map Val.bytes]
    have := Res.mapM_eq_ok_map (f := fun p : Str × Val => (do let b ← asBytes p.2; return (p.1, b) : Res (Str × Bytes)))
      (g := fun p => (p.1, match p.2 with | .bytes b => b | _ => [])) (xs := (mapRange l.reverse).map fun p => (p.1, Val.bytes p.2)) (by
        intro x hx
        obtain ⟨p, _, rfl⟩ := List.mem_map.mp hx
        rfl)
    rw [this, List.map_map]
    refine congrArg Res.ok ?_
    conv => rhs; rw [← List.map_id (mapRange l.reverse)]
    rfl
  · intro key
    unfold strAt
    rw [mapGet_mapRange, get_lastVal]

/-! ## Files -/

/-- Everything a lookup in a well-formed file does. -/
theorem file_lookup {f : File} (hf : f.OK) {a : IP} (ha : f.Asks a) {r : Reader} (ho : FromBytes f.bytes = .ok r)
    {n k : Nat} (hw : treeWalk f.nodes (f.path a) 0 0 = (n, k)) :
    ∃ net, r.LookupNetwork a = found r net n ∧ pfx net + 8 * ((f.path a).length / 8 - net.ip.length) = k ∧
      r.md = f.md ∧ r.data = f.data ∧ r.bufLen = f.bytes.length := by
  obtain ⟨r', ho', hl, hn, hd, hm⟩ := file_opens hf
  rw [ho] at ho'
  injection ho' with ho'
  subst ho'
  have hp : f.path a = bits (path r a) := by unfold File.path path; rw [hm]
  have h4 : ¬ ((canon a).length = 16 ∧ r.md.ipVersion = 4) := by
    rintro ⟨h1, h2⟩
    rw [hm] at h2
    rcases ha.2 with h' | h' <;> omega
  have hwalk := walk_tree (r := r) (nodes := f.nodes) (by rw [hm, hf.mdSize]; exact hf.size) (by rw [hn, hm, hf.mdSize]) (by rw [hm, hf.mdCount])
    (by rw [hm, hf.mdSize]; exact hf.fit) (f.path a) 0 0
  rw [hw, hp] at hwalk
  obtain ⟨net, h1, h2, _⟩ := lookup_path (opened ho).start ha.1 h4 hwalk
  refine ⟨net, h1, ?_, hm, hd, hl⟩
  rw [hp, bits_length, Nat.mul_div_cancel_left _ (by omega)]
  exact h2

theorem retrieve_file {f : File} {r : Reader} (hm : r.md = f.md) (hd : r.data = f.data) (hl : r.bufLen = f.bytes.length)
    (hf : f.OK) {off e : Nat} {d : Doc} (hst : Stored f.data 513 off d e) :
    r.retrieveData (f.nodes.length + 16 + off) = .ok d.val := by
  unfold Reader.retrieveData Reader.resolveDataPointer
  have hlt := stored_lt hst
  have hle : f.data.length ≤ f.bytes.length := by unfold File.bytes; simp only [List.length_append]; omega
  rw [hm, hf.mdCount, hl, if_neg (by omega), if_neg (by omega), Res.ok_bind, hd,
    show f.nodes.length + 16 + off - f.nodes.length - 16 = off by omega, decode_stored _ _ _ _ _ hst, Res.ok_bind]
  rfl

end Uip.Awdb
