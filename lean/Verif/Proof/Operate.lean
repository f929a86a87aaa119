import Verif.Proof.Heap
import Verif.Base.Rel2
import Verif.Model.Operate
import Verif.Spec.Operate
/-!
# Row operations on shared slices
-/
namespace Uip.Operate
open Uip Uip.Spec

/-! ## ReplaceShortage -/

/-- The value the table of a position gives. -/
def norm (tbl : Nat → Option (GoMap Str)) (i : Nat) (v : Str) : Str :=
  match tbl i with
  | none => v
  | some m => match mapGet m v with
    | some v' => v'
    | none => v

theorem replaceLoop_spec (tbl : Nat → Option (GoMap Str)) (s : Slice) : ∀ (n i : Nat) (h : Heap), s.In h → i + n ≤ s.len →
    ∃ h', replaceLoop tbl s n i h = .ok h' ∧ ∀ a j, Heap.cell h' a j =
      if a = s.arr ∧ i ≤ j ∧ j < i + n then (h.cell a j).map (norm tbl j) else h.cell a j := by
  intro n
  induction n with
  | zero =>
    intro i h _ _
    refine ⟨h, rfl, fun a j => ?_⟩
    rw [if_neg (by omega)]
  | succ n ih =>
    intro i h hs hi
    obtain ⟨v, hv, hvc⟩ := Heap.get_ok hs (i := i) (by omega)
    -- the heap after position i
    obtain ⟨h1, e1, hc1⟩ : ∃ h1, (match tbl i with
        | none => (Res.ok h : Res Heap)
        | some m => match mapGet m v with
          | none => .ok h
          | some v' => h.put s i v') = .ok h1 ∧ ∀ a j, Heap.cell h1 a j =
        if a = s.arr ∧ j = i then (h.cell a j).map (norm tbl j) else h.cell a j := by
      have same : norm tbl i v = v → ∀ a j, h.cell a j =
          if a = s.arr ∧ j = i then (h.cell a j).map (norm tbl j) else h.cell a j := by
        intro e a j
        split
        · rename_i hh; obtain ⟨rfl, rfl⟩ := hh; rw [hvc]; simp [e]
        · rfl
      cases ht : tbl i with
      | none => exact ⟨h, rfl, same (by simp [norm, ht])⟩
      | some m =>
        cases hm : mapGet m v with
        | none => exact ⟨h, by simp only [hm], same (by simp [norm, ht, hm])⟩
        | some v' =>
          obtain ⟨h', hp, hc⟩ := Heap.put_ok hs (i := i) (by omega) v'
          refine ⟨h', by simp only [hm]; exact hp, fun a j => ?_⟩
          rw [hc]
          split
          · rename_i hh; obtain ⟨rfl, rfl⟩ := hh; rw [hvc]; simp [norm, ht, hm]
          · rfl
    have hs1 : s.In h1 := hs.mono fun j _ hj => by rw [hc1]; split <;> simpa using hj
    obtain ⟨h2, e2, hc2⟩ := ih (i + 1) h1 hs1 (by omega)
    refine ⟨h2, ?_, fun a j => ?_⟩
    · unfold replaceLoop
      simp only [hv, Res.ok_bind]
      exact (congrArg (· >>= _) e1).trans e2
    · rw [hc2, hc1]
      by_cases ha : a = s.arr
      · by_cases hj : j = i
        · subst hj; rw [if_neg (by omega), if_pos ⟨ha, rfl⟩, if_pos ⟨ha, by omega, by omega⟩]
        · simp only [ha, true_and, hj, and_false, if_false]
          by_cases h3 : i + 1 ≤ j ∧ j < i + 1 + n
          · rw [if_pos h3, if_pos (by omega)]
          · rw [if_neg h3, if_neg (by omega)]
      · simp [ha]

theorem replaceRows_spec (tbl : Nat → Option (GoMap Str)) (hid : ∀ i v, norm tbl i (norm tbl i v) = norm tbl i v)
    (rows : List HRow) : ∀ h : Heap, (∀ r ∈ rows, r.vals.In h) →
    ∃ h', forRows (fun h r => do
      let h ← replaceLoop tbl r.vals r.vals.len 0 h
      return (h, r)) h rows = .ok (h', rows) ∧
      ∀ a j, ((∃ r ∈ rows, r.vals.arr = a ∧ j < r.vals.len) → Heap.cell h' a j = (h.cell a j).map (norm tbl j)) ∧
        ((¬ ∃ r ∈ rows, r.vals.arr = a ∧ j < r.vals.len) → Heap.cell h' a j = h.cell a j) := by
  induction rows with
  | nil => intro h _; exact ⟨h, rfl, fun a j => ⟨fun ⟨_, hr, _⟩ => by simp at hr, fun _ => rfl⟩⟩
  | cons r rs ih =>
    intro h hw
    obtain ⟨h1, e1, c1⟩ := replaceLoop_spec tbl r.vals r.vals.len 0 h (hw r (by simp)) (by omega)
    have hw1 : ∀ x ∈ rs, x.vals.In h1 := fun x hx => (hw x (by simp [hx])).mono fun j _ hj => by
      rw [c1]; split <;> simpa using hj
    obtain ⟨h2, e2, c2⟩ := ih h1 hw1
    refine ⟨h2, forRows_cons (h1 := h1) (by simp [e1]) e2, fun a j => ⟨fun hex => ?_, fun hex => ?_⟩⟩
    · by_cases hrs : ∃ x ∈ rs, x.vals.arr = a ∧ j < x.vals.len
      · rw [(c2 a j).1 hrs, c1]
        split
        · cases h.cell a j with
          | none => rfl
          | some v => simp [hid]
        · rfl
      · rw [(c2 a j).2 hrs, c1]
        obtain ⟨x, hx, hxa, hxj⟩ := hex
        rcases List.mem_cons.mp hx with rfl | hx
        · rw [if_pos ⟨hxa.symm, by omega, by omega⟩]
        · exact absurd ⟨x, hx, hxa, hxj⟩ hrs
    · rw [(c2 a j).2 (fun ⟨x, hx, hh⟩ => hex ⟨x, by simp [hx], hh⟩), c1, if_neg]
      rintro ⟨rfl, _, hj⟩
      exact hex ⟨r, by simp, rfl, by omega⟩

theorem norm_eq (nm : GoMap (GoMap Str)) (fields : List Str) (i : Nat) (v : Str) :
    norm (shortageTable nm fields) i v = normValue nm fields[i]? v := rfl

theorem normValue_idem {nm : GoMap (GoMap Str)} (hn : NoChains nm) (f : Option Str) (v : Str) :
    normValue nm f (normValue nm f v) = normValue nm f v := by
  unfold normValue
  cases hf : f.bind (mapGet nm) with
  | none => rfl
  | some t =>
    obtain ⟨g, _, hg⟩ := Option.bind_eq_some_iff.mp hf
    simp only []
    cases hv : mapGet t v with
    | none => simp [hv]
    | some v' =>
      simp only []
      rcases hn g t hg v v' hv with h | h <;> rw [h]

/-! ## Conditional set / append -/

/-- One pass that sets (`off = some o`) or appends (`off = none`) the value `V r c` computed from the row and
its value `c` at position `p`; `none` leaves the row alone. -/
def setLoop (grow : Nat → Nat) (off : Option Nat) (p : Nat) (V : HRow → Str → Res (Option Str)) (h : Heap) (r : HRow) :
    Res (Heap × HRow) := do
  let c ← h.get r.vals p
  let v ← V r c
  match v with
  | none => return (h, r)
  | some v => setOrAppend grow off h r v

theorem append_in_place {grow : Nat → Nat} {h : Heap} {s : Slice} (v : Str) (hsp : (h.cell s.arr s.len).isSome) :
    ∃ h', h.append grow s v = (h', ⟨s.arr, s.len + 1⟩) ∧ h'.length = h.length ∧
      ∀ a j, Heap.cell h' a j = if a = s.arr ∧ j = s.len then some v else h.cell a j := by
  refine ⟨_, by unfold Heap.append; rw [if_pos hsp], by simp, fun a j => Heap.cell_modify_set hsp a j⟩

theorem append_fresh {grow : Nat → Nat} {h : Heap} {s : Slice} (v : Str) (hs : s.In h)
    (hsp : ¬ (h.cell s.arr s.len).isSome) :
    ∃ h', h.append grow s v = (h', ⟨h.length, s.len + 1⟩) ∧ h'.length = h.length + 1 ∧
      (∀ a < h.length, ∀ j, Heap.cell h' a j = h.cell a j) ∧
      (∀ j < s.len, Heap.cell h' h.length j = h.cell s.arr j) ∧ Heap.cell h' h.length s.len = some v := by
  refine ⟨_, by unfold Heap.append; rw [if_neg hsp], by simp, fun a ha j => ?_, fun j hj => ?_, ?_⟩
  · rw [Heap.cell_append, if_neg (by omega)]
  · rw [Heap.cell_append, if_pos rfl]
    rw [List.append_assoc, List.getElem?_append_left (by rw [Heap.read_length hs]; exact hj), Heap.read_get?, if_pos hj]
  · rw [Heap.cell_append, if_pos rfl]
    rw [List.append_assoc, List.getElem?_append_right (by rw [Heap.read_length hs]; omega), Heap.read_length hs]
    simp

/-- Position that is written. -/
def target (off : Option Nat) (n : Nat) : Nat := off.getD n

theorem setLoop_rows {grow : Nat → Nat} {off : Option Nat} {n p : Nat} {V : HRow → Str → Res (Option Str)}
    {W : HRow → Str → Option Str} (hp : p < n) (ho : ∀ o, off = some o → o < n ∧ o ≠ p) (rows : List HRow) :
    ∀ h : Heap, (∀ r ∈ rows, r.vals.In h) → (∀ r ∈ rows, r.vals.len = n) →
    (∀ r ∈ rows, ∀ c, h.cell r.vals.arr p = some c → V r c = .ok (W r c)) →
    (∀ r ∈ rows, ∀ r2 ∈ rows, r.vals.arr = r2.vals.arr → (h.cell r.vals.arr (target off n)).isSome →
      ∀ c, h.cell r.vals.arr p = some c → W r c = W r2 c) →
    ∃ h' rows', forRows (setLoop grow off p V) h rows = .ok (h', rows') ∧ h.length ≤ h'.length ∧
      (∀ a < h.length, ∀ j, j ≠ target off n → Heap.cell h' a j = h.cell a j) ∧
      (∀ a < h.length, Heap.cell h' a (target off n) = h.cell a (target off n) ∨
        ∃ r ∈ rows, r.vals.arr = a ∧ (h.cell a (target off n)).isSome ∧
          Heap.cell h' a (target off n) = (h.cell a p).bind (W r) ∧ (h.cell a p).bind (W r) ≠ none) ∧
      Rel2 (fun r r' => r'.cidr = r.cidr ∧ ∃ c, h.cell r.vals.arr p = some c ∧
        match W r c with
        | none => r' = r ∧ ∀ j < n, Heap.cell h' r.vals.arr j = h.cell r.vals.arr j
        | some v => r'.vals.len = (if off = none then n + 1 else n) ∧
          (∀ j < n, j ≠ target off n → Heap.cell h' r'.vals.arr j = h.cell r.vals.arr j) ∧
          Heap.cell h' r'.vals.arr (target off n) = some v) rows rows' := by
  have ht : target off n ≠ p := by
    unfold target
    cases off with
    | none => simp; omega
    | some o => simpa using (ho o rfl).2
  have htn : target off n ≤ n := by
    unfold target
    cases off with
    | none => simp
    | some o => simpa using Nat.le_of_lt (ho o rfl).1
  induction rows with
  | nil =>
    intro h _ _ _ _
    exact ⟨h, [], rfl, Nat.le_refl _, fun _ _ _ _ => rfl, fun _ _ => .inl rfl, .nil⟩
  | cons r rs ih =>
    intro h hin hlen hV hcomp
    obtain ⟨c, hg, hc⟩ := Heap.get_ok (hin r (by simp)) (i := p) (by rw [hlen r (by simp)]; exact hp)
    have hVr := hV r (by simp) c hc
    have hrl : r.vals.len = n := hlen r (by simp)
    have harr : ∀ x ∈ r :: rs, x.vals.arr < h.length := by
      intro x hx
      rcases Nat.lt_or_ge x.vals.arr h.length with h1 | h1
      · exact h1
      · obtain ⟨v, hv⟩ := (hin x hx).cell (j := p) (by rw [hlen x hx]; exact hp)
        rw [Heap.cell_none_of_ge h1] at hv; cases hv
    -- first row: new heap h1 and header r1
    obtain ⟨h1, r1, e1, hl1, hold, hr1c, hr1⟩ : ∃ h1 r1, setLoop grow off p V h r = .ok (h1, r1) ∧ h.length ≤ h1.length ∧
        (∀ a < h.length, ∀ j, Heap.cell h1 a j = h.cell a j ∨ (a = r.vals.arr ∧ j = target off n ∧
          (h.cell a j).isSome ∧ Heap.cell h1 a j = W r c ∧ W r c ≠ none)) ∧ r1.cidr = r.cidr ∧
        match W r c with
        | none => r1 = r ∧ h1 = h
        | some v => r1.vals.len = (if off = none then n + 1 else n) ∧
          (r1.vals.arr = r.vals.arr ∧ (h.cell r.vals.arr (target off n)).isSome ∨ r1.vals.arr = h.length ∧ r1.vals.arr < h1.length) ∧
          (∀ j < n, j ≠ target off n → Heap.cell h1 r1.vals.arr j = h.cell r.vals.arr j) ∧
          Heap.cell h1 r1.vals.arr (target off n) = some v := by
      unfold setLoop
      simp only [hg, Res.ok_bind, hVr]
      cases hW : W r c with
      | none => exact ⟨h, r, rfl, Nat.le_refl _, fun _ _ _ => .inl rfl, rfl, rfl, rfl⟩
      | some v =>
        simp only []
        cases hoff : off with
        | some o =>
          have ho' := ho o hoff
          obtain ⟨h', hp', hc'⟩ := Heap.put_ok (hin r (by simp)) (i := o) (by omega) v
          refine ⟨h', r, by simp [setOrAppend, hp'], Nat.le_of_eq (Heap.put_length hp').symm, fun a _ j => ?_, rfl, ?_⟩
          · rw [hc']
            by_cases haj : a = r.vals.arr ∧ j = o
            · right
              rw [if_pos haj]
              refine ⟨haj.1, haj.2, ?_, rfl, by simp⟩
              rw [haj.1, haj.2]
              exact Slice.in_iff.mp (hin r (by simp)) o (by omega)
            · left; rw [if_neg haj]
          · refine ⟨by simp [hrl], .inl ⟨rfl, Slice.in_iff.mp (hin r (by simp)) o (by omega)⟩, fun j _ hjn => ?_, ?_⟩
            · rw [hc', if_neg]; rintro ⟨_, rfl⟩; exact hjn rfl
            · rw [hc', if_pos ⟨rfl, rfl⟩]
        | none =>
          simp only [setOrAppend]
          by_cases hsp : (h.cell r.vals.arr r.vals.len).isSome
          · obtain ⟨h', e, hl, hc'⟩ := append_in_place (grow := grow) v hsp
            rw [e]
            refine ⟨h', _, rfl, Nat.le_of_eq hl.symm, fun a _ j => ?_, rfl, ?_⟩
            · rw [hc', hrl]
              by_cases haj : a = r.vals.arr ∧ j = n
              · right
                rw [if_pos haj]
                refine ⟨haj.1, haj.2, ?_, rfl, by simp⟩
                rw [haj.1, haj.2, ← hrl]; exact hsp
              · left; rw [if_neg haj]
            · refine ⟨by simp [hrl], .inl ⟨rfl, ?_⟩, fun j hj _ => ?_, ?_⟩
              · show (h.cell r.vals.arr n).isSome; rw [← hrl]; exact hsp
              · rw [hc', if_neg]; omega
              · rw [hc', if_pos ⟨rfl, hrl.symm⟩]
          · obtain ⟨h', e, hl, hc1, hc2, hc3⟩ := append_fresh (grow := grow) v (hin r (by simp)) hsp
            rw [e]
            refine ⟨h', _, rfl, by omega, fun a ha j => .inl (hc1 a ha j), rfl, ?_⟩
            refine ⟨by simp [hrl], .inr ⟨rfl, by simp only []; omega⟩, fun j hj _ => hc2 j (by omega), ?_⟩
            show Heap.cell h' h.length n = some v
            rw [← hrl]; exact hc3
    have hold' : ∀ a < h.length, ∀ j, j ≠ target off n → Heap.cell h1 a j = h.cell a j := fun a ha j hj => by
      rcases hold a ha j with e | ⟨_, hj', _⟩
      · exact e
      · exact absurd hj' hj
    have hsome : ∀ a < h.length, ∀ j, (Heap.cell h1 a j).isSome = (h.cell a j).isSome := fun a ha j => by
      rcases hold a ha j with e | ⟨_, _, h3, h4, h5⟩
      · rw [e]
      · rw [h3, h4]
        cases hw : W r c with
        | none => exact absurd hw h5
        | some _ => rfl
    obtain ⟨h2, rs2, e2, hl2, q1, q2, q3⟩ := ih h1
      (fun x hx => (hin x (by simp [hx])).mono fun j _ hj => by rw [hsome _ (harr x (by simp [hx]))]; exact hj)
      (fun x hx => hlen x (by simp [hx]))
      (fun x hx c' hc' => hV x (by simp [hx]) c' (by rw [← hold' _ (harr x (by simp [hx])) p (Ne.symm ht)]; exact hc'))
      (fun x hx y hy hxy hs c' hc' => hcomp x (by simp [hx]) y (by simp [hy]) hxy
        (by rw [← hsome _ (harr x (by simp [hx]))]; exact hs) c'
        (by rw [← hold' _ (harr x (by simp [hx])) p (Ne.symm ht)]; exact hc'))
    refine ⟨h2, r1 :: rs2, forRows_cons e1 e2, by omega, fun a ha j hj => ?_, fun a ha => ?_, ?_⟩
    · rw [q1 a (by omega) j hj, hold' a ha j hj]
    · rcases q2 a (by omega) with h3 | ⟨x, hx, hxa, h4, h5, h6⟩
      · rcases hold a ha (target off n) with h7 | ⟨h7, _, h8, h9, h10⟩
        · left; rw [h3, h7]
        · right
          refine ⟨r, by simp, h7.symm, h8, ?_⟩
          rw [h3, h9, h7, hc]; exact ⟨rfl, h10⟩
      · right
        rw [hold' a ha p (Ne.symm ht)] at h5 h6
        exact ⟨x, by simp [hx], hxa, by rw [← hsome a ha]; exact h4, h5, h6⟩
    · refine .cons ⟨hr1c, c, hc, ?_⟩ (q3.imp_mem fun x hx x' _ => ?_)
      · cases hW : W r c with
        | none =>
          rw [hW] at hr1
          obtain ⟨rfl, rfl⟩ := hr1
          refine ⟨rfl, fun j hj => ?_⟩
          by_cases hjt : j = target off n
          · subst hjt
            rcases q2 _ (harr r1 (by simp)) with h3 | ⟨x, hx, hxa, h4, h5, h6⟩
            · exact h3
            · have := hcomp r1 (by simp) x (by simp [hx]) hxa.symm h4 c hc
              rw [hc] at h6
              simp only [Option.bind_some] at h6
              rw [← this, hW] at h6; exact absurd rfl h6
          · exact q1 _ (harr r1 (by simp)) j hjt
        | some v =>
          rw [hW] at hr1
          obtain ⟨k1, k2, k3, k4⟩ := hr1
          have hlt : r1.vals.arr < h1.length := by
            rcases k2 with ⟨k2, _⟩ | ⟨_, k2⟩
            · rw [k2]; have := harr r (by simp); omega
            · exact k2
          refine ⟨k1, fun j hj hjt => by rw [q1 _ hlt j hjt, k3 j hj hjt], ?_⟩
          rcases q2 _ hlt with h3 | ⟨x, hx, hxa, h4, h5, h6⟩
          · rw [h3, k4]
          · rcases k2 with ⟨k2, k2s⟩ | ⟨k2, _⟩
            · have := hcomp r (by simp) x (by simp [hx]) (by rw [hxa, k2]) k2s c hc
              rw [h5, k2, hold' _ (harr r (by simp)) p (Ne.symm ht), hc]
              simp only [Option.bind_some]
              rw [← this, hW]
            · have := harr x (by simp [hx]); omega
      · rintro ⟨j1, c', j2, j3⟩
        have hxa := harr x (by simp [hx])
        rw [hold' _ hxa p (Ne.symm ht)] at j2
        refine ⟨j1, c', j2, ?_⟩
        cases hW : W x c' with
        | none =>
          rw [hW] at j3
          refine ⟨j3.1, fun j hj => ?_⟩
          rw [j3.2 j hj]
          rcases hold _ hxa j with e | ⟨ha, hjt, hs, _, hn⟩
          · exact e
          · have hcc : c' = c := by rw [ha, hc] at j2; exact (Option.some.inj j2).symm
            rw [hjt] at hs
            have := hcomp x (by simp [hx]) r (by simp) ha hs c' j2
            rw [hW, hcc] at this; exact absurd this.symm hn
        | some v =>
          rw [hW] at j3
          obtain ⟨k1, k2, k3⟩ := j3
          exact ⟨k1, fun j hj hjt => by rw [k2 j hj hjt, hold' _ hxa j hjt], k3⟩
/-- What a row shows after it was given (or not) a value. -/
def applySet (off : Option Nat) (w : Option Str) (x : IpRaw) : IpRaw :=
  match w with
  | none => x
  | some v => match off with
    | none => ⟨x.cidr, x.values ++ [v]⟩
    | some o => ⟨x.cidr, x.values.set o v⟩

theorem setLoop_view {grow : Nat → Nat} {off : Option Nat} {n p : Nat} {V : HRow → Str → Res (Option Str)}
    {W : HRow → Str → Option Str} (hp : p < n) (ho : ∀ o, off = some o → o < n ∧ o ≠ p) (rows : List HRow)
    (h : Heap) (hin : ∀ r ∈ rows, r.vals.In h) (hlen : ∀ r ∈ rows, r.vals.len = n)
    (hV : ∀ r ∈ rows, ∀ c, h.cell r.vals.arr p = some c → V r c = .ok (W r c))
    (hcomp : ∀ r ∈ rows, ∀ r2 ∈ rows, r.vals.arr = r2.vals.arr → (h.cell r.vals.arr (target off n)).isSome →
      ∀ c, h.cell r.vals.arr p = some c → W r c = W r2 c) :
    ∃ h' rows', forRows (setLoop grow off p V) h rows = .ok (h', rows') ∧ (∀ r ∈ rows', r.vals.In h') ∧
      (∀ r' ∈ rows', r'.vals.len = n ∨ r'.vals.len = if off = none then n + 1 else n) ∧
      rows'.map (fun r => IpRaw.mk r.cidr (Heap.read h' r.vals)) =
        rows.map (fun r => applySet off (((h.read r.vals)[p]?).bind (W r)) ⟨r.cidr, h.read r.vals⟩) ∧
      ((∀ r ∈ rows, ∀ c, (W r c).isSome) → ∀ r' ∈ rows', r'.vals.len = if off = none then n + 1 else n) := by
  obtain ⟨h', rows', e, hl, q1, q2, q3⟩ := setLoop_rows (grow := grow) hp ho rows h hin hlen hV hcomp
  have key : Rel2 (fun (r r' : HRow) => r'.vals.In h' ∧ (r'.vals.len = n ∨ r'.vals.len = if off = none then n + 1 else n) ∧
      IpRaw.mk r'.cidr (Heap.read h' r'.vals) =
        applySet off (((h.read r.vals)[p]?).bind (W r)) ⟨r.cidr, h.read r.vals⟩ ∧
      ((∀ r ∈ rows, ∀ c, (W r c).isSome) → r'.vals.len = if off = none then n + 1 else n)) rows rows' := by
    refine q3.imp_mem fun r hr r' _ => ?_
    rintro ⟨k1, c, k2, k3⟩
    have hrl := hlen r hr
    have hrp : (h.read r.vals)[p]? = some c := by rw [Heap.read_get?, if_pos (by omega), k2]
    have hrin := hin r hr
    rw [hrp, Option.bind_some, k1]
    cases hW : W r c with
    | none =>
      rw [hW] at k3
      obtain ⟨rfl, k4⟩ := k3
      have hin' : r'.vals.In h' := hrin.mono fun j hj hs => by rw [k4 j (by omega)]; exact hs
      refine ⟨hin', .inl hrl, ?_, fun hall => ?_⟩
      · show IpRaw.mk _ _ = IpRaw.mk _ _
        congr 1
        exact (Heap.read_eq_iff hin' hrin).mpr ⟨rfl, fun j hj => k4 j (by omega)⟩
      · have := hall r' hr c; rw [hW] at this; cases this
    | some v =>
      rw [hW] at k3
      obtain ⟨k4, k5, k6⟩ := k3
      cases hoff : off with
      | none =>
        rw [hoff] at k4 k5 k6
        have k4' : r'.vals.len = n + 1 := by simpa using k4
        have ht : target none n = n := rfl
        rw [ht] at k5 k6
        have hin' : r'.vals.In h' := Slice.in_iff.mpr fun j hj => by
          by_cases hjn : j = n
          · rw [hjn, k6]; rfl
          · rw [k5 j (by omega) hjn]; exact Slice.in_iff.mp hrin j (by omega)
        refine ⟨hin', .inr k4, ?_, fun _ => k4⟩
        simp only [applySet]
        congr 1
        apply List.ext_getElem?
        intro j
        rw [Heap.read_get?, List.getElem?_append, Heap.read_length hrin, hrl, k4', Heap.read_get?, hrl]
        by_cases hj : j < n
        · rw [if_pos (by omega), if_pos hj, if_pos hj, k5 j hj (by omega)]
        · rw [if_neg hj]
          by_cases hj2 : j = n
          · subst hj2; rw [if_pos (by omega), k6]; simp
          · rw [if_neg (by omega)]
            have : j - n ≠ 0 := by omega
            simp [this]
      | some o =>
        rw [hoff] at k4 k5 k6
        have k4' : r'.vals.len = n := by simpa using k4
        have ht : target (some o) n = o := rfl
        rw [ht] at k5 k6
        have hon := (ho o hoff).1
        have hin' : r'.vals.In h' := Slice.in_iff.mpr fun j hj => by
          by_cases hjn : j = o
          · rw [hjn, k6]; rfl
          · rw [k5 j (by omega) hjn]; exact Slice.in_iff.mp hrin j (by omega)
        refine ⟨hin', .inl k4', ?_, fun _ => k4⟩
        simp only [applySet]
        congr 1
        apply List.ext_getElem?
        intro j
        rw [Heap.read_get?, List.getElem?_set, Heap.read_length hrin, hrl, k4', Heap.read_get?, hrl]
        by_cases hj : j < n
        · rw [if_pos hj]
          by_cases hjo : j = o
          · subst hjo; rw [k6, if_pos rfl, if_pos hj]
          · rw [k5 j hj hjo, if_neg (fun e => hjo e.symm), if_pos hj]
        · rw [if_neg hj, if_neg (by omega), if_neg hj]
  refine ⟨h', rows', e, fun r' hr' => ?_, fun r' hr' => ?_, Rel2.map_eq (key.imp_mem fun _ _ _ _ hh => hh.2.2.1),
    fun hall r' hr' => ?_⟩
  · obtain ⟨_, _, hh⟩ := key.exists_of_mem hr'; exact hh.1
  · obtain ⟨_, _, hh⟩ := key.exists_of_mem hr'; exact hh.2.1
  · obtain ⟨_, _, hh⟩ := key.exists_of_mem hr'; exact hh.2.2.2 hall

/-! ## Offsets -/

theorem Offset_some {f : Str} {fs : List Str} {i : Nat} (h : Offset f fs = some i) : fs[i]? = some f ∧ ∀ j < i, fs[j]? ≠ some f := by
  induction fs generalizing i with
  | nil => simp [Offset] at h
  | cons g fs ih =>
    unfold Offset at h
    split at h
    · rename_i e; cases h; subst e; exact ⟨rfl, by omega⟩
    · rename_i hne
      obtain ⟨k, hk, rfl⟩ := Option.map_eq_some_iff.mp h
      obtain ⟨h1, h2⟩ := ih hk
      refine ⟨by simpa using h1, fun j hj => ?_⟩
      cases j with
      | zero => simpa using hne
      | succ j => simpa using h2 j (by omega)

theorem Offset_none {f : Str} {fs : List Str} : Offset f fs = none ↔ f ∉ fs := by
  induction fs with
  | nil => simp [Offset]
  | cons g fs ih =>
    unfold Offset
    split
    · rename_i e; simp [e]
    · rename_i hne
      rw [Option.map_eq_none_iff, ih]
      simp [show ¬ f = g from fun e => hne e.symm]

theorem Offset_lt {f : Str} {fs : List Str} {i : Nat} (h : Offset f fs = some i) : i < fs.length :=
  (List.getElem?_eq_some_iff.mp (Offset_some h).1).1

theorem Offset_append {f g : Str} {fs : List Str} (hne : f ≠ g) : Offset f (fs ++ [g]) = Offset f fs := by
  induction fs with
  | nil => simp [Offset, show ¬ g = f from fun e => hne e.symm]
  | cons x fs ih => simp only [List.cons_append, Offset, ih]

theorem Offset_addField {f g : Str} {fs : List Str} (hne : f ≠ g) : Offset f (addField fs g) = Offset f fs := by
  unfold addField
  split
  · rfl
  · exact Offset_append hne

theorem Offset_ne {f g : Str} {fs : List Str} {i j : Nat} (hf : Offset f fs = some i) (hg : Offset g fs = some j)
    (hne : f ≠ g) : i ≠ j := by
  rintro rfl
  have h1 := (Offset_some hf).1
  have h2 := (Offset_some hg).1
  rw [h1] at h2
  exact hne (Option.some.inj h2)

theorem addField_eq (fs : List Str) (f : Str) :
    (if (Offset f fs).isNone then fs ++ [f] else fs) = addField fs f := by
  unfold addField
  by_cases h : f ∈ fs
  · rw [if_pos h]
    cases e : Offset f fs with
    | none => exact absurd h (Offset_none.mp e)
    | some _ => rfl
  · rw [if_neg h, Offset_none.mpr h]; rfl

theorem addField_length {fs : List Str} {f : Str} :
    (addField fs f).length = if Offset f fs = none then fs.length + 1 else fs.length := by
  unfold addField
  by_cases h : f ∈ fs
  · rw [if_pos h, if_neg (by rw [Offset_none]; simpa using h)]
  · rw [if_neg h, if_pos (Offset_none.mpr h)]; simp

theorem InArray_iff {s : Str} {l : List Str} : InArray s l = true ↔ s ∈ l := by
  induction l with
  | nil => simp [InArray]
  | cons v l ih =>
    unfold InArray
    split
    · rename_i e; simp [e]
    · rename_i hne; rw [ih]; simp [show ¬ s = v from fun e => hne e.symm]

end Uip.Operate
