import Verif.Model.Convert
import Verif.Proof.Memip
import Verif.Proof.Ipdb.Pack
/-!
# Writing one data set to several outputs
-/
namespace Uip.Ipdb
open Uip

/-- One heap is another with the continent replaced in some arrays. -/
def Conv (off : Option Nat) (h0 h : Heap) : Prop :=
  ∀ a i, h.cell a i = h0.cell a i ∨ (off = some i ∧ h.cell a i = (h0.cell a i).map continentCode)

theorem continentCode_idem (v : Str) : continentCode (continentCode v) = continentCode v := by
  have key : ∀ c ∈ [gs "AS", gs "EU", gs "NA", gs "SA", gs "OC", gs "AF", gs "AN"], continentCode c = c := by decide +kernel
  have cases7 : continentCode v = v ∨ continentCode v ∈ [gs "AS", gs "EU", gs "NA", gs "SA", gs "OC", gs "AF", gs "AN"] := by
    unfold continentCode
    generalize gs "AS" = c1; generalize gs "EU" = c2; generalize gs "NA" = c3; generalize gs "SA" = c4
    generalize gs "OC" = c5; generalize gs "AF" = c6; generalize gs "AN" = c7
    by_cases h1 : v = gs "亚洲"
    · rw [if_pos h1]; simp
    rw [if_neg h1]
    by_cases h2 : v = gs "欧洲"
    · rw [if_pos h2]; simp
    rw [if_neg h2]
    by_cases h3 : v = gs "北美洲"
    · rw [if_pos h3]; simp
    rw [if_neg h3]
    by_cases h4 : v = gs "南美洲"
    · rw [if_pos h4]; simp
    rw [if_neg h4]
    by_cases h5 : v = gs "大洋洲"
    · rw [if_pos h5]; simp
    rw [if_neg h5]
    by_cases h6 : v = gs "非洲"
    · rw [if_pos h6]; simp
    rw [if_neg h6]
    by_cases h7 : v = gs "南极洲"
    · rw [if_pos h7]; simp
    rw [if_neg h7]
    exact .inl rfl
  rcases cases7 with h | h
  · rw [h, h]
  · exact key _ h

theorem Conv.refl (off : Option Nat) (h : Heap) : Conv off h h := fun _ _ => .inl rfl

theorem Conv.trans {off : Option Nat} {h0 h1 h2 : Heap} (hp : Conv off h0 h1) (hq : Conv off h1 h2) : Conv off h0 h2 := by
  intro a i
  rcases hp a i with e | ⟨ho, e⟩ <;> rcases hq a i with e' | ⟨ho', e'⟩
  · exact .inl (e'.trans e)
  · exact .inr ⟨ho', by rw [e', e]⟩
  · exact .inr ⟨ho, by rw [e', e]⟩
  · refine .inr ⟨ho, ?_⟩
    rw [e', e]
    cases h0.cell a i with
    | none => rfl
    | some v => simp [continentCode_idem]

theorem Conv.isSome {off : Option Nat} {h0 h : Heap} (hp : Conv off h0 h) (a i : Nat) : (h.cell a i).isSome = (h0.cell a i).isSome := by
  rcases hp a i with e | ⟨_, e⟩ <;> rw [e]
  cases h0.cell a i <;> rfl

theorem Conv.In {off : Option Nat} {h0 h : Heap} (hp : Conv off h0 h) {s : Slice} (hs : s.In h0) : s.In h :=
  hs.mono fun j _ hj => by rw [hp.isSome]; exact hj

theorem Conv.none {h0 h : Heap} (hp : Conv none h0 h) (s : Slice) : h.read s = h0.read s := by
  apply List.ext_getElem?
  intro j
  rw [Heap.read_get?, Heap.read_get?]
  split
  · rcases hp s.arr j with e | ⟨h, _⟩
    · exact e
    · cases h
  · rfl

/-- Away from the replaced column nothing changes. -/
theorem Conv.away {off : Option Nat} {h0 h : Heap} (hp : Conv off h0 h) (s : Slice) {j : Nat} (hj : off ≠ some j) :
    (h.read s)[j]? = (h0.read s)[j]? := by
  rw [Heap.read_get?, Heap.read_get?]
  split
  · rcases hp s.arr j with e | ⟨h, _⟩
    · exact e
    · exact absurd h hj
  · rfl

/-- Replacing in place leaves the values the value-level writer stores. -/
theorem convInPlace_spec {w : Writer} {h0 h : Heap} {s : Slice} (hp : Conv w.continentOffset h0 h) (hs : s.In h0) :
    ∃ h', Conv w.continentOffset h h' ∧
      convInPlace w.continentOffset h s = (do let _ ← w.convValues (h0.read s); return h') ∧
      (∀ vs, w.convValues (h0.read s) = .ok vs → h'.read s = vs) := by
  unfold convInPlace Writer.convValues
  cases ho : w.continentOffset with
  | none =>
    rw [ho] at hp
    refine ⟨h, .refl _ _, rfl, fun vs hv => ?_⟩
    injection hv with hv
    rw [← hv]; exact hp.none s
  | some i =>
    rw [ho] at hp
    simp only []
    by_cases hi : i < s.len
    · have hs' := hp.In hs
      obtain ⟨v0, hv0⟩ := hs.cell hi
      obtain ⟨v, hg, hv⟩ := Heap.get_ok hs' hi
      obtain ⟨h', hput, hcell⟩ := Heap.put_ok hs' hi (continentCode v)
      have hcv : continentCode v = continentCode v0 := by
        rcases hp s.arr i with e | ⟨_, e⟩
        · rw [hv, hv0] at e; injection e with e; rw [e]
        · rw [hv, hv0] at e; injection e with e; rw [e, continentCode_idem]
      have hr0 : (h0.read s)[i]? = some v0 := by rw [Heap.read_get?, if_pos hi, hv0]
      refine ⟨h', ?_, ?_, ?_⟩
      · intro a j
        rw [hcell]
        by_cases hh : a = s.arr ∧ j = i
        · obtain ⟨rfl, rfl⟩ := hh
          rw [if_pos ⟨rfl, rfl⟩]
          exact .inr ⟨rfl, by rw [hv]; rfl⟩
        · rw [if_neg hh]; exact .inl rfl
      · rw [hg, hr0]; simp only [Res.ok_bind, hput, Res.pure_eq]
      · intro vs hvs
        rw [hr0] at hvs
        simp only [] at hvs
        injection hvs with hvs
        rw [← hvs]
        apply List.ext_getElem?
        intro j
        rw [Heap.read_get?, List.getElem?_set]
        by_cases hj : j < s.len
        · rw [if_pos hj, hcell]
          by_cases hji : j = i
          · subst hji
            rw [if_pos ⟨rfl, rfl⟩, if_pos rfl, if_pos (by rw [Heap.read_length hs]; exact hj), hcv]
          · rw [if_neg (by simp [hji]), if_neg (Ne.symm hji), Heap.read_get?, if_pos hj]
            rcases hp s.arr j with e | ⟨h, _⟩
            · exact e
            · injection h with h; exact absurd h.symm hji
        · rw [if_neg hj, if_neg (by omega), Heap.read_get?, if_neg hj]
    · have hr0 : (h0.read s)[i]? = none := by rw [Heap.read_get?, if_neg hi]
      refine ⟨h, .refl _ _, ?_, ?_⟩
      · rw [hr0]
        unfold Heap.get
        rw [if_neg hi]; rfl
      · intro vs hvs; rw [hr0] at hvs; cases hvs

theorem Nodes_offset {w w' : Writer} {ip : IP} {m node bit : Nat} {ok : Bool} (h : w.Nodes ip m = .ok (w', node, bit, ok)) :
    w'.continentOffset = w.continentOffset := by
  have loop : ∀ (ip : Bytes) (steps i node bit : Nat) (w w' : Writer) (n' b' : Nat) (ok : Bool),
      Writer.nodesLoop ip steps i node bit w = .ok (w', n', b', ok) → w'.continentOffset = w.continentOffset := by
    intro ip steps
    induction steps with
    | zero => intro i node bit w w' n' b' ok h; injection h with h; rw [Prod.mk.injEq] at h; rw [← h.1]
    | succ steps ih =>
      intro i node bit w w' n' b' ok h
      simp only [Writer.nodesLoop] at h
      obtain ⟨ib, _, h⟩ := Res.bind_eq_ok.mp h
      obtain ⟨e, _, h⟩ := Res.bind_eq_ok.mp h
      obtain ⟨w1, h1, h⟩ := Res.bind_eq_ok.mp h
      obtain ⟨e2, _, h⟩ := Res.bind_eq_ok.mp h
      have hw1 : w1.continentOffset = w.continentOffset := by
        split at h1
        · unfold Writer.put at h1
          split at h1
          · injection h1 with h1; rw [← h1]
          · cases h1
        · injection h1 with h1; rw [← h1]
      split at h
      · injection h with h; rw [Prod.mk.injEq] at h; rw [← h.1, hw1]
      · rw [ih _ _ _ _ _ _ _ _ h, hw1]
  unfold Writer.Nodes at h
  simp only [] at h
  obtain ⟨⟨ip', mm⟩, hp⟩ : ∃ p : Bytes × Int, (if (To4 ip).isSome then
      ((if ip.length = 4 then (To16 ip).getD [] else ip), if (m : Int) - 1 < 32 then (m : Int) - 1 + 96 else (m : Int) - 1)
    else (ip, (m : Int) - 1)) = p := ⟨_, rfl⟩
  simp only [hp] at h
  by_cases hm : mm < 0
  · rw [if_pos hm] at h; cases h
  · rw [if_neg hm] at h
    obtain ⟨⟨w1, n1, b1, ok1⟩, h1, h⟩ := Res.bind_eq_ok.mp h
    have := loop _ _ _ _ _ _ _ _ _ _ h1
    simp only [] at h
    split at h
    · obtain ⟨b2, _, h⟩ := Res.bind_eq_ok.mp h
      injection h with h; rw [Prod.mk.injEq] at h; rw [← h.1, this]
    · injection h with h; rw [Prod.mk.injEq] at h; rw [← h.1, this]

theorem insert_offset {w w' : Writer} {n : IPNet} {vs : List Str} {e : Option Err} (h : w.insert n vs = .ok (w', e)) :
    w'.continentOffset = w.continentOffset := by
  unfold Writer.insert at h
  obtain ⟨⟨w1, node, bit, ok⟩, h1, h⟩ := Res.bind_eq_ok.mp h
  have hw1 := Nodes_offset h1
  obtain ⟨e1, _, h⟩ := Res.bind_eq_ok.mp h
  simp only [] at h
  split at h
  · obtain ⟨_, _, h⟩ := Res.bind_eq_ok.mp h
    injection h with h; rw [Prod.mk.injEq] at h; rw [← h.1, hw1]
  · split at h
    · injection h with h; rw [Prod.mk.injEq] at h; rw [← h.1, hw1]
    · obtain ⟨vs1, _, h⟩ := Res.bind_eq_ok.mp h
      obtain ⟨w2, h2, h⟩ := Res.bind_eq_ok.mp h
      injection h with h; rw [Prod.mk.injEq] at h; rw [← h.1]
      unfold Writer.put at h2
      split at h2
      · injection h2 with h2; rw [← h2]
        unfold Writer.Fields
        simp only []
        split <;> exact hw1
      · cases h2

theorem insertH_spec {w : Writer} {h0 h : Heap} {n : IPNet} {s : Slice} (hp : Conv w.continentOffset h0 h) (hs : s.In h0) :
    ∃ h', Conv w.continentOffset h h' ∧
      w.insertH h n s = (do let r ← w.insert n (h0.read s); return (r.1, h', r.2)) := by
  unfold Writer.insertH Writer.insert
  simp only []
  cases hn : w.Nodes n.ip (maskSize n.mask).1 with
  | err e => exact ⟨h, .refl _ _, rfl⟩
  | panic => exact ⟨h, .refl _ _, rfl⟩
  | ok p =>
    obtain ⟨w1, node, index, ok⟩ := p
    have hw1 := Nodes_offset hn
    simp only [Res.ok_bind]
    cases he : w1.get node index with
    | err e => exact ⟨h, .refl _ _, rfl⟩
    | panic => exact ⟨h, .refl _ _, rfl⟩
    | ok e =>
      simp only [Res.ok_bind]
      cases ok with
      | false =>
        refine ⟨h, .refl _ _, ?_⟩
        simp only [Bool.not_false, if_true]
        cases w1.resolve (-e) <;> rfl
      | true =>
        simp only [Bool.not_true, Bool.false_eq_true, if_false]
        by_cases hpos : e > 0
        · refine ⟨h, .refl _ _, ?_⟩
          rw [if_pos hpos, if_pos hpos]; rfl
        · rw [if_neg hpos, if_neg hpos]
          rw [← hw1] at hp ⊢
          obtain ⟨h', hc, hx, hv⟩ := convInPlace_spec hp hs
          refine ⟨h', hc, ?_⟩
          rw [hx]
          cases hcv : w1.convValues (h0.read s) with
          | err e => rfl
          | panic => rfl
          | ok vs =>
            simp only [Res.ok_bind, Res.pure_eq, hv vs hcv]
            cases (w1.Fields vs).1.put node index (-((w1.Fields vs).2 : Int)) <;> rfl

theorem insertAllH_spec (h0 : Heap) : ∀ (rows : List HRow) (w : Writer) (h : Heap), Conv w.continentOffset h0 h →
    (∀ r ∈ rows, r.vals.In h0) →
    ∃ h', Conv w.continentOffset h h' ∧
      w.insertAllH h rows = (do let w' ← w.insertAll (rows.map fun r => ⟨r.cidr, h0.read r.vals⟩); return (w', h')) := by
  intro rows
  induction rows with
  | nil => intro w h _ _; exact ⟨h, .refl _ _, rfl⟩
  | cons r rs ih =>
    intro w h hp hs
    obtain ⟨h1, c1, e1⟩ := insertH_spec (n := r.cidr) hp (hs r (by simp))
    simp only [Writer.insertAllH, List.map_cons, Writer.insertAll, e1]
    cases hi : w.insert r.cidr (h0.read r.vals) with
    | err e => exact ⟨h, .refl _ _, rfl⟩
    | panic => exact ⟨h, .refl _ _, rfl⟩
    | ok q =>
      obtain ⟨w1, er⟩ := q
      have ho := insert_offset hi
      rw [← ho] at hp c1
      obtain ⟨h2, c2, e2⟩ := ih w1 h1 (hp.trans c1) (fun x hx => hs x (by simp [hx]))
      rw [← ho]
      refine ⟨h2, c1.trans c2, ?_⟩
      simp only [Res.ok_bind, Res.pure_eq, e2]

/-- Packing a shared data set: the bytes of its view, whatever has been replaced before. -/
theorem packH_spec {enc : MetaData → Bytes} {now : Int} {d0 d : HData} (hf : d.fields = d0.fields) (hv : d.version = d0.version)
    (hr : d.rows = d0.rows) (hc : Conv (continentIdx (covertFields d0.fields) 0 none) d0.heap d.heap) (hw : d0.WF) :
    ∃ h', Conv (continentIdx (covertFields d0.fields) 0 none) d.heap h' ∧
      packH enc now d = (do let b ← pack enc now d0.view; return (b, { d with heap := h' })) := by
  unfold packH pack
  rw [hf, hv, hr]
  have hoff : (NewWriter (buildMeta now d0.version d0.fields)).continentOffset = continentIdx (covertFields d0.fields) 0 none := rfl
  rw [← hoff] at hc ⊢
  obtain ⟨h', c, e⟩ := insertAllH_spec d0.heap d0.rows _ _ hc (fun r h => hw r h)
  refine ⟨h', c, ?_⟩
  rw [e]
  have hview : d0.view.ips = d0.rows.map fun r => ⟨r.cidr, d0.heap.read r.vals⟩ := rfl
  rw [hview, show d0.view.version = d0.version from rfl, show d0.view.fields = d0.fields from rfl]
  cases (NewWriter (buildMeta now d0.version d0.fields)).insertAll (d0.rows.map fun r => ⟨r.cidr, d0.heap.read r.vals⟩) <;> rfl

end Uip.Ipdb

namespace Uip.Memip
open Uip Uip.Spec Uip.Operate

theorem covert_congr {fs vs vs' : List Str} (h : ∀ f ∈ fields, ∀ k, Offset f fs = some k → vs'[k]? = vs[k]?) :
    covertValues (fieldOffsets fs) vs' = covertValues (fieldOffsets fs) vs := by
  have hn : ∀ f ∈ fields, ∀ i, newValue vs' i (Offset f fs) = newValue vs i (Offset f fs) := by
    intro f hf i
    cases ho : Offset f fs with
    | none => rfl
    | some k => simp only [newValue, h f hf k ho]
  unfold covertValues fieldOffsets
  have : ∀ (l : List Str), (∀ f ∈ l, f ∈ fields) → ∀ i acc,
      covertLoop vs' i (l.map fun f => findFrom f 0 fs) acc = covertLoop vs i (l.map fun f => findFrom f 0 fs) acc := by
    intro l
    induction l with
    | nil => intro _ _ _; rfl
    | cons f l ih =>
      intro hl i acc
      simp only [List.map_cons, covertLoop, findFrom_zero] at ih ⊢
      rw [hn f (hl f (by simp))]
      cases newValue vs i (Offset f fs) with
      | err e => rfl
      | panic => rfl
      | ok v => simp only [Res.ok_bind]; exact ih (fun x hx => hl x (by simp [hx])) _ _
  exact this fields (fun f hf => hf) 0 _

/-- Rows with the same networks and the same converted values. -/
theorem packLoop_congr {offs : List (Option Nat)} : ∀ {ips ips' : List IpRaw},
    Rel2 (fun a b => b.cidr = a.cidr ∧ covertValues offs b.values = covertValues offs a.values) ips ips' →
    ∀ prev, packLoop offs prev ips' = packLoop offs prev ips := by
  intro ips ips' h
  induction h with
  | nil => intro _; rfl
  | @cons a b as bs hab _ ih =>
    intro prev
    simp only [packLoop, hab.1, hab.2, ih]

theorem packRanges_congr {d d' : IpData} (hf : d'.fields = d.fields)
    (h : Rel2 (fun a b => b.cidr = a.cidr ∧ covertValues (fieldOffsets d.fields) b.values = covertValues (fieldOffsets d.fields) a.values)
      d.ips d'.ips) : packRanges d' = packRanges d := by
  unfold packRanges
  rw [hf]
  revert h
  generalize d.ips = ips
  generalize d'.ips = ips'
  intro h
  cases h with
  | nil => rfl
  | cons hab hrest =>
    simp only [hab.1, hab.2, packLoop_congr hrest]

theorem pack_congr {d d' : IpData} (hf : d'.fields = d.fields) (hv : d'.version = d.version)
    (h : Rel2 (fun a b => b.cidr = a.cidr ∧ covertValues (fieldOffsets d.fields) b.values = covertValues (fieldOffsets d.fields) a.values)
      d.ips d'.ips) : pack d' = pack d ∧ packCalls d' = packCalls d := by
  unfold pack packCalls
  rw [packRanges_congr hf h, hv]
  exact ⟨rfl, rfl⟩

/-! ## The calls of the writer -/

theorem rangeLines_calls {v4 : Bool} : ∀ {rs : List (Range × List Str)} {t : Str}, rangeLines v4 rs = .ok t →
    (lineCalls v4 rs).flatten = t
  | [], t, h => by cases h; rfl
  | r :: rs, t, h => by
    unfold rangeLines at h
    unfold lineCalls
    cases hl : rangeLine v4 r with
    | err e => rw [hl] at h; cases h
    | panic => rw [hl] at h; cases h
    | ok l =>
      rw [hl] at h
      simp only [Res.ok_bind] at h
      cases ht : rangeLines v4 rs with
      | err e => rw [ht] at h; cases h
      | panic => rw [ht] at h; cases h
      | ok t' =>
        rw [ht] at h
        cases h
        simp only [List.flatten_cons, rangeLines_calls ht]

/-- The calls of a packing that ends make up the text. -/
theorem pack_calls {d : IpData} {t : Str} (h : pack d = .ok t) : (packCalls d).flatten = t := by
  unfold pack at h
  unfold packCalls
  cases hr : packRanges d with
  | err e => rw [hr] at h; cases h
  | panic => rw [hr] at h; cases h
  | ok rs => rw [hr] at h; exact rangeLines_calls h

theorem packLoop_take {offs : List (Option Nat)} : ∀ (ips : List IpRaw) (prev : Range × List Str) (rs : List (Range × List Str)),
    packLoop offs prev ips = .ok rs → ∀ j, 0 < j → j ≤ rs.length → ∃ k, packLoop offs prev (ips.take k) = .ok (rs.take j)
  | [], prev, rs, h, j, h0, hj => by
    cases h
    simp only [List.length_singleton] at hj
    obtain rfl : j = 1 := by omega
    exact ⟨0, rfl⟩
  | ip :: ips, prev, rs, h, j, h0, hj => by
    unfold packLoop at h
    cases hv : covertValues offs ip.values with
    | err e => rw [hv] at h; cases h
    | panic => rw [hv] at h; cases h
    | ok values =>
      rw [hv] at h
      simp only [Res.ok_bind] at h
      have hnew : ∀ h : (NewRange ip.cidr >>= fun nr => packLoop offs (nr, values) ips >>= fun rest => (pure (prev :: rest) : Res _)) = .ok rs,
          ∃ k, (k = 0 ∧ rs.take j = [prev]) ∨ ∃ k', k = k' + 1 ∧
            (NewRange ip.cidr >>= fun nr => packLoop offs (nr, values) (ips.take k') >>= fun rest => (pure (prev :: rest) : Res _)) = .ok (rs.take j) := by
        intro h
        cases hn : NewRange ip.cidr with
        | err e => rw [hn] at h; cases h
        | panic => rw [hn] at h; cases h
        | ok nr =>
          rw [hn] at h
          simp only [Res.ok_bind] at h
          cases hp : packLoop offs (nr, values) ips with
          | err e => rw [hp] at h; cases h
          | panic => rw [hp] at h; cases h
          | ok rest =>
            rw [hp] at h
            simp only [Res.ok_bind, Res.pure_eq] at h
            have h := Res.ok.inj h
            subst h
            obtain ⟨j, rfl⟩ : ∃ i, j = i + 1 := ⟨j - 1, by omega⟩
            by_cases hj0 : j = 0
            · exact ⟨0, .inl ⟨rfl, by rw [hj0]; rfl⟩⟩
            · obtain ⟨k, hk⟩ := packLoop_take ips (nr, values) rest hp j (by omega) (by simp only [List.length_cons] at hj; omega)
              exact ⟨k + 1, .inr ⟨k, rfl, by simp only [Res.ok_bind, hk, Res.pure_eq, List.take_succ_cons]⟩⟩
      by_cases hd : prev.2.drop 1 = values.drop 1
      · rw [if_pos hd] at h
        cases hj' : prev.1.JoinIPNet ip.cidr with
        | err e => rw [hj'] at h; cases h
        | panic => rw [hj'] at h; cases h
        | ok p =>
          rcases p with ⟨r, joined⟩
          rw [hj'] at h
          simp only [Res.ok_bind] at h
          by_cases hjo : joined = true
          · rw [if_pos hjo] at h
            obtain ⟨k, hk⟩ := packLoop_take ips (r, prev.2) rs h j h0 hj
            refine ⟨k + 1, ?_⟩
            rw [List.take_succ_cons]
            unfold packLoop
            rw [hv]
            simp only [Res.ok_bind]
            rw [if_pos hd, hj']
            simp only [Res.ok_bind]
            rw [if_pos hjo, hk]
          · rw [if_neg hjo] at h
            obtain ⟨k, ⟨rfl, hk⟩ | ⟨k', rfl, hk⟩⟩ := hnew h
            · exact ⟨0, by rw [hk]; rfl⟩
            · refine ⟨k' + 1, ?_⟩
              rw [List.take_succ_cons]
              unfold packLoop
              rw [hv]
              simp only [Res.ok_bind]
              rw [if_pos hd, hj']
              simp only [Res.ok_bind]
              rw [if_neg hjo]
              exact hk
      · rw [if_neg hd] at h
        obtain ⟨k, ⟨rfl, hk⟩ | ⟨k', rfl, hk⟩⟩ := hnew h
        · exact ⟨0, by rw [hk]; rfl⟩
        · refine ⟨k' + 1, ?_⟩
          rw [List.take_succ_cons]
          unfold packLoop
          rw [hv]
          simp only [Res.ok_bind]
          rw [if_neg hd]
          exact hk

theorem lineCalls_take {v4 : Bool} : ∀ (rs : List (Range × List Str)),
    ∃ j, j ≤ rs.length ∧ rangeLines v4 (rs.take j) = .ok (lineCalls v4 rs).flatten
  | [] => ⟨0, by simp, rfl⟩
  | r :: rs => by
    unfold lineCalls
    cases hl : rangeLine v4 r with
    | err e => exact ⟨0, by simp, rfl⟩
    | panic => exact ⟨0, by simp, rfl⟩
    | ok l =>
      obtain ⟨j, h1, h2⟩ := lineCalls_take rs
      refine ⟨j + 1, by simpa using h1, ?_⟩
      rw [List.take_succ_cons]
      unfold rangeLines
      rw [hl, h2]
      rfl

/-- What has been written at any end, a crash included: nothing, or the text of the first rows of the table. -/
theorem calls_first (d : IpData) :
    (packCalls d).flatten = [] ∨ ∃ k, pack { d with ips := d.ips.take k } = .ok (packCalls d).flatten := by
  unfold packCalls
  cases hr : packRanges d with
  | err e => exact .inl rfl
  | panic => exact .inl rfl
  | ok rs =>
    simp only []
    obtain ⟨j, hj, hl⟩ := lineCalls_take (v4 := d.version.IsIpV4) rs
    by_cases h0 : j = 0
    · left
      rw [h0] at hl
      exact (Res.ok.inj hl).symm
    · right
      unfold packRanges at hr
      cases hd : d.ips with
      | nil => rw [hd] at hr; cases hr
      | cons ip ips =>
        rw [hd] at hr
        simp only [] at hr
        cases hv : covertValues (fieldOffsets d.fields) ip.values with
        | err e => rw [hv] at hr; cases hr
        | panic => rw [hv] at hr; cases hr
        | ok values =>
          rw [hv] at hr
          simp only [Res.ok_bind] at hr
          cases hn : NewRange ip.cidr with
          | err e => rw [hn] at hr; cases hr
          | panic => rw [hn] at hr; cases hr
          | ok nr =>
            rw [hn] at hr
            simp only [Res.ok_bind] at hr
            obtain ⟨k, hk⟩ := packLoop_take ips _ rs hr j (by omega) hj
            refine ⟨k + 1, ?_⟩
            unfold pack packRanges
            simp only [List.take_succ_cons, hv, Res.ok_bind, hn, hk]
            exact hl

end Uip.Memip
