import Verif.Proof.Ipdb.Writer
/-!
# `insert` and `insertAll` against the set of stored prefixes
-/
namespace Uip.Ipdb
open Uip Uip.Spec

theorem To4_none_of_v6 {n : IPNet} (h : WFNet n) (hl : n.ip.length = 16) (h4 : (To4 n.ip).isSome) :
    96 ≤ pfx n := by
  have ha := h.2
  have hk := pfx_le h
  unfold Aligned at ha
  unfold To4 at h4
  rw [if_neg (by omega)] at h4
  split at h4
  · rename_i hc
    have hb : bits n.ip = bits v4InV6Prefix ++ bits (n.ip.drop 12) := by
      rw [← hc.2, ← bits_append, List.take_append_drop]
    rcases Nat.lt_or_ge (pfx n) 96 with hlt | hge
    · exfalso
      have h1 : (bits n.ip)[95]? = some true := by
        rw [hb, List.getElem?_append_left (by simp [bits_length, v4InV6Prefix])]
        rfl
      have h2 : ((bits n.ip).drop (pfx n))[95 - pfx n]? = some true := by
        rw [List.getElem?_drop, ← h1]; congr 1; omega
      rw [ha, List.getElem?_replicate] at h2
      split at h2 <;> simp at h2
    · exact hge
  · simp at h4

theorem maskSize_wf {n : IPNet} (h : WFNet n) : (maskSize n.mask).1 = pfx n := by
  rw [maskSize_of_IsMask h.1.2.2]

theorem Writer.Nodes_eq {n : IPNet} (h : WFNet n) (hK : prefix128 n ≠ []) (w : Writer) :
    ∃ ip16, To16 n.ip = some ip16 ∧ ∃ b, (bits ip16)[(prefix128 n).length - 1]? = some b ∧
      w.Nodes n.ip (maskSize n.mask).1 = (do
        let (w, node, bit, ok) ← w.nodesLoop ip16 ((prefix128 n).length - 1) 0 0 0
        if ok then return (w, node, b.toNat, true) else return (w, node, bit, false)) := by
  obtain ⟨ip16, h16, hl16, _⟩ := To16_valid h.1.1
  refine ⟨ip16, h16, ?_⟩
  have hlen := prefix128_length h
  have hpos : 0 < (prefix128 n).length := List.length_pos_iff.mpr hK
  have hb16 : (bits ip16).length = 128 := by rw [bits_length, hl16]
  obtain ⟨b, hb⟩ : ∃ b, (bits ip16)[(prefix128 n).length - 1]? = some b :=
    ⟨_, List.getElem?_eq_getElem (by omega)⟩
  refine ⟨b, hb, ?_⟩
  have hk := pfx_le h
  unfold Writer.Nodes
  rw [maskSize_wf h]
  have key : (if (To4 n.ip).isSome = true then
      ((if n.ip.length = 4 then (To16 n.ip).getD [] else n.ip),
        if (pfx n : Int) - 1 < 32 then (pfx n : Int) - 1 + 96 else (pfx n : Int) - 1)
      else (n.ip, (pfx n : Int) - 1)) = (ip16, ((prefix128 n).length : Int) - 1) := by
    rcases h.1.1 with hl | hl
    · have h4 : (To4 n.ip).isSome = true := by simp [To4, hl]
      have : (prefix128 n).length = pfx n + 96 := by unfold hostBits at hlen; omega
      rw [if_pos h4, if_pos hl, h16, Option.getD_some, if_pos (by omega), this]
      congr 1; omega
    · have h16' : ip16 = n.ip := by rw [To16_16 hl] at h16; cases h16; rfl
      have : (prefix128 n).length = pfx n := by unfold hostBits at hlen; omega
      rw [h16', this]
      split
      · rename_i h4
        have := To4_none_of_v6 h hl h4
        rw [if_neg (by omega), if_neg (by omega)]
      · rfl
  simp only [key]
  rw [if_neg (by omega)]
  have ht : (((prefix128 n).length : Int) - 1).toNat = (prefix128 n).length - 1 := by omega
  rw [ht, ipBit_lt hb]
  rfl

/-- What the writer holds: `R` gives the record stored under each prefix. -/
def WInv (w : Writer) (R : List Bool → Option Str) : Prop :=
  ∃ lab row, Trie w.node lab row (fun p => row p ≠ none) ∧ DataInv w ∧
    (∀ q v, row q = some v → ∃ d, R q = some d ∧ mapGet w.dataHash d = some v) ∧
    (∀ q, row q = none → R q = none) ∧
    (∀ q v, row q = some v → q.length ≤ 128)

theorem WInv.congr {w : Writer} {R R' : List Bool → Option Str} (h : WInv w R) (he : ∀ q, R q = R' q) : WInv w R' := by
  have : R = R' := funext he
  subst this; exact h

theorem WInv.init (md : MetaData) : WInv (NewWriter md) (fun _ => none) := by
  refine ⟨[[]], fun _ => none, Trie.init.mono (by simp), ⟨rfl, by simp [NewWriter], ?_⟩, by simp, by simp, by simp⟩
  intro a b k off hab
  simp [NewWriter] at hab

theorem Writer.insert_spec {w : Writer} {R : List Bool → Option Str} (h : WInv w R) {n : IPNet} (hn : WFNet n)
    (hK : prefix128 n ≠ []) {values vs : List Str} (hv : w.convValues values = .ok vs) :
    ((∀ q, R q ≠ none → q ≠ prefix128 n → ¬ (q <+: prefix128 n) ∧ ¬ (prefix128 n <+: q)) →
      ∃ w', w.insert n values = .ok (w', none) ∧
        WInv w' (fun p => if p = prefix128 n then some (joinByte 0x09 vs) else R p) ∧
        w'.md = w.md ∧ w'.continentOffset = w.continentOffset ∧
        w'.dataHash.map (·.1) = (if joinByte 0x09 vs ∈ w.dataHash.map (·.1) then w.dataHash.map (·.1)
          else joinByte 0x09 vs :: w.dataHash.map (·.1))) ∧
    (¬ (∀ q, R q ≠ none → q ≠ prefix128 n → ¬ (q <+: prefix128 n) ∧ ¬ (prefix128 n <+: q)) →
      ∃ e, w.insert n values = .ok (w, some e)) := by
  obtain ⟨lab, row, htr, hdata, hR, hRn, hlen128⟩ := h
  obtain ⟨ip16, h16, b, hb, hNodes⟩ := Writer.Nodes_eq hn hK w
  have hpath : path128 n.ip = bits ip16 := by unfold path128; rw [h16]; rfl
  have hpre := prefix128_take hn
  rw [hpath] at hpre
  have hplen : (bits ip16).length = 128 := by rw [← hpath]; exact path128_length hn.1.1
  have hlen := prefix128_length hn
  have hpos : 0 < (prefix128 n).length := List.length_pos_iff.mpr hK
  generalize hKK : (prefix128 n).length = K at *
  have hrow_iff : ∀ q, R q ≠ none ↔ ∃ v, row q = some v := by
    intro q
    cases hr : row q with
    | none => simp [hRn q hr]
    | some v => obtain ⟨d, hd, _⟩ := hR q v hr; simp [hd]
  have hlab0 : lab[0]? = some ((bits ip16).take 0) := by simpa using htr.root
  by_cases hblk : ∃ j v, 0 < j ∧ j ≤ 0 + (K - 1) ∧ row ((bits ip16).take j) = some v
  · -- a shorter stored prefix
    have hnf : ¬ (∀ q, R q ≠ none → q ≠ prefix128 n → ¬ (q <+: prefix128 n) ∧ ¬ (prefix128 n <+: q)) := by
      intro hc
      obtain ⟨j, v, h1, h2, h3⟩ := hblk
      have := (hc _ ((hrow_iff _).mpr ⟨v, h3⟩) (by
        intro he
        have := congrArg List.length he
        rw [hKK, List.length_take, hplen] at this
        omega)).1
      apply this
      rw [hpre]
      exact List.take_prefix_take_left (by omega)
    refine ⟨fun hf => absurd hf hnf, fun _ => ?_⟩
    obtain ⟨n', b', v, h1, h2, h3, q, h4⟩ := Writer.nodesLoop_blocked htr (K - 1) 0 0 0 (by omega) hlab0 hblk
    obtain ⟨d, _, hd⟩ := hR q v h4
    obtain ⟨s, hs⟩ := Writer.resolve_ok hdata hd
    refine ⟨.invalidCIDR, ?_⟩
    unfold Writer.insert
    simp only [hNodes, h1, Res.ok_bind, Bool.false_eq_true, if_false, Res.pure_eq, Writer.get_eq, h2,
      Res.ofOption_some, Int.neg_neg, hs, Bool.not_false, if_true]
  · have hnone : ∀ j, 0 < j → j ≤ 0 + (K - 1) → row ((bits ip16).take j) = none := by
      intro j h1 h2
      cases hr : row ((bits ip16).take j) with
      | none => rfl
      | some v => exact absurd ⟨j, v, h1, h2, hr⟩ hblk
    obtain ⟨w1, lab1, n1, ib1, h1, h2, h3, h4, _, h6⟩ := Writer.nodesLoop_free (ip := ip16) (row := row)
      (occ := fun p => row p ≠ none ∨ p = prefix128 n) (K := K) (by omega) (.inr hpre.symm) (K - 1) 0 0 0 w lab
      (htr.mono (fun p hp => .inl hp)) (by omega) hlab0 hnone
    rw [Nat.zero_add] at h4
    have hq : (bits ip16).take (K - 1) ++ [b] = prefix128 n := by
      rw [← take_succ_of_getElem? hb, hpre]
      congr 1; omega
    obtain ⟨e, he, hcase⟩ := h3.cell_cases b h4
    rw [hq] at hcase
    have hget : w1.get n1 b.toNat = .ok e := by rw [Writer.get_eq, he]; rfl
    by_cases hpos' : 0 < e
    · -- a longer stored prefix
      rcases h6 with ⟨rfl, rfl⟩ | hz
      · have hnf : ¬ (∀ q, R q ≠ none → q ≠ prefix128 n → ¬ (q <+: prefix128 n) ∧ ¬ (prefix128 n <+: q)) := by
          intro hc
          have hch := htr.child _ _ _ _ he hpos' h4
          rw [hq] at hch
          obtain ⟨s, hs, ho⟩ := htr.nonempty e.toNat _ (by omega) hch
          obtain ⟨v, hv⟩ := Option.ne_none_iff_exists'.mp ho
          have := (hc _ ((hrow_iff _).mpr ⟨v, hv⟩) (by
            intro he
            have := congrArg List.length he
            rw [List.length_append] at this
            exact hs (List.length_eq_zero_iff.mp (by omega)))).2
          exact this (List.prefix_append _ _)
        refine ⟨fun hf => absurd hf hnf, fun _ => ⟨.cidrConflict, ?_⟩⟩
        unfold Writer.insert
        simp only [hNodes, h1, Res.ok_bind, if_true, Res.pure_eq, hget, Bool.not_true, Bool.false_eq_true,
          if_false]
        rw [if_pos hpos']
      · have := hz b
        rw [he] at this
        injection this with this
        omega
    · -- accepted
      have hfree : ∀ q, R q ≠ none → q ≠ prefix128 n → ¬ (q <+: prefix128 n) ∧ ¬ (prefix128 n <+: q) := by
        intro q hq1 hq2
        obtain ⟨v, hv⟩ := (hrow_iff q).mp hq1
        constructor
        · intro hp
          have hp' := List.prefix_iff_eq_take.mp hp
          have hle := hp.length_le
          have hlt : q.length < K := by
            rcases Nat.lt_or_ge q.length K with hh | hh
            · exact hh
            · exfalso; apply hq2; rw [hp', List.take_of_length_le (by omega)]
          have hq0 : 0 < q.length := by
            obtain ⟨_, n2, q2, b2, h7, _⟩ := htr.rows q v hv
            rw [h7]; simp
          have := hnone q.length hq0 (by omega)
          rw [hpre, List.take_take, Nat.min_eq_left (by omega)] at hp'
          rw [← hp', hv] at this
          cases this
        · rintro ⟨s, rfl⟩
          have hs : s ≠ [] := by rintro rfl; simp at hq2
          -- the node of the longer row lies below
          obtain ⟨_, n2, q2, b2, h7, h8, _⟩ := h3.rows _ v hv
          obtain ⟨s', x, rfl⟩ : ∃ p x, s = p ++ [x] :=
            ⟨s.dropLast, s.getLast hs, (List.dropLast_concat_getLast hs).symm⟩
          rw [← List.append_assoc] at h7
          obtain ⟨h7, _⟩ := List.append_inj' h7 rfl
          subst h7
          obtain ⟨m, hm⟩ := h3.label_prefix _ _ _ h8
          rw [← hq] at hm
          have hm0 : 0 < m := by
            rcases Nat.eq_zero_or_pos m with h0 | h0
            · subst h0; rw [h3.root] at hm; simp at hm
            · exact h0
          obtain ⟨n3, q3, b3, h9, h10, h11⟩ := h3.parent _ _ hm0 hm
          obtain ⟨rfl, hb3⟩ := List.append_inj' h9 rfl
          cases hb3
          have := h3.inj _ _ _ h4 h10
          subst this
          rw [he] at h11
          injection h11 with h11
          omega
      refine ⟨fun _ => ?_, fun hnf => absurd hfree hnf⟩
      have hdata1 : DataInv w1 := by rw [h2]; exact ⟨hdata.chunk, hdata.nodup, hdata.offs⟩
      obtain ⟨w2, off, hF, hD, hoff, hnode, hmd, hco, hkeep, hkeys, hoffpos⟩ := hdata1.fields vs
      have hco1 : w1.continentOffset = w.continentOffset := by rw [h2]
      have hconv : w1.convValues values = .ok vs := by
        rw [← hv]; unfold Writer.convValues; rw [hco1]
      have hhash1 : w1.dataHash = w.dataHash := by rw [h2]
      have hn1 : n1 < w2.node.length := by rw [hnode]; exact cell_lt he
      refine ⟨{ w2 with node := setCell w2.node n1 b (-(off : Int)) }, ?_, ?_, ?_, ?_, ?_⟩
      · unfold Writer.insert
        simp only [hNodes, h1, Res.ok_bind, if_true, Res.pure_eq, hget, Bool.not_true, Bool.false_eq_true,
          if_false]
        rw [if_neg (by omega), hconv]
        simp only [Res.ok_bind, hF]
        rw [Writer.put_eq _ hn1]
        rfl
      · have htr2 := h3.setRow (v := off) h4 he (by omega) hoffpos
          (fun p => (if p = prefix128 n then some off else row p) ≠ none)
          (by
            intro p hp
            rcases hp with hp | hp
            · split
              · simp
              · exact hp
            · rw [hp]; simp)
        rw [hq] at htr2
        refine ⟨lab1, _, by rw [hnode]; exact htr2, ⟨hD.chunk, hD.nodup, hD.offs⟩, ?_, ?_, ?_⟩
        · intro q v hqv
          dsimp only at hqv ⊢
          split at hqv
          · rename_i heq
            cases hqv
            exact ⟨_, by rw [if_pos heq], hoff⟩
          · rename_i hne
            obtain ⟨d, hd1, hd2⟩ := hR q v hqv
            exact ⟨d, by rw [if_neg hne]; exact hd1, hkeep _ _ (by rw [hhash1]; exact hd2)⟩
        · intro q hqv
          dsimp only at hqv ⊢
          split at hqv
          · cases hqv
          · rename_i hne
            rw [if_neg hne]; exact hRn q hqv
        · intro q v hqv

          split at hqv
          · rename_i heq; rw [heq, hKK]; omega
          · exact hlen128 q v hqv
      · show w2.md = w.md
        rw [hmd, h2]
      · show w2.continentOffset = _
        rw [hco, hco1]
      · rw [hhash1] at hkeys
        exact hkeys

/-! ## All rows -/

/-- The record stored for a list of values. -/
def convD (co : Option Nat) (values : List Str) : List Str :=
  match co with
  | none => values
  | some i => values.modify i continentCode

theorem convValues_ok {w : Writer} {values : List Str}
    (h : ∀ i, w.continentOffset = some i → i < values.length) :
    w.convValues values = .ok (convD w.continentOffset values) := by
  unfold Writer.convValues convD
  cases hc : w.continentOffset with
  | none => rfl
  | some i =>
    have hi := h i hc
    simp only [List.getElem?_eq_getElem hi]
    congr 1
    apply List.ext_getElem?
    intro j
    rw [List.getElem?_set, List.getElem?_modify]
    by_cases hj : i = j
    · subst hj; simp [List.getElem?_eq_getElem hi, hi]
    · rw [if_neg hj]; cases values[j]? <;> simp [hj]

theorem find?_congr' {α : Type} {p q : α → Bool} {l : List α} (h : ∀ x ∈ l, p x = q x) : l.find? p = l.find? q := by
  induction l with
  | nil => rfl
  | cons x l ih =>
    simp only [List.find?_cons, h x (by simp), ih (fun y hy => h y (by simp [hy]))]

/-- The table of stored prefixes that a list of kept rows stands for. -/
def tableOf {α : Type} (f : α → Str) (T : List (IPNet × α)) (q : List Bool) : Option Str :=
  (T.find? (fun m => prefix128 m.1 = q)).map (fun m => f m.2)

theorem tableOf_ne_none {α : Type} {f : α → Str} {T : List (IPNet × α)} {q : List Bool} :
    tableOf f T q ≠ none ↔ ∃ m ∈ T, prefix128 m.1 = q := by
  unfold tableOf
  simp

theorem keepRow_wf {α : Type} {T : List (IPNet × α)} {r : IPNet × α} (hT : ∀ m ∈ T, WFNet m.1) (hr : WFNet r.1) :
    ∀ m ∈ keepRow T r, WFNet m.1 := by
  intro m hm
  unfold keepRow at hm
  split at hm
  · exact hT m hm
  · rw [List.mem_append] at hm
    rcases hm with hm | hm
    · exact hT m (List.mem_filter.mp hm).1
    · simp at hm; rw [hm]; exact hr

theorem any_iff_not_free {α : Type} {f : α → Str} {T : List (IPNet × α)} {r : IPNet × α}
    (hT : ∀ m ∈ T, WFNet m.1) (hr : WFNet r.1) :
    T.any (fun m => decide (Overlap m.1 r.1 ∧ ¬ SameNet m.1 r.1)) = true ↔
    ¬ (∀ q, tableOf f T q ≠ none → q ≠ prefix128 r.1 → ¬ (q <+: prefix128 r.1) ∧ ¬ (prefix128 r.1 <+: q)) := by
  rw [List.any_eq_true]
  constructor
  · rintro ⟨m, hm, hc⟩ hf
    rw [decide_eq_true_eq, Overlap_iff (hT m hm) hr, SameNet_iff (hT m hm) hr] at hc
    have := hf _ (tableOf_ne_none.mpr ⟨m, hm, rfl⟩) hc.2
    rcases hc.1 with h | h
    · exact this.1 h
    · exact this.2 h
  · intro hnf
    apply Classical.byContradiction
    intro hne
    apply hnf
    intro q hq1 hq2
    obtain ⟨m, hm, rfl⟩ := tableOf_ne_none.mp hq1
    have : ¬ (Overlap m.1 r.1 ∧ ¬ SameNet m.1 r.1) := by
      intro hc; exact hne ⟨m, hm, by rw [decide_eq_true_eq]; exact hc⟩
    rw [Overlap_iff (hT m hm) hr, SameNet_iff (hT m hm) hr] at this
    exact ⟨fun h => this ⟨.inl h, hq2⟩, fun h => this ⟨.inr h, hq2⟩⟩

theorem tableOf_keepRow {α : Type} {f : α → Str} {T : List (IPNet × α)} {r : IPNet × α}
    (hT : ∀ m ∈ T, WFNet m.1) (hr : WFNet r.1)
    (hany : ¬ T.any (fun m => decide (Overlap m.1 r.1 ∧ ¬ SameNet m.1 r.1)) = true) (q : List Bool) :
    tableOf f (keepRow T r) q = if q = prefix128 r.1 then some (f r.2) else tableOf f T q := by
  unfold keepRow
  rw [if_neg hany]
  unfold tableOf
  rw [List.find?_append, List.find?_filter]
  split
  · rename_i hq
    subst hq
    have : T.find? (fun a => decide (decide (¬ SameNet a.1 r.1) = true ∧ decide (prefix128 a.1 = prefix128 r.1) = true)) = none := by
      rw [List.find?_eq_none]
      intro m hm
      simp [SameNet_iff (hT m hm) hr]
    rw [this]
    simp
  · rename_i hq
    have h1 : T.find? (fun a => decide (decide (¬ SameNet a.1 r.1) = true ∧ decide (prefix128 a.1 = q) = true)) =
        T.find? (fun m => decide (prefix128 m.1 = q)) := by
      apply find?_congr'
      intro m hm
      simp only [SameNet_iff (hT m hm) hr, decide_eq_true_eq]
      congr 1
      apply propext
      constructor
      · exact fun h => h.2
      · intro h; exact ⟨by rw [h]; exact hq, h⟩
    rw [h1]
    have h2 : ([r] : List (IPNet × α)).find? (fun m => decide (prefix128 m.1 = q)) = none := by
      simp [Ne.symm hq]
    rw [h2]; simp


/-- After inserting all rows the writer holds exactly the rows kept by the specification. -/
theorem Writer.insertAll_spec (f : List Str → Str) :
    ∀ (rows : List IpRaw) (w : Writer) (T : List (IPNet × List Str)),
    (∀ v, f v = joinByte 0x09 (convD w.continentOffset v)) →
    WInv w (tableOf f T) → (∀ m ∈ T, WFNet m.1) →
    (∀ r ∈ rows, WFNet r.cidr ∧ prefix128 r.cidr ≠ [] ∧ ∀ i, w.continentOffset = some i → i < r.values.length) →
    ∃ w', w.insertAll rows = .ok w' ∧
      WInv w' (tableOf f ((rows.map (fun r => (r.cidr, r.values))).foldl keepRow T)) ∧
      w'.md = w.md ∧ w'.continentOffset = w.continentOffset ∧
      (w'.dataHash.map (·.1)).reverse =
        ((acceptedRows T (rows.map (fun r => (r.cidr, r.values)))).map (fun m => f m.2)).foldl addNew
          (w.dataHash.map (·.1)).reverse := by
  intro rows
  induction rows with
  | nil => intro w T _ h _ _; exact ⟨w, rfl, h, rfl, rfl, rfl⟩
  | cons r rows ih =>
    intro w T hf h hT hrows
    obtain ⟨hr1, hr2, hr3⟩ := hrows r (by simp)
    have hconv := convValues_ok hr3
    obtain ⟨hacc, hrej⟩ := Writer.insert_spec h hr1 hr2 hconv
    have hiff := any_iff_not_free (f := f) (r := (r.cidr, r.values)) hT hr1
    have hT' := keepRow_wf (r := (r.cidr, r.values)) hT hr1
    by_cases hany : T.any (fun m => decide (Overlap m.1 r.cidr ∧ ¬ SameNet m.1 r.cidr)) = true
    · obtain ⟨e, he⟩ := hrej (hiff.mp hany)
      have hk : keepRow T (r.cidr, r.values) = T := by unfold keepRow; rw [if_pos hany]
      obtain ⟨w', h1, h2, h3, h4, h5⟩ := ih w T hf h hT (fun r hr => hrows r (by simp [hr]))
      refine ⟨w', ?_, ?_, h3, h4, ?_⟩
      · simp only [Writer.insertAll, he, Res.ok_bind, h1]
      · simp only [List.map_cons, List.foldl_cons, hk]; exact h2
      · simp only [List.map_cons, acceptedRows]
        rw [if_pos hany]; exact h5
    · have hfree := Classical.not_not.mp (fun hc => hany (hiff.mpr hc))
      obtain ⟨w1, he, hw1, hmd, hco, hkeys⟩ := hacc hfree
      have hw1' : WInv w1 (tableOf f (keepRow T (r.cidr, r.values))) := by
        apply hw1.congr
        intro q
        rw [tableOf_keepRow hT hr1 hany, ← hf]
      obtain ⟨w', h1, h2, h3, h4, h5⟩ := ih w1 _ (by rw [hco]; exact hf) hw1' hT'
        (by rw [hco]; exact fun r hr => hrows r (by simp [hr]))
      refine ⟨w', ?_, ?_, by rw [h3, hmd], by rw [h4, hco], ?_⟩
      · simp only [Writer.insertAll, he, Res.ok_bind, h1]
      · simp only [List.map_cons, List.foldl_cons]; exact h2
      · simp only [List.map_cons, acceptedRows]
        rw [if_neg hany, List.map_cons, List.foldl_cons, h5]
        congr 1
        rw [hkeys, ← hf, addNew]
        by_cases hm : f r.values ∈ w.dataHash.map (·.1)
        · rw [if_pos hm, if_pos (by simpa using hm)]
        · rw [if_neg hm, if_neg (by simpa using hm), List.reverse_cons]

/-! ## The kept rows are disjoint -/

theorem Overlap_comm {a b : IPNet} : Overlap a b ↔ Overlap b a := by
  unfold Overlap; exact And.comm

theorem keepRow_disjoint {α : Type} {T : List (IPNet × α)} {r : IPNet × α} (h : DisjointRows T) :
    DisjointRows (keepRow T r) := by
  unfold keepRow
  split
  · exact h
  · rename_i hany
    unfold DisjointRows
    rw [List.pairwise_append]
    refine ⟨List.Pairwise.filter _ h, List.pairwise_singleton _ _, ?_⟩
    intro a ha b hb
    simp at hb; subst hb
    rw [List.mem_filter] at ha
    intro ho
    apply hany
    rw [List.any_eq_true]
    exact ⟨a, ha.1, by
      rw [decide_eq_true_eq]
      exact ⟨ho, by simpa using ha.2⟩⟩

theorem foldl_keepRow {α : Type} (rows : List (IPNet × α)) : ∀ (T : List (IPNet × α)),
    DisjointRows T → (∀ m ∈ T, WFNet m.1) → (∀ m ∈ rows, WFNet m.1) →
    DisjointRows (rows.foldl keepRow T) ∧ ∀ m ∈ rows.foldl keepRow T, WFNet m.1 ∧ (m ∈ T ∨ m ∈ rows) := by
  induction rows with
  | nil => intro T h1 h2 _; exact ⟨h1, fun m hm => ⟨h2 m hm, .inl hm⟩⟩
  | cons r rows ih =>
    intro T h1 h2 h3
    have := ih (keepRow T r) (keepRow_disjoint h1) (keepRow_wf h2 (h3 r (by simp)))
      (fun m hm => h3 m (by simp [hm]))
    refine ⟨this.1, fun m hm => ?_⟩
    obtain ⟨h4, h5⟩ := this.2 m hm
    refine ⟨h4, ?_⟩
    rcases h5 with h5 | h5
    · unfold keepRow at h5
      split at h5
      · exact .inl h5
      · rw [List.mem_append] at h5
        rcases h5 with h5 | h5
        · exact .inl (List.mem_filter.mp h5).1
        · simp at h5; exact .inr (by simp [h5])
    · exact .inr (by simp [h5])

theorem keptRows_spec {α : Type} {rows : List (IPNet × α)} (h : ∀ m ∈ rows, WFNet m.1) :
    DisjointRows (keptRows rows) ∧ ∀ m ∈ keptRows rows, WFNet m.1 ∧ m ∈ rows := by
  have := foldl_keepRow rows [] List.Pairwise.nil (by simp) h
  refine ⟨this.1, fun m hm => ?_⟩
  obtain ⟨h1, h2⟩ := this.2 m hm
  simp at h2
  exact ⟨h1, h2⟩

/-- Disjoint rows are all kept. -/
theorem keptRows_of_disjoint {α : Type} {rows : List (IPNet × α)} (hw : ∀ m ∈ rows, WFNet m.1)
    (h : DisjointRows rows) : keptRows rows = rows := by
  have key : ∀ (rows T : List (IPNet × α)), (∀ m ∈ T ++ rows, WFNet m.1) → DisjointRows (T ++ rows) →
      rows.foldl keepRow T = T ++ rows := by
    intro rows
    induction rows with
    | nil => intro T _ _; simp
    | cons r rows ih =>
      intro T hw h
      have hno : ∀ m ∈ T, ¬ Overlap m.1 r.1 := by
        intro m hm
        unfold DisjointRows at h
        rw [List.pairwise_append] at h
        exact h.2.2 m hm r (by simp)
      have hk : keepRow T r = T ++ [r] := by
        unfold keepRow
        rw [if_neg]
        · congr 1
          rw [List.filter_eq_self]
          intro m hm
          rw [decide_eq_true_eq]
          intro hs
          apply hno m hm
          rw [Overlap_iff (hw m (by simp [hm])) (hw r (by simp))]
          rw [SameNet_iff (hw m (by simp [hm])) (hw r (by simp))] at hs
          rw [hs]; exact .inl (List.prefix_refl _)
        · rw [List.any_eq_true]
          rintro ⟨m, hm, hc⟩
          rw [decide_eq_true_eq] at hc
          exact hno m hm hc.1
      rw [List.foldl_cons, hk, ih (T ++ [r]) (by simpa using hw) (by simpa using h)]
      simp
  have := key rows [] (by simpa using hw) (by simpa using h)
  simpa [keptRows] using this

/-- In a table of disjoint rows the covering row and the stored prefix say the same. -/
theorem rowOf_some {α : Type} {f : α → Str} {T : List (IPNet × α)} (hw : ∀ m ∈ T, WFNet m.1)
    (hd : DisjointRows T) {a : IP} (ha : ValidIP a) {m : IPNet × α} (h : rowOf T (addrNum a) = some m) :
    m ∈ T ∧ Covers m.1 (addrNum a) ∧ prefix128 m.1 <+: path128 a ∧ tableOf f T (prefix128 m.1) = some (f m.2) := by
  unfold rowOf at h
  have hm := List.mem_of_find?_eq_some h
  have hc := List.find?_some h
  rw [decide_eq_true_eq] at hc
  refine ⟨hm, hc, (Covers_iff_path (hw m hm) ha).mp hc, ?_⟩
  unfold tableOf
  have hex : ∃ m', T.find? (fun m' => decide (prefix128 m'.1 = prefix128 m.1)) = some m' := by
    cases hf : T.find? (fun m' => decide (prefix128 m'.1 = prefix128 m.1)) with
    | some x => exact ⟨x, rfl⟩
    | none =>
      rw [List.find?_eq_none] at hf
      have := hf m hm
      simp at this
  obtain ⟨m', hm'⟩ := hex
  have hm'T := List.mem_of_find?_eq_some hm'
  have hp := List.find?_some hm'
  rw [decide_eq_true_eq] at hp
  have : m' = m := by
    apply Classical.byContradiction
    intro hne
    have hov : Overlap m'.1 m.1 := by
      rw [Overlap_iff (hw m' hm'T) (hw m hm), hp]; exact .inl (List.prefix_refl _)
    rcases List.pairwise_iff_getElem.mp hd with hpw
    obtain ⟨i, hi, hie⟩ := List.getElem_of_mem hm'T
    obtain ⟨j, hj, hje⟩ := List.getElem_of_mem hm
    rcases Nat.lt_trichotomy i j with hlt | heq | hgt
    · exact hpw i j hi hj hlt (by rw [hie, hje]; exact hov)
    · subst heq; exact hne (by rw [← hie, ← hje])
    · exact hpw j i hj hi hgt (by rw [hie, hje]; exact Overlap_comm.mp hov)
  rw [hm', this]; rfl

theorem rowOf_none {α : Type} {f : α → Str} {T : List (IPNet × α)} (hw : ∀ m ∈ T, WFNet m.1)
    {a : IP} (ha : ValidIP a) (h : rowOf T (addrNum a) = none) (q : List Bool) (hq : q <+: path128 a) :
    tableOf f T q = none := by
  apply Classical.byContradiction
  intro hne
  obtain ⟨m, hm, rfl⟩ := tableOf_ne_none.mp hne
  unfold rowOf at h
  rw [List.find?_eq_none] at h
  apply h m hm
  rw [decide_eq_true_eq]
  exact (Covers_iff_path (hw m hm) ha).mpr hq

end Uip.Ipdb
