import Verif.Props.OutputsAll
/-!
# C89: each output of a conversion is the one of a conversion to it alone

For every conversion, with or without a line file, of any input: when the outputs do not harm one another, the run writes
what the runs with one output each write, up to the first of them that fails.
-/
namespace Uip.Program
open Uip Uip.Spec Uip.Operate

/-! ## The operations keep slices inside their arrays, and bring no commas and no spelling of continent -/

/-- A text without commas. -/
def Clean (v : Str) : Prop := (0x2C : UInt8) ∉ v

def CleanHeap (h : Heap) : Prop := ∀ a j v, h.cell a j = some v → Clean v

/-- No cell is lost; no comma comes in. -/
def Later (h h' : Heap) : Prop :=
  (∀ a j, (h.cell a j).isSome → (h'.cell a j).isSome) ∧ (CleanHeap h → CleanHeap h')

theorem Later.refl (h : Heap) : Later h h := ⟨fun _ _ k => k, id⟩

theorem Later.trans {h1 h2 h3 : Heap} (a : Later h1 h2) (b : Later h2 h3) : Later h1 h3 :=
  ⟨fun x j k => b.1 x j (a.1 x j k), fun k => b.2 (a.2 k)⟩

theorem Later.in {h h' : Heap} (k : Later h h') {s : Slice} (hs : s.In h) : s.In h' :=
  Slice.in_iff.mpr fun j hj => k.1 _ _ (Slice.in_iff.mp hs j hj)

theorem later_put {h h' : Heap} {s : Slice} {i : Nat} {v : Str} (hp : h.put s i v = .ok h') (hv : Clean v) : Later h h' := by
  unfold Heap.put at hp
  split at hp
  · split at hp
    · rename_i w hw
      have hc := Heap.cell_modify_set (h := h) (a := s.arr) (i := i) (v := v) (by rw [hw]; rfl)
      cases hp
      refine ⟨fun a j hs => ?_, fun hh a j u hu => ?_⟩
      · rw [hc]; split
        · rfl
        · exact hs
      · rw [hc] at hu
        split at hu
        · cases hu; exact hv
        · exact hh a j u hu
    · cases hp
  · cases hp

theorem later_append (grow : Nat → Nat) {h : Heap} {s : Slice} {v : Str} (hs : s.In h) (hv : Clean v) :
    Later h (h.append grow s v).1 ∧ (h.append grow s v).2.In (h.append grow s v).1 := by
  unfold Heap.append
  split
  · rename_i hc
    have hm := Heap.cell_modify_set (h := h) (a := s.arr) (i := s.len) (v := v) hc
    refine ⟨⟨fun a j k => ?_, fun hh a j u hu => ?_⟩, Slice.in_iff.mpr fun j hj => ?_⟩
    · simp only [hm]; split
      · rfl
      · exact k
    · simp only [hm] at hu
      split at hu
      · cases hu; exact hv
      · exact hh a j u hu
    · simp only [hm]
      split
      · rfl
      · rename_i hne
        have hj' : j < s.len + 1 := hj
        exact Slice.in_iff.mp hs j (by simp only [true_and] at hne; omega)
  · have hm := Heap.cell_append (h := h) (l := h.read s ++ [v] ++ List.replicate (grow s.len - (s.len + 1)) [])
    have hl := Heap.read_length hs
    refine ⟨⟨fun a j k => ?_, fun hh a j u hu => ?_⟩, Slice.in_iff.mpr fun j hj => ?_⟩
    · simp only [hm]
      split
      · rename_i ha
        rw [Heap.cell_none_of_ge (by omega)] at k; cases k
      · exact k
    · simp only [hm] at hu
      split at hu
      · have := List.mem_of_getElem? hu
        simp only [List.mem_append, List.mem_singleton, List.mem_replicate] at this
        rcases this with (h1 | rfl) | ⟨_, rfl⟩
        · obtain ⟨k, hk⟩ := List.getElem?_of_mem h1
          rw [Heap.read_get?] at hk
          split at hk
          · exact hh _ _ _ hk
          · cases hk
        · exact hv
        · simp [Clean]
      · exact hh a j u hu
    · simp only [hm, if_true]
      have hj' : j < s.len + 1 := hj
      rw [List.getElem?_eq_getElem (by simp only [List.length_append, List.length_cons, List.length_nil, hl]; omega)]
      rfl

/-- What an operation keeps. -/
structure Keeps (d d' : HData) : Prop where
  wf : d.WF → d'.WF
  clean : d.WF → CleanHeap d.heap → CleanHeap d'.heap
  fields : ∀ f ∈ d'.fields, f ∈ d.fields ∨ f = fLine ∨ f = fDistrict

theorem Keeps.refl (d : HData) : Keeps d d := ⟨id, fun _ k => k, fun _ h => .inl h⟩

theorem Keeps.trans {a b c : HData} (h : Keeps a b) (k : Keeps b c) : Keeps a c :=
  ⟨fun w => k.wf (h.wf w), fun w x => k.clean (h.wf w) (h.clean w x), fun f hf => by
    rcases k.fields f hf with h1 | h1
    · exact h.fields f h1
    · exact .inr h1⟩

/-- A loop over the rows each step of which keeps the row inside the heap. -/
theorem forRows_keeps {f : Heap → HRow → Res (Heap × HRow)}
    (hf : ∀ h r h' r', r.vals.In h → f h r = .ok (h', r') → Later h h' ∧ r'.vals.In h') :
    ∀ (rs : List HRow) (h h' : Heap) (rs' : List HRow), (∀ r ∈ rs, r.vals.In h) → forRows f h rs = .ok (h', rs') →
      Later h h' ∧ ∀ r ∈ rs', r.vals.In h'
  | [], h, h', rs', _, e => by cases e; exact ⟨.refl _, by simp⟩
  | r :: rs, h, h', rs', hin, e => by
    unfold forRows at e
    obtain ⟨⟨h1, r1⟩, e1, e⟩ := Res.bind_eq_ok.mp e
    obtain ⟨⟨h2, rs2⟩, e2, e⟩ := Res.bind_eq_ok.mp e
    cases e
    obtain ⟨k1, k2⟩ := hf _ _ _ _ (hin r (by simp)) e1
    obtain ⟨k3, k4⟩ := forRows_keeps hf rs h1 h' rs2 (fun x hx => k1.in (hin x (by simp [hx]))) e2
    refine ⟨k1.trans k3, fun x hx => ?_⟩
    rcases List.mem_cons.mp hx with rfl | hx
    · exact k3.in k2
    · exact k4 x hx

theorem keeps_of {d d' : HData} (hk : d.WF → Later d.heap d'.heap ∧ ∀ r ∈ d'.rows, r.vals.In d'.heap)
    (hf : ∀ f ∈ d'.fields, f ∈ d.fields ∨ f = fLine ∨ f = fDistrict) : Keeps d d' :=
  ⟨fun w => (hk w).2, fun w => (hk w).1.2, hf⟩

/-! ### ReplaceShortage -/

theorem replaceLoop_later {tbl : Nat → Option (GoMap Str)} (ht : ∀ i m v u, tbl i = some m → mapGet m v = some u → Clean u)
    {s : Slice} : ∀ (n i : Nat) (h h' : Heap), replaceLoop tbl s n i h = .ok h' → Later h h'
  | 0, _, h, h', e => by cases e; exact .refl _
  | n + 1, i, h, h', e => by
    unfold replaceLoop at e
    obtain ⟨v, _, e⟩ := Res.bind_eq_ok.mp e
    obtain ⟨h1, e1, e⟩ := Res.bind_eq_ok.mp e
    refine Later.trans ?_ (replaceLoop_later ht n (i + 1) h1 h' e)
    split at e1
    · cases e1; exact .refl _
    · rename_i m hm
      split at e1
      · cases e1; exact .refl _
      · rename_i u hu
        exact later_put e1 (ht i m v u hm hu)

theorem table_clean {f : Str} {m : GoMap Str} {v u : Str} (hm : mapGet NormalizedMap f = some m) (hu : mapGet m v = some u) :
    Clean u := by
  rcases NormalizedMap_cases (f := f) hm with h | h | h
  · rw [h.2] at hu; exact fun hm => avoidTable_spec plain_isp hu _ hm (by simp)
  · rw [h.2] at hu; exact fun hm => avoidTable_spec plain_province hu _ hm (by simp)
  · rw [h.2] at hu; exact fun hm => avoidTable_spec plain_city hu _ hm (by simp)

theorem keeps_shortage {d d' : HData} (e : ReplaceShortage NormalizedMap d = .ok d') : Keeps d d' := by
  unfold ReplaceShortage at e
  obtain ⟨⟨h1, rs⟩, e1, e⟩ := Res.bind_eq_ok.mp e
  cases e
  refine keeps_of (fun hw => ?_) (fun f hf => .inl hf)
  refine forRows_keeps (fun h r h' r' hr e => ?_) _ _ _ _ hw e1
  obtain ⟨h2, e2, e⟩ := Res.bind_eq_ok.mp e
  cases e
  have hk := replaceLoop_later (fun i m v u hi hu => ?_) _ _ _ _ e2
  · exact ⟨hk, hk.in hr⟩
  · unfold shortageTable at hi
    obtain ⟨f, _, hf⟩ := Option.bind_eq_some_iff.mp hi
    exact table_clean hf hu

/-! ### TrimAsnIspDup -/

theorem collectMain_main {i j : Nat} {h : Heap} : ∀ (rs : List HRow) (set : List (Str × Str)),
    collectMain i j h rs = .ok set → ∀ p ∈ set, p.1 ∈ mainIsp
  | [], set, e => by cases e; simp
  | r :: rs, set, e => by
    unfold collectMain at e
    obtain ⟨isp, _, e1⟩ := Res.bind_eq_ok.mp e
    split at e1
    · exact collectMain_main rs _ e1
    · obtain ⟨asn, _, e1⟩ := Res.bind_eq_ok.mp e1
      obtain ⟨rest', e2, e1⟩ := Res.bind_eq_ok.mp e1
      have ih := collectMain_main rs _ e2
      by_cases hm : InArray isp mainIsp = true
      · rw [if_pos hm] at e1
        cases e1
        intro p hp
        rcases List.mem_cons.mp hp with rfl | hp
        · exact InArray_iff.mp hm
        · exact ih p hp
      · rw [if_neg hm] at e1
        cases e1
        exact ih

theorem mainIsp_clean : ∀ v ∈ mainIsp, Clean v := by unfold Clean; decide +kernel

theorem asnMatch_clean {order : List Str} {s : Str} {set : List (Str × Str)} (hs : ∀ p ∈ set, p.1 ∈ mainIsp) :
    Clean (asnMatchIsp order s set) := by
  unfold asnMatchIsp
  cases hf : order.find? fun k => set.any fun p => p.1 == k && p.2 == s with
  | none => simp [Clean]
  | some k =>
    have := List.find?_some hf
    simp only [List.any_eq_true, Bool.and_eq_true, beq_iff_eq] at this
    obtain ⟨p, hp, rfl, _⟩ := this
    exact mainIsp_clean _ (hs p hp)

theorem trimLoop_later {i j : Nat} {set : List (Str × Str)} {orders : Nat → List Str} (hs : ∀ p ∈ set, p.1 ∈ mainIsp) :
    ∀ (rs : List HRow) (k : Nat) (h h' : Heap), trimLoop i j set orders k h rs = .ok h' → Later h h'
  | [], _, h, h', e => by cases e; exact .refl _
  | r :: rs, k, h, h', e => by
    unfold trimLoop at e
    obtain ⟨h1, e1, e⟩ := Res.bind_eq_ok.mp e
    refine Later.trans ?_ (trimLoop_later hs rs (k + 1) h1 h' e)
    unfold trimRow at e1
    obtain ⟨isp, _, e1⟩ := Res.bind_eq_ok.mp e1
    obtain ⟨asn, _, e1⟩ := Res.bind_eq_ok.mp e1
    split at e1
    · cases e1; exact .refl _
    · split at e1
      · exact later_put e1 (asnMatch_clean hs)
      · cases e1; exact .refl _

theorem keeps_trim {orders : Nat → List Str} {d d' : HData} (e : TrimAsnIspDup orders d = .ok d') : Keeps d d' := by
  unfold TrimAsnIspDup at e
  simp only [] at e
  split at e
  · cases e; exact .refl _
  · obtain ⟨set, e1, e⟩ := Res.bind_eq_ok.mp e
    split at e
    · cases e; exact .refl _
    · obtain ⟨h1, e2, e⟩ := Res.bind_eq_ok.mp e
      cases e
      have hk := trimLoop_later (collectMain_main _ _ e1) _ _ _ _ e2
      exact keeps_of (fun hw => ⟨hk, fun r hr => hk.in (hw r hr)⟩) (fun f hf => .inl hf)

/-! ### MergeNearNetwork -/

theorem mergeLoop_slices {h : Heap} : ∀ (rs : List HRow) (prev : Range × Slice) (out : List (Range × Slice)),
    mergeLoop h prev rs = .ok out → ∀ p ∈ out, p.2 = prev.2 ∨ ∃ r ∈ rs, p.2 = r.vals
  | [], prev, out, e, p, hp => by cases e; rw [List.mem_singleton.mp hp]; exact .inl rfl
  | r :: rs, prev, out, e, p, hp => by
    have other : ∀ out', (do
        let nr ← NewRange r.cidr
        let rest ← mergeLoop h (nr, r.vals) rs
        return prev :: rest) = Res.ok out' → p ∈ out' → p.2 = prev.2 ∨ ∃ x ∈ r :: rs, p.2 = x.vals := by
      intro out' e hp
      obtain ⟨nr, _, e⟩ := Res.bind_eq_ok.mp e
      obtain ⟨rest, e1, e⟩ := Res.bind_eq_ok.mp e
      cases e
      rcases List.mem_cons.mp hp with rfl | hp
      · exact .inl rfl
      · rcases mergeLoop_slices rs _ _ e1 p hp with h | ⟨x, hx, h⟩
        · exact .inr ⟨r, by simp, h⟩
        · exact .inr ⟨x, by simp [hx], h⟩
    unfold mergeLoop at e
    split at e
    · obtain ⟨⟨r', j⟩, _, e⟩ := Res.bind_eq_ok.mp e
      simp only [] at e
      split at e
      · rcases mergeLoop_slices rs _ _ e p hp with h | ⟨x, hx, h⟩
        · exact .inl h
        · exact .inr ⟨x, by simp [hx], h⟩
      · exact other _ e hp
    · exact other _ e hp

theorem splitRanges_slices : ∀ (ps : List (Range × Slice)) (rows : List HRow), splitRanges ps = .ok rows →
    ∀ r ∈ rows, ∃ p ∈ ps, r.vals = p.2
  | [], rows, e, r, hr => by cases e; cases hr
  | p :: ps, rows, e, r, hr => by
    unfold splitRanges at e
    split at e
    · obtain ⟨rest, e1, e⟩ := Res.bind_eq_ok.mp e
      cases e
      rcases List.mem_append.mp hr with h | h
      · obtain ⟨s, _, rfl⟩ := List.mem_map.mp h
        exact ⟨p, by simp, rfl⟩
      · obtain ⟨q, hq, h⟩ := splitRanges_slices ps _ e1 r h
        exact ⟨q, by simp [hq], h⟩
    all_goals cases e

theorem keeps_merge {d d' : HData} (e : MergeNearNetwork d = .ok d') : Keeps d d' := by
  unfold MergeNearNetwork at e
  split at e
  · cases e
  · rename_i r rs hr
    obtain ⟨nr, _, e⟩ := Res.bind_eq_ok.mp e
    obtain ⟨ranges, e1, e⟩ := Res.bind_eq_ok.mp e
    obtain ⟨rows, e2, e⟩ := Res.bind_eq_ok.mp e
    cases e
    refine keeps_of (fun hw => ⟨.refl _, fun x hx => ?_⟩) (fun f hf => .inl hf)
    obtain ⟨p, hp, hv⟩ := splitRanges_slices _ _ e2 x hx
    have hv' : x.vals = p.2 := hv
    rw [hv']
    rcases mergeLoop_slices _ _ _ e1 p hp with h | ⟨y, hy, h⟩
    · rw [h]; exact hw r (by rw [hr]; simp)
    · rw [h]; exact hw y (by rw [hr]; simp [hy])

/-! ### Lines and districts -/

theorem setOrAppend_later {grow : Nat → Nat} {off : Option Nat} {h h' : Heap} {r r' : HRow} {v : Str} (hr : r.vals.In h)
    (hv : Clean v) (e : setOrAppend grow off h r v = .ok (h', r')) : Later h h' ∧ r'.vals.In h' := by
  unfold setOrAppend at e
  split at e
  · have := later_append grow hr hv
    cases e
    exact this
  · obtain ⟨h1, e1, e⟩ := Res.bind_eq_ok.mp e
    cases e
    have := later_put e1 hv
    exact ⟨this, this.in hr⟩

theorem queryLine_clean {cidr : IPNet} {l : LineDb} {v : Str} (e : queryLine cidr l = .ok v) : Clean v := by
  have h3 : Clean (gs "移动") ∧ Clean (gs "电信") ∧ Clean (gs "联通") := by unfold Clean; decide +kernel
  unfold queryLine at e
  split at e
  · cases e
  · cases e; simp [Clean]
  · simp only [] at e
    have e := Res.ok.inj e
    rw [← e]
    split
    · split
      · exact h3.1
      · exact h3.2.1
    · rename_i k
      by_cases k0 : (splitByte 0x2F ‹IpInfo›.line).headD [] = []
      · rw [k0]; simp [Clean]
      · by_cases k1 : (splitByte 0x2F ‹IpInfo›.line).headD [] = gs "电信"
        · rw [k1]; exact h3.2.1
        · by_cases k2 : (splitByte 0x2F ‹IpInfo›.line).headD [] = gs "联通"
          · rw [k2]; exact h3.2.2
          · by_cases k3 : (splitByte 0x2F ‹IpInfo›.line).headD [] = gs "移动"
            · rw [k3]; exact h3.1
            · exact absurd ⟨k0, k1, k2, k3⟩ k

theorem lineFor_clean {c : Str} {cidr : IPNet} {l : LineDb} {v : Str}
    (e : (if c = china then queryLine cidr l else .ok []) = .ok v) : Clean v := by
  split at e
  · exact queryLine_clean e
  · cases e; simp [Clean]

theorem keeps_attachLine {grow : Nat → Nat} {dec : Int → Str} {l : LineDb} {d d' : HData}
    (e : AttachLineByCidr grow dec l d = .ok d') : Keeps d d' := by
  have hf : ∀ f ∈ (if (Offset fLine d.fields).isNone then d.fields ++ [fLine] else d.fields),
      f ∈ d.fields ∨ f = fLine ∨ f = fDistrict := by
    intro f hf
    split at hf
    · rcases List.mem_append.mp hf with h | h
      · exact .inl h
      · exact .inr (.inl (List.mem_singleton.mp h))
    · exact .inl hf
  unfold AttachLineByCidr at e
  simp only [] at e
  split at e
  · cases e
    exact keeps_of (fun hw => ⟨.refl _, hw⟩) hf
  · obtain ⟨⟨h1, rs⟩, e1, e⟩ := Res.bind_eq_ok.mp e
    cases e
    refine keeps_of (fun hw => ?_) hf
    refine forRows_keeps (fun h r h' r' hr e => ?_) _ _ _ _ hw e1
    obtain ⟨c, _, e⟩ := Res.bind_eq_ok.mp e
    obtain ⟨v, ev, e⟩ := Res.bind_eq_ok.mp e
    exact setOrAppend_later hr (lineFor_clean ev) e

theorem keeps_replaceLine {dec : Int → Str} {l : LineDb} {d d' : HData}
    (e : ReplaceLineByCidr dec l d = .ok d') : Keeps d d' := by
  unfold ReplaceLineByCidr at e
  simp only [] at e
  split at e
  · cases e; exact keeps_of (fun hw => ⟨.refl _, hw⟩) (fun f hf => .inl hf)
  · split at e
    · cases e; exact keeps_of (fun hw => ⟨.refl _, hw⟩) (fun f hf => .inl hf)
    · obtain ⟨⟨h1, rs⟩, e1, e⟩ := Res.bind_eq_ok.mp e
      cases e
      refine keeps_of (fun hw => ?_) (fun f hf => .inl hf)
      refine forRows_keeps (fun h r h' r' hr e => ?_) _ _ _ _ hw e1
      obtain ⟨c, _, e⟩ := Res.bind_eq_ok.mp e
      obtain ⟨v, ev, e⟩ := Res.bind_eq_ok.mp e
      split at e
      · obtain ⟨h2, e2, e⟩ := Res.bind_eq_ok.mp e
        cases e
        have := later_put e2 (lineFor_clean ev)
        exact ⟨this, this.in hr⟩
      · cases e; exact ⟨.refl _, hr⟩

theorem keeps_district {grow : Nat → Nat} {d d' : HData} (e : AttachDistrict grow d = .ok d') : Keeps d d' := by
  have hf : ∀ f ∈ (if (Offset fDistrict d.fields).isNone then d.fields ++ [fDistrict] else d.fields),
      f ∈ d.fields ∨ f = fLine ∨ f = fDistrict := by
    intro f hf
    split at hf
    · rcases List.mem_append.mp hf with h | h
      · exact .inl h
      · exact .inr (.inr (List.mem_singleton.mp h))
    · exact .inl hf
  unfold AttachDistrict at e
  simp only [] at e
  split at e
  · cases e
    exact keeps_of (fun hw => ⟨.refl _, hw⟩) hf
  · obtain ⟨⟨h1, rs⟩, e1, e⟩ := Res.bind_eq_ok.mp e
    cases e
    refine keeps_of (fun hw => ?_) hf
    refine forRows_keeps (fun h r h' r' hr e => ?_) _ _ _ _ hw e1
    obtain ⟨p, _, e⟩ := Res.bind_eq_ok.mp e
    refine setOrAppend_later hr ?_ e
    split
    · rename_i hp
      have hd := avoids_districtOf p
      rw [districtOf_table, if_neg hp] at hd
      exact fun hm => hd _ hm (by simp)
    · simp [Clean]

theorem keeps_operations {w : World} {orders : Nat → List Str} {lq : Option OpenDb} {rep : Bool} {d d' : HData}
    (e : runOps (operations w orders lq rep) d = .ok d') : Keeps d d' := by
  have go : ∀ (ops : List (HData → Res HData)) (d d' : HData), (∀ op ∈ ops, ∀ a b, op a = .ok b → Keeps a b) →
      runOps ops d = .ok d' → Keeps d d' := by
    intro ops
    induction ops with
    | nil => intro d d' _ e; cases e; exact .refl _
    | cons op ops ih =>
      intro d d' hk e
      unfold runOps at e
      obtain ⟨d1, e1, e⟩ := Res.bind_eq_ok.mp e
      exact (hk op (by simp) _ _ e1).trans (ih d1 d' (fun o ho => hk o (by simp [ho])) e)
  refine go _ d d' (fun op hop a b e => ?_) e
  unfold operations at hop
  simp only [List.mem_append, List.mem_cons, List.not_mem_nil, or_false] at hop
  rcases hop with ((rfl | rfl | rfl) | h) | rfl
  · exact keeps_shortage e
  · exact keeps_trim e
  · exact keeps_merge e
  · cases lq with
    | none => cases h
    | some q =>
      have h := List.mem_singleton.mp h
      subst h
      cases rep
      · exact keeps_attachLine e
      · exact keeps_replaceLine e
  · exact keeps_district e

/-! ## Dumps -/

theorem allocRows_clean {cap : Nat → Nat} : ∀ (rs : List IpRaw) (prev : Option Slice) (h : Heap), CleanHeap h →
    (∀ r ∈ rs, ∀ v ∈ r.values, Clean v) → CleanHeap (allocRows cap prev rs h).2
  | [], prev, h, hh, _ => hh
  | r :: rs, prev, h, hh, hr => by
    have fresh : CleanHeap (h ++ [r.values ++ List.replicate (cap r.values.length - r.values.length) []]) := by
      intro a j v hv
      rw [Heap.cell_append] at hv
      split at hv
      · have := List.mem_of_getElem? hv
        rcases List.mem_append.mp this with h1 | h1
        · exact hr r (by simp) v h1
        · rw [(List.mem_replicate.mp h1).2]; simp [Clean]
      · exact hh a j v hv
    have hr' : ∀ x ∈ rs, ∀ v ∈ x.values, Clean v := fun x hx => hr x (by simp [hx])
    unfold allocRows
    cases prev with
    | none => exact allocRows_clean rs _ _ fresh hr'
    | some s =>
      simp only []
      split
      · exact allocRows_clean rs _ _ hh hr'
      · exact allocRows_clean rs _ _ fresh hr'

theorem withSlices_dumped {cap : Nat → Nat} {x : Option (Res IpData)} {d : HData} (h : withSlices cap x = some (.ok d)) :
    ∃ D, d = dumped cap D := by
  unfold withSlices at h
  obtain ⟨r, _, h⟩ := Option.map_eq_some_iff.mp h
  obtain ⟨D, _, h⟩ := Res.bind_eq_ok.mp h
  exact ⟨D, (Res.ok.inj h).symm⟩

/-- Every dump of the converter gives rows with the sharing of `dumped`. -/
theorem dump_dumped {w : World} {fuel : Nat} {fs : Fs} {file rule : Str} {d : HData}
    (h : DumpFile (converterFormats w fuel) fs file rule [] = some (.ok d)) : ∃ cap D, d = dumped cap D := by
  unfold DumpFile at h
  split at h
  · cases h
  · split at h
    · cases h
    · rename_i create hg
      obtain ⟨r, h1, h⟩ := Option.map_eq_some_iff.mp h
      obtain ⟨d1, h2, h⟩ := Res.bind_eq_ok.mp h
      cases h
      subst h2
      unfold converterFormats plainInit memipInit ipdbInit awdbInit at hg
      simp only [Registry.RegisterDumpFormat, Registry.RegisterQueryFormat, Registry.RegisterPackFormat,
        Registry.GetDumpFormat, mapGet_mapSet, mapGet] at hg
      split at hg
      · cases hg; exact ⟨_, withSlices_dumped h1⟩
      · split at hg
        · cases hg; exact ⟨_, withSlices_dumped h1⟩
        · split at hg
          · cases hg; exact ⟨_, withSlices_dumped h1⟩
          · split at hg
            · cases hg; exact ⟨_, withSlices_dumped h1⟩
            · cases hg

/-! ## The property -/

/-- Whatever table the input dumps to with the chosen rule has the property. -/
def InputHas (w : World) (fuel : Nat) (fs : Fs) (a : Args) (P : IpData → Prop) : Prop :=
  ∀ h, DumpFile (converterFormats w fuel) fs a.input (ruleText a.rule) [] = some (.ok h) → P h.view

/-- The continent field, if there is one, is spelled `continent`. -/
def ContinentSpelled (D : IpData) : Prop := ∀ f ∈ D.fields, f ≠ gs "continent" → Ipdb.asciiLower f ≠ gs "continent"

instance (D) : Decidable (ContinentSpelled D) := by unfold ContinentSpelled; infer_instance

/-- What the run does with its outputs: nothing, because it does not get that far, or it writes them from one data set. -/
theorem run_cases (w : World) (fuel : Nat) (orders : Nat → List Str) (canCreate : Str → Bool) (fs : Fs) (a : Args) :
    (∃ x, (∀ f, x ≠ some (f, .ok ())) ∧ (∀ f r, x = some (f, r) → f = fs) ∧
      ∀ out, converter w fuel orders canCreate fs { a with output := out } = x) ∨
    ∃ d, d.WF ∧ (InputHas w fuel fs a CommaFree → Convert.NoCommas d) ∧
      (InputHas w fuel fs a ContinentSpelled → Convert.OneContinent d) ∧
      ∀ out, converter w fuel orders canCreate fs { a with output := out } =
        some (writeAll (converterFormats w fuel) canCreate (splitByte 0x2C out) fs d) := by
  have inner : ∀ lq : Option OpenDb,
      (∃ x : Option (Res HData), (∀ d, x ≠ some (.ok d)) ∧
        DumpFile (converterFormats w fuel) fs a.input (ruleText a.rule) (operations w orders lq a.lineReplace) = x) ∨
      ∃ d, d.WF ∧ (InputHas w fuel fs a CommaFree → Convert.NoCommas d) ∧
        (InputHas w fuel fs a ContinentSpelled → Convert.OneContinent d) ∧
        DumpFile (converterFormats w fuel) fs a.input (ruleText a.rule) (operations w orders lq a.lineReplace) = some (.ok d) := by
    intro lq
    cases hd : DumpFile (converterFormats w fuel) fs a.input (ruleText a.rule) (operations w orders lq a.lineReplace) with
    | none => exact .inl ⟨_, fun d h => (by cases h), rfl⟩
    | some r =>
      cases r with
      | err e => exact .inl ⟨_, fun d h => (by cases h), rfl⟩
      | panic => exact .inl ⟨_, fun d h => (by cases h), rfl⟩
      | ok d =>
        right
        obtain ⟨d0, h0, hops⟩ : ∃ d0, DumpFile (converterFormats w fuel) fs a.input (ruleText a.rule) [] = some (.ok d0) ∧
            runOps (operations w orders lq a.lineReplace) d0 = .ok d := by
          unfold DumpFile at hd ⊢
          split at hd
          · cases hd
          · split at hd
            · cases hd
            · obtain ⟨r, h1, h⟩ := Option.map_eq_some_iff.mp hd
              obtain ⟨d1, h2, h⟩ := Res.bind_eq_ok.mp h
              refine ⟨d1, ?_, h⟩
              rw [h1, h2]; rfl
        obtain ⟨cap, D, hD⟩ := dump_dumped h0
        have hk := keeps_operations hops
        obtain ⟨hw0, hv0⟩ := dumped_spec cap D
        rw [← hD] at hw0 hv0
        have hw := hk.wf hw0
        refine ⟨d, hw, fun hc => ?_, fun hc => ?_, rfl⟩
        · have hc := hc d0 h0
          rw [hv0] at hc
          have hcl : CleanHeap d0.heap := by
            rw [hD]
            exact allocRows_clean D.ips none [] (fun a j v hv => by simp [Heap.cell] at hv) hc
          have hcl := hk.clean hw0 hcl
          intro r hr v hv
          obtain ⟨x, hx, rfl⟩ := List.mem_map.mp hr
          obtain ⟨j, hj⟩ := List.getElem?_of_mem hv
          have hj' : (d.heap.read x.vals)[j]? = some v := hj
          rw [Heap.read_get?] at hj'
          split at hj'
          · exact hcl _ _ _ hj'
          · cases hj'
        · have hc := hc d0 h0
          intro f hf hne
          rcases hk.fields f hf with h | h | h
          · exact hc f h hne
          · rw [h]; decide +kernel
          · rw [h]; decide +kernel
  have finish : ∀ lq : Option OpenDb,
      (∃ x, (∀ f, x ≠ some (f, .ok ())) ∧ (∀ f r, x = some (f, r) → f = fs) ∧ ∀ out,
        ((DumpFile (converterFormats w fuel) fs a.input (ruleText a.rule) (operations w orders lq a.lineReplace)).map fun r => match r with
          | .ok d => writeAll (converterFormats w fuel) canCreate (splitByte 0x2C out) fs d
          | .err e => (fs, .err e)
          | .panic => (fs, .panic)) = x) ∨
      ∃ d, d.WF ∧ (InputHas w fuel fs a CommaFree → Convert.NoCommas d) ∧
        (InputHas w fuel fs a ContinentSpelled → Convert.OneContinent d) ∧ ∀ out,
        ((DumpFile (converterFormats w fuel) fs a.input (ruleText a.rule) (operations w orders lq a.lineReplace)).map fun r => match r with
          | .ok d => writeAll (converterFormats w fuel) canCreate (splitByte 0x2C out) fs d
          | .err e => (fs, .err e)
          | .panic => (fs, .panic)) = some (writeAll (converterFormats w fuel) canCreate (splitByte 0x2C out) fs d) := by
    intro lq
    rcases inner lq with ⟨x, hx, e⟩ | ⟨d, k1, k2, k3, e⟩
    · left
      rw [e]
      cases x with
      | none => exact ⟨none, fun f h => (by cases h), fun f r h => (by cases h), fun _ => rfl⟩
      | some r =>
        cases r with
        | ok d => exact absurd rfl (hx d)
        | err e' => exact ⟨some (fs, .err e'), fun f h => (by cases h), fun f r h => (by cases h; rfl), fun _ => rfl⟩
        | panic => exact ⟨some (fs, .panic), fun f h => (by cases h), fun f r h => (by cases h; rfl), fun _ => rfl⟩
    · right
      exact ⟨d, k1, k2, k3, fun out => by rw [e]; rfl⟩
  by_cases hl : a.line = []
  · rcases finish none with ⟨x, h1, h2, h3⟩ | ⟨d, h1, h2, h3, h4⟩
    · refine .inl ⟨x, h1, h2, fun out => ?_⟩
      unfold converter; simp only []; rw [if_neg (by rw [hl]; simp)]; exact h3 out
    · refine .inr ⟨d, h1, h2, h3, fun out => ?_⟩
      unfold converter; simp only []; rw [if_neg (by rw [hl]; simp)]; exact h4 out
  · cases hq : NewDb w (converterFormats w fuel) fs a.line with
    | err e =>
      refine .inl ⟨some (fs, .err e), fun f h => (by cases h), fun f r h => (by cases h; rfl), fun out => ?_⟩
      unfold converter; simp only []; rw [if_pos hl, hq]
    | panic =>
      refine .inl ⟨some (fs, .panic), fun f h => (by cases h), fun f r h => (by cases h; rfl), fun out => ?_⟩
      unfold converter; simp only []; rw [if_pos hl, hq]
    | ok q =>
      rcases finish (some q) with ⟨x, h1, h2, h3⟩ | ⟨d, h1, h2, h3, h4⟩
      · refine .inl ⟨x, h1, h2, fun out => ?_⟩
        unfold converter; simp only []; rw [if_pos hl, hq]; exact h3 out
      · refine .inr ⟨d, h1, h2, h3, fun out => ?_⟩
        unfold converter; simp only []; rw [if_pos hl, hq]; exact h4 out

theorem one_output {w : World} {fuel : Nat} {canCreate : Str → Bool} {fs : Fs} {d : HData} (hw : d.WF) (o : Str) :
    writeAll (converterFormats w fuel) canCreate [o] fs d =
      if canCreate o = false then (fs, .err (.other "create")) else match content w d o with
        | .ok b => (fs.set o b, .ok ())
        | .err e => (fs.set o [], .err e)
        | .panic => (fs.set o (leftBy (pathExt o) d), .panic) := by
  by_cases hcc : canCreate o = false
  · rw [if_pos hcc]
    unfold writeAll PackFile
    rw [if_pos hcc]
  · rw [if_neg hcc]
    obtain ⟨d', _, e⟩ := packFile_step (w := w) (fuel := fuel) (canCreate := canCreate) (fs := fs) hw (inv_start d) o
      (fun h => h.elim) (fun h => h.elim) (by simpa using hcc)
    unfold writeAll
    rw [e]
    cases content w d o <;> rfl

theorem mem_outputs_no_comma {c : UInt8} : ∀ (s : Str) (o : Str), o ∈ splitByte c s → c ∉ o
  | [], o, h => by
    simp only [splitByte, List.mem_singleton] at h
    rw [h]; simp
  | b :: s, o, h => by
    unfold splitByte at h
    split at h
    · rcases List.mem_cons.mp h with rfl | h
      · simp
      · exact mem_outputs_no_comma s o h
    · rename_i hb
      have ih := mem_outputs_no_comma (c := c) s
      cases hs : splitByte c s with
      | nil => exact absurd hs (splitByte_ne_nil c s)
      | cons x xs =>
        rw [hs] at h ih
        rcases List.mem_cons.mp h with rfl | h
        · simp only [List.mem_cons, not_or]
          exact ⟨fun e => hb e.symm, ih x (by simp)⟩
        · exact ih o (by simp [h])

/-- The two conditions of `C89_alone` make the outputs harmless to one another, and give the runs with one output. -/
theorem run_harmless (w : World) (fuel : Nat) (orders : Nat → List Str) (canCreate : Str → Bool) (fs : Fs) (a : Args)
    (hlast : TextLast (splitByte 0x2C a.output) ∨ InputHas w fuel fs a CommaFree)
    (hcont : ((splitByte 0x2C a.output).Pairwise fun x y => pathExt x = gs ".ipdb" → pathExt y ≠ gs ".scan") ∨
      InputHas w fuel fs a ContinentSpelled) :
    (∃ x, (∀ f, x ≠ some (f, .ok ())) ∧ (∀ f r, x = some (f, r) → f = fs) ∧
      ∀ out, converter w fuel orders canCreate fs { a with output := out } = x) ∨
    ∃ d, d.WF ∧ (splitByte 0x2C a.output).Pairwise (HarmlessFiles d) ∧
      converter w fuel orders canCreate fs a =
        some (writeAll (converterFormats w fuel) canCreate (splitByte 0x2C a.output) fs d) ∧
      ∀ o ∈ splitByte 0x2C a.output, converter w fuel orders canCreate fs { a with output := o } =
        some (if canCreate o = false then (fs, .err (.other "create")) else match content w d o with
          | .ok b => (fs.set o b, .ok ())
          | .err e => (fs.set o [], .err e)
          | .panic => (fs.set o (leftBy (pathExt o) d), .panic)) := by
  rcases run_cases w fuel orders canCreate fs a with h | ⟨d, hw, hc, hs, hrun⟩
  · exact .inl h
  · refine .inr ⟨d, hw, ?_, hrun a.output, fun o ho => ?_⟩
    · have p1 : (splitByte 0x2C a.output).Pairwise fun x y => pathExt x = gs ".scan" → pathExt y = gs ".scan" ∨ Convert.NoCommas d := by
        rcases hlast with h | h
        · exact h.imp fun {_ _} k e => .inl (k e)
        · exact List.pairwise_of_forall fun _ _ _ => .inr (hc h)
      have p2 : (splitByte 0x2C a.output).Pairwise fun x y => pathExt x = gs ".ipdb" → pathExt y ≠ gs ".scan" ∨ Convert.OneContinent d := by
        rcases hcont with h | h
        · exact h.imp fun {_ _} k e => .inl (k e)
        · exact List.pairwise_of_forall fun _ _ _ => .inr (hs h)
      exact (List.pairwise_and_iff.mpr ⟨p1, p2⟩)
    · rw [hrun, splitByte_noSep (mem_outputs_no_comma _ _ ho), one_output hw]

theorem alone_ok {w : World} {canCreate : Str → Bool} {fs f : Fs} {d : HData} {o : Str}
    (h : some (if canCreate o = false then (fs, .err (.other "create")) else match content w d o with
          | .ok b => (fs.set o b, .ok ())
          | .err e => (fs.set o [], .err e)
          | .panic => (fs.set o (leftBy (pathExt o) d), .panic)) = some (f, Res.ok ())) :
    canCreate o = true ∧ ∃ b, content w d o = .ok b ∧ f = fs.set o b := by
  have h := Option.some.inj h
  by_cases hcc : canCreate o = false
  · rw [if_pos hcc] at h; cases h
  · rw [if_neg hcc] at h
    refine ⟨by simpa using hcc, ?_⟩
    cases hb : content w d o with
    | ok b => rw [hb] at h; exact ⟨b, rfl, (congrArg Prod.fst h).symm⟩
    | err e => rw [hb] at h; cases h
    | panic => rw [hb] at h; cases h

/-- **C89.** In a conversion to several outputs, with or without a line file, of any input — the `.scan` outputs last or no
value with a comma in the input, and its continent field (if any) spelled `continent` or no `.ipdb` output before a `.scan`
output —: if every output can be written by a run that has it as only output, the run writes all of them, each with the
bytes that run writes, and changes no other file. -/
theorem C89_alone (w : World) (fuel : Nat) (orders : Nat → List Str) (canCreate : Str → Bool) (fs : Fs) (a : Args)
    (hlast : TextLast (splitByte 0x2C a.output) ∨ InputHas w fuel fs a CommaFree)
    (hcont : ((splitByte 0x2C a.output).Pairwise fun x y => pathExt x = gs ".ipdb" → pathExt y ≠ gs ".scan") ∨
      InputHas w fuel fs a ContinentSpelled)
    (hok : ∀ o ∈ splitByte 0x2C a.output, ∃ f, converter w fuel orders canCreate fs { a with output := o } = some (f, .ok ())) :
    ∃ fs', converter w fuel orders canCreate fs a = some (fs', .ok ()) ∧
      (∀ o ∈ splitByte 0x2C a.output, ∀ f, converter w fuel orders canCreate fs { a with output := o } = some (f, .ok ()) →
        fs' o = f o) ∧
      (∀ n, n ∉ splitByte 0x2C a.output → fs' n = fs n) := by
  rcases run_harmless w fuel orders canCreate fs a hlast hcont with ⟨x, h1, _, h3⟩ | ⟨d, hw, hpw, hrun, hsingle⟩
  · obtain ⟨o, ho⟩ : ∃ o, o ∈ splitByte 0x2C a.output := by
      cases h : splitByte 0x2C a.output with
      | nil => exact absurd h (splitByte_ne_nil _ _)
      | cons o _ => exact ⟨o, by simp⟩
    obtain ⟨f, hf⟩ := hok o ho
    rw [h3] at hf
    exact absurd hf (h1 f)
  · have hall : ∀ o ∈ splitByte 0x2C a.output, canCreate o = true ∧ ∃ b, content w d o = .ok b := by
      intro o ho
      obtain ⟨f, hf⟩ := hok o ho
      rw [hsingle o ho] at hf
      obtain ⟨h1, b, hb, _⟩ := alone_ok hf
      exact ⟨h1, b, hb⟩
    obtain ⟨fs', e, k2, k3⟩ := C89_written w fuel canCreate fs d hw _ hpw hall
    refine ⟨fs', by rw [hrun, e], fun o ho f hf => ?_, k3⟩
    rw [hsingle o ho] at hf
    obtain ⟨_, b, hb, rfl⟩ := alone_ok hf
    rw [k2 o ho]
    unfold written Fs.set
    rw [hb, if_pos rfl]

/-- **C89 (failing).** Under the same conditions: the first output whose own run fails, or panics, ends the run the same way.
The outputs before it are written as by their own runs, it is left as by its own run (empty, if it could be created; a `.memip` output
may hold its first lines when the run panics, `C66_exact`), and no other file changes. -/
theorem C89_fails (w : World) (fuel : Nat) (orders : Nat → List Str) (canCreate : Str → Bool) (fs : Fs) (a : Args)
    (pre post : List Str) (o : Str) (hos : splitByte 0x2C a.output = pre ++ o :: post)
    (hlast : TextLast (splitByte 0x2C a.output) ∨ InputHas w fuel fs a CommaFree)
    (hcont : ((splitByte 0x2C a.output).Pairwise fun x y => pathExt x = gs ".ipdb" → pathExt y ≠ gs ".scan") ∨
      InputHas w fuel fs a ContinentSpelled)
    (hok : ∀ p ∈ pre, ∃ f, converter w fuel orders canCreate fs { a with output := p } = some (f, .ok ()))
    (f : Fs) (r : Res Unit) (hf : converter w fuel orders canCreate fs { a with output := o } = some (f, r)) (hr : r ≠ .ok ()) :
    ∃ fs', converter w fuel orders canCreate fs a = some (fs', r) ∧
      (∀ p ∈ pre, ∀ g, converter w fuel orders canCreate fs { a with output := p } = some (g, .ok ()) → fs' p = g p) ∧
      fs' o = f o ∧ (∀ n, n ∉ pre → n ≠ o → fs' n = fs n) ∧ 
      (f o = fs o ∨ f o = some [] ∨ (pathExt o = gs ".memip" ∧ r = .panic)) := by
  rcases run_harmless w fuel orders canCreate fs a hlast hcont with ⟨x, h1, h2, h3⟩ | ⟨d, hw, hpw, hrun, hsingle⟩
  · have hpre : pre = [] := by
      cases pre with
      | nil => rfl
      | cons p pre =>
        obtain ⟨g, hg⟩ := hok p (by simp)
        rw [h3] at hg
        exact absurd hg (h1 g)
    subst hpre
    have hff : f = fs := h2 f r (by rw [← h3 o]; exact hf)
    refine ⟨fs, ?_, by simp, by rw [hff], fun n _ _ => rfl, .inl (by rw [hff])⟩
    have := h3 a.output
    rw [show converter w fuel orders canCreate fs a = x from this, ← h3 o, hf, hff]
  · have hop : o ∉ pre := by
      intro h
      obtain ⟨g, hg⟩ := hok o h
      rw [hf] at hg
      exact hr (congrArg Prod.snd (Option.some.inj hg))
    have hall : ∀ p ∈ pre, canCreate p = true ∧ ∃ b, content w d p = .ok b := by
      intro p hp
      obtain ⟨g, hg⟩ := hok p hp
      rw [hsingle p (by rw [hos]; simp [hp])] at hg
      obtain ⟨h1, b, hb, _⟩ := alone_ok hg
      exact ⟨h1, b, hb⟩
    rw [hos] at hpw
    obtain ⟨fs1, d1, S, P, hi, hS, hP, k4, k5, k6⟩ := writeAll_from (w := w) (fuel := fuel) (canCreate := canCreate) hw pre (o :: post)
      fs d False False (inv_start d) (fun h => h.elim) (fun h => h.elim) (fun h => h.elim) (fun h => h.elim) hpw hall
    have hkeep : ∀ p ∈ pre, ∀ g, converter w fuel orders canCreate fs { a with output := p } = some (g, .ok ()) → fs1 p = g p := by
      intro p hp g hg
      rw [hsingle p (by rw [hos]; simp [hp])] at hg
      obtain ⟨_, b, hb, rfl⟩ := alone_ok hg
      rw [k5 p hp b hb]
      unfold Fs.set
      rw [if_pos rfl]
    have hf' := Option.some.inj ((hsingle o (by rw [hos]; simp)).symm.trans hf)
    rw [hrun, hos, k4]
    unfold writeAll
    by_cases hcc : canCreate o = false
    · rw [if_pos hcc] at hf'
      cases hf'
      refine ⟨fs1, ?_, hkeep, k6 o hop, fun n hn _ => k6 n hn, .inl rfl⟩
      unfold PackFile
      rw [if_pos hcc]
    · rw [if_neg hcc] at hf'
      obtain ⟨d2, _, e2⟩ := packFile_step (w := w) (fuel := fuel) (canCreate := canCreate) (fs := fs1) hw hi o
        (fun h => hS h o (by simp)) (fun h => hP h o (by simp)) (by simpa using hcc)
      rw [e2]
      have hset : ∀ t n, n ∉ pre → n ≠ o → fs1.set o t n = fs n := by
        intro t n hn hno
        unfold Fs.set
        rw [if_neg hno, k6 n hn]
      have hset' : ∀ t, ∀ p ∈ pre, ∀ g, converter w fuel orders canCreate fs { a with output := p } = some (g, .ok ()) →
          fs1.set o t p = g p := by
        intro t p hp g hg
        rw [← hkeep p hp g hg]
        unfold Fs.set
        rw [if_neg (fun h : p = o => hop (h ▸ hp))]
      have hown : ∀ t, fs1.set o t o = fs.set o t o := by intro t; unfold Fs.set; rw [if_pos rfl, if_pos rfl]
      have hempty : ∀ t, fs.set o t o = some t := by intro t; unfold Fs.set; rw [if_pos rfl]
      cases hb : content w d o with
      | ok b => rw [hb] at hf'; exact absurd (congrArg Prod.snd hf').symm hr
      | err e =>
        rw [hb] at hf'
        cases hf'
        exact ⟨_, rfl, hset' _, hown _, hset _, .inr (.inl (hempty _))⟩
      | panic =>
        rw [hb] at hf'
        cases hf'
        refine ⟨_, rfl, hset' _, hown _, hset _, .inr ?_⟩
        by_cases hm : pathExt o = gs ".memip"
        · exact .inr ⟨hm, rfl⟩
        · left
          rw [hempty]
          unfold leftBy
          rw [if_neg hm]

end Uip.Program
