import Verif.Proof.Json.Values
/-!
# Whatever JSON decoding assigns to a string is UTF-8 text
-/
namespace Uip.Json
open Uip

/-- The text between the quotes of a JSON string. -/
inductive Raw : Bytes → Prop
  | nil : Raw []
  | plain {b : UInt8} {r : Bytes} : b ≠ 0x5C → Raw r → Raw (b :: r)
  | short {c : UInt8} {r : Bytes} : c ≠ 0x75 → c < 0x80 → Raw r → Raw (0x5C :: c :: r)
  | long {a b c d : UInt8} {r : Bytes} : Raw r → Raw (0x5C :: 0x75 :: a :: b :: c :: d :: r)

theorem scanStr_raw : ∀ (n : Nat) (s p r : Bytes), s.length ≤ n → scanStr s = some (p, r) → Raw p := by
  intro n
  induction n with
  | zero =>
    intro s p r hn h
    rw [List.length_eq_zero_iff.mp (by omega : s.length = 0)] at h
    cases h
  | succ n ih =>
    intro s p r hn h
    match s with
    | [] => cases h
    | b :: t =>
      rw [scanStr.eq_def] at h
      simp only [] at h
      split at h
      · cases h; exact .nil
      · split at h
        · rename_i h1
          subst h1
          match t with
          | [] => cases h
          | c :: t =>
            simp only [] at h
            split at h
            · rename_i h2
              subst h2
              match t with
              | [] => cases h
              | [_] => cases h
              | [_, _] => cases h
              | [_, _, _] => cases h
              | d1 :: d2 :: d3 :: d4 :: t =>
                simp only [] at h
                split at h
                · cases hs : scanStr t with
                  | none => rw [hs] at h; cases h
                  | some x =>
                    rw [hs] at h
                    cases h
                    exact .long (ih t x.1 x.2 (by simp at hn; omega) hs)
                · cases h
            · split at h
              · rename_i h2 h3
                cases hs : scanStr t with
                | none => rw [hs] at h; cases h
                | some x =>
                  rw [hs] at h
                  cases h
                  refine .short h2 ?_ (ih t x.1 x.2 (by simp at hn; omega) hs)
                  rcases h3 with rfl | rfl | rfl | rfl | rfl | rfl | rfl | rfl <;> decide
              · cases h
        · split at h
          · cases h
          · rename_i h1 h2
            cases hs : scanStr t with
            | none => rw [hs] at h; cases h
            | some x =>
              rw [hs] at h
              cases h
              exact .plain h1 (ih t x.1 x.2 (by simp at hn; omega) hs)

theorem isText_append {a b : Str} (ha : IsText a) (hb : IsText b) : IsText (a ++ b) := by
  obtain ⟨x, rfl⟩ := ha
  obtain ⟨y, rfl⟩ := hb
  refine ⟨x ++ y, ?_⟩
  simp [gs]

theorem isText_rune {s : Str} (h : runeLen s = some s.length) : IsText s := by
  obtain ⟨c, hc⟩ := char_of_runeLen h
  rw [List.take_length] at hc
  rw [hc]
  have := isText_char c isText_nil
  rwa [List.append_nil] at this

theorem isText_runeError : IsText runeError := isText_rune (by decide)

theorem isText_encodeRune (n : Nat) : IsText (encodeRune n) := by
  unfold encodeRune
  split
  · exact isText_rune (by rw [runeLen_one (by rw [lt_byte, byte_toNat _ (by omega)]; exact ‹n < 128›)]; rfl)
  · split
    · exact isText_rune (by
        rw [runeLen_two (by rw [byte_toNat _ (by omega)]; omega) (by rw [byte_toNat _ (by omega)]; omega)
          (by rw [byte_toNat _ (by omega)]; omega) (by rw [byte_toNat _ (by omega)]; omega)]
        rfl)
    · split
      · exact isText_runeError
      · split
        · refine isText_rune ?_
          rw [runeLen_three]
          · rfl
          all_goals (repeat rw [byte_toNat _ (by omega)])
          all_goals first | omega | (split <;> omega)
        · refine isText_rune ?_
          rw [runeLen_four]
          · rfl
          all_goals (repeat rw [byte_toNat _ (by omega)])
          all_goals first | omega | (split <;> omega)

theorem Raw.drop : ∀ (n : Nat) {s : Bytes}, Raw s → (∀ b ∈ s.take n, ¬ b < 0x80) → Raw (s.drop n)
  | 0, s, h, _ => h
  | n + 1, [], h, _ => h
  | n + 1, b :: r, h, hb => by
    have h0 := hb b (by simp)
    cases h with
    | plain h1 h2 => exact Raw.drop n h2 (fun c hc => hb c (by simp [hc]))
    | short => exact absurd (by decide) h0
    | long => exact absurd (by decide) h0

theorem raw_tail {b : UInt8} {r : Bytes} (h : Raw (b :: r)) (hb : b ≠ 0x5C) : Raw r := by
  cases h with
  | plain _ h => exact h
  | short => exact absurd rfl hb
  | long => exact absurd rfl hb

theorem isText_ascii {b : UInt8} {s : Str} (hb : b < 0x80) (h : IsText s) : IsText (b :: s) := by
  have : IsText [b] := isText_rune (by rw [runeLen_one hb]; rfl)
  exact isText_append this h

theorem isText_unquoteU (r : Bytes) : IsText (unquoteU r).1 := by
  unfold unquoteU
  split
  · exact isText_nil
  · simp only []
    split
    · split
      · split
        · rename_i m _ _
          generalize 0x10000 + _ + _ = k
          exact isText_encodeRune k
        · exact isText_runeError
      · exact isText_runeError
    · exact isText_encodeRune _

theorem raw_unquoteU {r : Bytes} (h : Raw (0x5C :: 0x75 :: r)) : Raw (unquoteU r).2 := by
  have hd : Raw (r.drop 4) := by
    cases h with
    | plain h _ => exact absurd rfl h
    | short h _ _ => exact absurd rfl h
    | long h => exact h
  unfold unquoteU
  split
  · exact .nil
  · simp only []
    split
    · split
      · rename_i hl
        split
        · generalize r.drop 4 = t at hd hl
          unfold lowHalf at hl
          split at hl
          · cases hd with
            | plain h _ => exact absurd rfl h
            | short h _ _ => exact absurd rfl h
            | long h => exact h
          · cases hl
        · exact hd
      · exact hd
    · exact hd

theorem unescape_ascii {c : UInt8} (h : c < 0x80) : unescape c < 0x80 := by
  unfold unescape
  repeat' split
  all_goals first | exact h | decide

theorem isText_unquoteLoop : ∀ (f : Nat) {s : Bytes}, Raw s → IsText (unquoteLoop f s)
  | 0, _, _ => isText_nil
  | f + 1, [], _ => isText_nil
  | f + 1, b :: r, h => by
    unfold unquoteLoop
    split
    · rename_i hb
      subst hb
      match r with
      | [] => exact isText_nil
      | c :: r =>
        simp only []
        split
        · rename_i hc
          subst hc
          exact isText_append (isText_unquoteU r) (isText_unquoteLoop f (raw_unquoteU h))
        · rename_i hc
          cases h with
          | plain h _ => exact absurd rfl h
          | short _ h1 h2 => exact isText_ascii (unescape_ascii h1) (isText_unquoteLoop f h2)
          | long => exact absurd rfl hc
    · rename_i hb
      split
      · rename_i h8
        exact isText_ascii h8 (isText_unquoteLoop f (raw_tail h hb))
      · rename_i h8
        split
        · exact isText_append isText_runeError (isText_unquoteLoop f (raw_tail h hb))
        · rename_i n hn
          refine isText_append ?_ (isText_unquoteLoop f (h.drop n (high_bytes hn (by intro a ha; cases ha; exact h8))))
          obtain ⟨c, hc⟩ := char_of_runeLen hn
          rw [hc]
          have := isText_char c isText_nil
          rwa [List.append_nil] at this

theorem isText_unquote {s : Bytes} (h : Raw s) : IsText (unquote s) := isText_unquoteLoop _ h

/-- All strings of a value are such texts, down to a depth. -/
def Texty : Nat → JVal → Prop
  | _, .str raw => Raw raw
  | d + 1, .arr l => ∀ v ∈ l, Texty d v
  | d + 1, .obj l => ∀ p ∈ l, Raw p.1 ∧ Texty d p.2
  | _, _ => True

theorem scanScalar_texty {s r : Bytes} {v : JVal} (h : scanScalar s = some (v, r)) (d : Nat) : Texty d v := by
  unfold scanScalar at h
  split at h
  · cases h
  · split at h
    · rename_i t _
      cases hs : scanStr t with
      | none => rw [hs] at h; cases h
      | some x =>
        rw [hs] at h
        cases h
        have := scanStr_raw t.length t x.1 x.2 (Nat.le_refl _) hs
        cases d <;> exact this
    · have plain : ∀ {α : Type} (o : Option α) (f : α → JVal × Bytes), (∀ a, Texty d (f a).1) → o.map f = some (v, r) → Texty d v := by
        intro α o f hf ho
        cases o with
        | none => cases ho
        | some a => have := hf a; cases ho' : f a with | mk x y => rw [Option.map_some, ho'] at ho; cases ho; rw [ho'] at this; exact this
      split at h
      · exact plain _ _ (fun a => by cases d <;> trivial) h
      · split at h
        · exact plain _ _ (fun a => by cases d <;> trivial) h
        · split at h
          · exact plain _ _ (fun a => by cases d <;> trivial) h
          · split at h
            · exact plain _ _ (fun a => by cases d <;> trivial) h
            · cases h

theorem scanElems_texty {pv : Bytes → Option (JVal × Bytes)} {P : JVal → Prop} (ih : ∀ s v r, pv s = some (v, r) → P v) :
    ∀ (f : Nat) (s : Bytes) (l : List JVal) (r : Bytes), scanElems pv f s = some (l, r) → ∀ v ∈ l, P v
  | 0, _, _, _, h => by cases h
  | f + 1, s, l, r, h => by
    unfold scanElems at h
    split at h
    · cases h
    · rename_i v s1 hv
      split at h
      · cases h
      · rename_i b s2 hs2
        split at h
        · cases hr : scanElems pv f s2 with
          | none => rw [hr] at h; cases h
          | some x =>
            rw [hr] at h
            cases h
            intro w hw
            rcases List.mem_cons.mp hw with rfl | hw
            · exact ih _ _ _ hv
            · exact scanElems_texty ih f s2 x.1 x.2 hr w hw
        · split at h
          · cases h
            intro w hw
            rw [List.mem_singleton.mp hw]
            exact ih _ _ _ hv
          · cases h

theorem scanKey_raw {s k r : Bytes} (h : scanKey s = some (k, r)) : Raw k := by
  unfold scanKey at h
  split at h
  · rename_i t _
    split at h
    · cases h
    · rename_i k' t' hs
      split at h
      · cases h
        exact scanStr_raw t.length t _ _ (Nat.le_refl _) hs
      · cases h
  · cases h

theorem scanMembers_texty {pv : Bytes → Option (JVal × Bytes)} {P : JVal → Prop} (ih : ∀ s v r, pv s = some (v, r) → P v) :
    ∀ (f : Nat) (s : Bytes) (l : List (Bytes × JVal)) (r : Bytes), scanMembers pv f s = some (l, r) → ∀ p ∈ l, Raw p.1 ∧ P p.2
  | 0, _, _, _, h => by cases h
  | f + 1, s, l, r, h => by
    unfold scanMembers at h
    split at h
    · cases h
    · rename_i k s0 hk
      split at h
      · cases h
      · rename_i v s1 hv
        split at h
        · cases h
        · rename_i b s2 hs2
          split at h
          · cases hr : scanMembers pv f s2 with
            | none => rw [hr] at h; cases h
            | some x =>
              rw [hr] at h
              cases h
              intro w hw
              rcases List.mem_cons.mp hw with rfl | hw
              · exact ⟨scanKey_raw hk, ih _ _ _ hv⟩
              · exact scanMembers_texty ih f s2 x.1 x.2 hr w hw
          · split at h
            · cases h
              intro w hw
              rw [List.mem_singleton.mp hw]
              exact ⟨scanKey_raw hk, ih _ _ _ hv⟩
            · cases h

theorem scanValue_texty : ∀ (d : Nat) (s : Bytes) (v : JVal) (r : Bytes), scanValue d s = some (v, r) → Texty d v
  | 0, s, v, r, h => by
    unfold scanValue at h
    exact scanScalar_texty h 0
  | d + 1, s, v, r, h => by
    unfold scanValue at h
    split at h
    · cases h
    · rename_i b t _
      split at h
      · split at h
        · cases h
          intro v hv
          cases hv
        · cases he : scanElems (scanValue d) (t.length + 1) t with
          | none => rw [he] at h; cases h
          | some x =>
            rw [he] at h
            cases h
            exact scanElems_texty (fun s v r => scanValue_texty d s v r) _ _ _ _ he
      · split at h
        · split at h
          · cases h
            intro v hv
            cases hv
          · cases he : scanMembers (scanValue d) (t.length + 1) t with
            | none => rw [he] at h; cases h
            | some x =>
              rw [he] at h
              cases h
              exact scanMembers_texty (fun s v r => scanValue_texty d s v r) _ _ _ _ he
        · exact scanScalar_texty h _

theorem parse_texty {s : Bytes} {v : JVal} (h : parse s = some v) : Texty maxDepth v := by
  unfold parse at h
  split at h
  · cases h
  · rename_i v' r hs
    split at h
    · cases h
      exact scanValue_texty _ _ _ _ hs
    · cases h

/-! ## What is assigned -/

theorem putStr_text {old s : Str} {d : Nat} {v : JVal} (ho : IsText old) (hv : Texty d v) (h : putStr old v = some s) : IsText s := by
  cases v with
  | null => cases h; exact ho
  | str raw => cases h; exact isText_unquote (by cases d <;> exact hv)
  | _ => cases h

theorem putElems_text {d : Nat} : ∀ {old : List Str} {l : List JVal} {es : List Str}, (∀ s ∈ old, IsText s) → (∀ v ∈ l, Texty d v) →
    putElems old l = some es → ∀ s ∈ es, IsText s
  | old, [], es, _, _, h => by cases h; intro s hs; cases hs
  | old, v :: l, es, ho, hv, h => by
    unfold putElems at h
    split at h
    · cases h
    · rename_i s hs
      cases hr : putElems old.tail l with
      | none => rw [hr] at h; cases h
      | some x =>
        rw [hr] at h
        cases h
        intro t ht
        rcases List.mem_cons.mp ht with rfl | ht
        · refine putStr_text ?_ (hv v (List.mem_cons_self ..)) hs
          cases old with
          | nil => exact isText_nil
          | cons a old => exact ho a (List.mem_cons_self ..)
        · exact putElems_text (fun s hs => ho s (List.mem_of_mem_tail hs)) (fun w hw => hv w (List.mem_cons_of_mem _ hw)) hr t ht

/-- The texts of a slice, those its array holds beyond its end included. -/
def SliceTexts (l : SliceVal) : Prop := ∀ s ∈ l.elems ++ l.after, IsText s

theorem sliceTexts_nil : SliceTexts {} := fun s hs => by cases hs

theorem putStrings_text {old l : SliceVal} {d : Nat} {v : JVal} (ho : SliceTexts old) (hv : Texty (d + 1) v) (h : putStrings old v = some l) :
    SliceTexts l := by
  unfold putStrings at h
  split at h
  · cases h; exact sliceTexts_nil
  · cases h; exact sliceTexts_nil
  · rename_i vs _
    cases he : putElems (old.elems ++ old.after) vs with
    | none => rw [he] at h; cases h
    | some es =>
      rw [he] at h
      cases h
      intro s hs
      rcases List.mem_append.mp hs with hs | hs
      · exact putElems_text ho hv he s hs
      · exact ho s (List.mem_of_mem_drop hs)
  · cases h

theorem putPairs_text {d : Nat} : ∀ {l : List (Bytes × JVal)} {m m' : GoMap Int}, (∀ p ∈ m, IsText p.1) → (∀ p ∈ l, Raw p.1 ∧ Texty d p.2) →
    putPairs m l = some m' → ∀ p ∈ m', IsText p.1
  | [], m, m', hm, _, h => by cases h; exact hm
  | (k, v) :: l, m, m', hm, hl, h => by
    unfold putPairs at h
    split at h
    · cases h
    · refine putPairs_text ?_ (fun p hp => hl p (List.mem_cons_of_mem _ hp)) h
      intro p hp
      unfold mapSet at hp
      rcases List.mem_cons.mp hp with rfl | hp
      · exact isText_unquote (hl _ (List.mem_cons_self ..)).1
      · exact hm p (List.mem_filter.mp hp).1

/-- All texts of the metadata being assigned to. -/
def MetaTexts (m : MetaDest) : Prop := SliceTexts m.fields ∧ IsText m.version ∧ SliceTexts m.extra ∧ ∀ p ∈ m.languages, IsText p.1

theorem putMetaField_text {m m' : MetaDest} {key : Str} {d : Nat} {v : JVal} (hm : MetaTexts m) (hv : Texty (d + 1) v)
    (h : putMetaField m key v = some m') : MetaTexts m' := by
  obtain ⟨h1, h2, h3, h4⟩ := hm
  have take : ∀ {α : Type} {o : Option α} {f : α → MetaDest}, o.map f = some m' → ∃ x, o = some x ∧ f x = m' := by
    intro α o f ho
    cases o with
    | none => cases ho
    | some x => exact ⟨x, rfl, Option.some.inj ho⟩
  unfold putMetaField at h
  split at h
  · cases h; exact ⟨h1, h2, h3, h4⟩
  · split at h
    · obtain ⟨x, _, rfl⟩ := take h; exact ⟨h1, h2, h3, h4⟩
    · split at h
      · obtain ⟨x, _, rfl⟩ := take h; exact ⟨h1, h2, h3, h4⟩
      · split at h
        · obtain ⟨x, hx, rfl⟩ := take h
          refine ⟨h1, h2, h3, ?_⟩
          unfold putMap at hx
          split at hx
          · cases hx; intro p hp; cases hp
          · exact putPairs_text h4 hv hx
          · cases hx
        · split at h
          · obtain ⟨x, _, rfl⟩ := take h; exact ⟨h1, h2, h3, h4⟩
          · split at h
            · obtain ⟨x, _, rfl⟩ := take h; exact ⟨h1, h2, h3, h4⟩
            · split at h
              · obtain ⟨x, hx, rfl⟩ := take h; exact ⟨putStrings_text h1 hv hx, h2, h3, h4⟩
              · split at h
                · obtain ⟨x, hx, rfl⟩ := take h; exact ⟨h1, putStr_text h2 hv hx, h3, h4⟩
                · obtain ⟨x, hx, rfl⟩ := take h; exact ⟨h1, h2, putStrings_text h3 hv hx, h4⟩

theorem putMeta_text {d : Nat} : ∀ {l : List (Bytes × JVal)} {m m' : MetaDest}, MetaTexts m → (∀ p ∈ l, Raw p.1 ∧ Texty (d + 1) p.2) →
    putMeta m l = some m' → MetaTexts m'
  | [], m, m', hm, _, h => by cases h; exact hm
  | (k, v) :: l, m, m', hm, hl, h => by
    unfold putMeta at h
    split at h
    · cases h
    · rename_i m1 h1
      exact putMeta_text (putMetaField_text hm (hl _ (List.mem_cons_self ..)).2 h1) (fun p hp => hl p (List.mem_cons_of_mem _ hp)) h

/-- Whatever bytes are decoded as metadata, the texts in it are UTF-8. -/
theorem unmarshalMeta_texts {s : Bytes} {m : Ipdb.MetaData} (h : unmarshalMeta s = some m) :
    (∀ f ∈ m.fields, IsText f) ∧ IsText m.version ∧ (∀ f ∈ m.extra, IsText f) ∧ ∀ p ∈ m.languages, IsText p.1 := by
  unfold unmarshalMeta at h
  split at h
  · rename_i l hp
    cases hm : putMeta {} l with
    | none => rw [hm] at h; cases h
    | some x =>
      rw [hm] at h
      have ht : Texty (9998 + 2) (.obj l) := parse_texty hp
      obtain ⟨h1, h2, h3, h4⟩ := putMeta_text ⟨sliceTexts_nil, isText_nil, sliceTexts_nil, fun p hp => by cases hp⟩ ht hm
      cases h
      exact ⟨fun f hf => h1 f (List.mem_append_left _ hf), h2, fun f hf => h3 f (List.mem_append_left _ hf), h4⟩
  · cases h
    exact ⟨(by intro f hf; cases hf), isText_nil, (by intro f hf; cases hf), (by intro f hf; cases hf)⟩
  · cases h

/-- All texts of the version being assigned to. -/
def VersionTexts (m : VersionDest) : Prop := IsText m.version ∧ SliceTexts m.languages ∧ SliceTexts m.extraInfo

theorem putVersionField_text {m m' : VersionDest} {key : Str} {d : Nat} {v : JVal} (hm : VersionTexts m) (hv : Texty (d + 1) v)
    (h : putVersionField m key v = some m') : VersionTexts m' := by
  obtain ⟨h1, h2, h3⟩ := hm
  have take : ∀ {α : Type} {o : Option α} {f : α → VersionDest}, o.map f = some m' → ∃ x, o = some x ∧ f x = m' := by
    intro α o f ho
    cases o with
    | none => cases ho
    | some x => exact ⟨x, rfl, Option.some.inj ho⟩
  unfold putVersionField at h
  split at h
  · cases h; exact ⟨h1, h2, h3⟩
  · split at h
    · obtain ⟨x, _, rfl⟩ := take h; exact ⟨h1, h2, h3⟩
    · split at h
      · obtain ⟨x, _, rfl⟩ := take h; exact ⟨h1, h2, h3⟩
      · split at h
        · obtain ⟨x, _, rfl⟩ := take h; exact ⟨h1, h2, h3⟩
        · split at h
          · obtain ⟨x, hx, rfl⟩ := take h; exact ⟨putStr_text h1 hv hx, h2, h3⟩
          · split at h
            · obtain ⟨x, hx, rfl⟩ := take h; exact ⟨h1, putStrings_text h2 hv hx, h3⟩
            · obtain ⟨x, hx, rfl⟩ := take h; exact ⟨h1, h2, putStrings_text h3 hv hx⟩

theorem putVersion_text {d : Nat} : ∀ {l : List (Bytes × JVal)} {m m' : VersionDest}, VersionTexts m →
    (∀ p ∈ l, Raw p.1 ∧ Texty (d + 1) p.2) → putVersion m l = some m' → VersionTexts m'
  | [], m, m', hm, _, h => by cases h; exact hm
  | (k, v) :: l, m, m', hm, hl, h => by
    unfold putVersion at h
    split at h
    · cases h
    · rename_i m1 h1
      exact putVersion_text (putVersionField_text hm (hl _ (List.mem_cons_self ..)).2 h1) (fun p hp => hl p (List.mem_cons_of_mem _ hp)) h

/-- Whatever bytes are decoded as a version, the texts in it are UTF-8. -/
theorem unmarshalVersion_texts {s : Bytes} {v : VersionInfo} (h : unmarshalVersion s = some (some v)) :
    IsText v.version ∧ (∀ f ∈ v.languages, IsText f) ∧ ∀ f ∈ v.extraInfo, IsText f := by
  unfold unmarshalVersion at h
  split at h
  · rename_i l hp
    cases hm : putVersion {} l with
    | none => rw [hm] at h; cases h
    | some x =>
      rw [hm] at h
      have ht : Texty (9998 + 2) (.obj l) := parse_texty hp
      obtain ⟨h1, h2, h3⟩ := putVersion_text ⟨isText_nil, sliceTexts_nil, sliceTexts_nil⟩ ht hm
      have h := Option.some.inj (Option.some.inj h)
      subst h
      exact ⟨h1, fun f hf => h2 f (List.mem_append_left _ hf), fun f hf => h3 f (List.mem_append_left _ hf)⟩
  · cases h
  · cases h

end Uip.Json
