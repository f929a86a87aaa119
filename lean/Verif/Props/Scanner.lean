import Verif.Model.Scanner
import Verif.Spec.Lines
/-!
# Property C124: the lines of a text, however it is read
-/
namespace Uip.Scanner
open Uip Spec.Lines

/-! ## The lines -/

theorem dropCR_bare (p q : Str) : dropCR p = q ↔ Bare p q := by
  unfold dropCR Bare
  constructor
  · intro h
    split at h
    · rename_i e
      obtain ⟨r, rfl⟩ : ∃ r, p = r ++ [0x0D] := by
        obtain ⟨ys, hy⟩ := List.getLast?_eq_some_iff.mp e
        exact ⟨ys, hy⟩
      rw [List.dropLast_concat] at h
      exact .inl (by rw [h])
    · rename_i e
      exact .inr ⟨h, fun r hr => e (by rw [hr]; simp)⟩
  · rintro (rfl | ⟨rfl, h⟩)
    · simp
    · rw [if_neg]
      intro e
      obtain ⟨ys, hy⟩ := List.getLast?_eq_some_iff.mp e
      exact h _ hy

theorem cutByte_none {c : UInt8} {s : Str} : cutByte c s = none ↔ c ∉ s := by
  induction s with
  | nil => simp [cutByte]
  | cons b s ih =>
    unfold cutByte
    by_cases h : b = c
    · simp [h]
    · rw [if_neg h]
      simp only [Option.map_eq_none_iff, ih, List.mem_cons, not_or]
      exact ⟨fun h' => ⟨fun e => h e.symm, h'⟩, fun h' => h'.2⟩

theorem cutByte_some {c : UInt8} {s p t : Str} (h : cutByte c s = some (p, t)) : s = p ++ c :: t ∧ c ∉ p := by
  induction s generalizing p with
  | nil => simp [cutByte] at h
  | cons b s ih =>
    unfold cutByte at h
    by_cases e : b = c
    · rw [if_pos e] at h
      cases h
      simp [e]
    · rw [if_neg e] at h
      obtain ⟨⟨p', t'⟩, h1, h2⟩ := Option.map_eq_some_iff.mp h
      cases h2
      obtain ⟨h3, h4⟩ := ih h1
      refine ⟨by rw [h3]; rfl, ?_⟩
      simp only [List.mem_cons, not_or]
      exact ⟨fun x => e x.symm, h4⟩

theorem scanLines_line {p t : Str} (h : (0x0A : UInt8) ∉ p) (hl : p.length < 65536) :
    scanLines (p ++ 0x0A :: t) = (dropCR p :: (scanLines t).1, (scanLines t).2) := by
  unfold scanLines
  rw [splitByte_append h]
  cases e : splitByte 0x0A t with
  | nil => exact absurd e (splitByte_ne_nil _ _)
  | cons q qs => rw [scanPieces, if_neg (by unfold maxToken; omega)]

theorem scanLines_long {p t : Str} (h : (0x0A : UInt8) ∉ p) (hl : 65536 ≤ p.length) : scanLines (p ++ t) = ([], true) := by
  unfold scanLines
  cases e : cutByte 0x0A t with
  | none =>
    have hn := cutByte_none.mp e
    rw [splitByte_noSep (by simp [h, hn]), scanPieces, if_pos (by unfold maxToken; rw [List.length_append]; omega)]
  | some x =>
    obtain ⟨q, r⟩ := x
    obtain ⟨rfl, hq⟩ := cutByte_some e
    rw [← List.append_assoc, splitByte_append (by simp [h, hq])]
    cases e : splitByte 0x0A r with
    | nil => exact absurd e (splitByte_ne_nil _ _)
    | cons a as => rw [scanPieces, if_pos (by unfold maxToken; rw [List.length_append]; omega)]

theorem scanLines_last {p : Str} (hp : p ≠ []) (h : (0x0A : UInt8) ∉ p) (hl : p.length < 65536) :
    scanLines p = ([dropCR p], false) := by
  unfold scanLines
  rw [splitByte_noSep h, scanPieces, if_neg (by unfold maxToken; omega), if_neg hp]

/-- The lines of the model are the lines of the text. -/
theorem scanLines_of {s : Str} {ls : List Str} {long : Bool} (h : LinesOf s ls long) : scanLines s = (ls, long) := by
  induction h with
  | none => rfl
  | last h1 h2 h3 h4 => rw [scanLines_last h1 h2 h3, (dropCR_bare _ _).mpr h4]
  | line h1 h2 h3 _ ih => rw [scanLines_line h1 h2, ih, (dropCR_bare _ _).mpr h3]
  | long h1 h2 => exact scanLines_long h1 (by omega)

/-- Every text has lines. -/
theorem linesOf_total : ∀ (n : Nat) (s : Str), s.length ≤ n → ∃ ls long, LinesOf s ls long := by
  intro n
  induction n with
  | zero =>
    intro s hs
    have : s = [] := List.length_eq_zero_iff.mp (by omega)
    rw [this]; exact ⟨_, _, .none⟩
  | succ n ih =>
    intro s hs
    cases e : cutByte 0x0A s with
    | none =>
      have hn := cutByte_none.mp e
      by_cases h0 : s = []
      · rw [h0]; exact ⟨_, _, .none⟩
      by_cases hl : s.length < 65536
      · exact ⟨_, _, .last h0 hn hl ((dropCR_bare s _).mp rfl)⟩
      · have := LinesOf.long (p := s.take 65536) (s := s.drop 65536) (fun h => hn (List.mem_of_mem_take h))
          (by rw [List.length_take]; omega)
        rw [List.take_append_drop] at this
        exact ⟨_, _, this⟩
    | some x =>
      obtain ⟨p, t⟩ := x
      obtain ⟨rfl, hp⟩ := cutByte_some e
      by_cases hl : p.length < 65536
      · obtain ⟨ls, long, h⟩ := ih t (by simp at hs; omega)
        exact ⟨_, _, .line hp hl ((dropCR_bare p _).mp rfl) h⟩
      · have := LinesOf.long (p := p.take 65536) (s := p.drop 65536 ++ 0x0A :: t) (fun h => hp (List.mem_of_mem_take h))
          (by rw [List.length_take]; omega)
        rw [← List.append_assoc, List.take_append_drop] at this
        exact ⟨_, _, this⟩

theorem scanLines_iff (s : Str) (ls : List Str) (long : Bool) : scanLines s = (ls, long) ↔ LinesOf s ls long := by
  refine ⟨fun h => ?_, scanLines_of⟩
  obtain ⟨ls', long', h'⟩ := linesOf_total _ s (Nat.le_refl _)
  have := scanLines_of h'
  rw [h] at this
  cases this
  exact h'

/-! ## The scanner -/

/-- What holds of a scanner between rounds. -/
structure Sound (st : State) : Prop where
  fits : st.start + st.data.length ≤ st.len
  size : st.len ≤ 65536
  rest : st.eof = true → st.rest = [] ∧ st.start + st.data.length < st.len

/-- The rounds a scanner still needs are at most so many. -/
def left (st : State) : Nat := 2 * st.rest.length + st.data.length + if st.eof then 0 else 1

theorem shift_sound {st : State} (h : Sound st) : Sound (shift st) ∧ (shift st).data = st.data ∧ (shift st).rest = st.rest ∧
    (shift st).eof = st.eof ∧ (shift st).len = st.len ∧ ((shift st).start + st.data.length = st.len → (shift st).start = 0) := by
  unfold shift
  split
  · rename_i e
    exact ⟨⟨by have := h.fits; simp; omega, h.size, fun he => ⟨(h.rest he).1, by have := (h.rest he).2; simp; omega⟩⟩, rfl, rfl, rfl, rfl,
      fun _ => rfl⟩
  · rename_i e
    exact ⟨h, rfl, rfl, rfl, rfl, fun h => by omega⟩

theorem run_lines (sizes : Nat → Nat) : ∀ (fuel i : Nat) (st : State), Sound st → left st < fuel →
    run sizes fuel i st = some (scanLines (st.data ++ st.rest)) := by
  intro fuel
  induction fuel with
  | zero => intro i st _ h; omega
  | succ fuel ih =>
    intro i st h hf
    unfold run
    have hlen : st.data.length ≤ 65536 := by have := h.fits; have := h.size; omega
    cases e : cutByte 0x0A st.data with
    | some x =>
      obtain ⟨p, t⟩ := x
      obtain ⟨hd, hp⟩ := cutByte_some e
      have hne : st.data ≠ [] := by rw [hd]; simp
      have hr : round (sizes i) st = .token (dropCR p) { st with data := t, start := st.start + (p.length + 1) } := by
        unfold round
        rw [if_pos (.inl hne)]
        unfold splitLine
        rw [e]
        simp only [hd]
        congr 2
        simp
      have hl : st.data.length = p.length + (t.length + 1) := by rw [hd]; simp
      rw [hr]
      simp only []
      rw [ih]
      · rw [hd, List.append_assoc, List.cons_append, scanLines_line hp (by omega)]
        rfl
      · exact ⟨by have := h.fits; simp; omega, h.size, fun he => ⟨(h.rest he).1, by have := (h.rest he).2; simp; omega⟩⟩
      · unfold left at hf ⊢; simp only; omega
    | none =>
      have hn := cutByte_none.mp e
      by_cases he : st.eof = true
      · by_cases hd : st.data = []
        · have hr : round (sizes i) st = .stop := by
            unfold round splitLine
            simp [he, hd, cutByte]
          rw [hr, hd, (h.rest he).1]
          rfl
        · have hr : round (sizes i) st = .token (dropCR st.data) { st with data := [], start := st.start + st.data.length } := by
            unfold round splitLine
            rw [e]
            simp [he, hd]
          have hpos := List.length_pos_iff.mpr hd
          rw [hr]
          simp only []
          rw [ih]
          · have := scanLines_last hd hn (by have := (h.rest he).2; have := h.size; omega)
            simp only [(h.rest he).1, List.append_nil]
            rw [this]
            rfl
          · exact ⟨by have := h.fits; simp; omega, h.size, fun he => ⟨(h.rest he).1, by have := (h.rest he).2; simp; omega⟩⟩
          · unfold left at hf ⊢; simp [he] at hf ⊢; omega
      · obtain ⟨s1, s2, s3, s4, s5, s6⟩ := shift_sound h
        have hsplit : (if st.data ≠ [] ∨ st.eof = true then splitLine st.data st.eof else none) = none := by
          unfold splitLine
          rw [e]
          simp [he]
        by_cases hfull : (shift st).start + (shift st).data.length = (shift st).len ∧ maxToken ≤ (shift st).len
        · have hr : round (sizes i) st = .tooLong := by
            unfold round
            rw [hsplit]
            simp only [he]
            unfold grow
            rw [if_pos hfull.1, if_pos hfull.2]
            simp
          have h0 := s6 (by rw [← s2, ← s5]; exact hfull.1)
          have hl : 65536 ≤ st.data.length := by
            have h1 := hfull.1
            have h2 := hfull.2
            rw [h0, s2] at h1
            unfold maxToken at h2
            omega
          rw [hr]
          simp only []
          rw [scanLines_long hn hl]
        · obtain ⟨g, hg, g1, g2, g3, g4, g5⟩ : ∃ g, grow (shift st) = some g ∧ g.data = st.data ∧ g.rest = st.rest ∧ g.eof = st.eof ∧
              g.start + g.data.length < g.len ∧ g.len ≤ 65536 := by
            unfold grow
            have hsz := s1.size
            by_cases hf1 : (shift st).start + (shift st).data.length = (shift st).len
            · have hlt : (shift st).len < 65536 := by
                unfold maxToken at hfull
                exact Nat.lt_of_not_le fun h => hfull ⟨hf1, h⟩
              rw [if_pos hf1, if_neg (by unfold maxToken; omega)]
              refine ⟨_, rfl, s2, s3, s4, ?_, ?_⟩
              · simp only
                unfold maxToken startBufSize
                split <;> omega
              · simp only
                unfold maxToken
                omega
            · rw [if_neg hf1]
              have := s1.fits
              exact ⟨_, rfl, s2, s3, s4, by omega, hsz⟩
          have hr : round (sizes i) st = .more (read (sizes i) g) := by
            unfold round
            rw [hsplit]
            simp [he, hg]
          rw [hr]
          simp only []
          unfold read
          by_cases hre : g.rest = []
          · rw [if_pos hre, ih]
            · simp only [g1, g2]
            · exact ⟨by simp only; omega, g5, fun _ => ⟨hre, g4⟩⟩
            · rw [g2] at hre
              unfold left at hf ⊢; simp [he, g1, g2] at hf ⊢; omega
          · rw [if_neg hre, ih]
            · simp only [g1, g2]
              rw [List.append_assoc, List.take_append_drop]
            · refine ⟨?_, g5, fun h => ?_⟩
              · simp only [List.length_append, List.length_take]
                omega
              · simp only [g3] at h
                exact absurd h he
            · have hpos := List.length_pos_iff.mpr hre
              rw [g2] at hpos
              unfold left at hf ⊢
              simp only [g1, g2, g3, List.length_append, List.length_take, List.length_drop] at hf ⊢
              rw [g1] at g4
              omega

/-- **C124.** However many bytes a read moves, reading the lines of a text comes to an end after a number of rounds that
depends on its length only, delivers exactly its lines, and fails exactly if one of them is too long. -/
theorem C124_lines (s : Str) (sizes : Nat → Nat) (fuel : Nat) (hf : 2 * s.length + 2 ≤ fuel) (ls : List Str) (long : Bool) :
    run sizes fuel 0 (new s) = some (ls, long) ↔ LinesOf s ls long := by
  rw [run_lines sizes fuel 0 (new s) ⟨Nat.le_refl _, Nat.zero_le _, fun h => by cases h⟩ (by unfold left new; simp; omega)]
  rw [Option.some.injEq]
  exact scanLines_iff s ls long

/-- Every text has lines, and only one list of them. -/
theorem C124_one (s : Str) : ∃ ls long, LinesOf s ls long ∧ ∀ ls' long', LinesOf s ls' long' → ls' = ls ∧ long' = long := by
  obtain ⟨ls, long, h⟩ := linesOf_total _ s (Nat.le_refl _)
  refine ⟨ls, long, h, fun ls' long' h' => ?_⟩
  have h1 := scanLines_of h
  rw [scanLines_of h'] at h1
  cases h1
  exact ⟨rfl, rfl⟩

/-- **C124 (the readers of text files).** The lines that the readers of `.scan` and `.memip` files and of the lists of
names go through are the lines of the text. -/
theorem C124_used (s : Str) (ls : List Str) (long : Bool) : scanLines s = (ls, long) ↔ LinesOf s ls long := scanLines_iff s ls long

/-- Read one byte at a time, a text with an empty line, a carriage return and no newline at the end. -/
example : run (fun _ => 1) 100 0 (new (gs "a\r\n\nb")) = some ([gs "a", [], gs "b"], false) := by decide +kernel
example : LinesOf (gs "a\r\n\nb") [gs "a", [], gs "b"] false :=
  (C124_lines _ (fun _ => 1) 100 (by decide +kernel) _ _).mp (by decide +kernel)
/-- A line of 65535 bytes is delivered, one of 65536 bytes is not. -/
example : LinesOf (List.replicate 65535 0x61) [List.replicate 65535 0x61] false :=
  .last (fun h => by have := congrArg List.length h; rw [List.length_replicate] at this; cases this) (fun h => by have := (List.mem_replicate.mp h).2; cases this)
    (by rw [List.length_replicate]; omega) ((dropCR_bare _ _).mp (by
      unfold dropCR
      rw [if_neg]
      rw [List.getLast?_replicate]
      decide))
example : LinesOf (gs "x\n" ++ List.replicate 65536 0x61 ++ gs "\ny\n") [gs "x"] true :=
  .line (p := gs "x") (by decide) (by decide) ((dropCR_bare _ _).mp (by decide))
    (.long (p := List.replicate 65536 0x61) (s := gs "\ny\n") (fun h => by have := (List.mem_replicate.mp h).2; cases this) List.length_replicate)

end Uip.Scanner
