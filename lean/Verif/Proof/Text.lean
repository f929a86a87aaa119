import Verif.Model.GoText
/-!
# Printing and parsing numbers and addresses
-/
namespace Uip

/-! ## Numbers -/

/-- Value of digits after a value already read. -/
def numFrom (b : Nat) (n : Nat) (ds : List Nat) : Nat := ds.foldl (fun a d => a * b + d) n

theorem numFrom_nil (b n : Nat) : numFrom b n [] = n := rfl
theorem numFrom_cons (b n d : Nat) (ds : List Nat) : numFrom b n (d :: ds) = numFrom b (n * b + d) ds := rfl
theorem numFrom_append (b n : Nat) (ds es : List Nat) : numFrom b n (ds ++ es) = numFrom b (numFrom b n ds) es := by
  unfold numFrom; rw [List.foldl_append]

theorem le_numFrom {b : Nat} (hb : 1 ≤ b) (ds : List Nat) : ∀ n, n ≤ numFrom b n ds := by
  induction ds with
  | nil => intro n; exact Nat.le_refl _
  | cons d ds ih =>
    intro n
    rw [numFrom_cons]
    exact Nat.le_trans (Nat.le_trans (Nat.le_mul_of_pos_right n hb) (Nat.le_add_right _ d)) (ih _)

theorem digitsAux_spec {b : Nat} (hb : 2 ≤ b) : ∀ f n, n < f →
    (∀ d ∈ digitsAux b f n, d < b) ∧ numFrom b 0 (digitsAux b f n) = n ∧ digitsAux b f n ≠ [] ∧
      ((digitsAux b f n).head? = some 0 → n = 0) := by
  intro f
  induction f with
  | zero => intro n h; omega
  | succ f ih =>
    intro n hn
    unfold digitsAux
    by_cases h : n < b
    · rw [if_pos h]
      refine ⟨by simpa using h, by simp [numFrom], by simp, by simp⟩
    · rw [if_neg h]
      have hlt : n / b < n := Nat.div_lt_self (by omega) (by omega)
      obtain ⟨h1, h2, h3, h4⟩ := ih (n / b) (by omega)
      refine ⟨?_, ?_, by simp, ?_⟩
      · intro d hd
        rcases List.mem_append.mp hd with hd | hd
        · exact h1 d hd
        · simp at hd; subst hd; exact Nat.mod_lt _ (by omega)
      · rw [numFrom_append, h2, numFrom_cons, numFrom_nil]
        exact Nat.div_add_mod' n b
      · intro hh
        rw [List.head?_append] at hh
        cases e : (digitsAux b f (n / b)).head? with
        | none => rw [List.head?_eq_none_iff] at e; exact absurd e h3
        | some x =>
          rw [e] at hh; simp at hh; subst hh
          have := h4 e
          have : b ≤ n := by omega
          have := Nat.div_pos this (by omega)
          omega

theorem digits_lt {b : Nat} (hb : 2 ≤ b) (n : Nat) : ∀ d ∈ digits b n, d < b := (digitsAux_spec hb (n + 1) n (by omega)).1
theorem numFrom_digits {b : Nat} (hb : 2 ≤ b) (n : Nat) : numFrom b 0 (digits b n) = n :=
  (digitsAux_spec hb (n + 1) n (by omega)).2.1
theorem digits_ne_nil {b : Nat} (hb : 2 ≤ b) (n : Nat) : digits b n ≠ [] := (digitsAux_spec hb (n + 1) n (by omega)).2.2.1
theorem digits_head {b : Nat} (hb : 2 ≤ b) (n : Nat) (h : (digits b n).head? = some 0) : n = 0 :=
  (digitsAux_spec hb (n + 1) n (by omega)).2.2.2 h

theorem digitChar_dec : ∀ d < 10, (0x30 : UInt8) ≤ digitChar d ∧ digitChar d ≤ 0x39 ∧ (digitChar d).toNat - 0x30 = d := by decide
theorem digitChar_hex : ∀ d < 16, hexVal (digitChar d) = some d := by decide
theorem digitChar_zero : ∀ d < 10, digitChar d = 0x30 → d = 0 := by decide

/-- The text does not continue with a decimal digit. -/
def NoDig (s : Str) : Prop := ∀ c, s.head? = some c → ¬ (0x30 ≤ c ∧ c ≤ 0x39)

theorem noDig_nil : NoDig [] := by intro c h; cases h
theorem noDig_cons {c : UInt8} {s : Str} (h : ¬ (0x30 ≤ c ∧ c ≤ 0x39)) : NoDig (c :: s) := by
  intro d hd; simp at hd; subst hd; exact h

theorem dtoiLoop_digits {rest : Str} (hr : NoDig rest) (ds : List Nat) : (∀ d ∈ ds, d < 10) → ∀ n i,
    numFrom 10 n ds < big → dtoiLoop (ds.map digitChar ++ rest) n i = some (numFrom 10 n ds, i + ds.length, rest) := by
  induction ds with
  | nil =>
    intro _ n i _
    cases rest with
    | nil => rfl
    | cons c cs =>
      simp only [List.map_nil, List.nil_append, dtoiLoop]
      rw [if_neg (hr c rfl)]; rfl
  | cons d ds ih =>
    intro hd n i hb
    obtain ⟨h1, h2, h3⟩ := digitChar_dec d (hd d (by simp))
    rw [numFrom_cons] at hb ⊢
    simp only [List.map_cons, List.cons_append, dtoiLoop]
    rw [if_pos ⟨h1, h2⟩, h3]
    have hle := le_numFrom (b := 10) (by omega) ds (n * 10 + d)
    rw [if_neg (Nat.not_le.mpr (Nat.lt_of_le_of_lt hle hb)), ih (fun x hx => hd x (by simp [hx])) _ _ hb]
    simp only [List.length_cons, Nat.add_assoc, Nat.add_comm 1]

theorem decStr_length (n : Nat) : (decStr n).length = (digits 10 n).length := by simp [decStr]

theorem dtoi_decStr {n : Nat} (hn : n < big) {rest : Str} (hr : NoDig rest) :
    dtoi (decStr n ++ rest) = some (n, (decStr n).length, rest) := by
  unfold dtoi
  rw [decStr, dtoiLoop_digits hr _ (digits_lt (by omega) n) 0 0 (by rw [numFrom_digits (by omega)]; exact hn)]
  have := digits_ne_nil (b := 10) (by omega) n
  have hl : (digits 10 n).length ≠ 0 := by simpa using this
  simp [numFrom_digits (b := 10), hl]

theorem xtoiLoop_digits {rest : Str} (hr : ∀ c, rest.head? = some c → hexVal c = none) (ds : List Nat) : (∀ d ∈ ds, d < 16) → ∀ n i,
    numFrom 16 n ds < big → xtoiLoop (ds.map digitChar ++ rest) n i = some (numFrom 16 n ds, i + ds.length, rest) := by
  induction ds with
  | nil =>
    intro _ n i _
    cases rest with
    | nil => rfl
    | cons c cs =>
      simp only [List.map_nil, List.nil_append, xtoiLoop]
      rw [hr c rfl]; rfl
  | cons d ds ih =>
    intro hd n i hb
    have h1 := digitChar_hex d (hd d (by simp))
    rw [numFrom_cons] at hb ⊢
    simp only [List.map_cons, List.cons_append, xtoiLoop]
    rw [h1]
    simp only []
    have hle := le_numFrom (b := 16) (by omega) ds (n * 16 + d)
    rw [if_neg (Nat.not_le.mpr (Nat.lt_of_le_of_lt hle hb)), ih (fun x hx => hd x (by simp [hx])) _ _ hb]
    simp only [List.length_cons, Nat.add_assoc, Nat.add_comm 1]

theorem xtoi_hexStr {n : Nat} (hn : n < big) {rest : Str} (hr : ∀ c, rest.head? = some c → hexVal c = none) :
    xtoi (hexStr n ++ rest) = some (n, (hexStr n).length, rest) := by
  unfold xtoi
  rw [hexStr, xtoiLoop_digits hr _ (digits_lt (by omega) n) 0 0 (by rw [numFrom_digits (by omega)]; exact hn)]
  have := digits_ne_nil (b := 16) (by omega) n
  have hl : (digits 16 n).length ≠ 0 := by simpa using this
  simp [numFrom_digits (b := 16), hl]

theorem parseUintLoop_digits (ds : List Nat) : (∀ d ∈ ds, d < 10) → ∀ n, numFrom 10 n ds < 2 ^ 32 →
    parseUintLoop (ds.map digitChar) n = some (numFrom 10 n ds) := by
  induction ds with
  | nil => intro _ n _; rfl
  | cons d ds ih =>
    intro hd n hb
    obtain ⟨h1, h2, h3⟩ := digitChar_dec d (hd d (by simp))
    rw [numFrom_cons] at hb ⊢
    simp only [List.map_cons, parseUintLoop]
    rw [if_pos ⟨h1, h2⟩, h3]
    have := le_numFrom (b := 10) (by omega) ds (n * 10 + d)
    rw [if_neg (by omega)]
    exact ih (fun x hx => hd x (by simp [hx])) _ hb

/-- `strconv.ParseUint` reads back what `%d` prints. -/
theorem ParseUint32_decStr {n : Nat} (hn : n < 2 ^ 32) : ParseUint32 (decStr n) = some n := by
  unfold ParseUint32
  have := digits_ne_nil (b := 10) (by omega) n
  rw [if_neg (by simpa [decStr] using this), decStr,
    parseUintLoop_digits _ (digits_lt (by omega) n) 0 (by rw [numFrom_digits (by omega)]; exact hn), numFrom_digits (by omega)]

/-! ## Characters -/

theorem digitChar_dec_mem {n : Nat} {c : UInt8} (h : c ∈ decStr n) : 0x30 ≤ c ∧ c ≤ 0x39 := by
  unfold decStr at h
  obtain ⟨d, hd, rfl⟩ := List.mem_map.mp h
  have := digitChar_dec d (digits_lt (by omega) n d hd)
  exact ⟨this.1, this.2.1⟩

theorem digitChar_hex_mem {n : Nat} {c : UInt8} (h : c ∈ hexStr n) : (hexVal c).isSome := by
  unfold hexStr at h
  obtain ⟨d, hd, rfl⟩ := List.mem_map.mp h
  rw [digitChar_hex d (digits_lt (by omega) n d hd)]; rfl

/-! ## IPv4 -/

theorem decStr_head {n : Nat} (h : (decStr n).head? = some 0x30) : (decStr n).length = 1 := by
  have hn : n = 0 := by
    unfold decStr at h
    rw [List.head?_map] at h
    cases e : (digits 10 n).head? with
    | none => rw [e] at h; cases h
    | some d =>
      rw [e] at h; simp at h
      have hd : d < 10 := digits_lt (by omega) n d (List.mem_of_mem_head? e)
      rw [digitChar_zero d hd h] at e
      exact digits_head (by omega) n e
  subst hn; rfl

theorem parse_octet (k : Nat) (b : UInt8) {rest : Str} (hr : NoDig rest) (s : Str) (first : Bool)
    (hs : s = (if first then [] else [0x2E]) ++ decStr b.toNat ++ rest) :
    parseIPv4Loop (k + 1) first s = match parseIPv4Loop k false rest with
      | none => none
      | some (ps, t) => some (b :: ps, t) := by
  have hlt := b.toNat_lt
  have hbig : b.toNat < big := by unfold big; omega
  have hd := dtoi_decStr hbig hr
  have hne : decStr b.toNat ++ rest ≠ [] := by
    have := digits_ne_nil (b := 10) (by omega) b.toNat
    simp [decStr, this]
  have hz : ¬ (1 < (decStr b.toNat).length ∧ (decStr b.toNat ++ rest).head? = some 0x30) := by
    rintro ⟨h1, h2⟩
    rw [List.head?_append] at h2
    cases e : (decStr b.toNat).head? with
    | none => rw [List.head?_eq_none_iff] at e; rw [e] at h1; simp at h1
    | some x =>
      rw [e] at h2; simp at h2; subst h2
      have := decStr_head e; omega
  have key : (match (some (decStr b.toNat ++ rest) : Option Str) with
    | none => none
    | some s => match dtoi s with
      | none => none
      | some (n, c, rest) =>
        if 0xFF < n then none
        else if 1 < c ∧ s.head? = some 0x30 then none
        else match parseIPv4Loop k false rest with
          | none => none
          | some (ps, t) => some (UInt8.ofNat n :: ps, t)) = match parseIPv4Loop k false rest with
      | none => none
      | some (ps, t) => some (b :: ps, t) := by
    simp only [hd]
    rw [if_neg (by omega), if_neg hz]
    simp
  subst hs
  cases first with
  | true =>
    have : octetStart true ((if true = true then [] else [0x2E]) ++ decStr b.toNat ++ rest) = some (decStr b.toNat ++ rest) := by
      simp only [if_true, List.nil_append, octetStart, if_neg hne]
    rw [parseIPv4Loop, this]
    exact key
  | false =>
    have : octetStart false ((if false = true then [] else [0x2E]) ++ decStr b.toNat ++ rest) = some (decStr b.toNat ++ rest) := by
      simp only [Bool.false_eq_true, if_false, List.cons_append, List.nil_append, octetStart]
    rw [parseIPv4Loop, this]
    exact key

theorem dot_noDig {s : Str} : NoDig (0x2E :: s) := noDig_cons (by decide)

/-- The dotted form is read back. -/
theorem parseIPv4_dotted (a b c d : UInt8) : parseIPv4 (dotted [a, b, c, d]) = some [a, b, c, d] := by
  unfold parseIPv4 dotted
  simp only [List.map_cons, List.map_nil, joinByte]
  rw [parse_octet 3 a (rest := 0x2E :: (decStr b.toNat ++ 0x2E :: (decStr c.toNat ++ 0x2E :: decStr d.toNat))) dot_noDig _ true
      (by simp),
    parse_octet 2 b (rest := 0x2E :: (decStr c.toNat ++ 0x2E :: decStr d.toNat)) dot_noDig _ false (by simp),
    parse_octet 1 c (rest := 0x2E :: decStr d.toNat) dot_noDig _ false (by simp),
    parse_octet 0 d (rest := []) noDig_nil _ false (by simp)]
  rfl

theorem dotted_chars {p : List UInt8} {c : UInt8} (h : c ∈ dotted p) : (0x30 ≤ c ∧ c ≤ 0x39) ∨ c = 0x2E := by
  unfold dotted at h
  have key : ∀ l : List Str, (∀ s ∈ l, ∀ c ∈ s, (0x30 ≤ c ∧ c ≤ 0x39)) → c ∈ joinByte 0x2E l → (0x30 ≤ c ∧ c ≤ 0x39) ∨ c = 0x2E := by
    intro l
    induction l with
    | nil => intro _ h; cases h
    | cons x l ih =>
      intro hl h
      cases l with
      | nil => exact .inl (hl x (by simp) c h)
      | cons y l =>
        simp only [joinByte] at h
        rcases List.mem_append.mp h with h | h
        · exact .inl (hl x (by simp) c h)
        · rcases List.mem_cons.mp h with rfl | h
          · exact .inr rfl
          · exact ih (fun s hs => hl s (by simp at hs ⊢; right; exact hs)) h
  refine key _ (fun s hs c hc => ?_) h
  obtain ⟨b, _, rfl⟩ := List.mem_map.mp hs
  exact digitChar_dec_mem hc

/-! A text with a colon is not a dotted address. -/

theorem dtoiLoop_colon : ∀ (s : Str) (n i m j : Nat) (rest : Str), dtoiLoop s n i = some (m, j, rest) →
    0x3A ∈ s → 0x3A ∈ rest := by
  intro s
  induction s with
  | nil => intro n i m j rest e h; cases h
  | cons c cs ih =>
    intro n i m j rest e h
    unfold dtoiLoop at e
    by_cases hc : 0x30 ≤ c ∧ c ≤ 0x39
    · rw [if_pos hc] at e
      simp only [] at e
      split at e
      · cases e
      · have : (0x3A : UInt8) ∈ cs := by
          rcases List.mem_cons.mp h with h | h
          · subst h; exact absurd hc (by decide)
          · exact h
        exact ih _ _ _ _ _ e this
    · rw [if_neg hc] at e
      injection e with e; injection e with _ e; injection e with _ e; subst e; exact h

theorem parseIPv4Loop_colon : ∀ (k : Nat) (first : Bool) (s : Str) (ps : List UInt8) (t : Str),
    parseIPv4Loop k first s = some (ps, t) → 0x3A ∈ s → 0x3A ∈ t := by
  intro k
  induction k with
  | zero => intro first s ps t e h; injection e with e; injection e with _ e; subst e; exact h
  | succ k ih =>
    intro first s ps t e h
    unfold parseIPv4Loop at e
    split at e
    · cases e
    · rename_i s' hs'
      have hs : 0x3A ∈ s' := by
        unfold octetStart at hs'
        split at hs'
        · split at hs'
          · cases hs'
          · injection hs' with hs'; subst hs'; exact h
        · split at hs'
          · injection hs' with hs'; subst hs'
            rcases List.mem_cons.mp h with h | h
            · exact absurd h (by decide)
            · exact h
          · cases hs'
      unfold dtoi at e
      cases ed : dtoiLoop s' 0 0 with
      | none => rw [ed] at e; cases e
      | some p =>
        obtain ⟨n, c, rest⟩ := p
        rw [ed] at e
        simp only [] at e
        have hrest := dtoiLoop_colon _ _ _ _ _ _ ed hs
        by_cases hc : c = 0
        · rw [if_pos hc] at e; cases e
        · rw [if_neg hc] at e
          simp only [] at e
          split at e
          · cases e
          · split at e
            · cases e
            · split at e
              · cases e
              · rename_i ps' t' e'
                injection e with e; injection e with _ e; subst e
                exact ih _ _ _ _ e' hrest

theorem parseIPv4_colon {s : Str} (h : 0x3A ∈ s) : parseIPv4 s = none := by
  unfold parseIPv4
  split
  · rename_i ps e
    have := parseIPv4Loop_colon _ _ _ _ _ e h
    cases this
  · rfl

/-! ## IPv6 -/

theorem hexVal_colon : hexVal 0x3A = none := by decide

theorem colon_nohex {s : Str} : ∀ c, (0x3A :: s).head? = some c → hexVal c = none := by
  intro c h; simp at h; subst h; exact hexVal_colon

/-- The text of groups. -/
def hexJoin (ws : List Nat) : Str := joinByte 0x3A (ws.map hexStr)

theorem hexJoin_cons_cons (a b : Nat) (ws : List Nat) : hexJoin (a :: b :: ws) = hexStr a ++ 0x3A :: hexJoin (b :: ws) := rfl
theorem hexJoin_single (a : Nat) : hexJoin [a] = hexStr a := rfl

theorem hexStr_ne_nil (n : Nat) : hexStr n ≠ [] := by
  have := digits_ne_nil (b := 16) (by omega) n
  simpa [hexStr] using this

theorem hexStr_head_ne (n : Nat) (s : Str) : ∃ c t, hexStr n ++ s = c :: t ∧ c ≠ 0x3A := by
  cases e : hexStr n with
  | nil => exact absurd e (hexStr_ne_nil n)
  | cons c t =>
    refine ⟨c, t ++ s, rfl, ?_⟩
    rintro rfl
    have := digitChar_hex_mem (n := n) (c := 0x3A) (by rw [e]; simp)
    rw [hexVal_colon] at this; cases this

theorem hexJoin_head_ne {ws : List Nat} (hne : ws ≠ []) (s : Str) : ∃ c t, hexJoin ws ++ s = c :: t ∧ c ≠ 0x3A := by
  cases ws with
  | nil => exact absurd rfl hne
  | cons a ws =>
    cases ws with
    | nil => exact hexStr_head_ne a s
    | cons b ws => rw [hexJoin_cons_cons, List.append_assoc]; exact hexStr_head_ne a _

/-- One group followed by the end. -/
theorem parse6_last {f : Nat} {acc : List Nat} {ell : Option Nat} {w : Nat} (hw : w < 65536) :
    parseIPv6Loop (f + 1) acc ell (hexStr w) = some (acc ++ [w], ell, []) := by
  have h := xtoi_hexStr (n := w) (rest := []) (by unfold big; omega) (by intro c hc; cases hc)
  rw [List.append_nil] at h
  rw [parseIPv6Loop, h]
  simp only []
  rw [if_neg (by omega), if_neg (by simp)]

/-- One group followed by a colon and another group. -/
theorem parse6_next {f : Nat} {acc : List Nat} {ell : Option Nat} {w : Nat} (hw : w < 65536) {s t : Str} {c : UInt8}
    (hs : s = c :: t) (hc : c ≠ 0x3A) :
    parseIPv6Loop (f + 1) acc ell (hexStr w ++ 0x3A :: s) = parseIPv6Loop f (acc ++ [w]) ell s := by
  have h := xtoi_hexStr (n := w) (rest := 0x3A :: s) (by unfold big; omega) colon_nohex
  rw [parseIPv6Loop, h]
  simp only []
  rw [if_neg (by omega), if_neg (by simp)]
  subst hs
  split
  · rename_i heq; cases heq
  · rename_i heq; injection heq with heq; exact absurd heq hc
  · rfl

/-- One group followed by the ellipsis and more. -/
theorem parse6_ell {f : Nat} {acc : List Nat} {w : Nat} (hw : w < 65536) (s : Str) :
    parseIPv6Loop (f + 1) acc none (hexStr w ++ 0x3A :: 0x3A :: s) =
      if s = [] then some (acc ++ [w], some (acc.length + 1), []) else parseIPv6Loop f (acc ++ [w]) (some (acc.length + 1)) s := by
  have h := xtoi_hexStr (n := w) (rest := 0x3A :: 0x3A :: s) (by unfold big; omega) colon_nohex
  rw [parseIPv6Loop, h]
  simp only []
  rw [if_neg (by omega), if_neg (by simp)]
  simp

/-- A list of groups up to the end. -/
theorem parse6_join (ws : List Nat) : ∀ (f : Nat) (acc : List Nat) (ell : Option Nat), ws ≠ [] → ws.length ≤ f →
    (∀ w ∈ ws, w < 65536) → parseIPv6Loop f acc ell (hexJoin ws) = some (acc ++ ws, ell, []) := by
  induction ws with
  | nil => intro _ _ _ h; exact absurd rfl h
  | cons a ws ih =>
    intro f acc ell _ hf hw
    cases f with
    | zero => simp at hf
    | succ f =>
      cases ws with
      | nil => exact parse6_last (hw a (by simp))
      | cons b ws =>
        obtain ⟨c, t, e, hc⟩ := hexJoin_head_ne (ws := b :: ws) (by simp) []
        rw [List.append_nil] at e
        rw [hexJoin_cons_cons, parse6_next (hw a (by simp)) e hc, ih f _ _ (by simp) (by simp at hf ⊢; omega)
          (fun w h => hw w (by simp at h ⊢; right; exact h))]
        simp

/-- Groups, an ellipsis, and more groups. -/
theorem parse6_left (ws : List Nat) : ∀ (f : Nat) (acc right : List Nat), ws ≠ [] → ws.length + right.length ≤ f →
    (∀ w ∈ ws, w < 65536) → (∀ w ∈ right, w < 65536) →
    parseIPv6Loop f acc none (hexJoin ws ++ 0x3A :: 0x3A :: hexJoin right) =
      some (acc ++ ws ++ right, some (acc.length + ws.length), []) := by
  induction ws with
  | nil => intro _ _ _ h; exact absurd rfl h
  | cons a ws ih =>
    intro f acc right _ hf hw hr
    cases f with
    | zero => simp at hf
    | succ f =>
      cases ws with
      | nil =>
        rw [hexJoin_single, parse6_ell (hw a (by simp))]
        cases right with
        | nil => simp [hexJoin, joinByte]
        | cons b r =>
          obtain ⟨c, t, e, _⟩ := hexJoin_head_ne (ws := b :: r) (by simp) []
          rw [List.append_nil] at e
          rw [if_neg (by rw [e]; simp), parse6_join _ f _ _ (by simp) (by simp at hf ⊢; omega) hr]
          simp
      | cons b ws =>
        obtain ⟨c, t, e, hc⟩ := hexJoin_head_ne (ws := b :: ws) (by simp) (0x3A :: 0x3A :: hexJoin right)
        rw [hexJoin_cons_cons, List.append_assoc, List.cons_append, parse6_next (hw a (by simp)) e hc,
          ih f _ _ (by simp) (by simp at hf ⊢; omega) (fun w h => hw w (by simp at h ⊢; right; exact h)) hr]
        simp [Nat.add_assoc, Nat.add_comm 1]

/-! The printed form -/

theorem zeroRunEnd_spec (ws : List Nat) : ∀ i, i ≤ zeroRunEnd ws i ∧ zeroRunEnd ws i ≤ i + ws.length ∧
    ∀ k, k < zeroRunEnd ws i - i → ws[k]? = some 0 := by
  induction ws with
  | nil => intro i; simp [zeroRunEnd]
  | cons a ws ih =>
    intro i
    cases a with
    | zero =>
      obtain ⟨h1, h2, h3⟩ := ih (i + 1)
      simp only [zeroRunEnd, List.length_cons]
      refine ⟨by omega, by omega, fun k hk => ?_⟩
      cases k with
      | zero => rfl
      | succ k => simpa using h3 k (by omega)
    | succ a => refine ⟨by simp [zeroRunEnd], by simp [zeroRunEnd], fun k hk => ?_⟩; simp [zeroRunEnd] at hk

/-- A run of zeros. -/
def ZeroRun (ws : List Nat) (p : Nat × Nat) : Prop := p.1 + p.2 ≤ ws.length ∧ ∀ k, p.1 ≤ k → k < p.1 + p.2 → ws[k]? = some 0

theorem longestZeros_spec {ws : List Nat} (hl : ws.length = 8) : ∀ f i best, ZeroRun ws best → ZeroRun ws (longestZeros ws f i best) := by
  intro f
  induction f with
  | zero => intro i best h; exact h
  | succ f ih =>
    intro i best h
    unfold longestZeros
    by_cases hi : 8 ≤ i
    · rw [if_pos hi]; exact h
    · rw [if_neg hi]
      simp only []
      obtain ⟨h1, h2, h3⟩ := zeroRunEnd_spec (ws.drop i) i
      split
      · refine ih _ _ ⟨?_, fun k hk1 hk2 => ?_⟩
        · simp only [List.length_drop] at h2
          simp only []; omega
        · simp only [] at hk1 hk2
          have := h3 (k - i) (by omega)
          rw [List.getElem?_drop] at this
          rw [show i + (k - i) = k by omega] at this
          exact this
      · exact ih _ _ h

theorem v6Print_none {ws : List Nat} (hl : ws.length = 8) : ∀ f i, i < 8 → 8 - i ≤ f →
    v6Print ws none f i = (if 0 < i then [0x3A] else []) ++ hexJoin (ws.drop i) := by
  intro f
  induction f with
  | zero => intro i h1 h2; omega
  | succ f ih =>
    intro i h1 h2
    unfold v6Print
    rw [if_neg (by omega)]
    rw [List.append_assoc]
    congr 1
    have hd : ws.drop i = ws.getD i 0 :: ws.drop (i + 1) := by
      rw [List.drop_eq_getElem_cons (by omega)]
      simp [List.getD_eq_getElem?_getD, List.getElem?_eq_getElem (show i < ws.length by omega)]
    by_cases h8 : i + 1 < 8
    · rw [ih (i + 1) h8 (by omega), if_pos (show 0 < i + 1 by omega), hd]
      have hd2 : ws.drop (i + 1) = ws.getD (i + 1) 0 :: ws.drop (i + 2) := by
        rw [List.drop_eq_getElem_cons (by omega)]
        simp [List.getD_eq_getElem?_getD, List.getElem?_eq_getElem (show i + 1 < ws.length by omega)]
      rw [hd2, hexJoin_cons_cons]; simp
    · have h9 : ws.drop (i + 1) = [] := by apply List.drop_eq_nil_of_le; omega
      rw [hd, h9, hexJoin_single]
      have : v6Print ws none f (i + 1) = [] := by
        cases f with
        | zero => rfl
        | succ f => unfold v6Print; rw [if_pos (by omega)]
      rw [this]; simp

/-- After the run: like printing without a run. -/
theorem v6Print_after {ws : List Nat} {e0 e1 : Nat} : ∀ f i, e0 < i → v6Print ws (some (e0, e1)) f i = v6Print ws none f i := by
  intro f
  induction f with
  | zero => intro i _; rfl
  | succ f ih =>
    intro i h
    unfold v6Print
    by_cases h8 : 8 ≤ i
    · rw [if_pos h8, if_pos h8]
    · rw [if_neg h8, if_neg h8]
      simp only []
      rw [if_neg (show ¬ i = e0 by omega), ih (i + 1) (by omega)]

theorem v6Print_some {ws : List Nat} (hl : ws.length = 8) {e0 e1 : Nat} (h01 : e0 < e1) (h1 : e1 ≤ 8) : ∀ f i, i ≤ e0 → 8 - i ≤ f →
    v6Print ws (some (e0, e1)) f i =
      (if 0 < i ∧ i < e0 then [0x3A] else []) ++ hexJoin ((ws.take e0).drop i) ++ 0x3A :: 0x3A :: hexJoin (ws.drop e1) := by
  intro f
  induction f with
  | zero => intro i h1 h2; omega
  | succ f ih =>
    intro i hi h2
    unfold v6Print
    rw [if_neg (show ¬ 8 ≤ i by omega)]
    simp only []
    by_cases he : i = e0
    · subst he
      rw [if_pos rfl, if_neg (show ¬ (0 < i ∧ i < i) by omega)]
      have hn : (ws.take i).drop i = [] := by apply List.drop_eq_nil_of_le; simp; omega
      rw [hn]
      simp only [hexJoin, List.map_nil, joinByte, List.nil_append]
      congr 2
      by_cases h8 : 8 ≤ e1
      · rw [if_pos h8, List.drop_eq_nil_of_le (by omega)]; rfl
      · rw [if_neg h8]
        have hd : ws.drop e1 = ws.getD e1 0 :: ws.drop (e1 + 1) := by
          rw [List.drop_eq_getElem_cons (by omega)]
          simp [List.getD_eq_getElem?_getD, List.getElem?_eq_getElem (show e1 < ws.length by omega)]
        rw [v6Print_after f (e1 + 1) (by omega)]
        by_cases h9 : e1 + 1 < 8
        · rw [v6Print_none hl f (e1 + 1) h9 (by omega), if_pos (by omega), hd]
          have hd2 : ws.drop (e1 + 1) = ws.getD (e1 + 1) 0 :: ws.drop (e1 + 2) := by
            rw [List.drop_eq_getElem_cons (by omega)]
            simp [List.getD_eq_getElem?_getD, List.getElem?_eq_getElem (show e1 + 1 < ws.length by omega)]
          rw [hd2]; simp [hexJoin, joinByte]
        · have h9 : ws.drop (e1 + 1) = [] := by apply List.drop_eq_nil_of_le; omega
          rw [hd, h9]
          have : v6Print ws none f (e1 + 1) = [] := by
            cases f with
            | zero => rfl
            | succ f => unfold v6Print; rw [if_pos (by omega)]
          rw [this]; simp [joinByte]
    · rw [if_neg he, ih (i + 1) (by omega) (by omega)]
      have hd : (ws.take e0).drop i = ws.getD i 0 :: (ws.take e0).drop (i + 1) := by
        rw [List.drop_eq_getElem_cons (by simp; omega)]
        simp [List.getD_eq_getElem?_getD, List.getElem?_eq_getElem (show i < ws.length by omega)]
      rw [hd]
      have hi' : (if 0 < i ∧ i < e0 then [(0x3A : UInt8)] else []) = if 0 < i then [0x3A] else [] := by
        by_cases h : 0 < i
        · rw [if_pos ⟨h, by omega⟩, if_pos h]
        · rw [if_neg (fun hh => h hh.1), if_neg h]
      rw [hi']
      simp only [List.append_assoc]
      congr 1
      by_cases h9 : i + 1 < e0
      · have hd2 : (ws.take e0).drop (i + 1) = ws.getD (i + 1) 0 :: (ws.take e0).drop (i + 2) := by
          rw [List.drop_eq_getElem_cons (by simp; omega)]
          simp [List.getD_eq_getElem?_getD, List.getElem?_eq_getElem (show i + 1 < ws.length by omega)]
        rw [hd2, hexJoin_cons_cons, if_pos ⟨by omega, h9⟩]; simp
      · have hn : (ws.take e0).drop (i + 1) = [] := by apply List.drop_eq_nil_of_le; simp; omega
        rw [hn, hexJoin_single, if_neg (by omega)]
        simp [hexJoin, joinByte]

/-! Words and bytes -/

theorem words_bytes : ∀ (k : Nat) (b : Bytes), b.length = 2 * k → wordsToBytes (bytesToWords b) = b ∧
    (bytesToWords b).length = k ∧ ∀ w ∈ bytesToWords b, w < 65536 := by
  intro k
  induction k with
  | zero => intro b h; have : b = [] := List.length_eq_zero_iff.mp (by omega); subst this; simp [bytesToWords, wordsToBytes]
  | succ k ih =>
    intro b h
    match b, h with
    | [], h => simp at h
    | [_], h => simp at h; omega
    | x :: y :: r, h =>
      obtain ⟨h1, h2, h3⟩ := ih r (by simp at h; omega)
      have hx := x.toNat_lt
      have hy := y.toNat_lt
      refine ⟨?_, by simp [bytesToWords, h2], ?_⟩
      · show [UInt8.ofNat ((x.toNat * 256 + y.toNat) / 256), UInt8.ofNat (x.toNat * 256 + y.toNat)] ++ wordsToBytes (bytesToWords r) = _
        rw [h1]
        have e1 : (x.toNat * 256 + y.toNat) / 256 = x.toNat := by omega
        have e2 : UInt8.ofNat (x.toNat * 256 + y.toNat) = y := by
          apply UInt8.toNat_inj.mp
          rw [UInt8.toNat_ofNat']
          omega
        rw [e1, e2]; simp
      · intro w hw
        simp only [bytesToWords] at hw
        rcases List.mem_cons.mp hw with rfl | hw
        · omega
        · exact h3 w hw

/-- The groups are recovered from the text around a run of zeros. -/
theorem run_split {ws : List Nat} (hl : ws.length = 8) {p : Nat × Nat} (hz : ZeroRun ws p) :
    ws.take p.1 ++ List.replicate p.2 0 ++ ws.drop (p.1 + p.2) = ws := by
  obtain ⟨h1, h2⟩ := hz
  apply List.ext_getElem?
  intro k
  by_cases ha : k < p.1
  · rw [List.getElem?_append_left (by simp; omega), List.getElem?_append_left (by simp; omega), List.getElem?_take, if_pos ha]
  · by_cases hb : k < p.1 + p.2
    · rw [List.getElem?_append_left (by simp; omega), List.getElem?_append_right (by simp; omega), List.getElem?_replicate,
        if_pos (by simp; omega), h2 k (by omega) hb]
    · rw [List.getElem?_append_right (by simp; omega), List.getElem?_drop]
      congr 1
      simp; omega

/-- The printed form of an IPv6 address, and that it is read back. -/
theorem parse6_print (ip : IP) (hl : ip.length = 16) (h4 : To4 ip = none) :
    parseIPv6 (IPString ip) = some ip ∧ 0x3A ∈ IPString ip ∧ (∀ c ∈ IPString ip, c = 0x3A ∨ (hexVal c).isSome) := by
  obtain ⟨hb, hwl, hw⟩ := words_bytes 8 ip (by omega)
  have hs : IPString ip = v6Print (bytesToWords ip) (if (longestZeros (bytesToWords ip) 8 0 (0, 0)).2 ≤ 1 then none
      else some ((longestZeros (bytesToWords ip) 8 0 (0, 0)).1,
        (longestZeros (bytesToWords ip) 8 0 (0, 0)).1 + (longestZeros (bytesToWords ip) 8 0 (0, 0)).2)) 8 0 := by
    unfold IPString
    rw [if_neg (by omega), h4]
    simp only []
    rw [if_neg (by omega)]
  have hz := longestZeros_spec hwl 8 0 (0, 0) ⟨by simp, fun k h1 h2 => by simp at h2⟩
  generalize longestZeros (bytesToWords ip) 8 0 (0, 0) = p at hs hz
  have hchars : ∀ l : List Nat, ∀ c ∈ hexJoin l, c = 0x3A ∨ (hexVal c).isSome := by
    intro l
    induction l with
    | nil => intro c hc; cases hc
    | cons a l ih =>
      intro c hc
      cases l with
      | nil => exact .inr (digitChar_hex_mem hc)
      | cons b l =>
        rw [hexJoin_cons_cons] at hc
        rcases List.mem_append.mp hc with hc | hc
        · exact .inr (digitChar_hex_mem hc)
        · rcases List.mem_cons.mp hc with rfl | hc
          · exact .inl rfl
          · exact ih c hc
  rw [hs]
  generalize hws : bytesToWords ip = ws at *
  by_cases h1 : p.2 ≤ 1
  · rw [if_pos h1, v6Print_none hwl 8 0 (by omega) (by omega)]
    simp only [Nat.lt_irrefl, if_false, List.nil_append, List.drop_zero]
    refine ⟨?_, ?_, hchars ws⟩
    · unfold parseIPv6
      have hne : ws ≠ [] := by intro h; rw [h] at hwl; simp at hwl
      obtain ⟨c, t, e, hc⟩ := hexJoin_head_ne hne []
      rw [List.append_nil] at e
      have hm : leadEllipsis (hexJoin ws) = (none, hexJoin ws) := by
        rw [e]; unfold leadEllipsis
        split
        · rename_i heq; injection heq with heq; exact absurd heq hc
        · rfl
      rw [hm, if_neg (by simp), parse6_join ws 8 [] none hne (by omega) hw]
      simp only [List.nil_append]
      rw [if_neg (by omega)]
      simp [hb]
    · match ws, hwl with
      | a :: b :: r, _ => rw [hexJoin_cons_cons]; simp
  · rw [if_neg h1, v6Print_some hwl (by omega) (by have := hz.1; omega) 8 0 (by omega) (by omega)]
    simp only [Nat.lt_irrefl, false_and, if_false, List.nil_append, List.drop_zero]
    have hsplit := run_split hwl hz
    have hz1 := hz.1
    have hwL : ∀ w ∈ ws.take p.1, w < 65536 := fun w h => hw w (List.mem_of_mem_take h)
    have hwR : ∀ w ∈ ws.drop (p.1 + p.2), w < 65536 := fun w h => hw w (List.mem_of_mem_drop h)
    refine ⟨?_, by simp, ?_⟩
    · by_cases hp0 : p.1 = 0
      · rw [hp0] at hsplit hz1 hwR ⊢
        simp only [List.take_zero, hexJoin, List.map_nil, joinByte, List.nil_append, Nat.zero_add] at hsplit hwR hz1 ⊢
        unfold parseIPv6
        by_cases hr : ws.drop p.2 = []
        · rw [hr] at hsplit ⊢
          have h8 : p.2 = 8 := by
            have := congrArg List.length hsplit
            simp at this; omega
          rw [h8, List.append_nil] at hsplit
          rw [if_pos (by simp [leadEllipsis, joinByte]), ← hb, ← hsplit]; rfl
        · obtain ⟨c, t, e, _⟩ := hexJoin_head_ne hr []
          rw [List.append_nil] at e
          have e' : joinByte 0x3A (List.map hexStr (List.drop p.2 ws)) = c :: t := e
          have hm : leadEllipsis (0x3A :: 0x3A :: joinByte 0x3A (List.map hexStr (List.drop p.2 ws))) =
            (some 0, joinByte 0x3A (List.map hexStr (List.drop p.2 ws))) := rfl
          have hj := parse6_join (ws.drop p.2) 8 [] (some 0) hr (by simp; omega) hwR
          unfold hexJoin at hj
          rw [hm, if_neg (by rw [e']; simp), hj]
          simp only [List.nil_append, List.length_drop]
          rw [if_pos (by omega)]
          have h8 : 8 - (ws.length - p.2) = p.2 := by omega
          simp only [List.take_zero, List.nil_append, List.drop_zero, h8]
          rw [hsplit, hb]
      · have hne : ws.take p.1 ≠ [] := by
          intro h
          have := congrArg List.length h
          rw [List.length_take, List.length_nil] at this; omega
        obtain ⟨c, t, e, hc⟩ := hexJoin_head_ne hne (0x3A :: 0x3A :: hexJoin (ws.drop (p.1 + p.2)))
        unfold parseIPv6
        have hm : leadEllipsis (hexJoin (ws.take p.1) ++ 0x3A :: 0x3A :: hexJoin (ws.drop (p.1 + p.2))) =
            (none, hexJoin (ws.take p.1) ++ 0x3A :: 0x3A :: hexJoin (ws.drop (p.1 + p.2))) := by
          rw [e]; unfold leadEllipsis
          split
          · rename_i heq; injection heq with heq; exact absurd heq hc
          · rfl
        rw [hm, if_neg (by simp), parse6_left (ws.take p.1) 8 [] (ws.drop (p.1 + p.2)) hne (by simp; omega) hwL hwR]
        simp only [List.nil_append, List.length_nil, Nat.zero_add, List.length_append, List.length_take, List.length_drop]
        rw [if_pos (by omega)]
        have e1 : min p.1 ws.length = p.1 := by omega
        have e2 : 8 - (p.1 + (ws.length - (p.1 + p.2))) = p.2 := by omega
        rw [e1, e2]
        have e3 : List.take p.1 (ws.take p.1 ++ ws.drop (p.1 + p.2)) = ws.take p.1 := by
          rw [List.take_append_of_le_length (by simp; omega), List.take_take, Nat.min_self]
        have e4 : List.drop p.1 (ws.take p.1 ++ ws.drop (p.1 + p.2)) = ws.drop (p.1 + p.2) := by
          rw [List.drop_append_of_le_length (by simp; omega), List.drop_eq_nil_of_le (by simp; omega)]; rfl
        rw [e3, e4, hsplit, hb]
    · intro c hc
      rcases List.mem_append.mp hc with hc | hc
      · exact hchars _ c hc
      · rcases List.mem_cons.mp hc with rfl | hc
        · exact .inl rfl
        · rcases List.mem_cons.mp hc with rfl | hc
          · exact .inl rfl
          · exact hchars _ c hc

end Uip
