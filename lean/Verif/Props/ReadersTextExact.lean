import Verif.Props.Readers
/-!
# Properties C60, C61, C72, exactly: how the Java and Rust readers differ from the Go reader
-/
namespace Uip.Ipdb
open Uip Uip.Spec

variable {enc : MetaData → Bytes} {dec decJ : Bytes → Option MetaData} {now : Int} {ipd : IpData} {bytes : Bytes}
  {utf8 : Bytes → Str}

/-- **C60.** On every covered address that both accept, the Java answer is the Go answer, except that its line is the
last non-absent value of the asn and line columns taken together. -/
theorem C60_java_exact (h : RowsOK ipd) (hval : ValuesOK ipd) (htx : TextValues ipd)
    (hg : MetaRoundTrip enc dec (buildMeta now ipd.version ipd.fields))
    (hj : MetaRoundTripInt enc decJ (buildMeta now ipd.version ipd.fields)) (hu : KeepsTexts utf8)
    (hp : pack enc now ipd = .ok bytes) (hl : bytes.length < 2 ^ 31) (ips : List Bytes) :
    ∃ g q, newQuerier dec bytes = .ok g ∧ Java.create decJ utf8 ips bytes = .ok q ∧
      ∀ a m, TakesLen ipd.version a → Supports ipd.version a → rowOf (keptRows (rowsOf ipd)) (addrNum a) = some m →
        ∃ go mask ja, g.Query a = .ok (go, mask) ∧ Java.query utf8 q a = .ok ja ∧
          javaTexts ja = { go with line := attr (asnNames ++ lineNames) ipd.fields m.2 } := by
  obtain ⟨q, hq, hans⟩ := C68_java_answer h hval htx hj hu hp hl ips
  obtain ⟨bytes', hp', hgo⟩ := C14_overlapping_rows h hval hg
  rw [hp] at hp'; cases hp'
  obtain ⟨g, hg1, hg2⟩ := hgo (by omega)
  refine ⟨g, q, hg1, hq, fun a m ha hs hm => ?_⟩
  have hv : ValidIP a := by rcases ha with ⟨h, _⟩ | ⟨h, _⟩; exact .inl h; exact .inr h
  have h1 := hg2 a hv hs
  rw [hm] at h1
  have hcont : ((attr? continentNames ipd.fields m.2).map spellContinent).getD [] =
      spellContinent (attr continentNames ipd.fields m.2) := by
    rw [attr_eq_attr?]
    cases attr? continentNames ipd.fields m.2 with
    | none => show [] = spellContinent []; decide
    | some v => rfl
  refine ⟨_, _, _, h1, hans a m ha hm, ?_⟩
  unfold javaTexts javaInfo infoOf
  simp only [hcont, attr_eq_attr?]

/-- **C61.** On every covered address that both accept, the Rust answer is the Go answer, except that a continent that is
not stored as one of the codes is dropped. -/
theorem C61_rust_exact (h : RowsOK ipd) (hval : ValuesOK ipd) (htx : TextValues ipd)
    (hg : MetaRoundTrip enc dec (buildMeta now ipd.version ipd.fields))
    (hj : MetaRoundTripInt enc decJ (buildMeta now ipd.version ipd.fields)) (hu : KeepsTexts utf8)
    (hp : pack enc now ipd = .ok bytes) (hl : bytes.length < 2 ^ 31) :
    ∃ g q, newQuerier dec bytes = .ok g ∧ Rust.Reader decJ bytes = .ok q ∧
      ∀ a m, TakesLen ipd.version a → Supports ipd.version a → rowOf (keptRows (rowsOf ipd)) (addrNum a) = some m →
        ∃ go mask ru, g.Query a = .ok (go, mask) ∧ Rust.query utf8 q a = .ok ru ∧
          ru = if attr continentNames ipd.fields m.2 ∈ continentTable.map (·.1) then go else { go with continent := [] } := by
  obtain ⟨g, q, h1, h2, h3⟩ := C61_rust_agrees h hval htx hg hj hu hp hl
  obtain ⟨q', hq', hans⟩ := C69_rust_answer h hval htx hj hu hp hl
  rw [h2] at hq'; injection hq' with hq'; subst hq'
  refine ⟨g, q, h1, h2, fun a m ha hs hm => ?_⟩
  obtain ⟨go, mask, ru, e1, e2, e3, e4⟩ := h3 a m ha hs hm
  refine ⟨go, mask, ru, e1, e2, ?_⟩
  by_cases hc : attr continentNames ipd.fields m.2 ∈ continentTable.map (·.1)
  · rw [if_pos hc]; exact e4 (List.mem_cons_of_mem _ hc)
  · rw [if_neg hc]
    have := hans a m ha hm
    rw [e2] at this
    have := Res.ok.inj this
    rw [← e3, this]
    unfold rustInfo
    simp only [IpInfo.mk.injEq, true_and, and_true]
    unfold spellCode
    rw [List.find?_eq_none.mpr]
    intro p hp hpe
    exact hc (List.mem_map.mpr ⟨p, hp, by simpa using hpe⟩)

/-- **C72.** Which address a text is taken for, for every text: with a colon behind the first character it is read as
an IPv6 address, otherwise with a dot behind the first character as an IPv4 address, and otherwise it is refused; a text
that the parser does not accept is refused; an accepted one is answered like its address. -/
theorem C72_java_text_exact (v4 v6 : Str → Option Bytes) (utf8 : Bytes → Str) (r : Java.JReader) (s : Str) :
    Java.queryText v4 v6 utf8 r s =
      match (if (0x3A : UInt8) ∈ s ∧ s.head? ≠ some 0x3A then v6 s
        else if (0x2E : UInt8) ∈ s ∧ s.head? ≠ some 0x2E then v4 s else none) with
      | some ip => Java.query utf8 r ip
      | none => .err .ipFormat := by
  unfold Java.queryText
  by_cases hs : s = []
  · subst hs; simp
  · rw [if_neg hs]
    by_cases h1 : (0x3A : UInt8) ∈ s ∧ s.head? ≠ some 0x3A
    · rw [if_pos (indexOf_pos.mpr h1), if_pos h1]
      cases v6 s <;> rfl
    · rw [if_neg (by rw [indexOf_pos]; exact h1), if_neg h1]
      by_cases h2 : (0x2E : UInt8) ∈ s ∧ s.head? ≠ some 0x2E
      · rw [if_pos (indexOf_pos.mpr h2), if_pos h2]
        cases v4 s <;> rfl
      · rw [if_neg (by rw [indexOf_pos]; exact h2), if_neg h2]

example : ¬ ((0x3A : UInt8) ∈ gs "::1" ∧ (gs "::1").head? ≠ some 0x3A) ∧ ¬ ((0x2E : UInt8) ∈ gs "::1") := by decide

end Uip.Ipdb
