import Verif.Props.OutputsText
import Verif.Props.ConverterExample
/-!
# C89 on concrete data: a conversion to three outputs, and what happens in another order
-/
namespace Uip.Program
open Uip Uip.Spec Uip.Operate

def exArgs3 : Args := ⟨gs "a.scan", gs "b.ipdb,c.ipdb,d.scan", gs "default", [], false⟩

theorem ex3_outputs : splitByte 0x2C exArgs3.output = [gs "b.ipdb", gs "c.ipdb", gs "d.scan"] := by decide +kernel

theorem ex3_dumps (fuel : Nat) : Dumps exWorld fuel exFs exArgs3 id exTable := ex_dumps fuel

theorem ex3_text : TextTable exTable := by decide +kernel

theorem ex3_open : OpenEnded exTable := by decide +kernel

/-- C89 on the example: all three files are written from one data set; the text, dumped again, has every row of the
table. -/
theorem ex3_convert : ∃ fs' d, EndTable exTable d ∧
    converter exWorld 0 (fun _ => exKeys) (fun _ => true) exFs exArgs3 = some (fs', .ok ()) ∧
    (fs' (gs "b.ipdb")).isSome = true ∧ fs' (gs "b.ipdb") = fs' (gs "c.ipdb") ∧ fs' (gs "a.scan") = some exText ∧
    ∃ out h, DumpFile (converterFormats exWorld 0) fs' (gs "d.scan") (Spec.ruleText d.fields []) [] = some (.ok h) ∧
      h.view = ⟨d.fields, exVersion, out⟩ ∧
      (∀ x ∈ exTable.ips, ∀ y, Covers x.cidr y → ∃ x' r, Settled exTable x x' ∧ r ∈ out ∧ Covers r.cidr y ∧
        OneRecord exTable r.cidr x'.values ∧ r.values = (withDistrict exTable x'.values).map noCommas) := by
  obtain ⟨fs', d, hd, e, hother, hall⟩ := C89_convert exWorld 0 (fun _ => exKeys) (fun _ => true) exFs exArgs3 id exTable
    (ex3_dumps 0) ex_table rfl ex_orders (by decide +kernel) (by rw [ex3_outputs]; decide +kernel) (by rw [ex3_outputs]; decide +kernel)
    (ex_meta _ _)
  rw [ex3_outputs] at hall hother
  obtain ⟨b, b1, b2, _⟩ := hall (gs "b.ipdb") (by simp)
  obtain ⟨c, c1, c2, _⟩ := hall (gs "c.ipdb") (by simp)
  obtain ⟨t, t1, t2, _⟩ := hall (gs "d.scan") (by simp)
  have hbc : b = c := by
    have h : content exWorld d (gs "b.ipdb") = content exWorld d (gs "c.ipdb") := by
      unfold content
      rw [show pathExt (gs "b.ipdb") = pathExt (gs "c.ipdb") from by decide +kernel]
    rw [h, c2] at b2
    exact (Res.ok.inj b2).symm
  obtain ⟨out, h, k1, k2, _, k4, _⟩ := C89_text exWorld 0 exTable ex_table ex3_text (.inl ex3_open) d hd (gs "d.scan")
    (by decide +kernel) t t2 (by show LineOK (gs "{v}"); decide +kernel) (by show LineOK (gs "now"); decide +kernel) exVersion
    (by show (if gs "{v}" = gs "{v}" then some (some exVersion) else none) = _; exact if_pos rfl) fs' t1
  refine ⟨fs', d, hd, e, by rw [b1]; rfl, by rw [b1, c1, hbc], ?_, out, h, k1, k2, k4⟩
  rw [hother (gs "a.scan") (by decide +kernel)]
  exact if_pos rfl

/-- **C89 (negation).** The text first: the `.ipdb` file written after it is not the file the data set has on its own,
for a table whose values contain a comma. -/
theorem C89_negation :
    ((writeAll (converterFormats exWorld 0) (fun _ => true) [gs "a.scan", gs "b.ipdb"] (fun _ => none) Convert.demoComma).1 (gs "b.ipdb") ≠
        written exWorld Convert.demoComma (gs "b.ipdb")) ∧
      (writeAll (converterFormats exWorld 0) (fun _ => true) [gs "b.ipdb", gs "a.scan"] (fun _ => none) Convert.demoComma).1 (gs "b.ipdb") =
        written exWorld Convert.demoComma (gs "b.ipdb") ∧
      (written exWorld Convert.demoComma (gs "b.ipdb")).isSome = true := by
  decide +kernel

theorem ok_of_isOk {α : Type} {r : Res α} (h : r.isOk = true) : ∃ b, r = .ok b := by
  cases r with
  | ok b => exact ⟨b, rfl⟩
  | err e => cases h
  | panic => cases h

/-- C89_after_scan on concrete data: an `.ipdb`, the `.scan` text, another `.ipdb` and a `.memip` text. -/
example : ∃ fs', writeAll (converterFormats exWorld 0) (fun _ => true) [gs "b.ipdb", gs "a.scan", gs "c.ipdb", gs "d.memip"] exFs Convert.demoComma =
    (fs', .ok ()) ∧ fs' (gs "b.ipdb") = written exWorld Convert.demoComma (gs "b.ipdb") ∧
    fs' (gs "c.ipdb") = written exWorld (Convert.commaless Convert.demoComma) (gs "c.ipdb") ∧
    fs' (gs "d.memip") = written exWorld (Convert.commaless Convert.demoComma) (gs "d.memip") ∧
    written exWorld (Convert.commaless Convert.demoComma) (gs "c.ipdb") ≠ written exWorld Convert.demoComma (gs "b.ipdb") := by
  obtain ⟨fs', h1, h2, h3, _⟩ := C89_after_scan exWorld 0 (fun _ => true) exFs Convert.demoComma (by decide +kernel) (by decide +kernel)
    [gs "b.ipdb"] [gs "c.ipdb", gs "d.memip"] (gs "a.scan") (by decide +kernel) (by decide +kernel) rfl
    (fun p hp => ⟨rfl, by rw [List.mem_singleton.mp hp]; exact ok_of_isOk (by decide +kernel)⟩)
    (by
      have h : ∀ p ∈ [gs "c.ipdb", gs "d.memip"], (content exWorld (Convert.commaless Convert.demoComma) p).isOk = true := by decide +kernel
      exact fun p hp => ⟨rfl, ok_of_isOk (h p hp)⟩)
  exact ⟨fs', h1, h2 _ (by decide +kernel) (by decide +kernel), h3 _ (by decide +kernel), h3 _ (by decide +kernel), by decide +kernel⟩

/-- C89_stops on concrete data: `.txt` is not a kind that can be written. -/
example : ∃ fs' e, writeAll (converterFormats exWorld 0) (fun _ => true) [gs "b.ipdb", gs "x.txt", gs "c.ipdb"] exFs Convert.demoComma =
    (fs', .err e) ∧ fs' (gs "b.ipdb") = written exWorld Convert.demoComma (gs "b.ipdb") ∧ fs' (gs "x.txt") = some [] ∧
    fs' (gs "c.ipdb") = none := by
  have hc : ∃ b, content exWorld Convert.demoComma (gs "b.ipdb") = .ok b := by
    cases h : content exWorld Convert.demoComma (gs "b.ipdb") with
    | ok b => exact ⟨b, rfl⟩
    | err e => have := C89_negation.2.2; unfold written at this; rw [h] at this; cases this
    | panic => have := C89_negation.2.2; unfold written at this; rw [h] at this; cases this
  have hx : ∃ e, content exWorld Convert.demoComma (gs "x.txt") = .err e := ⟨_, rfl⟩
  obtain ⟨fs', e, h1, h2, h3, h4⟩ := C89_stops exWorld 0 (fun _ => true) exFs Convert.demoComma (by decide +kernel) [gs "b.ipdb"] [gs "c.ipdb"]
    (gs "x.txt") (by decide +kernel)
    (fun p hp => ⟨rfl, by rw [List.mem_singleton.mp hp]; exact hc⟩) (.inr hx)
  refine ⟨fs', e, h1, h2 _ (by simp), h3 rfl, ?_⟩
  rw [h4 (gs "c.ipdb") (by decide +kernel) (fun h => absurd h (by decide +kernel))]
  decide +kernel

end Uip.Program
