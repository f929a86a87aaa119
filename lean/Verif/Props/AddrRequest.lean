import Verif.Props.AddrText
import Verif.Props.Converter
/-!
# Property C111: which requests the HTTP server answers
-/
namespace Uip.Program
open Uip Uip.Spec
open Uip.Spec.AddrText (Spells)

/-- **C111 (requests).** A request `/text` is answered with status 200 and a record exactly if the text spells an address (in any of
the forms of RFC 4291) whose query succeeds, with the record of that address; a text that spells no address is answered with 404. -/
theorem C111_request (enc : IpInfo → Bytes) (q : OpenDb) (text : Str) :
    (∀ ip info mask, ip.length = 16 → Spells text ip → q.query ip = .ok (info, mask) → serveQuery enc q (0x2F :: text) = .ok ⟨200, enc info⟩) ∧
    ((¬ ∃ ip, ValidIP ip ∧ Spells text ip) → serveQuery enc q (0x2F :: text) = .ok ⟨404, []⟩) ∧
    (∀ body, serveQuery enc q (0x2F :: text) = .ok ⟨200, body⟩ →
      ∃ ip info mask, ip.length = 16 ∧ Spells text ip ∧ q.query ip = .ok (info, mask) ∧ body = enc info) := by
  obtain ⟨h1, h2, h3⟩ := C67_serve enc q text
  refine ⟨fun ip info mask hl hs hq => h1 ip info mask ((C111_parse _ _).mpr ⟨hl, hs⟩) hq, fun h => h2 ((C111_parse_none _).mpr h), ?_⟩
  intro body hb
  cases hp : ParseIP text with
  | none => rw [h2 hp] at hb; cases hb
  | some ip =>
    obtain ⟨hl, hs⟩ := (C111_parse _ _).mp hp
    cases hq : q.query ip with
    | err e => rw [h3 ip e hp hq] at hb; cases hb
    | ok x =>
      obtain ⟨info, mask⟩ := x
      rw [h1 ip info mask hp hq] at hb
      cases hb
      exact ⟨ip, info, mask, hl, hs, hq, rfl⟩
    | panic =>
      exfalso
      unfold serveQuery at hb
      revert hb
      simp [hp, hq, Db.QueryStr, Db.Query]

/-- The request `/::FFFF:8.8.8.8` asks for 8.8.8.8. -/
example : Spells (gs "::FFFF:8.8.8.8") (v4InV6Prefix ++ [8, 8, 8, 8]) := ((C111_parse _ _).mp (by decide +kernel)).2

end Uip.Program
