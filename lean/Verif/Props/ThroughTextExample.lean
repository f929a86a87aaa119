import Verif.Props.ThroughTextJson
import Verif.Props.CanonicalExample
import Verif.Props.GoWorldExample
/-!
# C120 on a concrete file
-/
namespace Uip.Program
open Uip Uip.Spec Uip.Operate Uip.Json
open Uip.Dump (Walked)

/-- A table that fills its family is closed by its last row, which does not keep its text from being read whole. -/
example : EndsLast srcTable ∧ ¬ OpenEnded srcTable := by decide +kernel

/-- What C120 asks of the reader of the example: no repeated code column, a version that fits a line. -/
def srcReads (b : Bytes) : Bool :=
  match Ipdb.newReaderFromBytes goExWorld.decMeta b with
  | .ok r => decide ((r.md.fields.filter fun f => decide (f = gs "continent_code")).length ≤ 1 ∧
      (marshalVersion false false (r.version goExWorld.fmtDate)).length + 44 < 65536)
  | _ => true

set_option maxRecDepth 100000 in
theorem src_reads : (match Ipdb.pack goExWorld.encMeta goExWorld.now srcTable with | .ok b => srcReads b | _ => true) = true := by
  decide +kernel

/-- **C120 is not vacuous.** A file with two records, in a program with Go's JSON: converted to a database `b.ipdb` and to a text
`c.scan`; the conversion of either writes the same bytes. -/
theorem ex_through_text (fuel : Nat) (hfuel : fuel ≥ 2 ^ 128) : ∃ b b1 text,
    Ipdb.pack goExWorld.encMeta goExWorld.now srcTable = .ok b ∧
    converter goExWorld fuel (fun _ => [gs "电信"]) (fun _ => true) (fun n => if n = gs "a.ipdb" then some b else none)
      ⟨gs "a.ipdb", gs "b.ipdb", gs "default", [], false⟩ =
        some (Fs.set (fun n => if n = gs "a.ipdb" then some b else none) (gs "b.ipdb") b1, .ok ()) ∧
    converter goExWorld fuel (fun _ => [gs "电信"]) (fun _ => true) (fun n => if n = gs "a.ipdb" then some b else none)
      ⟨gs "a.ipdb", gs "c.scan", gs "default", [], false⟩ =
        some (Fs.set (fun n => if n = gs "a.ipdb" then some b else none) (gs "c.scan") text, .ok ()) ∧
    (b1.length < 2 ^ 32 → ∃ b2,
      converter goExWorld fuel (fun _ => [gs "电信"]) (fun _ => true) (fun n => if n = gs "b.ipdb" then some b1 else none)
        ⟨gs "b.ipdb", gs "d.ipdb", gs "default", [], false⟩ =
          some (Fs.set (fun n => if n = gs "b.ipdb" then some b1 else none) (gs "d.ipdb") b2, .ok ()) ∧
      converter goExWorld 0 (fun _ => [gs "电信"]) (fun _ => true) (fun n => if n = gs "c.scan" then some text else none)
        ⟨gs "c.scan", gs "d.ipdb", gs "default", [], false⟩ =
          some (Fs.set (fun n => if n = gs "c.scan" then some text else none) (gs "d.ipdb") b2, .ok ())) := by
  obtain ⟨b, Q, e1, h, v1, s1⟩ := halves_convertible_in goExWorld fuel srcTable ((goMeta goEx_world _ _).mpr src_texts)
    (fun v h1 h2 => (goMeta goEx_world _ _).mpr ⟨by rw [h1]; exact Json.isText_gs _, (by rw [h2]; exact fun s hs => by cases hs), seven_texts⟩)
    (by decide +kernel) (by decide +kernel) (by decide +kernel) (by decide) rfl rfl rfl
    (by decide +kernel) (fun ip h => src_halves' h)
  have hr := src_reads
  rw [e1] at hr
  obtain ⟨b', r, Q0, hb, hnew, hq, hQ, _⟩ := open_ipdb h.kind h.opened
  have hb : (fun n => if n = gs "a.ipdb" then some b else none) (gs "a.ipdb") = some b' := hb
  rw [show (fun n => if n = gs "a.ipdb" then some b else none) (gs "a.ipdb") = some b from if_pos rfl] at hb
  obtain rfl := Option.some.inj hb
  obtain rfl : Q = Q0 := by injection hq
  simp only [srcReads, hnew, decide_eq_true_eq] at hr
  rw [← hQ] at hr
  obtain ⟨hcode, hsize⟩ := hr
  have c1 : (cleaned srcLow).isp = gs "电信" := by decide +kernel
  have c2 : (cleaned srcHigh).isp ∉ mainCarriers := by decide +kernel
  have key : ∀ s m, Carries (AnswersOf goExWorld Q) s m → m = gs "电信" := by
    rintro s m ⟨hm, i, ⟨ip, hf, hi⟩, h, _⟩
    rw [(s1 ip i hf).mp hi] at h
    unfold halfInfo at h
    split at h
    · rw [c1] at h; exact h.symm
    · rw [← h] at hm; exact absurd hm c2
  have hone : OneCarrier (AnswersOf goExWorld Q) := by
    intro i _ _ m m' g g'
    rw [key _ m g, key _ m' g']
  have hlow : Lined srcLow := by decide +kernel
  have hhigh : Lined srcHigh := by decide +kernel
  obtain ⟨b1, text, k1, k2, k3⟩ := C120_json hfuel goEx_world (fun v => ⟨false, false, rfl⟩) h hone hcode
    (fun ip i hf hi => by
      rw [(s1 ip i hf).mp hi]
      unfold halfInfo
      split
      · exact hlow
      · exact hhigh) hsize (by decide +kernel) _ h.orders
  refine ⟨b, b1, text, e1, k1, k2 (gs "c.scan") (by decide +kernel) (by decide +kernel) rfl, fun hl => ?_⟩
  obtain ⟨b2, Q1, _, _, r1, r2, _⟩ := k3 hl
  exact ⟨b2, r1 _ _ _ ⟨gs "b.ipdb", gs "d.ipdb", gs "default", [], false⟩
      ⟨by decide +kernel, rfl, rfl, by decide +kernel, by decide +kernel, rfl⟩ (if_pos rfl) h.orders,
    r2 _ _ _ _ ⟨gs "c.scan", gs "d.ipdb", gs "default", [], false⟩
      ⟨by decide +kernel, rfl, rfl, by decide +kernel, by decide +kernel, rfl⟩ (if_pos rfl) h.orders⟩

end Uip.Program
