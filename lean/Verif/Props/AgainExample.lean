import Verif.Props.Again
import Verif.Props.CanonicalExample
/-!
# C118 on concrete files
-/
namespace Uip.Program
open Uip Uip.Spec Uip.Operate
open Uip.Export (sevenFields)
open Uip.Dump (Walked)

/-- C118 on the example of C95: a file with two records, converted, converted again and again. -/
theorem ex_again (fuel : Nat) (hfuel : fuel ≥ 2 ^ 128) : ∃ b Q b1,
    Ipdb.pack exWorld.encMeta exWorld.now srcTable = .ok b ∧ Opens exWorld fuel b Q ∧
    converter exWorld fuel (fun _ => [gs "电信"]) (fun _ => true) (fun n => if n = gs "a.ipdb" then some b else none) srcArgs =
      some (Fs.set (fun n => if n = gs "a.ipdb" then some b else none) (gs "b.ipdb") b1, .ok ()) ∧
    (b1.length < 2 ^ 32 → ∃ b2 Q1, Opens exWorld fuel b1 Q1 ∧
      Says (.ipdb Q1) [200, 0, 0, 1] ⟨gs "美国", [], [], [], [], gs "电信", gs "北美洲", []⟩ ∧
      converter exWorld fuel (fun _ => [gs "电信"]) (fun _ => true) (fun n => if n = gs "a.ipdb" then some b1 else none) srcArgs =
        some (Fs.set (fun n => if n = gs "a.ipdb" then some b1 else none) (gs "b.ipdb") b2, .ok ()) ∧
      (b2.length < 2 ^ 32 →
        converter exWorld fuel (fun _ => [gs "电信"]) (fun _ => true) (fun n => if n = gs "a.ipdb" then some b2 else none) srcArgs =
          some (Fs.set (fun n => if n = gs "a.ipdb" then some b2 else none) (gs "b.ipdb") b2, .ok ()))) := by
  obtain ⟨b, Q, e1, h, v1, s1⟩ := halves_convertible fuel srcTable (by decide +kernel) (by decide +kernel) (by decide +kernel) (by decide) rfl rfl rfl
    (by decide +kernel) (fun ip h => src_halves' h)
  have c1 : (cleaned srcLow).isp = gs "电信" := by decide +kernel
  have c2 : (cleaned srcHigh).isp ∉ mainCarriers := by decide +kernel
  have key : ∀ s m, Carries (AnswersOf exWorld Q) s m → m = gs "电信" := by
    rintro s m ⟨hm, i, ⟨ip, hf, hi⟩, h, _⟩
    rw [(s1 ip i hf).mp hi] at h
    unfold halfInfo at h
    split at h
    · rw [c1] at h; exact h.symm
    · rw [← h] at hm; exact absurd hm c2
  have hone : OneCarrier (AnswersOf exWorld Q) := by
    intro i _ _ m m' g g'
    rw [key _ m g, key _ m' g']
  have hd4 : dumpLen (OpenDb.versionInfo exWorld (.ipdb Q)) = 4 := by
    unfold dumpLen VersionInfo.IsIpV6; rw [v1.1]; decide
  have hw1 : Family exWorld (.ipdb Q) [1, 2, 3, 4] := by unfold Family Walked; rw [hd4]; decide +kernel
  have hw2 : Family exWorld (.ipdb Q) [200, 0, 0, 1] := by unfold Family Walked; rw [hd4]; decide +kernel
  have hi1 : Says (.ipdb Q) [1, 2, 3, 4] srcLow := (s1 _ _ hw1).mpr (by unfold halfInfo; rw [if_pos (by decide +kernel)])
  have hi2 : Says (.ipdb Q) [200, 0, 0, 1] srcHigh := (s1 _ _ hw2).mpr (by unfold halfInfo; rw [if_neg (by decide +kernel)])
  obtain ⟨b1, r1, k1⟩ := C118_again hfuel h hone
  have hopen : Opens exWorld fuel b Q := by
    intro fs name hfs hext
    have := h.opened
    unfold NewDb at this ⊢
    rw [hfs]
    have hin : (fun n => if n = gs "a.ipdb" then some b else none) (gs "a.ipdb") = some b := if_pos rfl
    rw [show srcArgs.input = gs "a.ipdb" from rfl, hin] at this
    simp only [hext, show pathExt (gs "a.ipdb") = gs ".ipdb" by decide +kernel] at this ⊢
    exact this
  refine ⟨b, Q, b1, e1, hopen, r1, fun hl1 => ?_⟩
  obtain ⟨b2, Q1, o1, a1, r2, k2⟩ := k1 hl1
  refine ⟨b2, Q1, o1, ?_, r2 _ _ _ srcArgs h.run (if_pos rfl) h.orders, fun hl2 => ?_⟩
  · obtain ⟨o, ho, hfin⟩ := a1 _ _ hw2 hi2
    have hcar := C95_foreign_carrier _ srcHigh o srcLow hfin (by decide +kernel) ⟨_, hw1, hi1⟩ (by rw [c1]; decide +kernel) (by decide +kernel)
    obtain ⟨f1, f2, f3, f4, f5, f6, f7, f8⟩ := hfin
    have h8 : o.isp = gs "电信" := by
      rcases f8 with ⟨_, h⟩ | ⟨h, _⟩
      · exact key _ _ h
      · rw [h] at hcar; exact absurd hcar c2
    have : o = ⟨gs "美国", [], [], [], [], gs "电信", gs "北美洲", []⟩ := by
      have c : cleaned srcHigh = ⟨gs "美国", [], [], [], [], [], gs "北美洲", []⟩ := by decide +kernel
      rw [c] at f1 f2 f3 f4 f5 f6
      obtain ⟨o1, o2, o3, o4, o5, o6, o7, o8⟩ := o
      simp only at f1 f2 f3 f4 f5 f6 f7 h8
      subst f1 f2 f3 f4 f5 f6 f7 h8
      decide +kernel
    rw [← this]; exact ho
  · obtain ⟨Q2, _, _, r3⟩ := k2 hl2
    exact r3 _ _ _ srcArgs h.run (if_pos rfl) h.orders

/-! ## The conditions are needed -/

def scanArgs (i o : String) : Args := ⟨gs i, gs o, gs "default", [], false⟩

/-- Convert a `.scan` text to a `.scan` text. -/
def scanned (keys : List Str) (text : Str) : Option Str :=
  (converter exWorld 0 (fun _ => keys) (fun _ => true) (fun n => if n = gs "a.scan" then some text else none) (scanArgs "a.scan" "b.scan")).bind
    fun r => r.1 (gs "b.scan")

/-- Two main carriers without AS number, and a network outside China. -/
def noAsnText : Str := gs "#### scan dump now ####\n#### {v}\n#### country,province,city,isp,asn,continent,district\n10.0.0.0/9\t中国,浙江,,电信,,AS,\n10.128.0.0/9\t中国,浙江,,联通,,AS,\n11.0.0.0/8\t美国,,,,,NA,\n"

/-- What a conversion of `noAsnText` writes: the carrier of `11.0.0.0/8` is the one given. -/
def noAsnOut (isp : String) : Str := gs ("#### scan dump now ####\n#### {v}\n#### country,province,city,isp,asn,continent,district\n10.0.0.0/9\t中国,浙江,,电信,,AS,华东\n10.128.0.0/9\t中国,浙江,,联通,,AS,华东\n11.0.0.0/8\t美国,,," ++ isp ++ ",,NA,\n")

/-- **C118, the condition is needed.** The second conversion of a file with two main carriers for one (empty) AS number may
change the carrier of the network outside China. -/
theorem C118_needs_one_carrier :
    scanned [gs "电信", gs "联通"] noAsnText = some (noAsnOut "电信") ∧
    scanned [gs "联通", gs "电信"] (noAsnOut "电信") = some (noAsnOut "联通") := by
  refine ⟨?_, ?_⟩ <;> decide +kernel

/-- Two neighbours that differ in their (discarded) district only. -/
def districtText : Str := gs "#### scan dump now ####\n#### {v}\n#### country,province,city,isp,asn,continent,district\n10.0.0.0/9\t中国,浙江,杭州,电信,4134,AS,甲\n10.128.0.0/9\t中国,浙江,杭州,电信,4134,AS,乙\n"

/-- Its conversion. -/
def districtOnce : Str := gs "#### scan dump now ####\n#### {v}\n#### country,province,city,isp,asn,continent,district\n10.0.0.0/9\t中国,浙江,杭州,电信,4134,AS,华东\n10.128.0.0/9\t中国,浙江,杭州,电信,4134,AS,华东\n"

/-- The conversion of its conversion. -/
def districtTwice : Str := gs "#### scan dump now ####\n#### {v}\n#### country,province,city,isp,asn,continent,district\n10.0.0.0/8\t中国,浙江,杭州,电信,4134,AS,华东\n"

/-- **C118 cannot be sharpened to the first output.** It may still have neighbours with the same record, which the second
conversion merges; then nothing changes any more. -/
theorem C118_second_differs :
    scanned [gs "电信"] districtText = some districtOnce ∧ scanned [gs "电信"] districtOnce = some districtTwice ∧
    scanned [gs "电信"] districtTwice = some districtTwice := by
  refine ⟨?_, ?_, ?_⟩ <;> decide +kernel

end Uip.Program
