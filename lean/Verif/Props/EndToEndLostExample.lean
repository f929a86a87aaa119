import Verif.Props.EndToEndLost
import Verif.Props.EndToEnd6Example
/-!
# C96 on IPv6 files that lose data or are never converted
-/
namespace Uip.Program
open Uip Uip.Spec Uip.Operate
open Uip.Export (sevenFields)
open Uip.Awdb (sixFile withV4 noV4 demoRecord foundNets)
open Uip.Spec.Awdb (File strRecord Doc At Stored SizeOK treeWalk)

/-- A tree whose numbers go up or to the one record: every path that is long enough ends at the record. -/
theorem walk_up {nodes : List (Nat × Nat)} {leaf : Nat} (hl : nodes.length ≤ leaf)
    (h : ∀ i, (hi : i < nodes.length) → (nodes[i].1 = leaf ∨ i < nodes[i].1 ∧ nodes[i].1 < nodes.length) ∧
      (nodes[i].2 = leaf ∨ i < nodes[i].2 ∧ nodes[i].2 < nodes.length)) :
    ∀ (bs : List Bool) (n d : Nat), (n = leaf ∨ n < nodes.length) → nodes.length ≤ n + bs.length → ∃ k, treeWalk nodes bs n d = (leaf, k) := by
  intro bs
  induction bs with
  | nil =>
    intro n d hn hb
    rcases hn with rfl | hn
    · exact ⟨d, rfl⟩
    · simp only [List.length_nil] at hb; omega
  | cons b bs ih =>
    intro n d hn hb
    unfold treeWalk
    rcases hn with rfl | hn
    · rw [List.getElem?_eq_none hl]; exact ⟨d, rfl⟩
    · rw [List.getElem?_eq_getElem hn]
      obtain ⟨h1, h2⟩ := h n hn
      simp only [List.length_cons] at hb
      cases b with
      | false => exact ih _ _ (h1.imp id (·.2)) (by show _ ≤ nodes[n].1 + _; omega)
      | true => exact ih _ _ (h2.imp id (·.2)) (by show _ ≤ nodes[n].2 + _; omega)

set_option maxRecDepth 100000 in
theorem withV4_ok : (sixFile withV4).OK where
  size := Or.inl rfl
  fit := by decide +kernel
  count := by decide +kernel
  metadata := ⟨_, _, Awdb.demoMeta_stored 6 111 24 (by omega) (by omega) (by omega), by decide +kernel⟩
  mdSize := rfl
  mdCount := rfl
  long := by decide +kernel
  tail := by decide +kernel
  once := Awdb.once_of (by decide +kernel)

set_option maxRecDepth 100000 in
theorem noV4_ok : (sixFile noV4).OK where
  size := Or.inl rfl
  fit := by decide +kernel
  count := by decide +kernel
  metadata := ⟨_, _, Awdb.demoMeta_stored 6 96 24 (by omega) (by omega) (by omega), by decide +kernel⟩
  mdSize := rfl
  mdCount := rfl
  long := by decide +kernel
  tail := by decide +kernel
  once := Awdb.once_of (by decide +kernel)

theorem sixFile_stored (nodes : List (Nat × Nat)) :
    Stored (sixFile nodes).data 513 0 (strRecord demoRecord) (0 + (strRecord demoRecord).enc.length) :=
  Awdb.enc_stored _ _ _ _ (by unfold At sixFile; rw [List.drop_zero]; exact List.prefix_append _ _) Awdb.demoRecord_fits.1 Awdb.demoRecord_fits.2

/-- A tree whose numbers go up or to the one record. -/
def GoesUp (nodes : List (Nat × Nat)) : Prop :=
  0 < nodes.length ∧ nodes.length ≤ 128 ∧ ∀ i, (hi : i < nodes.length) →
    (nodes[i].1 = nodes.length + 16 ∨ i < nodes[i].1 ∧ nodes[i].1 < nodes.length) ∧
    (nodes[i].2 = nodes.length + 16 ∨ i < nodes[i].2 ∧ nodes[i].2 < nodes.length)

/-- In such a file every address has the record. -/
theorem up_find {nodes : List (Nat × Nat)} (hok : (sixFile nodes).OK) (hup : GoesUp nodes)
    {r : Awdb.Reader} (ho : Awdb.FromBytes (sixFile nodes).bytes = .ok r) (ip : IP) (hv : ValidIP ip) :
    ∃ net, r.Find ip = .ok (net, Awdb.mapRange demoRecord.reverse) ∧ r.Query ip = .ok (Awdb.infoOf demoRecord, pfx net) := by
  have hlen : (Spec.Awdb.canon ip).length ≤ 16 := by
    rcases Awdb.canon_length hv with h | h <;> omega
  have hpl : ((sixFile nodes).path ip).length = 128 := by
    unfold File.path
    rw [if_pos (show (sixFile nodes).md.ipVersion = 6 from rfl), bits_length, List.length_append, List.length_replicate]
    omega
  obtain ⟨k, hw⟩ := walk_up (Nat.le_add_right _ 16) hup.2.2 ((sixFile nodes).path ip) 0 0 (.inr hup.1) (by rw [hpl]; have := hup.2.1; omega)
  obtain ⟨r', ho', _, h2, _⟩ := Awdb.C63_lookup (sixFile nodes) hok ip ⟨hv, .inl rfl⟩ _ k hw
  rw [ho] at ho'
  obtain rfl := Res.ok.inj ho'
  obtain ⟨net, h3, h5, _⟩ := h2 0 _ _ (sixFile_stored nodes) rfl
  obtain ⟨m, k1, _, k3⟩ := Awdb.toStrings_record demoRecord
  refine ⟨net, ?_, Awdb.query_record h5 h3⟩
  unfold Awdb.Reader.Find
  rw [h3, Res.ok_bind]
  simp only [k1, Res.ok_bind, k3]
  rfl

def upFs (nodes : List (Nat × Nat)) : Fs := fun n => if n = gs "a.awdb" then some (sixFile nodes).bytes else none

theorem up_opened {nodes : List (Nat × Nat)} (hok : (sixFile nodes).OK) (fuel : Nat) :
    ∃ R, NewDb exWorld (converterFormats exWorld fuel) (upFs nodes) sixArgs.input = .ok (.awdb R) ∧
    Awdb.FromBytes (sixFile nodes).bytes = .ok R ∧ Awdb.open_ (sixFile nodes).bytes = .ok R ∧ R.md = (sixFile nodes).md := by
  obtain ⟨R, ho, _, _, _, hm⟩ := Awdb.file_opens hok
  have hc : Awdb.open_ (sixFile nodes).bytes = .ok R := by
    unfold Awdb.open_ Awdb.Reader.check
    have hv : R.version.HasIpV4 = false := by
      unfold Awdb.Reader.version VersionInfo.HasIpV4 Awdb.Metadata.IpType
      rw [hm]; rfl
    rw [ho, Res.ok_bind, hv]
    rfl
  refine ⟨R, ?_, ho, hc, hm⟩
  unfold NewDb
  rw [show upFs nodes sixArgs.input = some (sixFile nodes).bytes from if_pos rfl]
  simp only []
  rw [show pathExt sixArgs.input = gs ".awdb" by decide +kernel]
  unfold NewDbFromBytes
  rw [opener_awdb]
  simp only [hc, Res.ok_bind, Res.pure_eq, OpenDb.buildCache]

/-- The two networks found, from the check of `foundNets`. -/
theorem found_nets {f : File} {R : Awdb.Reader} (ho : Awdb.open_ f.bytes = .ok R) {v p q : Nat} {a b : IP}
    (h : foundNets f = some (v, (a, p), (b, q))) :
    (∃ c rec, R.Find belowMapped = .ok (c, rec) ∧ c.ip = a ∧ pfx c = p) ∧ ∃ c rec, R.Find IPv4zero = .ok (c, rec) ∧ c.ip = b ∧ pfx c = q := by
  unfold foundNets at h
  rw [ho] at h
  simp only [] at h
  split at h
  · rename_i c rec c0 rec0 h1 h2
    simp only [Option.some.injEq, Prod.mk.injEq] at h
    obtain ⟨_, ⟨h3, h4⟩, h5, h6⟩ := h
    exact ⟨⟨c, rec, h1, h3, h4⟩, c0, rec0, h2, h5, h6⟩
  · cases h

set_option maxRecDepth 100000 in
theorem withV4_nets : foundNets (sixFile withV4) = some (6, (List.replicate 10 0 ++ [0xff, 0xfe, 0, 0, 0, 0], 96), ([0, 0, 0, 0], 0)) := by
  decide +kernel
set_option maxRecDepth 100000 in
theorem noV4_nets : foundNets (sixFile noV4) = some (6, (List.replicate 10 0 ++ [0xff, 0xfe, 0, 0, 0, 0], 96), (List.replicate 16 0, 81)) := by
  decide +kernel

theorem withV4_up : GoesUp withV4 := by unfold GoesUp; decide +kernel
theorem noV4_up : GoesUp noV4 := by unfold GoesUp; decide +kernel

theorem cross_of {c : IPNet} (h1 : c.ip = List.replicate 10 0 ++ [0xff, 0xfe, 0, 0, 0, 0]) (h2 : pfx c = 96) : ¬ Covers c (0xffff * 2 ^ 32) := by
  unfold Covers netEnd hostBits netLo
  rw [h1, h2]
  decide +kernel

theorem up_infos : Awdb.infoOf demoRecord = { country := gs "中国", province := gs "广东", asn := gs "4837", isp := gs "联通" } := by
  decide +kernel

/-- C96 (never converted) on a file. -/
theorem ex_endless (fuel : Nat) (orders : Nat → List Str) (canCreate : Str → Bool) :
    converter exWorld fuel orders canCreate (upFs noV4) sixArgs = none := by
  obtain ⟨R, hnew, ho, hc, hm⟩ := up_opened noV4_ok fuel
  obtain ⟨⟨c, rec, h1, h2, h3⟩, c0, rec0, h4, h5, _⟩ := found_nets hc noV4_nets
  exact C96_awdb_endless exWorld fuel orders canCreate (upFs noV4) sixArgs R hnew (by decide +kernel) (by rw [hm]; rfl)
    (fun ip hv => by obtain ⟨net, _, h⟩ := up_find noV4_ok noV4_up ho ip hv; exact ⟨_, _, h⟩)
    ⟨c, rec, h1, cross_of h2 h3⟩ ⟨c0, rec0, h4, by rw [h5]; rfl⟩ rfl rfl

/-- C96 (lost) on a file with one record for every address: the output answers `::1`, but neither `1.2.3.4` nor `fe80::1`. -/
theorem ex_lost (fuel : Nat) (hfuel : fuel ≥ 2 ^ 128) : ∃ fs' b,
    converter exWorld fuel (fun _ => [gs "联通"]) (fun _ => true) (upFs withV4) sixArgs = some (fs', .ok ()) ∧
    fs' (gs "b.ipdb") = some b ∧
    (b.length < 2 ^ 32 → ∃ q m, NewDb exWorld (serverFormats exWorld fuel) fs' (gs "b.ipdb") = .ok q ∧
      q.query (List.replicate 15 0 ++ [1]) = .ok (⟨gs "中国", gs "华南", gs "广东", [], [], gs "联通", [], []⟩, m) ∧
      q.query [1, 2, 3, 4] = .err .databaseError ∧ q.query farIP = .err .databaseError) := by
  obtain ⟨R, hnew, ho, hc, hm⟩ := up_opened withV4_ok fuel
  obtain ⟨⟨c, rec, h1, h2, h3⟩, c0, rec0, h4, h5, _⟩ := found_nets hc withV4_nets
  have hq : ∀ ip i, ValidIP ip → Says (.awdb R) ip i → i = Awdb.infoOf demoRecord := by
    rintro ip i hv ⟨m, h⟩
    obtain ⟨net, _, hq⟩ := up_find withV4_ok withV4_up ho ip hv
    have h' : R.Query ip = .ok (i, m) := h
    rw [hq] at h'
    exact (Prod.mk.inj (Res.ok.inj h')).1.symm
  have hs : ∀ ip, ValidIP ip → SaysNoAsn (.awdb R) ip { country := gs "中国", province := gs "广东", isp := gs "联通" } := by
    intro ip hv
    obtain ⟨net, _, hq⟩ := up_find withV4_ok withV4_up ho ip hv
    exact ⟨_, ⟨_, hq⟩, by rw [up_infos]⟩
  have c1 : cleaned { country := gs "中国", province := gs "广东", isp := gs "联通" } =
      { country := gs "中国", province := gs "广东", isp := gs "联通" } := by decide +kernel
  obtain ⟨fs', b, r1, r2, _, r3⟩ := C96_awdb_lost exWorld fuel hfuel (fun _ => [gs "联通"]) (fun _ => true) (upFs withV4) sixArgs R hnew
    (by decide +kernel) (by rw [hm]; rfl)
    (fun ip net rec hv h => by
      obtain ⟨net', hf, _⟩ := up_find withV4_ok withV4_up ho ip hv
      rw [h] at hf
      rw [(Prod.mk.inj (Res.ok.inj hf)).2]
      decide +kernel)
    (fun ip hv => by obtain ⟨net, _, h⟩ := up_find withV4_ok withV4_up ho ip hv; exact ⟨_, _, h⟩)
    ⟨c, rec, h1, cross_of h2 h3⟩ ⟨c0, rec0, h4, by rw [h5]; rfl⟩ rfl rfl
    (fun ip i hw h => by rw [hq ip i hw.1 h, up_infos]; decide +kernel)
    (fun k => ⟨by simp, fun m => ⟨fun h => by
      rw [List.mem_singleton.mp h]
      exact ⟨by decide +kernel, _, ⟨[1, 2, 3, 4], by unfold UpToIPv4; decide +kernel, hs _ (by decide)⟩, by rw [c1]⟩,
      fun ⟨_, i, ⟨ip, hw, j, hj, hi⟩, h⟩ => by
        rw [hq ip j hw.1 hj, up_infos] at hi
        rw [← h, hi, c1]
        exact List.mem_singleton.mpr rfl⟩⟩)
    (by decide +kernel) (by decide +kernel) rfl (ex_meta _ _)
  refine ⟨fs', b, r1, r2, fun hl => ?_⟩
  obtain ⟨q, k1, k2, k3⟩ := r3 hl
  obtain ⟨o, n, k4, _, hfin, _⟩ := k2 (List.replicate 15 0 ++ [1]) _ (by decide) (by decide +kernel) (hs _ (by decide))
  refine ⟨q, maskFor n (List.replicate 15 0 ++ [1]), k1, ?_, k3 _ (by decide +kernel), k3 _ (by decide +kernel)⟩
  obtain ⟨f1, f2, f3, f4, f5, f6, f7, f8⟩ := hfin
  rw [c1] at f1 f2 f3 f4 f5 f6 f8
  rw [k4]
  have h8 : o.isp = gs "联通" := by
    rcases f8 with ⟨h, _⟩ | ⟨h, _⟩
    · exact absurd (by decide +kernel) h
    · exact h
  have : o = ⟨gs "中国", gs "华南", gs "广东", [], [], gs "联通", [], []⟩ := by
    obtain ⟨o1, o2, o3, o4, o5, o6, o7, o8⟩ := o
    simp only at f1 f2 f3 f4 f5 f6 f7 h8
    subst f1 f2 f3 f4 f5 f6 f7 h8
    decide +kernel
  rw [this]

end Uip.Program
