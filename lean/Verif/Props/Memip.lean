import Verif.Proof.Memip
/-!
# Properties C47-C49 (and the memip part of C34): the `.memip` text

Vocabulary: `Verif/Spec/Memip.lean`.  `build` and `day` are the time of the dump.
-/
namespace Uip.Memip
open Uip Uip.Spec Uip.Plain Uip.Operate

/-! ## C48 -/

/-- **C48.** The six fields of a line are the view of the record, for every field list and every record with one value
per field. -/
theorem C48_view (fs vs : List Str) (hl : vs.length = fs.length) :
    covertValues (fieldOffsets fs) vs = .ok (viewOf fs vs) ∧ fields = viewFields ∧ (viewOf fs vs).length = 6 :=
  ⟨covert_spec hl, rfl, rfl⟩

/-- **C48 (short records).** A record too short for a field of the view makes the packer panic. -/
theorem C48_short_record_panics (fs vs : List Str) (k : Nat) (h : Offset (gs "city") fs = some k) (hk : vs.length ≤ k) :
    covertValues (fieldOffsets fs) vs = .panic := by
  unfold covertValues fieldOffsets fields
  simp only [List.map_cons, covertLoop, findFrom_zero, show fCity = gs "city" from rfl, h, newValue,
    List.getElem?_eq_none hk, Res.panic_bind]

/-- A record with an unlisted carrier, a reserved city, a continent code, in an order of its own. -/
example : viewOf [gs "continent", gs "isp", gs "country", gs "province", gs "city", gs "district"]
    [gs "AS", gs "教育网", gs "中国", gs "香港", gs "保留地址", gs "华南"] =
    [gs "默认", gs "香港", gs "默认", gs "其他", gs "中国", gs "亚洲"] := by decide +kernel

/-! ## C47 -/

section
variable (d : IpData) (hd : MemOK d) (build : Int) (day : Str)
include hd

/-- **C47 (IPv4).** Packing IPv4 rows and dumping the text gives, for every address, the view of the run of
neighbouring rows it belongs to (rows scanned from either end), in canonical networks inside that run. -/
theorem C47_v4 (hv : d.version.ipType = IpV4) (h4 : ∀ r ∈ d.ips, V4Net r.cidr) :
    ∃ text out, pack d = .ok text ∧ dump build day text = .ok out ∧ out.fields = viewFields ∧
      out.version.count = UInt32.ofNat out.ips.length ∧
      ((∀ r ∈ d.ips, ∀ v ∈ viewOf d.fields r.values, (0x3A : UInt8) ∉ v) → out.version.ipType = IpV4) ∧
      (∀ o ∈ out.ips, WFNet o.cidr) ∧
      (∀ o ∈ out.ips, ∃ r ∈ runsOf d, o.values = r.view ∧ r.lo ≤ netLo o.cidr ∧ netEnd o.cidr ≤ r.hi) ∧
      (∀ x, firstMatch out.ips x = firstRun (runsOf d) x) ∧ (∀ x, lastMatch out.ips x = lastRun (runsOf d) x) := by
  have hver : d.version.IsIpV4 = true := by unfold VersionInfo.IsIpV4; rw [hv]; rfl
  obtain ⟨text, out, t, e1, e2, _, e3, k1, k2, k3, k4⟩ := roundtrip hd hver
    (fun g r hr hg => by
      obtain ⟨⟨x, hx, h1, h2⟩, y, hy, h3⟩ := runsOf_mem hr
      have hvw := hg.2.2.2
      refine line_v4 hg (by rw [h1]; exact (h4 x hx).1) (by rw [h3]; exact (h4 y hy).2) ?_ ?_ ?_
      · rw [hvw, h2]; exact hd.values x hx
      · rw [hvw, h2]; simp [viewOf]
      · rw [hvw, h2]; exact hd.short x hx)
    (fun i r hr _ => by
      obtain ⟨_, y, hy, h3⟩ := runsOf_mem (List.mem_of_getElem? hr)
      have := (h4 y hy).2
      rw [h3]; unfold v4End at this; omega) build day
  refine ⟨text, _, e1, e2, rfl, rfl, fun hc => e3 rfl ?_, fun o ho => (k1 o ho).1, k2, k3, k4⟩
  intro r hr
  obtain ⟨⟨x, hx, _, h2⟩, _⟩ := runsOf_mem (List.mem_of_mem_head? hr)
  rw [h2]; exact hc x hx

/-- **C47 (IPv6).** The same for rows whose bounds are not IPv4 addresses, when only the last may reach the end of the
address space. -/
theorem C47_v6 (hv : d.version.ipType ≠ IpV4) (h6 : ∀ r ∈ d.ips, V6Net r.cidr)
    (hlast : ∀ r ∈ d.ips.dropLast, netEnd r.cidr ≠ 2 ^ 128) :
    ∃ text out, pack d = .ok text ∧ dump build day text = .ok out ∧ out.fields = viewFields ∧
      out.version.count = UInt32.ofNat out.ips.length ∧ out.version.ipType = IpV6 ∧
      (∀ o ∈ out.ips, WFNet o.cidr) ∧
      (∀ o ∈ out.ips, ∃ r ∈ runsOf d, o.values = r.view ∧ r.lo ≤ netLo o.cidr ∧ netEnd o.cidr ≤ r.hi) ∧
      (∀ x, firstMatch out.ips x = firstRun (runsOf d) x) ∧ (∀ x, lastMatch out.ips x = lastRun (runsOf d) x) := by
  have hver : d.version.IsIpV4 = false := by
    unfold VersionInfo.IsIpV4
    rw [beq_eq_false_iff_ne]; exact hv
  obtain ⟨text, out, t, e1, e2, e3, _, k1, k2, k3, k4⟩ := roundtrip hd hver
    (fun g r hr hg => by
      obtain ⟨⟨x, hx, h1, h2⟩, y, hy, h3⟩ := runsOf_mem hr
      have hvw := hg.2.2.2
      refine line_v6 hg (by rw [h1]; exact (h6 x hx).1) (by rw [h3]; exact (h6 y hy).2) ?_ ?_ ?_
      · rw [hvw, h2]; exact hd.values x hx
      · rw [hvw, h2]; simp [viewOf]
      · rw [hvw, h2]; exact hd.short x hx)
    (runsOf_top hlast) build day
  exact ⟨text, _, e1, e2, rfl, rfl, e3 rfl, fun o ho => (k1 o ho).1, k2, k3, k4⟩

omit hd in
/-- **C47 (runs).** Joining rows into runs changes no address's view but for the city, whichever end rows are scanned
from; where rows with the same other five fields have the same city, it changes nothing. -/
theorem C47_runs_keep_views (x : Nat) :
    (firstRun (runsOf d) x).map List.tail = ((firstMatch d.ips x).map (viewOf d.fields)).map List.tail ∧
    (lastRun (runsOf d) x).map List.tail = ((lastMatch d.ips x).map (viewOf d.fields)).map List.tail ∧
    ((∀ a ∈ d.ips, ∀ b ∈ d.ips, (viewOf d.fields a.values).tail = (viewOf d.fields b.values).tail →
        viewOf d.fields a.values = viewOf d.fields b.values) →
      firstRun (runsOf d) x = (firstMatch d.ips x).map (viewOf d.fields)) := by
  refine ⟨runs_first d _ (fun a b h => h) x, runs_last d _ (fun a b h => h) x, fun hc => ?_⟩
  have h := runs_first d List.tail (fun a b h => h) x
  have mem1 : ∀ v, firstRun (runsOf d) x = some v → ∃ a ∈ d.ips, v = viewOf d.fields a.values := by
    intro v hv
    unfold firstRun at hv
    rw [Option.map_eq_some_iff] at hv
    obtain ⟨r, hr, rfl⟩ := hv
    obtain ⟨⟨a, ha, _, h2⟩, _⟩ := runsOf_mem (List.mem_of_find?_eq_some hr)
    exact ⟨a, ha, h2⟩
  have mem2 : ∀ v, (firstMatch d.ips x).map (viewOf d.fields) = some v → ∃ a ∈ d.ips, v = viewOf d.fields a.values := by
    intro v hv
    rw [Option.map_eq_some_iff] at hv
    obtain ⟨w, hw, rfl⟩ := hv
    unfold firstMatch at hw
    rw [Option.map_eq_some_iff] at hw
    obtain ⟨r, hr, rfl⟩ := hw
    exact ⟨r, List.mem_of_find?_eq_some hr, rfl⟩
  cases h1 : firstRun (runsOf d) x with
  | none =>
    rw [h1] at h
    cases h2 : (firstMatch d.ips x).map (viewOf d.fields) with
    | none => rfl
    | some v => rw [h2] at h; cases h
  | some v =>
    rw [h1] at h
    cases h2 : (firstMatch d.ips x).map (viewOf d.fields) with
    | none => rw [h2] at h; cases h
    | some w =>
      rw [h2] at h
      obtain ⟨a, ha, rfl⟩ := mem1 v h1
      obtain ⟨b, hb, rfl⟩ := mem2 w h2
      rw [hc a ha b hb (by simpa using h)]

end

/-- Four rows of two families of views; the first three are neighbours. -/
def demo4 : IpData :=
  ⟨[gs "country", gs "city", gs "isp"], ⟨IpV4, 4, 0, [], [], []⟩,
   [⟨⟨[1, 0, 0, 0], [255, 0, 0, 0]⟩, [gs "中国", gs "上海", gs "电信"]⟩,
    ⟨⟨[2, 0, 0, 0], [255, 255, 0, 0]⟩, [gs "中国", gs "杭州", gs "电信"]⟩,
    ⟨⟨[2, 1, 0, 0], [255, 255, 0, 0]⟩, [gs "中国", gs "杭州", gs "教育网"]⟩,
    ⟨⟨[255, 255, 0, 0], [255, 255, 0, 0]⟩, [gs "保留", [], []]⟩]⟩

def demo6 : IpData :=
  { demo4 with
    version := ⟨IpV6, 2, 0, [], [], []⟩
    ips := [⟨⟨[0x20] ++ List.replicate 15 0, [255] ++ List.replicate 15 0⟩, [gs "中国", gs "上海", gs "电信"]⟩,
      ⟨⟨[0xff] ++ List.replicate 15 0, [255] ++ List.replicate 15 0⟩, [gs "中国", gs "上海", gs "电信"]⟩] }

example : MemOK demo4 ∧ demo4.version.ipType = IpV4 ∧ (∀ r ∈ demo4.ips, V4Net r.cidr) ∧
    (∀ r ∈ demo4.ips, ∀ v ∈ viewOf demo4.fields r.values, (0x3A : UInt8) ∉ v) := by decide +kernel
example : MemOK demo6 ∧ demo6.version.ipType ≠ IpV4 ∧ (∀ r ∈ demo6.ips, V6Net r.cidr) ∧
    (∀ r ∈ demo6.ips.dropLast, netEnd r.cidr ≠ 2 ^ 128) := by decide +kernel
example : (runsOf demo4).length = 3 := by decide +kernel

/-- **C47 (city).** The city of a joined row is lost: 2.0.0.0/16 is 杭州 in the data and 上海 in the dumped text. -/
theorem C47_city_lost : ∃ text out, pack demo4 = .ok text ∧ dump 0 [] text = .ok out ∧
    firstMatch demo4.ips (v4Lo + 2 * 2 ^ 24) = some [gs "中国", gs "杭州", gs "电信"] ∧
    (firstMatch out.ips (v4Lo + 2 * 2 ^ 24)).map (·.head?) = some (some (gs "上海")) := by
  obtain ⟨text, out, h1, h2, _, _, _, _, _, h3, _⟩ := C47_v4 demo4 (by decide +kernel) 0 [] rfl (by decide +kernel)
  refine ⟨text, out, h1, h2, by decide +kernel, ?_⟩
  rw [h3]
  decide +kernel

/-! ## C49 -/


/-- The lines of a text before the last address. -/
def Reaches (ls : List Str) : Prop := ∀ l ∈ ls, ∃ r v, parseLine l = .ok (some r, v) ∧ IsAllMask r.end_ = false

theorem readRows_until {ls : List Str} (h : Reaches ls) (rest : List Str) :
    ∃ rows, readRows (ls ++ rest) = (do let rs ← readRows rest; return rows ++ rs) := by
  induction ls with
  | nil => exact ⟨[], by cases h : readRows rest <;> simp [h]⟩
  | cons l ls ih =>
    obtain ⟨rows, e⟩ := ih (fun x hx => h x (by simp [hx]))
    obtain ⟨r, v, hp, hm⟩ := h l (by simp)
    refine ⟨(r, v) :: rows, ?_⟩
    simp only [List.cons_append, readRows, hp, Res.ok_bind, hm, Bool.false_eq_true, if_false, e]
    cases readRows rest <;> rfl

/-- **C49 (what holds).** A text with a line that does not consist of three parts separated by single spaces is
reported, if the lines before it are readable and do not reach the last address. -/
theorem C49_wrong_parts (build : Int) (day text : Str) (pre post : List Str) (l : Str)
    (ht : (scanLines text).1 = pre ++ l :: post) (hpre : Reaches pre) (hl : (splitByte 0x20 l).length ≠ 3) :
    ∃ e, dump build day text = .err e := by
  obtain ⟨rows, e⟩ := readRows_until hpre (l :: post)
  have : parseLine l = .err (.other "bad format") := by
    unfold parseLine
    split
    · rename_i h; rw [h] at hl; simp at hl
    · rfl
  refine ⟨.other "bad format", ?_⟩
  unfold dump
  simp only [ht, e, readRows, this, Res.err_bind]

/-- **C49 (fails).** A line of three parts whose bounds are not numbers (or addresses) crashes the dump instead. -/
theorem C49_bad_bounds_panic (build : Int) (day text : Str) (pre post : List Str) (l a b v : Str)
    (ht : (scanLines text).1 = pre ++ l :: post) (hpre : Reaches pre) (hl : splitByte 0x20 l = [a, b, v])
    (hbad : if a.contains 0x3A then ParseIP a = none ∨ ParseIP b = none else ParseUint32 a = none ∨ ParseUint32 b = none) :
    dump build day text = .panic := by
  obtain ⟨rows, e⟩ := readRows_until hpre (l :: post)
  have : parseLine l = .ok (none, splitByte 0x2D v) := by
    unfold parseLine
    rw [hl]
    simp only []
    congr 2
    by_cases hc : a.contains 0x3A = true
    · rw [if_pos hc] at hbad ⊢
      unfold parseV6Range
      rcases hbad with h | h
      · rw [h]
      · rw [h]; cases ParseIP a <;> rfl
    · rw [if_neg hc] at hbad ⊢
      unfold parseV4Range
      rcases hbad with h | h
      · rw [h]
      · rw [h]; cases ParseUint32 a <;> rfl
  unfold dump
  simp only [ht, e, readRows, this, Res.ok_bind, Res.panic_bind]

/-- **C49 (negation).** A one-line text that crashes. -/
theorem C49_negation : dump 0 [] (gs "16777216 16777471x 默认-默认-默认-默认-默认-默认\n") = .panic := by decide +kernel

/-- **C49 (empty text).** The empty text crashes too. -/
theorem C49_empty_panics (build : Int) (day : Str) : dump build day [] = .panic := rfl

/-- **C49 (dual stack).** The text of IPv4 rows declared as both families cannot be read. -/
theorem C49_dual_unreadable : ∃ text, pack { demo4 with version := ⟨IpAll, 4, 0, [], [], []⟩ } = .ok text ∧
    dump 0 [] text = .panic := by
  refine ⟨_, rfl, ?_⟩
  decide +kernel

example : Reaches [gs "1 2 a-b", gs "2001:: 2001::1 x"] := by
  intro l hl
  simp only [List.mem_cons, List.not_mem_nil, or_false] at hl
  rcases hl with rfl | rfl
  · exact ⟨⟨Uint32ToIPv4 1, Uint32ToIPv4 2⟩, [gs "a", gs "b"], by decide +kernel, by decide +kernel⟩
  · exact ⟨⟨[0x20, 0x01] ++ List.replicate 14 0, [0x20, 0x01] ++ List.replicate 13 0 ++ [1]⟩, [gs "x"], by decide +kernel, by decide +kernel⟩

/-! ## C34, packing -/

/-- **C34 (memip).** Packing no rows crashes. -/
theorem C34_memip_negation (fs : List Str) (v : VersionInfo) : pack ⟨fs, v, []⟩ = .panic := rfl

end Uip.Memip
