import Verif.Props.OutputsAlone
import Verif.Props.OutputsExample
/-!
# C89_alone and C89_fails on concrete conversions
-/
namespace Uip.Program
open Uip Uip.Spec Uip.Operate

/-- A conversion of the example to one `.ipdb` or `.scan` file. -/
theorem ex_single (o : Str) (h0 : (0x2C : UInt8) ∉ o) (ho : pathExt o = gs ".ipdb" ∨ pathExt o = gs ".scan") :
    ∃ f, converter exWorld 0 (fun _ => exKeys) (fun _ => true) exFs { exArgs3 with output := o } = some (f, .ok ()) := by
  obtain ⟨f, _, _, e, _⟩ := C89_convert exWorld 0 (fun _ => exKeys) (fun _ => true) exFs { exArgs3 with output := o } id exTable
    (ex3_dumps 0) ex_table rfl ex_orders (by decide +kernel)
    (by show ∀ x ∈ splitByte 0x2C o, _; rw [splitByte_noSep h0]; intro x hx; rw [List.mem_singleton.mp hx]; exact ⟨rfl, ho⟩)
    (by show TextLast (splitByte 0x2C o); rw [splitByte_noSep h0]; exact List.pairwise_singleton _ _) (ex_meta _ _)
  exact ⟨f, e⟩

theorem ex_input_continent : InputHas exWorld 0 exFs exArgs3 ContinentSpelled := by
  obtain ⟨b, create, h1, h2, h3⟩ := ex3_dumps 0
  intro h hd
  unfold DumpFile at hd
  rw [h1] at hd
  simp only [] at hd
  rw [h2] at hd
  simp only [] at hd
  rw [h3] at hd
  cases hd
  rw [(dumped_spec id exTable).2]
  decide +kernel

/-- C89_alone: `-o b.ipdb,c.ipdb,d.scan`. -/
example : ∃ fs', converter exWorld 0 (fun _ => exKeys) (fun _ => true) exFs exArgs3 = some (fs', .ok ()) ∧
    (∀ o ∈ [gs "b.ipdb", gs "c.ipdb", gs "d.scan"], ∃ f,
      converter exWorld 0 (fun _ => exKeys) (fun _ => true) exFs { exArgs3 with output := o } = some (f, .ok ()) ∧ fs' o = f o) := by
  have hok : ∀ o ∈ splitByte 0x2C exArgs3.output, ∃ f,
      converter exWorld 0 (fun _ => exKeys) (fun _ => true) exFs { exArgs3 with output := o } = some (f, .ok ()) := by
    intro o ho
    refine ex_single o (mem_outputs_no_comma _ _ ho) ?_
    rw [ex3_outputs] at ho
    revert o
    decide +kernel
  obtain ⟨fs', e, k, _⟩ := C89_alone exWorld 0 (fun _ => exKeys) (fun _ => true) exFs exArgs3
    (.inl (by rw [ex3_outputs]; decide +kernel)) (.inr ex_input_continent) hok
  rw [ex3_outputs] at k hok
  refine ⟨fs', e, fun o ho => ?_⟩
  obtain ⟨f, hf⟩ := hok o ho
  exact ⟨f, hf, k o ho f hf⟩

def exArgsBad : Args := { exArgs3 with output := gs "b.ipdb,x.txt,c.ipdb" }

theorem exBad_outputs : splitByte 0x2C exArgsBad.output = [gs "b.ipdb"] ++ gs "x.txt" :: [gs "c.ipdb"] := by decide +kernel

/-- C89_fails: `-o b.ipdb,x.txt,c.ipdb`; the kind `.txt` is not known, so its run leaves it empty. -/
example : ∃ fs' e, converter exWorld 0 (fun _ => exKeys) (fun _ => true) exFs exArgsBad = some (fs', .err e) ∧
    (fs' (gs "b.ipdb")).isSome = true ∧ fs' (gs "x.txt") = some [] ∧ fs' (gs "c.ipdb") = exFs (gs "c.ipdb") := by
  obtain ⟨d, hd, e⟩ := end_data exWorld 0 (fun _ => exKeys) (fun _ => true) exFs { exArgs3 with output := gs "x.txt" } id exTable
    (ex3_dumps 0) ex_table rfl ex_orders
  have hx : ∃ er, converter exWorld 0 (fun _ => exKeys) (fun _ => true) exFs { exArgs3 with output := gs "x.txt" } =
      some (exFs.set (gs "x.txt") [], .err er) := by
    have h1 : splitByte 0x2C (gs "x.txt") = [gs "x.txt"] := by decide +kernel
    have hc : ∃ er, content exWorld d (gs "x.txt") = .err er := by
      unfold content Convert.alone Convert.PackWriter
      simp only []
      rw [if_neg (by decide +kernel), if_neg (by decide +kernel), if_neg (by decide +kernel)]
      exact ⟨_, rfl⟩
    obtain ⟨er, hc⟩ := hc
    refine ⟨er, ?_⟩
    rw [e]
    show some (writeAll _ _ (splitByte 0x2C (gs "x.txt")) _ _) = _
    rw [h1, one_output hd.wf, if_neg (by simp), hc]
  obtain ⟨er, hx⟩ := hx
  obtain ⟨f, hf⟩ := ex_single (gs "b.ipdb") (by decide +kernel) (by decide +kernel)
  obtain ⟨fs', k1, k2, k3, k4, _⟩ := C89_fails exWorld 0 (fun _ => exKeys) (fun _ => true) exFs exArgsBad [gs "b.ipdb"] [gs "c.ipdb"]
    (gs "x.txt") exBad_outputs (.inl (by rw [exBad_outputs]; decide +kernel)) (.inl (by rw [exBad_outputs]; decide +kernel))
    (fun p hp => by rw [List.mem_singleton.mp hp]; exact ⟨f, hf⟩) _ _ hx (by simp)
  refine ⟨fs', er, k1, ?_, ?_, k4 _ (by decide +kernel) (by decide +kernel)⟩
  · rw [k2 _ (by simp) f hf]
    obtain ⟨f', d', _, e', _, hall⟩ := C89_convert exWorld 0 (fun _ => exKeys) (fun _ => true) exFs
      { exArgs3 with output := gs "b.ipdb" } id exTable (ex3_dumps 0) ex_table rfl ex_orders (by decide +kernel)
      (by decide +kernel) (by decide +kernel) (ex_meta _ _)
    rw [hf] at e'
    have e' := congrArg Prod.fst (Option.some.inj e')
    have e' : f = f' := e'
    rw [e']
    obtain ⟨b, hb, _⟩ := hall (gs "b.ipdb") (by decide +kernel)
    rw [hb]; rfl
  · rw [k3]; unfold Fs.set; rw [if_pos rfl]

end Uip.Program
