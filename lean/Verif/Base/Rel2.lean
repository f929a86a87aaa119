/-!
# Two lists related element by element
-/
namespace Uip

/-- Same length and related position by position. -/
inductive Rel2 {α β : Type} (R : α → β → Prop) : List α → List β → Prop
  | nil : Rel2 R [] []
  | cons {a b as bs} : R a b → Rel2 R as bs → Rel2 R (a :: as) (b :: bs)

namespace Rel2
variable {α β : Type} {R S : α → β → Prop} {as : List α} {bs : List β}

theorem imp_mem (h : Rel2 R as bs) (hi : ∀ a ∈ as, ∀ b ∈ bs, R a b → S a b) : Rel2 S as bs := by
  induction h with
  | nil => exact .nil
  | cons hab _ ih =>
    exact .cons (hi _ (by simp) _ (by simp) hab) (ih fun a ha b hb => hi a (by simp [ha]) b (by simp [hb]))

theorem map_eq {γ : Type} {f : α → γ} {g : β → γ} (h : Rel2 (fun a b => g b = f a) as bs) : bs.map g = as.map f := by
  induction h with
  | nil => rfl
  | cons hab _ ih => rw [List.map_cons, List.map_cons, hab, ih]

theorem length (h : Rel2 R as bs) : bs.length = as.length := by
  induction h with
  | nil => rfl
  | cons _ _ ih => simp [ih]

theorem get (h : Rel2 R as bs) : ∀ {i : Nat} {a b}, as[i]? = some a → bs[i]? = some b → R a b := by
  induction h with
  | nil => intro i a b h; simp at h
  | cons hab _ ih =>
    intro i a b h1 h2
    cases i with
    | zero => simp at h1 h2; subst h1; subst h2; exact hab
    | succ i => simp at h1 h2; exact ih h1 h2

theorem exists_of_mem (h : Rel2 R as bs) {b} (hb : b ∈ bs) : ∃ a ∈ as, R a b := by
  induction h with
  | nil => simp at hb
  | cons hab _ ih =>
    rcases List.mem_cons.mp hb with rfl | hb
    · exact ⟨_, by simp, hab⟩
    · obtain ⟨a, ha, hr⟩ := ih hb; exact ⟨a, by simp [ha], hr⟩

end Rel2
end Uip
