import Verif.Model.Py
import Mathlib.Data.List.Forall2

/-! # Lemmas about exceptions as values -/

namespace Mlp

theorem pyAssert_bind {α : Type} (b : Bool) (f : Unit → Py α) :
    (pyAssert b >>= f) = if b then f () else .error .assertion := by
  cases b <;> rfl

theorem ok_bind {α β : Type} (a : α) (f : α → Py β) : ((Except.ok a : Py α) >>= f) = f a := rfl

theorem error_bind {α β : Type} (a : PyErr) (f : α → Py β) :
    ((Except.error a : Py α) >>= f) = .error a := rfl

/-- A bind succeeds when both parts do. -/
theorem bind_ok_iff {α β : Type} (x : Py α) (f : α → Py β) (b : β) :
    (x >>= f) = .ok b ↔ ∃ a, x = .ok a ∧ f a = .ok b := by
  cases x <;> simp [bind, Except.bind]

theorem pure_eq_ok {α : Type} (a : α) : (pure a : Py α) = .ok a := rfl

theorem throw_eq_error {α : Type} (a : PyErr) : (throw a : Py α) = .error a := rfl

theorem pyAssert_eq_ok (b : Bool) : pyAssert b = .ok () ↔ b = true := by
  cases b <;> simp [pyAssert]

/-- `mapM` succeeds exactly when every call succeeds. -/
theorem mapM_ok_iff {α β : Type} (f : α → Py β) (l : List α) (r : List β) :
    l.mapM f = .ok r ↔ List.Forall₂ (fun a b => f a = .ok b) l r := by
  induction l generalizing r with
  | nil => simp [pure_eq_ok, eq_comm]
  | cons a l ih =>
    rw [List.mapM_cons]
    simp only [bind_ok_iff, pure_eq_ok]
    constructor
    · rintro ⟨b, hb, bs, hbs, h⟩
      cases h
      exact .cons hb ((ih bs).mp hbs)
    · intro h
      cases h with
      | cons h1 h2 => exact ⟨_, h1, _, (ih _).mpr h2, rfl⟩

/-- If every call succeeds with a known value, so does `mapM`. -/
theorem mapM_eq_ok_map {α β : Type} (f : α → Py β) (g : α → β) (l : List α)
    (h : ∀ a ∈ l, f a = .ok (g a)) : l.mapM f = .ok (l.map g) := by
  rw [mapM_ok_iff]
  induction l with
  | nil => simp
  | cons a l ih =>
    simp only [List.map_cons]
    exact .cons (h a (by simp)) (ih fun b hb => h b (by simp [hb]))

/-- If one call fails, `mapM` fails with the error of the first failing call. -/
theorem mapM_error {α β : Type} (f : α → Py β) (l₁ : List α) (a : α) (l₂ : List α) (err : PyErr)
    (h₁ : ∀ b ∈ l₁, ∃ v, f b = .ok v) (h : f a = .error err) :
    (l₁ ++ a :: l₂).mapM f = .error err := by
  induction l₁ with
  | nil => simp [List.mapM_cons, h, error_bind]
  | cons b l ih =>
    obtain ⟨v, hv⟩ := h₁ b (by simp)
    rw [List.cons_append, List.mapM_cons, hv, ok_bind, ih fun x hx => h₁ x (by simp [hx]), error_bind]

/-- `mapM` fails when some call fails. -/
theorem mapM_not_ok {α β : Type} (f : α → Py β) (l : List α) (a : α) (ha : a ∈ l) (err : PyErr)
    (h : f a = .error err) : ∀ r, l.mapM f ≠ .ok r := by
  intro r hr
  rw [mapM_ok_iff] at hr
  induction hr with
  | nil => simp at ha
  | cons h1 _ ih =>
    rcases List.mem_cons.mp ha with rfl | h2
    · rw [h] at h1; cases h1
    · exact ih h2

theorem mapM_congr {α β : Type} (f g : α → Py β) (l : List α) (h : ∀ a ∈ l, f a = g a) :
    l.mapM f = l.mapM g := by
  induction l with
  | nil => rfl
  | cons a l ih =>
    rw [List.mapM_cons, List.mapM_cons, h a (by simp), ih fun b hb => h b (by simp [hb])]

theorem forall₂_length {α β : Type} {R : α → β → Prop} {l : List α} {r : List β}
    (h : List.Forall₂ R l r) : l.length = r.length := h.length_eq

end Mlp
