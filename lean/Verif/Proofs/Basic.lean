import Verif.Model.Cdt

/-!
# Reasoning about `Except Err`

`Spec m E Q`: if `m` returns, the result satisfies `Q`; if it fails, the error satisfies `E`.
-/

namespace P2T

def Spec {α : Type} (m : Except Err α) (E : Err → Prop) (Q : α → Prop) : Prop :=
  match m with
  | .ok a => Q a
  | .error e => E e

namespace Spec
variable {α β : Type} {E E' : Err → Prop}

theorem ok {a : α} {Q : α → Prop} (h : Q a) : Spec (.ok a) E Q := h
theorem pure {a : α} {Q : α → Prop} (h : Q a) : Spec (Pure.pure a : Except Err α) E Q := h
theorem error {e : Err} {Q : α → Prop} (h : E e) : Spec (.error e : Except Err α) E Q := h

theorem bind {m : Except Err α} {f : α → Except Err β} {R : α → Prop} {Q : β → Prop}
    (hm : Spec m E R) (hf : ∀ a, R a → Spec (f a) E Q) : Spec (m >>= f) E Q := by
  cases m with
  | ok a => exact hf a hm
  | error e => exact hm

/-- Bind with access to the equation `m = .ok a`. -/
theorem bind' {m : Except Err α} {f : α → Except Err β} {Q : β → Prop}
    (hm : Spec m E (fun _ => True)) (hf : ∀ a, m = .ok a → Spec (f a) E Q) : Spec (m >>= f) E Q := by
  cases m with
  | ok a => exact hf a rfl
  | error e => exact hm

theorem mono {m : Except Err α} {Q R : α → Prop} (h : Spec m E Q) (hQ : ∀ a, Q a → R a) :
    Spec m E R := by
  cases m with
  | ok a => exact hQ a h
  | error e => exact h

theorem monoE {m : Except Err α} {Q : α → Prop} (h : Spec m E Q) (hE : ∀ e, E e → E' e) :
    Spec m E' Q := by
  cases m with
  | ok a => exact h
  | error e => exact hE e h

theorem of_eq {m : Except Err α} {Q : α → Prop} {a : α} (h : m = .ok a) (hQ : Q a) : Spec m E Q := by
  subst h; exact hQ

theorem get {m : Except Err α} {Q : α → Prop} {a : α} (h : Spec m E Q) (e : m = .ok a) : Q a := by
  subst e; exact h

theorem err {m : Except Err α} {Q : α → Prop} {e : Err} (h : Spec m E Q) (he : m = .error e) : E e := by
  subst he; exact h

theorem and {m : Except Err α} {Q R : α → Prop} (h : Spec m E Q) (h' : Spec m E R) :
    Spec m E (fun a => Q a ∧ R a) := by
  cases m with
  | ok a => exact ⟨h, h'⟩
  | error e => exact h

end Spec

theorem Spec.withEq {α : Type} {m : Except Err α} {E : Err → Prop} {Q : α → Prop} (h : Spec m E Q) :
    Spec m E fun a => Q a ∧ m = .ok a := by
  cases m with
  | ok a => exact ⟨h, rfl⟩
  | error e => exact h

theorem Spec.errEq {α : Type} {m : Except Err α} {E : Err → Prop} {Q : α → Prop} (h : Spec m E Q) :
    Spec m (fun e => E e ∧ m = .error e) Q := by
  cases m with
  | ok a => exact h
  | error e => exact ⟨h, rfl⟩

theorem bind_ok {α β : Type} {m : Except Err α} {f : α → Except Err β} {b : β} :
    (m >>= f) = .ok b ↔ ∃ a, m = .ok a ∧ f a = .ok b := by
  cases m with
  | ok a => simp [Bind.bind, Except.bind]
  | error e => simp [Bind.bind, Except.bind]

theorem bind_error {α β : Type} {m : Except Err α} {f : α → Except Err β} {e : Err} :
    (m >>= f) = .error e ↔ m = .error e ∨ ∃ a, m = .ok a ∧ f a = .error e := by
  cases m with
  | ok a => simp [Bind.bind, Except.bind]
  | error e => simp [Bind.bind, Except.bind]

@[simp] theorem ok_bind {α β : Type} (a : α) (f : α → Except Err β) :
    (Except.ok a >>= f) = f a := rfl
@[simp] theorem error_bind {α β : Type} (e : Err) (f : α → Except Err β) :
    ((Except.error e : Except Err α) >>= f) = .error e := rfl
@[simp] theorem pure_ok {α : Type} (a : α) : (Pure.pure a : Except Err α) = .ok a := rfl
theorem pure_eq_ok {α : Type} {a b : α} : (Pure.pure a : Except Err α) = .ok b ↔ a = b := by
  simp [Pure.pure, Except.pure]

@[simp] theorem unwrap_some {α} (a : α) (m : String) : unwrap (some a) m = .ok a := rfl
@[simp] theorem unwrap_none {α} (m : String) : unwrap (none : Option α) m = .error (.panic m) := rfl
theorem unwrap_ok {α} {o : Option α} {m : String} {a : α} : unwrap o m = .ok a ↔ o = some a := by
  cases o <;> simp [unwrap]

end P2T
