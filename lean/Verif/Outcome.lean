/-!
# Outcomes of a C++ call

`ok a`     the call returns `a`;
`ub why`   the call executes undefined behaviour (out-of-range container access, a float→int conversion
           whose value does not fit, signed overflow, ...);
`diverge`  the call never returns.
-/
namespace Ink

inductive Outcome (α : Type) where
  | ok (a : α)
  | ub (why : String)
  | diverge
deriving Repr, DecidableEq

namespace Outcome

variable {α β : Type}

@[inline] protected def bind (x : Outcome α) (f : α → Outcome β) : Outcome β :=
  match x with
  | ok a => f a
  | ub w => ub w
  | diverge => diverge

instance : Monad Outcome where
  pure := Outcome.ok
  bind := Outcome.bind

instance : Inhabited (Outcome α) := ⟨diverge⟩

@[simp] theorem pure_eq (a : α) : (pure a : Outcome α) = ok a := rfl
@[simp] theorem ok_bind (a : α) (f : α → Outcome β) : (ok a >>= f) = f a := rfl
@[simp] theorem ub_bind (w : String) (f : α → Outcome β) : (ub w >>= f) = ub w := rfl
@[simp] theorem diverge_bind (f : α → Outcome β) : ((diverge : Outcome α) >>= f) = diverge := rfl
@[simp] theorem map_ok (f : α → β) (a : α) : (f <$> (ok a : Outcome α)) = ok (f a) := rfl
@[simp] theorem map_ub (f : α → β) (w : String) : (f <$> (ub w : Outcome α)) = ub w := rfl
@[simp] theorem map_diverge (f : α → β) : (f <$> (diverge : Outcome α)) = diverge := rfl

instance : LawfulMonad Outcome := LawfulMonad.mk'
  (id_map := fun x => by cases x <;> rfl)
  (pure_bind := fun _ _ => rfl)
  (bind_assoc := fun x _ _ => by cases x <;> rfl)
  (bind_pure_comp := fun _ x => by cases x <;> rfl)

theorem bind_eq_ok {x : Outcome α} {f : α → Outcome β} {b : β} :
    (x >>= f) = ok b ↔ ∃ a, x = ok a ∧ f a = ok b := by
  cases x <;> simp

/-- The call returns normally. -/
def Returns (x : Outcome α) : Prop := ∃ a, x = ok a

theorem returns_ok (a : α) : Returns (ok a) := ⟨a, rfl⟩

/-! `while` loops are least fixed points on the flat order whose bottom is `diverge`. -/

open Lean.Order in
instance : PartialOrder (Outcome α) := inferInstanceAs (PartialOrder (FlatOrder (Outcome.diverge : Outcome α)))

open Lean.Order in
instance : CCPO (Outcome α) := inferInstanceAs (CCPO (FlatOrder (Outcome.diverge : Outcome α)))

open Lean.Order in
instance : MonoBind Outcome where
  bind_mono_left h := by
    cases h
    case bot => exact FlatOrder.rel.bot
    case refl => exact FlatOrder.rel.refl
  bind_mono_right h := by
    rename_i a _ _
    cases a with
    | ok a => exact h a
    | ub w => exact FlatOrder.rel.refl
    | diverge => exact FlatOrder.rel.refl

end Outcome
end Ink
