/-!
Outcome of running a piece of C++: a value, undefined behaviour, or "loop fuel
exhausted". This file models no code of the repository; it is vocabulary.
-/

namespace Verif

/-- Outcome of a computation of the model.
* `ok a`: finished normally with `a`;
* `ub`: the C++ program has undefined behaviour at this point;
* `oof`: a loop did not finish within the fuel it was given. -/
inductive Res (α : Type u) where
  | ok (a : α)
  | ub
  | oof
  deriving DecidableEq, Repr

namespace Res

/-- Sequencing: `ub` and `oof` are final. -/
@[simp] def bind {α : Type u} {β : Type v} : Res α → (α → Res β) → Res β
  | ok a, f => f a
  | ub, _ => ub
  | oof, _ => oof

instance : Monad Res where
  pure := Res.ok
  bind := Res.bind

@[simp] theorem pure_eq {α : Type u} (a : α) : (pure a : Res α) = ok a := rfl
@[simp] theorem ok_bind {α β : Type u} (a : α) (f : α → Res β) : (ok a >>= f) = f a := rfl
@[simp] theorem ub_bind {α β : Type u} (f : α → Res β) : ((ub : Res α) >>= f) = ub := rfl
@[simp] theorem oof_bind {α β : Type u} (f : α → Res β) : ((oof : Res α) >>= f) = oof := rfl

instance : LawfulMonad Res := LawfulMonad.mk'
  (id_map := by intro α x; cases x <;> rfl)
  (pure_bind := by intros; rfl)
  (bind_assoc := by intro α β γ x f g; cases x <;> rfl)

/-- Continue only if `b` holds; otherwise the behaviour is undefined. -/
def require (b : Bool) : Res Unit := if b then ok () else ub

@[simp] theorem require_true : require true = ok () := rfl
@[simp] theorem require_false : require false = ub := rfl

theorem bind_eq_ok {α β : Type u} {x : Res α} {f : α → Res β} {b : β} :
    (x >>= f) = ok b ↔ ∃ a, x = ok a ∧ f a = ok b := by
  cases x <;> simp

/-- `r` finished normally and its value satisfies `P`. -/
def Sat {α : Type u} (r : Res α) (P : α → Prop) : Prop := ∃ a, r = ok a ∧ P a

end Res
end Verif
