import Verif.Model.Pair

/-! Property C14: ordering of pairs. -/

namespace Verif.Props.Pair
open Verif.Pair

/-- `<` is a strict total order and `==` is equality. -/
structure StrictTotal {α : Type} (A : Ops α) : Prop where
  irrefl : ∀ a, A.lt a a = false
  trans : ∀ a b c, A.lt a b = true → A.lt b c = true → A.lt a c = true
  total : ∀ a b, A.lt a b = true ∨ a = b ∨ A.lt b a = true
  eq : ∀ a b, A.eq a b = true ↔ a = b

/-- Lexicographic order of pairs. -/
def Lex {α β : Type} (A : Ops α) (B : Ops β) (l r : α × β) : Prop :=
  A.lt l.1 r.1 = true ∨ (l.1 = r.1 ∧ B.lt l.2 r.2 = true)

/-- `int` components, for the examples. -/
def intOps : Ops Int := ⟨fun a b => decide (a < b), fun a b => decide (a = b)⟩

theorem intOps_strict : StrictTotal intOps where
  irrefl := by intro a; simp [intOps]
  trans := by intro a b c; simp only [intOps, decide_eq_true_eq]; omega
  total := by intro a b; simp only [intOps, decide_eq_true_eq]; omega
  eq := by intro a b; simp [intOps]

/-- C14 fails: `(1,2) < (2,1)` and `(2,1) < (1,2)` both hold, so `<` is not even
asymmetric (and differs from the lexicographic order); moreover it is not transitive. -/
theorem C14_pair_order_violated :
    lt intOps intOps (1, 2) (2, 1) = true ∧ lt intOps intOps (2, 1) (1, 2) = true ∧
    ¬ Lex intOps intOps (2, 1) (1, 2) ∧
    (∃ a b c, lt intOps intOps a b = true ∧ lt intOps intOps b c = true ∧
      lt intOps intOps a c = false) := by
  refine ⟨by decide, by decide, ?_, (2, 3), (3, 1), (1, 2), by decide, by decide, by decide⟩
  simp [Lex, intOps]

/-- C14, the part that holds: on pairs whose components do not point in opposite
directions (`r.1 < l.1` with `l.2 < r.2`), `<` is the lexicographic order; it
contains the lexicographic order everywhere and is irreflexive. (Missing: the
pairs with components ordered in opposite directions.) -/
theorem C14_pair_order_partial {α β : Type} (A : Ops α) (B : Ops β) (hA : StrictTotal A)
    (hB : StrictTotal B) (l r : α × β) :
    (¬ (A.lt r.1 l.1 = true ∧ B.lt l.2 r.2 = true) → (lt A B l r = true ↔ Lex A B l r)) ∧
    (Lex A B l r → lt A B l r = true) ∧ lt A B l l = false := by
  have hsub : Lex A B l r → lt A B l r = true := by
    rintro (h | ⟨h1, h2⟩)
    · simp [lt, h]
    · simp only [lt]; split <;> assumption
  refine ⟨fun hn => ⟨fun h => ?_, hsub⟩, hsub, ?_⟩
  · simp only [lt] at h
    split at h
    · exact Or.inl h
    · rename_i h1
      rcases hA.total l.1 r.1 with h2 | h2 | h2
      · exact absurd h2 h1
      · exact Or.inr ⟨h2, h⟩
      · exact absurd ⟨h2, h⟩ hn
  · simp [lt, hA.irrefl, hB.irrefl]

/-- hypotheses of `C14_pair_order_partial` -/
example : StrictTotal intOps ∧ ¬ (intOps.lt (2, 5).1 (1, 3).1 = true ∧ intOps.lt (1, 3).2 (2, 5).2 = true) :=
  ⟨intOps_strict, by decide⟩

/-- C14, the derived operators: `==` is componentwise equality, `!=` its
negation, `>` is `<` flipped, `>=` the negation of `<`, `<=` is `<` or `==`. -/
theorem C14_derived_operators_partial {α β : Type} (A : Ops α) (B : Ops β) (hA : StrictTotal A)
    (hB : StrictTotal B) (l r : α × β) :
    (eq A B l r = true ↔ l = r) ∧ (ne A B l r = true ↔ l ≠ r) ∧
    (gt A B l r = true ↔ lt A B r l = true) ∧ (ge A B l r = true ↔ ¬ lt A B l r = true) ∧
    (le A B l r = true ↔ lt A B l r = true ∨ l = r) := by
  have he : eq A B l r = true ↔ l = r := by
    simp only [eq, Bool.and_eq_true, hA.eq, hB.eq, Prod.ext_iff]
  refine ⟨he, ?_, Iff.rfl, ?_, ?_⟩
  · simp only [ne, Bool.not_eq_true', ← Bool.not_eq_true, he, ne_eq]
  · simp [ge]
  · simp [le, Bool.or_eq_true, he]

example : StrictTotal intOps := intOps_strict

end Verif.Props.Pair
