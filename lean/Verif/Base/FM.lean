import Verif.Base.Mem

/-!
A state monad over memory that also logs every address written, and keeps the
log when the outcome is undefined behaviour. Vocabulary only.
-/

namespace Verif

/-- Memory together with the addresses written so far (most recent first). -/
structure LSt where
  mem : Mem
  log : List Nat

/-- Computations that read and write memory and leave a log of writes, whatever
their outcome. -/
def FM (α : Type) := LSt → Res α × LSt

namespace FM

def pure {α : Type} (a : α) : FM α := fun s => (.ok a, s)

def bind {α β : Type} (x : FM α) (f : α → FM β) : FM β := fun s =>
  match x s with
  | (.ok a, s') => f a s'
  | (.ub, s') => (.ub, s')
  | (.oof, s') => (.oof, s')

instance : Monad FM where
  pure := FM.pure
  bind := FM.bind

/-- Undefined behaviour, keeping the log. -/
def ub {α : Type} : FM α := fun s => (.ub, s)

/-- Loop fuel exhausted. -/
def oof {α : Type} : FM α := fun s => (.oof, s)

/-- A computation that does not touch memory. -/
def lift {α : Type} (r : Res α) : FM α := fun s => (r, s)

/-- `*a = v`, logged. -/
def put (a : Nat) (v : UInt8) : FM Unit := fun s =>
  match s.mem.store a v with
  | .ok m => (.ok (), ⟨m, a :: s.log⟩)
  | .ub => (.ub, ⟨s.mem, a :: s.log⟩)
  | .oof => (.oof, ⟨s.mem, a :: s.log⟩)

/-- `*a`. -/
def get (a : Nat) : FM UInt8 := fun s => (s.mem.load a, s)

theorem bind_def {α β : Type} (x : FM α) (f : α → FM β) (s : LSt) :
    (x >>= f) s = match x s with
      | (.ok a, s') => f a s'
      | (.ub, s') => (.ub, s')
      | (.oof, s') => (.oof, s') := rfl

@[simp] theorem pure_def {α : Type} (a : α) (s : LSt) : (Pure.pure a : FM α) s = (.ok a, s) := rfl

theorem bind_ok {α β : Type} {x : FM α} {f : α → FM β} {s s' : LSt} {a : α}
    (h : x s = (.ok a, s')) : (x >>= f) s = f a s' := by
  simp [bind_def, h]

@[simp] theorem lift_ok_bind {α β : Type} (a : α) (f : α → FM β) (s : LSt) :
    (lift (.ok a) >>= f) s = f a s := rfl

/-- From a state whose log satisfies `P`, `x` only ever logs addresses in `P`,
its value (if any) satisfies `Q`, and memory outside `P` is unchanged, whatever
the outcome. -/
def Safe {α : Type} (P : Nat → Prop) (x : FM α) (Q : α → Prop) : Prop :=
  ∀ s, (∀ a ∈ s.log, P a) → (∀ a ∈ (x s).2.log, P a) ∧ (∀ v, (x s).1 = .ok v → Q v) ∧
    ∀ a, ¬ P a → (x s).2.mem a = s.mem a

theorem Safe.bind {α β : Type} {P : Nat → Prop} {x : FM α} {f : α → FM β} {Q : α → Prop}
    {R : β → Prop} (hx : Safe P x Q) (hf : ∀ a, Q a → Safe P (f a) R) : Safe P (x >>= f) R := by
  intro s hs
  have h := hx s hs
  rw [bind_def]
  generalize x s = r at h
  obtain ⟨r, s'⟩ := r
  cases r with
  | ok a =>
    have h2 := hf a (h.2.1 a rfl) s' h.1
    exact ⟨h2.1, h2.2.1, fun b hb => (h2.2.2 b hb).trans (h.2.2 b hb)⟩
  | ub => exact ⟨h.1, by simp, h.2.2⟩
  | oof => exact ⟨h.1, by simp, h.2.2⟩

theorem Safe.pure {α : Type} {P : Nat → Prop} {a : α} {Q : α → Prop} (h : Q a) :
    Safe P (Pure.pure a : FM α) Q := by
  intro s hs
  exact ⟨hs, (by intro v hv; cases hv; exact h), fun _ _ => rfl⟩

theorem Safe.ub {α : Type} {P : Nat → Prop} {Q : α → Prop} : Safe P (FM.ub : FM α) Q :=
  fun _ hs => ⟨hs, (by intro v hv; cases hv), fun _ _ => rfl⟩

theorem Safe.oof {α : Type} {P : Nat → Prop} {Q : α → Prop} : Safe P (FM.oof : FM α) Q :=
  fun _ hs => ⟨hs, (by intro v hv; cases hv), fun _ _ => rfl⟩

theorem Safe.lift {α : Type} {P : Nat → Prop} {r : Res α} {Q : α → Prop}
    (h : ∀ a, r = .ok a → Q a) : Safe P (FM.lift r) Q :=
  fun _ hs => ⟨hs, h, fun _ _ => rfl⟩

theorem Safe.put {P : Nat → Prop} {a : Nat} {v : UInt8} (h : P a) :
    Safe P (FM.put a v) (fun _ => True) := by
  intro s hs
  refine ⟨?_, fun _ _ => trivial, ?_⟩
  · unfold FM.put
    split <;> (intro b hb; simp at hb; rcases hb with rfl | hb; exact h; exact hs b hb)
  · intro b hb
    have hne : b ≠ a := fun e => hb (e ▸ h)
    unfold FM.put
    split
    · rename_i m hm
      unfold Mem.store at hm
      split at hm
      · cases hm; simp [Mem.upd, hne]
      · cases hm
    · rfl
    · rfl

theorem Safe.get {P : Nat → Prop} {a : Nat} : Safe P (FM.get a) (fun _ => True) :=
  fun _ hs => ⟨hs, fun _ _ => trivial, fun _ _ => rfl⟩

theorem Safe.mono {α : Type} {P : Nat → Prop} {x : FM α} {Q R : α → Prop}
    (h : Safe P x Q) (hq : ∀ a, Q a → R a) : Safe P x R :=
  fun s hs => ⟨(h s hs).1, fun v hv => hq v ((h s hs).2.1 v hv), (h s hs).2.2⟩

end FM
end Verif
