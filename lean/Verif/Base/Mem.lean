import Verif.Base.Res

/-!
Byte-addressed memory and counted loops. Vocabulary only; no repository code.
-/

namespace Verif

/-- Memory: `none` marks an address that must not be accessed (not mapped / not
owned). Addresses are unbounded naturals; `0` is the null pointer. -/
abbrev Mem := Nat → Option UInt8

namespace Mem

/-- Reading one byte; undefined behaviour if the address is not accessible. -/
def load (m : Mem) (a : Nat) : Res UInt8 :=
  match m a with
  | some b => .ok b
  | none => .ub

/-- Memory after storing one byte (raw update). -/
def upd (m : Mem) (a : Nat) (v : UInt8) : Mem := fun x => if x = a then some v else m x

/-- Writing one byte; undefined behaviour if the address is not accessible. -/
def store (m : Mem) (a : Nat) (v : UInt8) : Res Mem :=
  match m a with
  | some _ => .ok (m.upd a v)
  | none => .ub

/-- All `n` bytes from `a` on are accessible. -/
def Acc (m : Mem) (a n : Nat) : Prop := ∀ i, i < n → (m (a + i)).isSome

instance (m : Mem) (a n : Nat) : Decidable (m.Acc a n) := by
  unfold Acc; infer_instance

end Mem

/-- `for (i = 0; i < n; i++) s = f(i, s)`. -/
def forUp {σ : Type u} : Nat → (Nat → σ → Res σ) → σ → Res σ
  | 0, _, s => .ok s
  | n + 1, f, s => do let s' ← forUp n f s; f n s'

/-- Loop rule for `forUp`: an invariant that holds initially and is preserved
by every iteration holds at the end (and no iteration is undefined). -/
theorem forUp_inv {σ : Type u} (I : Nat → σ → Prop) (f : Nat → σ → Res σ) (s : σ) (n : Nat)
    (h0 : I 0 s)
    (hs : ∀ i s, i < n → I i s → ∃ s', f i s = .ok s' ∧ I (i + 1) s') :
    ∃ s', forUp n f s = .ok s' ∧ I n s' := by
  induction n with
  | zero => exact ⟨s, rfl, h0⟩
  | succ n ih =>
    obtain ⟨s1, h1, hi1⟩ := ih (fun i s hi h => hs i s (by omega) h)
    obtain ⟨s2, h2, hi2⟩ := hs n s1 (by omega) hi1
    exact ⟨s2, by simp [forUp, h1, h2], hi2⟩

/-- Partial version of the loop rule: if the loop finished, the invariant holds. -/
theorem forUp_inv_ok {σ : Type u} (I : Nat → σ → Prop) (f : Nat → σ → Res σ) (s : σ) (n : Nat)
    (h0 : I 0 s)
    (hs : ∀ i s s', i < n → I i s → f i s = .ok s' → I (i + 1) s') :
    ∀ s', forUp n f s = .ok s' → I n s' := by
  induction n with
  | zero => intro s' h; cases h; exact h0
  | succ n ih =>
    intro s' h
    simp only [forUp, Res.bind_eq_ok] at h
    obtain ⟨s1, h1, h2⟩ := h
    exact hs n s1 s' (by omega) (ih (fun i s s' hi => hs i s s' (by omega)) s1 h1) h2

end Verif
