import Verif.Lemmas.EListSpec

/-! `operator==` of lists (C78). -/

set_option backward.isDefEq.respectTransparency false

namespace Verif.EList
open Verif Verif.Box

variable {α : Type}

/-- The elements agree as far as `ne` is concerned. -/
def agree (ne : α → α → Bool) : List α → List α → Bool
  | v :: vs, w :: ws => !ne v w && agree ne vs ws
  | _, _ => true

theorem agree_iff (ne : α → α → Bool) (vs ws : List α) :
    agree ne vs ws = true ↔ ∀ (i : Nat) (v w : α), vs[i]? = some v → ws[i]? = some w → ne v w = false := by
  induction vs generalizing ws with
  | nil => simp [agree]
  | cons v vs ih =>
    cases ws with
    | nil => simp [agree]
    | cons w ws =>
      simp only [agree, Bool.and_eq_true, Bool.not_eq_true', ih]
      constructor
      · rintro ⟨h0, h⟩ i v' w' hv hw
        cases i with
        | zero => simp at hv hw; subst hv hw; exact h0
        | succ i => exact h i v' w' (by simpa using hv) (by simpa using hw)
      · intro h
        exact ⟨h 0 v w rfl rfl, fun i v' w' hv hw => h (i + 1) v' w' (by simpa using hv) (by simpa using hw)⟩

theorem eqLoop_ok (lax : Bool) (ne : α → α → Bool) {s : St α} {l r : Slot} (zs : Con α) {ys xs us : Con α} (h : Ring s l (xs ++ zs))
    (h' : Ring s r (us ++ ys)) (hlen : ys.length = zs.length) (hs : getSize s l = .ok (xs.length + zs.length))
    (hb : xs.length + zs.length < 2 ^ 31) (fuel : Nat) (hf : zs.length < fuel) :
    eqLoop lax ne s l fuel xs.length (posOf l zs) (posOf r ys) = .ok (agree ne (vals zs) (vals ys)) := by
  induction zs generalizing xs us ys fuel with
  | nil =>
    obtain ⟨f, rfl⟩ : ∃ f, fuel = f + 1 := ⟨fuel - 1, by simp at hf; omega⟩
    simp only [eqLoop, hs, Res.ok_bind]
    rw [if_neg (by simp)]; rfl
  | cons p zs ih =>
    obtain ⟨f, rfl⟩ : ∃ f, fuel = f + 1 := ⟨fuel - 1, by omega⟩
    cases ys with
    | nil => simp at hlen
    | cons q ys =>
      simp only [List.length_cons] at hlen hs hb hf
      simp only [eqLoop, hs, Res.ok_bind, posOf_cons]
      rw [if_pos (by omega), deref_ok (n := p.1) (v := p.2) h (by simp), Res.ok_bind, deref_ok (n := q.1) (v := q.2) h' (by simp), Res.ok_bind]
      show _ = Res.ok (!ne p.2 q.2 && agree ne (vals zs) (vals ys))
      cases hne : ne p.2 q.2 with
      | true => simp
      | false =>
        simp only [Bool.false_eq_true, if_false, Bool.not_false, Bool.true_and]
        rw [incr_ok (n := p.1) (v := p.2) lax h, Res.ok_bind, incr_ok (n := q.1) (v := q.2) lax h', Res.ok_bind]
        simp only [intSucc]
        rw [if_pos (by omega), Res.ok_bind]
        have := ih (xs := xs ++ [p]) (us := us ++ [q]) (ys := ys) (by simpa using h) (by simpa using h') (by omega)
          (by rw [hs]; simp; omega) (by simp; omega) f (by omega)
        simpa using this

/-- As many equal elements as the counter can count. -/
theorem eqLoop_ub (lax : Bool) (ne : α → α → Bool) {s : St α} {l r : Slot} (k : Nat) {zs ys xs us : Con α} (h : Ring s l (xs ++ zs))
    (h' : Ring s r (us ++ ys)) (hlen : ys.length = zs.length) (hs : getSize s l = .ok (xs.length + zs.length))
    (hk : xs.length + k + 1 = 2 ^ 31) (hb : k < zs.length) (ha : agree ne ((vals zs).take (k + 1)) ((vals ys).take (k + 1)) = true) (fuel : Nat)
    (hf : k < fuel) :
    eqLoop lax ne s l fuel xs.length (posOf l zs) (posOf r ys) = .ub := by
  induction k generalizing xs us ys zs fuel with
  | zero =>
    obtain ⟨f, rfl⟩ : ∃ f, fuel = f + 1 := ⟨fuel - 1, by omega⟩
    cases zs with
    | nil => simp at hb
    | cons p zs =>
    cases ys with
    | nil => simp at hlen
    | cons q ys =>
      simp only [List.length_cons] at hlen hs hb
      simp [agree, vals] at ha
      simp only [eqLoop, hs, Res.ok_bind, posOf_cons]
      rw [if_pos (by omega), deref_ok (n := p.1) (v := p.2) h (by simp), Res.ok_bind, deref_ok (n := q.1) (v := q.2) h' (by simp), Res.ok_bind,
        ha]
      simp only [Bool.false_eq_true, if_false]
      rw [incr_ok (n := p.1) (v := p.2) lax h, Res.ok_bind, incr_ok (n := q.1) (v := q.2) lax h', Res.ok_bind]
      simp only [intSucc]
      rw [if_neg (by omega), Res.ub_bind]
  | succ k ih =>
    obtain ⟨f, rfl⟩ : ∃ f, fuel = f + 1 := ⟨fuel - 1, by omega⟩
    cases zs with
    | nil => simp at hb
    | cons p zs =>
    cases ys with
    | nil => simp at hlen
    | cons q ys =>
      simp only [List.length_cons] at hlen hs hb
      have ha' : ne p.2 q.2 = false ∧ agree ne ((vals zs).take (k + 1)) ((vals ys).take (k + 1)) = true := by
        simpa [agree, vals] using ha
      simp only [eqLoop, hs, Res.ok_bind, posOf_cons]
      rw [if_pos (by omega), deref_ok (n := p.1) (v := p.2) h (by simp), Res.ok_bind, deref_ok (n := q.1) (v := q.2) h' (by simp), Res.ok_bind,
        ha'.1]
      simp only [Bool.false_eq_true, if_false]
      rw [incr_ok (n := p.1) (v := p.2) lax h, Res.ok_bind, incr_ok (n := q.1) (v := q.2) lax h', Res.ok_bind]
      simp only [intSucc]
      rw [if_pos (by omega), Res.ok_bind]
      have := ih (xs := xs ++ [p]) (us := us ++ [q]) (ys := ys) (zs := zs) (by simpa using h) (by simpa using h') (by omega)
        (by rw [hs]; simp; omega) (by simp; omega) (by omega) ha'.2 f (by omega)
      simpa using this

end Verif.EList
