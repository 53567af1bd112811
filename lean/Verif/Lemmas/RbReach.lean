import Verif.Lemmas.RbStep
import Verif.Lemmas.RbBal

/-! What programs can observe of sets and multisets, the histories of programs, and the link to
the invariant. -/

set_option backward.isDefEq.respectTransparency false

namespace Verif.Rb
open Verif
open Verif.Box (Slot upd upd_same upd_ne)

variable {α : Type}

/-- Iteration over the set `k` from `begin()` to `end()` returns and yields the elements `l`: their
positions (iterators) and values. -/
def Walk (s : St α) (k : Nat) (l : List (Nat × α)) : Prop := Conv (fun f => walk f s (.user k)) l

/-- The set exists. -/
def Exists (s : St α) (k : Nat) : Prop := s.tree (.user k) ≠ none

/-- What a program must observe: objects are constructed once and used while they exist, iterators
given to `erase` are positions of the set, ranges go forward. -/
def Legal (s : St α) : Op α → Prop
  | .make k => ¬ Exists s k
  | .initList k _ => ¬ Exists s k
  | .copy k j => ¬ Exists s k ∧ Exists s j
  | .move k j => ¬ Exists s k ∧ Exists s j
  | .destroy k => Exists s k
  | .assignCopy k j => Exists s k ∧ Exists s j
  | .assignMove k j => Exists s k ∧ Exists s j
  | .assignList k _ => Exists s k
  | .swap k j => Exists s k ∧ Exists s j
  | .insert k _ => Exists s k
  | .insertAll k _ => Exists s k
  | .eraseIt k a => ∃ xs v ys, Walk s k (xs ++ (a, v) :: ys)
  | .eraseRange k a e => ∃ xs ys zs h, Walk s k (xs ++ ys ++ zs) ∧ end' s (.user k) = .ok (some h) ∧ a = beg h (ys ++ zs) ∧ e = beg h zs
  | .eraseKey k _ => Exists s k
  | .clear k => Exists s k

/-- The call adds elements only at the end: none is less than one already there. -/
def Appends (lt : α → α → Bool) (s : St α) : Op α → Prop
  | .initList _ vs => vs.Pairwise fun x y => lt y x = false
  | .assignList _ vs => vs.Pairwise fun x y => lt y x = false
  | .insert k v => ∀ l, Walk s k l → ∀ x ∈ l, lt v x.2 = false
  | .insertAll k vs => (∀ l, Walk s k l → ∀ x ∈ l, ∀ v ∈ vs, lt v x.2 = false) ∧ vs.Pairwise fun x y => lt y x = false
  | _ => True

/-- The states programs reach; with `b = false` only by calls that add elements at the end. -/
inductive Reach (lt : α → α → Bool) (multi b : Bool) : St α → Prop where
  | init : Reach lt multi b St.init
  | step {s s' : St α} {op : Op α} {r : Ret} (f : Nat) : Reach lt multi b s → Legal s op → (b = true ∨ Appends lt s op) → step lt multi f s op = .ok (s', r) →
      Reach lt multi b s'

section
variable {lt : α → α → Bool} {multi b : Bool} {P : T α → Prop} {s : St α} {σ : Sp α}

theorem Conv.unique {β : Type} {g : Nat → Res β} {a b : β} (h1 : Conv g a) (h2 : Conv g b) : a = b := by
  obtain ⟨n, hn⟩ := h1.1
  exact h2.eq (hn n (Nat.le_refl n))

theorem Inv.walk (I : Inv lt multi P s σ) {k : Slot} {h : Nat} {l : List (Nat × α)} (hk : σ.tree k = some (h, l)) : Conv (fun f => Rb.walk f s k) l := by
  obtain ⟨t, i, ht, _⟩ := I.rep k _ hk
  have := (collect_ok (xs := []) l i ht).diag
  refine this.congr fun f => ?_
  rw [Rb.walk, I.begin hk, Res.ok_bind, I.end hk, Res.ok_bind]

theorem Inv.exists (I : Inv lt multi P s σ) (k : Nat) : Exists s k ↔ ∃ x, σ.tree (.user k) = some x := by
  rw [Exists, I.slot]
  cases σ.tree (.user k) <;> simp

theorem Inv.none (I : Inv lt multi P s σ) {k : Nat} (h : ¬ Exists s k) : σ.tree (.user k) = none := by
  rw [I.exists] at h
  cases hk : σ.tree (.user k) with
  | none => rfl
  | some x => exact (h ⟨x, hk⟩).elim

theorem Inv.of_walk (I : Inv lt multi P s σ) {k : Nat} {l : List (Nat × α)} (hw : Walk s k l) : ∃ h, σ.tree (.user k) = some (h, l) := by
  cases hk : σ.tree (.user k) with
  | none =>
    obtain ⟨n, hn⟩ := hw.1
    have := hn n (Nat.le_refl n)
    have h1 : s.tree (.user k) = Option.none := by rw [I.slot, hk]; rfl
    simp only [Rb.walk, Rb.begin, getT, h1] at this
    cases this
  | some x =>
    obtain ⟨h, l'⟩ := x
    exact ⟨h, by rw [Conv.unique hw (I.walk hk)]⟩

theorem Inv.walk_iff (I : Inv lt multi P s σ) {k : Nat} {l : List (Nat × α)} : Walk s k l ↔ ∃ h, σ.tree (.user k) = some (h, l) :=
  ⟨I.of_walk, fun ⟨_, h⟩ => I.walk h⟩

theorem Inv.pre (I : Inv lt multi P s σ) {op : Op α} (hl : Legal s op) (ha : b = true ∨ Appends lt s op) : Pre lt b σ op := by
  have he : ∀ k, Exists s k → ∃ x, σ.tree (.user k) = some x := fun k => (I.exists k).1
  cases op with
  | make k => exact I.none hl
  | initList k vs => exact ⟨I.none hl, ha⟩
  | copy k j => exact ⟨I.none hl.1, he j hl.2⟩
  | move k j => exact ⟨I.none hl.1, he j hl.2⟩
  | destroy k => exact he k hl
  | assignCopy k j => exact ⟨he k hl.1, he j hl.2⟩
  | assignMove k j => exact ⟨he k hl.1, he j hl.2⟩
  | assignList k vs => exact ⟨he k hl, ha⟩
  | swap k j => exact ⟨he k hl.1, he j hl.2⟩
  | insert k v =>
    obtain ⟨⟨h, l⟩, hk⟩ := he k hl
    exact ⟨h, l, hk, ha.imp id fun h => h l (I.walk hk)⟩
  | insertAll k vs =>
    obtain ⟨⟨h, l⟩, hk⟩ := he k hl
    exact ⟨h, l, hk, ha.imp id fun h => ⟨h.1 l (I.walk hk), h.2⟩⟩
  | eraseIt k a =>
    obtain ⟨xs, v, ys, hw⟩ := hl
    obtain ⟨h, hk⟩ := I.of_walk hw
    exact ⟨h, xs, v, ys, hk⟩
  | eraseRange k a e =>
    obtain ⟨xs, ys, zs, h, hw, h1, h2, h3⟩ := hl
    obtain ⟨h', hk⟩ := I.of_walk hw
    rw [I.end hk] at h1
    cases h1
    exact ⟨h, xs, ys, zs, hk, h2, h3⟩
  | eraseKey k v => exact he k hl
  | clear k => exact he k hl

/-- A permitted call: it returns, or it is an erase that may not; what it does is `Eff`. -/
theorem call (w : Swo lt) (K : Keep b P) (I : Inv lt multi P s σ) (ht : σ.tree .temp = none) {op : Op α} (hl : Legal s op) (ha : b = true ∨ Appends lt s op) :
    Out (b && op.erases) (fun f => step lt multi f s op) fun r => ∃ σ', Inv lt multi P r.1 σ' ∧ Eff lt multi s σ op r.2 σ' ∧ σ'.tree .temp = none :=
  step_ok w K I ht op (I.pre hl ha)

theorem Reach.inv (w : Swo lt) (K : Keep b P) (hr : Reach lt multi b s) : ∃ σ, Inv lt multi P s σ ∧ σ.tree .temp = none := by
  induction hr with
  | init => exact ⟨_, Inv.init, rfl⟩
  | step f _ hl ha e ih =>
    obtain ⟨σ, I, ht⟩ := ih
    obtain ⟨σ', I', _, ht'⟩ := (call w K I ht hl ha).sat e
    exact ⟨σ', I', ht'⟩

theorem Reach.any (hr : Reach lt multi b s) : Reach lt multi true s := by
  induction hr with
  | init => exact .init
  | step f _ hl _ e ih => exact .step f ih hl (.inl rfl) e

theorem Reach.state (w : Swo lt) (hr : Reach lt multi b s) : ∃ σ, Inv lt multi (fun t : T α => t.red = false) s σ ∧ σ.tree .temp = none :=
  hr.any.inv w keep_root

theorem Conv.reach {s' : St α} {op : Op α} {r : Ret} (hr : Reach lt multi b s) (hl : Legal s op) (ha : b = true ∨ Appends lt s op)
    (cv : Conv (fun f => Rb.step lt multi f s op) (s', r)) : Reach lt multi b s' := by
  obtain ⟨n, hn⟩ := cv.1
  exact .step n hr hl ha (hn n (Nat.le_refl n))

/-- Iteration over the sets a call does not name is unchanged. -/
theorem Inv.others (I : Inv lt multi P s σ) {s' : St α} {σ' : Sp α} (I' : Inv lt multi P s' σ') {k : Nat} {o : Option (Nat × List (Nat × α))}
    (h : σ'.tree = upd σ.tree (.user k) o) {j : Nat} (hj : j ≠ k) {m : List (Nat × α)} : Walk s j m ↔ Walk s' j m := by
  have : σ'.tree (.user j) = σ.tree (.user j) := by rw [h, upd_ne _ _ (by simpa using hj)]
  rw [I.walk_iff, I'.walk_iff, this]

/-- Positions equivalent to a key are unique in sets. -/
theorem uniq_pos {l xs xs' ys ys' : List (Nat × α)} {x x' : Nat × α} {v : α} (w : Swo lt) (ho : Ord lt false l) (e : l = xs ++ x :: ys) (e' : l = xs' ++ x' :: ys')
    (h1 : lt x.2 v = false) (h2 : lt v x.2 = false) (h1' : lt x'.2 v = false) (h2' : lt v x'.2 = false) : xs = xs' ∧ x = x' ∧ ys = ys' := by
  have key : ∀ {A B C : List (Nat × α)} {p q : Nat × α}, l = A ++ p :: B ++ q :: C → lt p.2 v = false → lt v q.2 = false → False := by
    intro A B C p q e hp hq
    rw [e] at ho
    have := (List.pairwise_append.1 ho).2.2 p (by simp) q (by simp)
    rcases w.trans _ v _ (this.2 rfl) with h | h
    · rw [hp] at h; cases h
    · rw [hq] at h; cases h
  rw [e] at e'
  rcases List.append_eq_append_iff.1 e' with ⟨a, ea, eb⟩ | ⟨a, ea, eb⟩
  · cases a with
    | nil => simp at ea eb; exact ⟨ea.symm, eb.1, eb.2⟩
    | cons z a =>
      simp only [List.cons_append, List.cons.injEq] at eb
      exact (key (A := xs) (B := a) (C := ys') (p := x) (q := x') (by rw [e, eb.2, List.append_assoc]; rfl) h1 h2').elim
  · cases a with
    | nil => simp at ea eb; exact ⟨ea, eb.1.symm, eb.2.symm⟩
    | cons z a =>
      simp only [List.cons_append, List.cons.injEq] at eb
      exact (key (A := xs') (B := a) (C := ys) (p := x') (q := x) (by rw [e, ea, eb.1]) h1' h2).elim

end

end Verif.Rb
