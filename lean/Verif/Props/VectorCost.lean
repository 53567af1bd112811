import Verif.Lemmas.VectorProg

/-!
Property C115: what growth costs. A vector relocates its elements when it moves to
another block; whatever is done with it through its member functions, in total it
relocates less than twice as many elements as it ever held at once (or was asked to
reserve room for). In particular `n` calls of `push_back` relocate fewer than `2 n`.
-/

set_option backward.isDefEq.respectTransparency false

namespace Verif.Vector
open Verif Verif.OH
open Verif.Spec.Vector (Env)

variable {α : Type}

/-- The elements whose address changed when the vector `v` became `v'`: all, if the
storage is another one. -/
def moved : Option Vec → Option Vec → Nat
  | some v, some v' => if v.start = v'.start then 0 else v.size
  | _, _ => 0

/-- The number of elements of vector `x` relocated while a program runs. -/
def relocations (E : Elem α) (x : Nat) (s : St α) : List (Op α) → Res Nat
  | [] => .ok 0
  | op :: ops => do
    let s' ← step E s op
    let n ← relocations E x s' ops
    .ok (moved (s.vars x) (s'.vars x) + n)

/-- The operation leaves the object `x` its own storage: it does not construct,
destroy, assign, swap or move from it. Operations on other vectors are all allowed. -/
def Keeps (x : Nat) : Op α → Prop
  | .ctor y | .ctorFill y _ _ | .ctorDefault y _ | .ctorList y _ | .ctorCopy y _ | .dtor y
  | .assignCopy y _ => y ≠ x
  | .ctorMove y z | .assignMove y z | .swap y z => y ≠ x ∧ z ≠ x
  | _ => True

/-- A member function of `x` either works in place or moves to a block of at least
twice the size, and then because more room was needed. -/
def Grown (x : Nat) (op : Op α) (v v' : Vec) : Prop :=
  v'.start = v.start ∧ v'.endS = v.endS ∨
  2 * v.endS ≤ v'.endS ∧ (v.endS < v'.finish ∨ ∃ n, op = .reserve x n ∧ v.endS < n)

theorem ensureCapacity_grown {z : Bool} {h h' : Heap α} {v v' : Vec} {l : List α} {n : Nat}
    (hF : Fresh h) (hr : Rep z h v l) (e : ensureCapacity h v n = .ok (h', v')) :
    v'.finish = v.finish ∧ (v'.start = v.start ∧ v'.endS = v.endS ∨
      2 * v.endS ≤ v'.endS ∧ v.endS < n) := by
  obtain ⟨h1, v1, e1, t, _, a, b⟩ := ensureCapacity_spec hF hr n
  rw [e] at e1
  injection e1 with e1
  injection e1 with e1 e2
  subst e2
  refine ⟨t.rep.1.trans hr.1.symm, ?_⟩
  by_cases c : n ≤ v.endS
  · have := (a c).1
    subst this
    exact Or.inl ⟨rfl, rfl⟩
  · have := (b (by omega)).1
    exact Or.inr ⟨by omega, by omega⟩

theorem step_grown (E : Elem α) {z : Bool} {s s' : St α} {e : Env α} {x : Nat} {op : Op α} {v : Vec}
    (i : Inv z s e) (hk : Keeps x op) (hv : s.vars x = some v) (hs : step E s op = .ok s') :
    ∃ v', s'.vars x = some v' ∧ Grown x op v v' := by
  have hrep : ∃ l, Rep z s.heap v l := by
    have := i.rep x
    rw [hv] at this
    cases hx : e x with
    | none => rw [hx] at this; exact this.elim
    | some l => rw [hx] at this; exact ⟨l, this⟩
  obtain ⟨l, hr⟩ := hrep
  have other : ∀ {y : Nat} {f : Nat → Option Vec} {w : Option Vec}, y ≠ x → f x = some v →
      setVar f y w x = some v := by
    intro y f w hy hf
    simp [setVar, Ne.symm hy, hf]
  have same : ∀ {o : Op α}, Grown x o v v := fun {o} => Or.inl ⟨rfl, rfl⟩
  have up : ∀ {y : Nat} {o : Op α} {f : Heap α → Vec → Res (Heap α × Vec)},
      (do let w ← var s y; upd1 s y (f s.heap w)) = .ok s' →
      (∀ h' v', f s.heap v = .ok (h', v') → Grown y o v v') →
      (∀ v', Grown y o v v' → y = x → Grown x o v v') →
      ∃ v', s'.vars x = some v' ∧ Grown x o v v' := by
    intro y o f h1 h2 h3
    simp only [Res.bind_eq_ok, upd1, Prod.exists] at h1
    obtain ⟨w, hw, h', v', e1, e2⟩ := h1
    cases e2
    by_cases c : y = x
    · subst c
      rw [var_some hv] at hw
      cases hw
      exact ⟨v', by simp [setVar], h3 _ (h2 _ _ e1) rfl⟩
    · exact ⟨v, other c hv, same⟩
  have self : ∀ {y : Nat} {o : Op α} v', Grown y o v v' → y = x → Grown x o v v' := by
    rintro y o v' h rfl
    exact h
  have room : ∀ {y : Nat} {o : Op α} {h1 : Heap α} {v1 : Vec} {v' : Vec},
      ensureCapacity s.heap v (v.size + 1) = .ok (h1, v1) → v' = { v1 with finish := v1.finish + 1 } →
      Grown y o v v' := by
    rintro y o h1 v1 v' e1 rfl
    obtain ⟨f1, g⟩ := ensureCapacity_grown i.fresh hr e1
    rcases g with g | ⟨g1, g2⟩
    · exact Or.inl g
    · refine Or.inr ⟨g1, Or.inl ?_⟩
      show v.endS < v1.finish + 1
      rw [f1]
      exact g2
  cases op with
  | ctor y =>
    simp only [step, Res.bind_eq_ok] at hs
    obtain ⟨_, _, e1⟩ := hs
    cases e1
    exact ⟨v, other hk hv, same⟩
  | ctorFill y n a =>
    simp only [step, Res.bind_eq_ok, upd1, Prod.exists] at hs
    obtain ⟨_, _, h', v', _, e1⟩ := hs
    cases e1
    exact ⟨v, other hk hv, same⟩
  | ctorDefault y n =>
    simp only [step, Res.bind_eq_ok, upd1, Prod.exists] at hs
    obtain ⟨_, _, h', v', _, e1⟩ := hs
    cases e1
    exact ⟨v, other hk hv, same⟩
  | ctorList y n =>
    simp only [step, Res.bind_eq_ok, upd1, Prod.exists] at hs
    obtain ⟨_, _, h', v', _, e1⟩ := hs
    cases e1
    exact ⟨v, other hk hv, same⟩
  | ctorCopy y w =>
    simp only [step, Res.bind_eq_ok, upd1, Prod.exists] at hs
    obtain ⟨_, _, _, _, h', v', _, e1⟩ := hs
    cases e1
    exact ⟨v, other hk hv, same⟩
  | ctorMove y w =>
    simp only [step, Res.bind_eq_ok] at hs
    obtain ⟨_, _, _, _, e1⟩ := hs
    cases e1
    exact ⟨v, other hk.1 (other hk.2 hv), same⟩
  | dtor y =>
    simp only [step, Res.bind_eq_ok] at hs
    obtain ⟨_, _, _, _, e1⟩ := hs
    cases e1
    exact ⟨v, other hk hv, same⟩
  | assignCopy y w =>
    simp only [step, Res.bind_eq_ok, Prod.exists] at hs
    obtain ⟨_, _, _, _, _, _, _, _, _, e1⟩ := hs
    cases e1
    exact ⟨v, other hk hv, same⟩
  | assignMove y w =>
    simp only [step, Res.bind_eq_ok] at hs
    obtain ⟨_, _, e1⟩ := hs
    split at e1
    · cases e1
    · simp only [Res.bind_eq_ok] at e1
      obtain ⟨_, _, e1⟩ := e1
      cases e1
      exact ⟨v, other hk.1 (other hk.2 hv), same⟩
  | swap y w =>
    simp only [step, Res.bind_eq_ok] at hs
    obtain ⟨_, _, _, _, e1⟩ := hs
    cases e1
    exact ⟨v, other hk.2 (other hk.1 hv), same⟩
  | pushBack y a =>
    refine up (f := fun h w => pushBack h w (.ext a)) hs (fun h' v' e1 => ?_) self
    simp only [pushBack, Res.bind_eq_ok, Prod.exists] at e1
    obtain ⟨_, _, e1, _, _, _, _, e2⟩ := e1
    cases e2
    exact room e1 rfl
  | pushFront y a =>
    refine up (f := fun h w => pushFront E h w (.ext a)) hs (fun h' v' e1 => ?_) self
    simp only [pushFront, Res.bind_eq_ok, Prod.exists] at e1
    obtain ⟨_, _, e1, _, _, _, _, _, _, _, _, e2⟩ := e1
    cases e2
    exact room e1 rfl
  | insert y k a =>
    refine up (f := fun h w => insert E h w k (.ext a)) hs (fun h' v' e1 => ?_) self
    simp only [insert, Res.bind_eq_ok, Prod.exists] at e1
    obtain ⟨_, _, e1, _, _, _, _, _, _, _, _, e2⟩ := e1
    cases e2
    exact room e1 rfl
  | emplace y k a =>
    refine up (f := fun h w => emplace E h w k (.ext a)) hs (fun h' v' e1 => ?_) self
    simp only [emplace, Res.bind_eq_ok, Prod.exists] at e1
    obtain ⟨_, _, e1, _, _, _, _, _, _, _, _, _, _, e2⟩ := e1
    cases e2
    exact room e1 rfl
  | erase y k =>
    refine up (y := y) (f := fun h w => do let (h, w, _) ← erase E h w k; .ok (h, w)) ?_ (fun h' v' e1 => ?_) self
    · simp only [step, Res.bind_eq_ok, upd1, Prod.exists] at hs ⊢
      obtain ⟨w, hw, a, b, c, e1, e2⟩ := hs
      exact ⟨w, hw, a, b, ⟨a, b, c, e1, rfl⟩, e2⟩
    · simp only [erase, Res.bind_eq_ok, Prod.exists] at e1
      obtain ⟨_, _, _, e1, e2⟩ := e1
      split at e1
      · cases e1
      · simp only [Res.bind_eq_ok] at e1
        obtain ⟨_, _, _, _, e1⟩ := e1
        cases e1
        cases e2
        exact Or.inl ⟨rfl, rfl⟩
  | eraseRange y k m =>
    refine up (y := y) (f := fun h w => do let (h, w, _) ← eraseRange E h w k m; .ok (h, w)) ?_
      (fun h' v' e1 => ?_) self
    · simp only [step, Res.bind_eq_ok, upd1, Prod.exists] at hs ⊢
      obtain ⟨w, hw, a, b, c, e1, e2⟩ := hs
      exact ⟨w, hw, a, b, ⟨a, b, c, e1, rfl⟩, e2⟩
    · simp only [eraseRange, Res.bind_eq_ok, Prod.exists] at e1
      obtain ⟨_, _, _, ⟨_, _, _, _, _, _, e1⟩, e2⟩ := e1
      cases e1
      cases e2
      exact Or.inl ⟨rfl, rfl⟩
  | popBack y =>
    refine up (f := fun h w => popBack E h w) hs (fun h' v' e1 => ?_) self
    simp only [popBack] at e1
    split at e1
    · cases e1
    · simp only [erase, Res.bind_eq_ok, Prod.exists] at e1
      obtain ⟨_, _, _, e1, e2⟩ := e1
      split at e1
      · cases e1
      · simp only [Res.bind_eq_ok] at e1
        obtain ⟨_, _, _, _, e1⟩ := e1
        cases e1
        cases e2
        exact Or.inl ⟨rfl, rfl⟩
  | popFront y =>
    refine up (f := fun h w => popFront E h w) hs (fun h' v' e1 => ?_) self
    simp only [popFront, erase, Res.bind_eq_ok, Prod.exists] at e1
    obtain ⟨_, _, _, e1, e2⟩ := e1
    split at e1
    · cases e1
    · simp only [Res.bind_eq_ok] at e1
      obtain ⟨_, _, _, _, e1⟩ := e1
      cases e1
      cases e2
      exact Or.inl ⟨rfl, rfl⟩
  | resize y n =>
    refine up (f := fun h w => resize E h w n) hs (fun h' v' e1 => ?_) self
    simp only [resize] at e1
    split at e1
    · rename_i hn
      simp only [Res.bind_eq_ok, Prod.exists] at e1
      obtain ⟨h1, v1, e1, _, _, e2⟩ := e1
      cases e2
      obtain ⟨f1, g⟩ := ensureCapacity_grown i.fresh hr e1
      rcases g with g | ⟨g1, g2⟩
      · exact Or.inl g
      · refine Or.inr ⟨g1, Or.inl ?_⟩
        show v.endS < v1.finish + (n - v1.finish)
        omega
    · split at e1
      · simp only [Res.bind_eq_ok] at e1
        obtain ⟨_, _, e2⟩ := e1
        cases e2
        exact Or.inl ⟨rfl, rfl⟩
      · cases e1
        exact Or.inl ⟨rfl, rfl⟩
  | clear y =>
    refine up (f := fun h w => clear h w) hs (fun h' v' e1 => ?_) self
    simp only [clear, Res.bind_eq_ok] at e1
    obtain ⟨_, _, e2⟩ := e1
    cases e2
    exact Or.inl ⟨rfl, rfl⟩
  | reserve y n =>
    refine up (f := fun h w => reserve h w n) hs (fun h' v' e1 => ?_) self
    obtain ⟨f1, g⟩ := ensureCapacity_grown i.fresh hr e1
    rcases g with g | ⟨g1, g2⟩
    · exact Or.inl g
    · exact Or.inr ⟨g1, Or.inr ⟨n, rfl, g2⟩⟩
  | put y k a =>
    simp only [step, Res.bind_eq_ok] at hs
    obtain ⟨_, _, _, _, e1⟩ := hs
    cases e1
    exact ⟨v, hv, same⟩

/-- The bound with the capacity at the start, by induction. -/
theorem relocations_le (E : Elem α) {z : Bool} (x M : Nat) (ops : List (Op α)) {s : St α} {e e' : Env α}
    {v : Vec} (i : Inv z s e) (hz : z = true) (hv : s.vars x = some v)
    (hs : Spec.Vector.run E.dflt E.selfMoveOk e ops = some e') (hk : ∀ op ∈ ops, Keeps x op)
    (hM : ∀ p q c l, ops = p ++ q → Spec.Vector.run E.dflt E.selfMoveOk e p = some c → c x = some l →
      l.length ≤ M)
    (hR : ∀ n, Op.reserve x n ∈ ops → n ≤ M) :
    ∃ k, relocations E x s ops = .ok k ∧ (k = 0 ∨ k + v.capacity < 2 * M) := by
  induction ops generalizing s e v with
  | nil => exact ⟨0, rfl, Or.inl rfl⟩
  | cons op ops ih =>
    simp only [Spec.Vector.run, Option.bind_eq_some_iff] at hs
    obtain ⟨e1, h1, h2⟩ := hs
    obtain ⟨s1, a1, i1⟩ := step_ok E op i (fun c => by rw [hz] at c; cases c) h1
    obtain ⟨v1, hv1, g⟩ := step_grown E i (hk op (by simp)) hv a1
    have hrep : ∀ {s : St α} {e : Env α} {v : Vec}, Inv z s e → s.vars x = some v →
        ∃ l, e x = some l ∧ v.finish = l.length ∧ l.length ≤ v.endS := by
      intro s e v i hv
      have := i.rep x
      rw [hv] at this
      cases hx : e x with
      | none => rw [hx] at this; exact this.elim
      | some l => rw [hx] at this; exact ⟨l, rfl, this.1, this.2.1⟩
    obtain ⟨l, hl, f0, c0⟩ := hrep i hv
    obtain ⟨l1, hl1, f1, c1⟩ := hrep i1 hv1
    have hM1 : l1.length ≤ M := hM [op] ops e1 l1 rfl (by simp [Spec.Vector.run, h1]) hl1
    obtain ⟨k, e2, b⟩ := ih i1 hv1 h2 (fun o ho => hk o (by simp [ho]))
      (fun p q c l hp hc hx => hM (op :: p) q c l (by simp [hp])
        (by simp [Spec.Vector.run, h1, hc]) hx) (fun n hn => hR n (by simp [hn]))
    refine ⟨moved (s.vars x) (s1.vars x) + k, by simp only [relocations, a1, Res.ok_bind, e2], ?_⟩
    simp only [hv, hv1, moved, Vec.capacity, Vec.size] at b ⊢
    rcases g with ⟨g1, g2⟩ | ⟨g1, g2⟩
    · rw [if_pos g1.symm, Nat.zero_add, ← g2]
      exact b
    · have hlt : v.endS < M := by
        rcases g2 with g2 | ⟨n, rfl, g2⟩
        · omega
        · have := hR n (by simp)
          omega
      split <;> omega

/-- Take any vector at any point of any program, and continue with any operations
that leave it its own storage. If it never holds more than `M` elements and is never
asked to reserve more, fewer than `2 M - capacity` elements are relocated in total, or
none at all. -/
theorem C115_amortised (E : Elem α) (ops ops' : List (Op α)) (e e' : Env α) (s : St α)
    (hs : Spec.Vector.run E.dflt E.selfMoveOk (fun _ => none) ops = some e)
    (hr : run E St.init ops = .ok s) (x M : Nat) (v : Vec) (hv : s.vars x = some v)
    (hs' : Spec.Vector.run E.dflt E.selfMoveOk e ops' = some e') (hk : ∀ op ∈ ops', Keeps x op)
    (hM : ∀ p q c l, ops' = p ++ q → Spec.Vector.run E.dflt E.selfMoveOk e p = some c → c x = some l →
      l.length ≤ M)
    (hR : ∀ n, Op.reserve x n ∈ ops' → n ≤ M) :
    ∃ k, relocations E x s ops' = .ok k ∧ (k = 0 ∨ k + v.capacity < 2 * M) := by
  obtain ⟨s1, h1, i⟩ := run_ok E (z := true) ops (Inv.init true) (by simp) hs
  rw [hr] at h1
  cases h1
  exact relocations_le E x M ops' i rfl hv hs' hk hM hR

theorem pushes_run (dflt : α) (b : Bool) (x : Nat) (xs : List α) (e : Env α) (l : List α)
    (hx : e x = some l) :
    ∃ e', Spec.Vector.run dflt b e (xs.map (Op.pushBack x)) = some e' ∧ e' x = some (l ++ xs) := by
  induction xs generalizing e l with
  | nil => exact ⟨e, rfl, by simpa using hx⟩
  | cons a xs ih =>
    have h1 : Spec.Vector.step dflt b e (.pushBack x a) =
        some (Spec.Vector.set e x (some (l ++ [a]))) := by
      simp [Spec.Vector.step, Spec.Vector.modify, hx]
    obtain ⟨e', h2, h3⟩ := ih (Spec.Vector.set e x (some (l ++ [a]))) (l ++ [a])
      (by simp [Spec.Vector.set])
    exact ⟨e', by simp [Spec.Vector.run, h1, h2], by simpa using h3⟩

/-- `n` calls of `push_back` on any vector: fewer than `2 (size + n) - capacity`
relocations, or none. Starting with an empty vector without storage: fewer than `2 n`. -/
theorem C115_push_back (E : Elem α) (ops : List (Op α)) (e : Env α) (s : St α)
    (hs : Spec.Vector.run E.dflt E.selfMoveOk (fun _ => none) ops = some e)
    (hr : run E St.init ops = .ok s) (x : Nat) (v : Vec) (hv : s.vars x = some v) (xs : List α) :
    ∃ k, relocations E x s (xs.map (Op.pushBack x)) = .ok k ∧
      (k = 0 ∨ k + v.capacity < 2 * (v.size + xs.length)) := by
  obtain ⟨s1, h1, i⟩ := run_ok E (z := true) ops (Inv.init true) (by simp) hs
  rw [hr] at h1
  cases h1
  have := i.rep x
  rw [hv] at this
  cases hx : e x with
  | none => rw [hx] at this; exact this.elim
  | some l =>
    rw [hx] at this
    obtain ⟨e', h2, _⟩ := pushes_run E.dflt E.selfMoveOk x xs e l hx
    refine relocations_le E x _ _ i rfl hv h2 ?_ ?_ ?_
    · intro op ho
      simp only [List.mem_map] at ho
      obtain ⟨a, _, rfl⟩ := ho
      exact trivial
    · intro p q c m hp hc hm
      obtain ⟨p', q', h3, rfl, rfl⟩ := List.map_eq_append_iff.mp hp
      obtain ⟨c', h4, h5⟩ := pushes_run E.dflt E.selfMoveOk x p' e l hx
      rw [hc] at h4
      injection h4 with h4
      subst h4
      rw [hm] at h5
      injection h5 with h5
      have h6 : v.size = l.length := this.1
      rw [h5, h3, h6, List.length_append, List.length_append]
      omega
    · intro n hn
      simp at hn

/-- Ten `push_back`s on a new vector: 1 + 2 + 4 + 8 elements relocated. -/
example : (run ⟨0, true⟩ St.init [.ctor 0]).bind (fun s =>
    relocations ⟨0, true⟩ 0 s ((List.range 10).map (Op.pushBack 0))) = .ok 15 := by decide

/-- With removals, `reserve` and another vector in between: three relocations of 1,
1 and 2 elements (`M` is 6). -/
example : (run ⟨0, true⟩ St.init [.ctor 0, .pushBack 0 7]).bind (fun s =>
    relocations ⟨0, true⟩ 0 s [.pushBack 0 1, .popBack 0, .reserve 0 3, .ctorCopy 1 0, .pushBack 0 2,
      .dtor 1, .reserve 0 6, .pushFront 0 4, .clear 0]) = .ok 4 := by decide

/-- That program is within all preconditions. -/
example : (Spec.Vector.run 0 true (fun _ => none) [.ctor 0, .pushBack 0 7, .pushBack 0 1, .popBack 0,
    .reserve 0 3, .ctorCopy 1 0, .pushBack 0 2, .dtor 1, .reserve 0 6, .pushFront 0 4,
    .clear 0]).isSome = true := by decide

end Verif.Vector
