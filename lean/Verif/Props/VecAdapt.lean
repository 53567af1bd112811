import Verif.Model.VecAdapt
import Verif.Props.Vector

/-! Property C127: stacks and queues over vectors. -/

set_option backward.isDefEq.respectTransparency false

namespace Verif.VecAdapt
open Verif Verif.OH Verif.Vector
open Verif.Deque (AOp)

variable {α : Type}

/-- Adaptors as lists. -/
abbrev Lists (α : Type) := Nat → Option (List α)

def Lists.set (l : Lists α) (k : Nat) (v : Option (List α)) : Lists α := fun n => if n = k then v else l n

/-- What calls on stacks (`lifo`) and queues mean for lists, whose first element is the next to be popped. `none`: a use of
something that does not exist, or a pop of an empty adaptor. -/
def meaning (lifo : Bool) (l : Lists α) : AOp α → Option (Lists α)
  | .make k => if (l k).isSome then none else some (l.set k (some []))
  | .copy k j => if (l k).isSome then none else (l j).map fun xs => l.set k (some xs)
  | .move k j => if (l k).isSome then none else (l j).map fun xs => (l.set j (some [])).set k (some xs)
  | .destroy k => (l k).map fun _ => l.set k none
  | .assignCopy k j => (l k).bind fun _ => (l j).map fun xs => l.set k (some xs)
  | .assignMove k j => (l k).bind fun _ => (l j).map fun xs => (l.set j (some [])).set k (some xs)
  | .swap k j => (l k).bind fun xs => (l j).map fun ys => (l.set k (some ys)).set j (some xs)
  | .push k v => (l k).map fun xs => l.set k (some (if lifo then v :: xs else xs ++ [v]))
  | .pop k => (l k).bind fun xs => match xs with
    | [] => none
    | _ :: xs => some (l.set k (some xs))

def meaningAll (lifo : Bool) (l : Lists α) : List (AOp α) → Option (Lists α)
  | [] => some l
  | o :: os => (meaning lifo l o).bind fun l => meaningAll lifo l os

/-- The elements in the order of the vector. -/
def view (lifo : Bool) (xs : List α) : List α := if lifo then xs.reverse else xs

/-- The vectors inside adaptors. -/
def env (lifo : Bool) (l : Lists α) : Spec.Vector.Env α
  | 0 => none
  | 1 => none
  | k + 2 => (l k).map (view lifo)

theorem env_set (lifo : Bool) (l : Lists α) (k : Nat) (v : Option (List α)) :
    env lifo (l.set k v) = Spec.Vector.set (env lifo l) (k + 2) (v.map (view lifo)) := by
  funext n
  rcases n with _ | _ | n
  · simp [env, Spec.Vector.set]
  · simp [env, Spec.Vector.set]
  · by_cases h : n = k <;> simp [env, Spec.Vector.set, Lists.set, h]

theorem run_append (d : α) (b : Bool) (os ps : List (Op α)) (e : Spec.Vector.Env α) :
    Spec.Vector.run d b e (os ++ ps) = (Spec.Vector.run d b e os).bind fun e => Spec.Vector.run d b e ps := by
  induction os generalizing e with
  | nil => rfl
  | cons o os ih =>
    simp only [List.cons_append, Spec.Vector.run]
    cases Spec.Vector.step d b e o <;> simp [ih]

/-- Both swaps exchange two vectors. -/
theorem run_swap (lifo own : Bool) (d : α) (b : Bool) {e : Spec.Vector.Env α} {x y : Nat} {xs ys : List α}
    (h1 : e 1 = none) (hx : e x = some xs) (hy : e y = some ys) :
    Spec.Vector.run d b e (swapOps lifo own x y) =
      some (Spec.Vector.set (Spec.Vector.set e x (some ys)) y (some xs)) := by
  have nx : x ≠ 1 := by rintro rfl; rw [h1] at hx; cases hx
  have ny : y ≠ 1 := by rintro rfl; rw [h1] at hy; cases hy
  unfold swapOps
  split
  · simp [Spec.Vector.run, Spec.Vector.step, hx, hy]
  · by_cases hxy : y = x
    · subst hxy
      obtain rfl : xs = ys := by rw [hx] at hy; exact Option.some.inj hy
      simp [Spec.Vector.run, Spec.Vector.step, Spec.Vector.decl, Spec.Vector.set, hx, h1, nx, nx.symm]
      funext n
      by_cases hn : n = y <;> by_cases hm : n = 1 <;> simp_all [Spec.Vector.set]
    · simp [Spec.Vector.run, Spec.Vector.step, Spec.Vector.decl, Spec.Vector.set, hx, hy, h1, nx, nx.symm, ny, ny.symm, hxy,
        Ne.symm hxy]
      funext n
      by_cases hn : n = y <;> by_cases hm : n = 1 <;> by_cases hk : n = x <;> simp_all [Spec.Vector.set]

theorem set_same (e : Spec.Vector.Env α) (x : Nat) (v : Option (List α)) : Spec.Vector.set e x v x = v := by
  simp [Spec.Vector.set]

theorem set_ne (e : Spec.Vector.Env α) {x y : Nat} (v : Option (List α)) (h : y ≠ x) : Spec.Vector.set e x v y = e y := by
  simp [Spec.Vector.set, h]

/-- A parameter by value that is swapped with the object and destroyed. -/
theorem run_param (lifo own : Bool) (d : α) (b : Bool) {e : Spec.Vector.Env α} {x : Nat} {xs ys : List α}
    (h0 : e 0 = none) (h1 : e 1 = none) (hx : e x = some xs) :
    Spec.Vector.run d b (Spec.Vector.set e 0 (some ys)) (swapOps lifo own 0 x ++ [.dtor 0]) =
      some (Spec.Vector.set e x (some ys)) := by
  have nx : x ≠ 0 := by rintro rfl; rw [h0] at hx; cases hx
  rw [run_append, run_swap lifo own d b (xs := ys) (ys := xs) (by rw [set_ne _ _ (by decide), h1]) (set_same _ _ _)
    (by rw [set_ne _ _ nx, hx])]
  simp [Spec.Vector.run, Spec.Vector.step, Spec.Vector.set, nx.symm]
  funext n
  by_cases hn : n = 0 <;> by_cases hm : n = x <;> simp_all [Spec.Vector.set]

theorem view_dropLast (x : α) (xs : List α) : (view true (x :: xs)).dropLast = view true xs := by
  simp [view]

/-- Each call does with the vectors what it means for the lists. -/
theorem ops_ok (lifo own : Bool) (d : α) (b : Bool) {l l' : Lists α} {o : AOp α} (h : meaning lifo l o = some l') :
    Spec.Vector.run d b (env lifo l) (ops lifo own o) = some (env lifo l') := by
  have e0 : env lifo l 0 = none := rfl
  have e1 : env lifo l 1 = none := rfl
  have ek : ∀ k, env lifo l (k + 2) = (l k).map (view lifo) := fun _ => rfl
  have v0 : view lifo ([] : List α) = [] := by cases lifo <;> rfl
  cases o with
  | make k =>
    cases hk : l k <;> simp [meaning, hk] at h
    subst h
    simp [ops, Spec.Vector.run, Spec.Vector.step, Spec.Vector.decl, ek, hk, env_set, v0]
  | copy k j =>
    cases hk : l k <;> cases hj : l j <;> simp [meaning, hk, hj] at h
    subst h
    simp [ops, Spec.Vector.run, Spec.Vector.step, Spec.Vector.decl, ek, hk, hj, env_set]
  | move k j =>
    cases hk : l k <;> cases hj : l j <;> simp [meaning, hk, hj] at h
    subst h
    have hne : j ≠ k := by rintro rfl; rw [hk] at hj; cases hj
    simp [ops, Spec.Vector.run, Spec.Vector.step, Spec.Vector.decl, ek, hk, hj, env_set, v0]
    funext n
    by_cases hn : n = k + 2 <;> by_cases hm : n = j + 2 <;> simp_all [Spec.Vector.set]
  | destroy k =>
    cases hk : l k <;> simp [meaning, hk] at h
    subst h
    simp [ops, Spec.Vector.run, Spec.Vector.step, ek, hk, env_set]
  | assignCopy k j =>
    cases hk : l k <;> cases hj : l j <;> simp [meaning, hk, hj] at h
    subst h
    simp only [ops, Spec.Vector.run, Spec.Vector.step, Spec.Vector.decl, ek, hj, e0, Option.map_some, Option.bind_some]
    rw [run_param lifo own d b e0 e1 (by rw [ek, hk]; rfl), env_set]
    rfl
  | assignMove k j =>
    cases hk : l k <;> cases hj : l j <;> simp [meaning, hk, hj] at h
    subst h
    rename_i ks js
    simp only [ops, Spec.Vector.run, Spec.Vector.step, Spec.Vector.decl, ek, hj, e0, Option.map_some, Option.bind_some]
    have hc : Spec.Vector.set (Spec.Vector.set (env lifo l) 0 (some (view lifo js))) (j + 2) (some []) =
        Spec.Vector.set (Spec.Vector.set (env lifo l) (j + 2) (some [])) 0 (some (view lifo js)) := by
      funext n
      by_cases hn : n = 0 <;> by_cases hm : n = j + 2 <;> simp_all [Spec.Vector.set]
    rw [hc]
    have hx : ∃ xs, Spec.Vector.set (env lifo l) (j + 2) (some []) (k + 2) = some xs := by
      by_cases hkj : k = j
      · exact ⟨[], by rw [hkj, set_same]⟩
      · exact ⟨view lifo ks, by rw [set_ne _ _ (by omega), ek, hk]; rfl⟩
    obtain ⟨xs, hx⟩ := hx
    rw [run_param lifo own d b (by rw [set_ne _ _ (by omega), e0]) (by rw [set_ne _ _ (by omega), e1]) hx, env_set, env_set]
    simp [v0]
  | swap k j =>
    cases hk : l k <;> cases hj : l j <;> simp [meaning, hk, hj] at h
    subst h
    rw [ops, run_swap lifo own d b e1 (by rw [ek, hk]; rfl) (by rw [ek, hj]; rfl), env_set, env_set]
    rfl
  | push k v =>
    cases hk : l k <;> simp [meaning, hk] at h
    subst h
    cases lifo <;>
      simp [ops, Spec.Vector.run, Spec.Vector.step, Spec.Vector.modify, ek, hk, env_set, view]
  | pop k =>
    cases hk : l k with
    | none => simp [meaning, hk] at h
    | some xs =>
      cases xs with
      | nil => simp [meaning, hk] at h
      | cons x xs =>
        simp [meaning, hk] at h
        subst h
        cases lifo <;>
          simp [ops, Spec.Vector.run, Spec.Vector.step, Spec.Vector.modify, ek, hk, env_set, view]

theorem run_ok (lifo own : Bool) (d : α) (b : Bool) (os : List (AOp α)) {l l' : Lists α}
    (h : meaningAll lifo l os = some l') :
    Spec.Vector.run d b (env lifo l) (os.flatMap (ops lifo own)) = some (env lifo l') := by
  induction os generalizing l with
  | nil => simp [meaningAll] at h; subst h; rfl
  | cons o os ih =>
    rw [meaningAll] at h
    cases hm : meaning lifo l o with
    | none => simp [hm] at h
    | some l1 =>
      simp [hm] at h
      rw [List.flatMap_cons, run_append, ops_ok lifo own d b hm]
      exact ih h

/-- For any interleaving of calls on any number of stacks or queues over vectors (pushes, pops of non-empty ones, copies, also
of empty ones, moves, swaps, assignments, also to themselves, destruction) the calls are defined, every adaptor shows its
size, and `top()` is the newest and `front()` the oldest element not yet popped. -/
theorem C127_adaptors (E : Elem α) (lifo own : Bool) (os : List (AOp α)) {l : Lists α}
    (hl : meaningAll lifo (fun _ => none) os = some l) :
    ∃ s, run E lifo own os = .ok s ∧ ∀ k xs, l k = some xs →
      size s k = .ok xs.length ∧ ∀ v, xs.head? = some v → first lifo s k = .ok (some v) := by
  have he : env lifo (fun _ => none : Lists α) = fun _ => none := by
    funext n; rcases n with _ | _ | n <;> rfl
  have hr := run_ok lifo own E.dflt E.selfMoveOk os hl
  rw [he] at hr
  obtain ⟨s, e, hs⟩ := C16_sequence E _ _ hr
  refine ⟨s, e, fun k xs hk => ?_⟩
  have hx : env lifo l (k + 2) = some (view lifo xs) := by show (l k).map _ = _; rw [hk]; rfl
  have h := hs (k + 2)
  rw [hx] at h
  obtain ⟨v, hv, hsz, hg⟩ := h
  have hlen : (view lifo xs).length = xs.length := by cases lifo <;> simp [view]
  refine ⟨?_, ?_⟩
  · simp [size, var, hv, hsz, hlen]
  · intro a ha
    obtain ⟨ys, rfl⟩ : ∃ ys, xs = a :: ys := by
      cases xs with
      | nil => simp at ha
      | cons x ys => simp at ha; exact ⟨ys, by rw [ha]⟩
    cases lifo
    · have := hg 0 (by simp [view])
      simpa [first, var, hv, view] using this
    · have := hg (ys.length) (by simp [view])
      simpa [first, var, hv, hsz, view] using this

/-- Two stacks: one filled with 20 elements, an empty one copied, pops, swap and assignment to itself. -/
example : ((meaningAll true (fun _ => none) ([AOp.make 0] ++ (List.range 20).map (AOp.push 0) ++ [.make 1, .copy 2 1, .pop 0, .pop 0,
    .swap 0 1, .assignMove 1 1, .assignCopy 0 1, .pop 1])).map fun l => ((l 0).map (·.head?), (l 1).map (·.head?), l 2)) =
    some (some (some 17), some (some 16), some []) := by decide

theorem no_zeroCtor (lifo own : Bool) (os : List (AOp α)) : ∀ op ∈ os.flatMap (ops lifo own), zeroCtor op = false := by
  intro op h
  obtain ⟨o, _, ho⟩ := List.mem_flatMap.1 h
  have hall : ∀ p ∈ ops lifo own o, zeroCtor p = false := by
    cases o <;> cases lifo <;> cases own <;> simp [ops, swapOps, zeroCtor]
  exact hall op ho

theorem env_none (lifo : Bool) {l : Lists α} (h : ∀ k, l k = none) : ∀ x, env lifo l x = none := by
  intro x
  rcases x with _ | _ | k
  · rfl
  · rfl
  · show (l k).map _ = none
    rw [h]; rfl

/-- The allocated blocks are those of the vectors in live adaptors, no two adaptors share one (the vectors of parameters and
temporaries are gone), and nothing is left when all adaptors are destroyed. -/
theorem C127_storage (E : Elem α) (lifo own : Bool) (os : List (AOp α)) {l : Lists α}
    (hl : meaningAll lifo (fun _ => none) os = some l) :
    ∃ s, run E lifo own os = .ok s ∧
      (∀ b, s.heap.blocks b ≠ none ↔ ∃ k v, l k ≠ none ∧ s.vars (k + 2) = some v ∧ v.start = some b) ∧
      (∀ k j v w b, s.vars (k + 2) = some v → s.vars (j + 2) = some w → v.start = some b → w.start = some b → k = j) ∧
      ((∀ k, l k = none) → ∀ b, s.heap.blocks b = none) := by
  have hr := run_ok lifo own E.dflt E.selfMoveOk os hl
  rw [env_none lifo (fun _ => rfl) |> funext] at hr
  obtain ⟨s, e, h1, h2, h3⟩ := C18_lifetimes_partial E _ _ hr (no_zeroCtor lifo own os)
  obtain ⟨s', e', i⟩ := Vector.run_ok E (z := false) _ (Inv.init false) (fun _ => no_zeroCtor lifo own os) hr
  obtain rfl : s = s' := by rw [e] at e'; cases e'; rfl
  refine ⟨s, e, fun b => (h1 b).trans ⟨?_, ?_⟩, ?_, fun h => h3 (env_none lifo h)⟩
  · rintro ⟨x, v, hv, hb⟩
    rcases x with _ | _ | k
    · rw [i.getNone rfl] at hv; cases hv
    · rw [i.getNone rfl] at hv; cases hv
    · refine ⟨k, v, fun hk => ?_, hv, hb⟩
      have hx : env lifo l (k + 2) = none := by show (l k).map _ = none; rw [hk]; rfl
      rw [i.getNone hx] at hv; cases hv
  · rintro ⟨k, v, _, hv, hb⟩
    exact ⟨k + 2, v, hv, hb⟩
  · intro k j v w b hv hw a c
    have := h2 _ _ v w b hv hw a c
    omega

/-- A stack copied and assigned to itself, then both destroyed: no adaptor is left, so no storage is. -/
example : (meaningAll true (fun _ => none) [AOp.make 0, .push 0 3, .push 0 4, .copy 1 0, .assignCopy 1 1, .destroy 0,
    .destroy 1]).map (fun l => (l 0, l 1)) = some (none, none) := by decide

/-- A call that pushes to or pops from the adaptor `k`. -/
def only (k : Nat) : AOp α → Prop
  | .push j _ => j = k
  | .pop j => j = k
  | _ => False

/-- One push or pop, when no more than `M` elements are held afterwards. -/
theorem bounded_step (E : Elem α) (lifo own : Bool) {k M : Nat} {s : St α} {l l' : Lists α} {o : AOp α} {v : Vec}
    {xs' : List α} (i : Inv false s (env lifo l)) (hv : s.vars (k + 2) = some v) (hc : v.endS ≤ max M (2 * M - 2))
    (ho : only k o) (hm : meaning lifo l o = some l') (hx : l' k = some xs') (hM : xs'.length ≤ M) :
    ∃ s' v', Vector.run E s (ops lifo own o) = .ok s' ∧ Inv false s' (env lifo l') ∧ s'.vars (k + 2) = some v' ∧
      v'.endS ≤ max M (2 * M - 2) := by
  have hsp := ops_ok lifo own E.dflt E.selfMoveOk hm
  obtain ⟨s', e, i'⟩ := Vector.run_ok E (z := false) _ i
    (fun _ => by simpa using no_zeroCtor lifo own [o]) hsp
  suffices h : ∃ v', s'.vars (k + 2) = some v' ∧ v'.endS ≤ max M (2 * M - 2) by
    obtain ⟨v', a, b⟩ := h
    exact ⟨s', v', e, i', a, b⟩
  cases o with
  | push j a =>
    obtain rfl : j = k := ho
    cases hk : l j with
    | none => simp [meaning, hk] at hm
    | some xs =>
      have hlx : env lifo l (j + 2) = some (view lifo xs) := by show (l j).map _ = _; rw [hk]; rfl
      obtain ⟨w, hw, hr⟩ := i.get hlx
      obtain rfl : v = w := by rw [hv] at hw; exact Option.some.inj hw
      obtain ⟨h1, v1, e1, _, c1, c2⟩ := pushBack_spec i.fresh hr (.ext a) a (fun _ _ _ => rfl)
      have hlen : (view lifo xs).length = xs.length := by cases lifo <;> simp [view]
      have hlen' : xs'.length = xs.length + 1 := by
        simp [meaning, hk] at hm
        subst hm
        simp [Lists.set] at hx
        subst hx
        cases lifo <;> simp
      simp only [ops, Vector.run, step, var_some hv, Res.ok_bind, upd1, e1] at e
      cases e
      refine ⟨v1, by simp [setVar], ?_⟩
      rw [hlen] at c1 c2
      by_cases c : xs.length + 1 ≤ v.endS
      · rw [(c1 c).2]; exact hc
      · rw [(c2 (by omega)).1]; omega
  | pop j =>
    obtain rfl : j = k := ho
    cases hk : l j with
    | none => simp [meaning, hk] at hm
    | some xs =>
      have hlx : env lifo l (j + 2) = some (view lifo xs) := by show (l j).map _ = _; rw [hk]; rfl
      obtain ⟨w, hw, hr⟩ := i.get hlx
      obtain rfl : v = w := by rw [hv] at hw; exact Option.some.inj hw
      have hne : 0 < (view lifo xs).length := by
        cases xs with
        | nil => simp [meaning, hk] at hm
        | cons x xs => cases lifo <;> simp [view]
      cases lifo
      · obtain ⟨h1, v1, e1, _, _, c⟩ := popFront_spec E i.fresh hr hne
        simp [ops, Vector.run, step, var_some hv, Res.ok_bind, upd1, e1] at e
        subst e
        exact ⟨v1, by simp [setVar], by rw [c]; exact hc⟩
      · obtain ⟨h1, v1, e1, _, _, c⟩ := popBack_spec E i.fresh hr hne
        simp [ops, Vector.run, step, var_some hv, Res.ok_bind, upd1, e1] at e
        subst e
        exact ⟨v1, by simp [setVar], by rw [c]; exact hc⟩
  | _ => exact ho.elim

theorem vrun_append (E : Elem α) (s : St α) (os ps : List (Op α)) :
    Vector.run E s (os ++ ps) = (do let s ← Vector.run E s os; Vector.run E s ps) := by
  induction os generalizing s with
  | nil => rfl
  | cons o os ih =>
    simp only [List.cons_append, Vector.run]
    cases step E s o <;> simp [ih, Res.ok_bind] <;> rfl

theorem keeps {lifo : Bool} {k : Nat} {l l' : Lists α} {o : AOp α} (ho : only k o) (hm : meaning lifo l o = some l') :
    ∃ xs, l' k = some xs := by
  cases o with
  | push j a =>
    obtain rfl : j = k := ho
    cases hk : l j <;> simp [meaning, hk] at hm
    subst hm
    simp [Lists.set]
  | pop j =>
    obtain rfl : j = k := ho
    cases hk : l j with
    | none => simp [meaning, hk] at hm
    | some xs =>
      cases xs <;> simp [meaning, hk] at hm
      subst hm
      simp [Lists.set]
  | _ => exact ho.elim

theorem bounded (E : Elem α) (lifo own : Bool) {k M : Nat} (os : List (AOp α)) {s : St α} {l l' : Lists α} {v : Vec}
    (i : Inv false s (env lifo l)) (hv : s.vars (k + 2) = some v) (hc : v.endS ≤ max M (2 * M - 2))
    (ho : ∀ o ∈ os, only k o) (hl : meaningAll lifo l os = some l')
    (hM : ∀ p q l1 xs, os = p ++ q → meaningAll lifo l p = some l1 → l1 k = some xs → xs.length ≤ M) :
    ∃ s' v', Vector.run E s (os.flatMap (ops lifo own)) = .ok s' ∧ s'.vars (k + 2) = some v' ∧
      v'.endS ≤ max M (2 * M - 2) := by
  induction os generalizing s l v with
  | nil => exact ⟨s, v, rfl, hv, hc⟩
  | cons o os ih =>
    rw [meaningAll] at hl
    cases hm : meaning lifo l o with
    | none => simp [hm] at hl
    | some l1 =>
      simp [hm] at hl
      obtain ⟨xs, hx⟩ := keeps (ho o (by simp)) hm
      obtain ⟨s1, v1, e1, i1, hv1, hc1⟩ := bounded_step E lifo own i hv hc (ho o (by simp)) hm hx
        (hM [o] os l1 xs rfl (by simp [meaningAll, hm]) hx)
      obtain ⟨s2, v2, e2, h2⟩ := ih i1 hv1 hc1 (fun o h => ho o (by simp [h])) hl
        (fun p q l2 ys h a b => hM (o :: p) q l2 ys (by simp [h]) (by simp [meaningAll, hm, a]) b)
      exact ⟨s2, v2, by rw [List.flatMap_cons, vrun_append, e1]; exact e2, h2⟩

/-- Unlike a queue over a deque, whose memory may grow with the number of calls (C25), a stack or queue over a vector that
is pushed to and popped from for ever, never holding more than `M` elements, never has room for more than `M` or `2 M - 2`. -/
theorem C127_memory (E : Elem α) (lifo own : Bool) (k M : Nat) (os : List (AOp α)) {l : Lists α}
    (ho : ∀ o ∈ os, only k o) (hl : meaningAll lifo (fun _ => none) (.make k :: os) = some l)
    (hM : ∀ p q l1 xs, os = p ++ q → meaningAll lifo (fun _ => none) (.make k :: p) = some l1 → l1 k = some xs →
      xs.length ≤ M) :
    ∃ s v, run E lifo own (.make k :: os) = .ok s ∧ s.vars (k + 2) = some v ∧ v.endS ≤ max M (2 * M - 2) := by
  have hm : meaning lifo (fun _ => none : Lists α) (.make k) = some (Lists.set (fun _ => none) k (some [])) := rfl
  have hsp := ops_ok lifo own E.dflt E.selfMoveOk hm
  rw [env_none lifo (fun _ => rfl) |> funext] at hsp
  obtain ⟨s, e, i⟩ := Vector.run_ok E (z := false) _ (Inv.init false)
    (fun _ => by simpa using no_zeroCtor lifo own [AOp.make k]) hsp
  have hs : s.vars (k + 2) = some Vec.null := by
    simp [ops, Vector.run, step, Vector.fresh, St.init, Res.require] at e
    subst e
    simp [setVar]
  obtain ⟨s2, v2, e2, h2⟩ := bounded E lifo own (k := k) (M := M) os i hs (by simp [Vec.null]) ho
    (by simpa [meaningAll, hm] using hl)
    (fun p q l1 xs h a b => hM p q l1 xs h (by simpa [meaningAll, hm] using a) b)
  exact ⟨s2, v2, by rw [run, List.flatMap_cons, vrun_append, e]; exact e2, h2⟩

/-- A queue that holds up to three of ten elements passing through it has room for four, the bound for `M = 3`. -/
example : (match run (α := Nat) ⟨0, true⟩ false false ([AOp.make 0, .push 0 0, .push 0 1, .push 0 2] ++
    (List.range 10).flatMap fun n => [.pop 0, .push 0 n]) with
    | .ok s => (s.vars 2).map fun v => (v.size, v.endS)
    | _ => none) = some (3, max 3 (2 * 3 - 2)) := by decide

end Verif.VecAdapt
