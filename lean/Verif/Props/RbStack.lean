import Verif.Model.RbStack
import Verif.Props.RbCost

/-!
Property C121: how much stack it takes to clear, assign or destroy a set.
-/

set_option backward.isDefEq.respectTransparency false

namespace Verif.Rb
open Verif
open Verif.Box (Slot upd upd_same upd_ne)

variable {α : Type} {lt : α → α → Bool} {multi : Bool} {s s' : St α} {k : Nat} {l : List (Nat × α)}

theorem conv_fst {β γ : Type} {g : Nat → Res (β × γ)} {h : Nat → Res β} {a b : β} {n : γ} (hg : Conv g (a, n)) (hh : Conv h b)
    (e : ∀ f, (g f >>= fun x => .ok x.1) = h f) : a = b := by
  obtain ⟨N, hN⟩ := hg.1
  have h1 := e N
  rw [hN N (Nat.le_refl N), Res.ok_bind] at h1
  exact hh.eq h1.symm

theorem eraseSinceN_same (f : Nat) : ∀ (s : St α) (p : Option Nat), (eraseSinceN f s p >>= fun x => .ok x.1) = eraseSince f s p := by
  induction f with
  | zero => intro s p; rfl
  | succ f ih =>
    intro s p
    cases p with
    | none => rfl
    | some a =>
      unfold eraseSinceN eraseSince
      simp only
      cases e1 : Rb.right s (some a) with
      | oof => rfl
      | ub => rfl
      | ok r =>
        simp only [Res.ok_bind]
        rw [← ih s r]
        cases e2 : eraseSinceN f s r with
        | oof => rfl
        | ub => rfl
        | ok x =>
          simp only [Res.ok_bind]
          cases e3 : Rb.left x.1 (some a) with
          | oof => rfl
          | ub => rfl
          | ok q =>
            simp only [Res.ok_bind]
            cases e4 : destroyNode x.1 (some a) with
            | oof => rfl
            | ub => rfl
            | ok s2 =>
              simp only [Res.ok_bind]
              rw [← ih s2 q]
              cases eraseSinceN f s2 q <;> rfl

/-- C121, counting the calls changes nothing: `clear` and the version that counts do the same in every
state. -/
theorem C121_same (f : Nat) (s : St α) (k : Slot) : (clearN f s k >>= fun x => .ok x.1) = clear f s k := by
  unfold clearN clear
  cases e1 : getT s k with
  | oof => rfl
  | ub => rfl
  | ok x =>
    simp only [Res.ok_bind]
    by_cases h0 : x.2 = 0
    · simp only [h0, if_true]; rfl
    · simp only [h0, if_false]
      cases e2 : parent s (some x.1) with
      | oof => rfl
      | ub => rfl
      | ok r =>
        simp only [Res.ok_bind]
        rw [← eraseSinceN_same f s r]
        cases e3 : eraseSinceN f s r with
        | oof => rfl
        | ub => rfl
        | ok y =>
          simp only [Res.ok_bind]
          cases setLeft y.1 (some x.1) (some x.1) with
          | oof => rfl
          | ub => rfl
          | ok s2 =>
            simp only [Res.ok_bind]
            cases setRight s2 (some x.1) (some x.1) with
            | oof => rfl
            | ub => rfl
            | ok s3 =>
              simp only [Res.ok_bind]
              cases setParent s3 (some x.1) none with
              | oof => rfl
              | ub => rfl
              | ok s4 =>
                simp only [Res.ok_bind]
                cases setCount s4 k 0 <;> rfl

/-- The greatest number of steps to the right on a path of a tree, the one to nothing included. -/
def T.rights : T α → Nat
  | .nil => 0
  | .node l _ _ _ r => max (r.rights + 1) l.rights

theorem T.rights_le_depth (t : T α) : t.rights ≤ t.depth := by
  induction t with
  | nil => exact Nat.le_refl 0
  | node l co a v r ihl ihr => simp only [T.rights, T.depth]; omega

theorem T.rights_le_length (t : T α) : t.rights ≤ t.inl.length := by
  induction t with
  | nil => exact Nat.le_refl 0
  | node l co a v r ihl ihr => simp only [T.rights, T.inl, List.length_append, List.length_cons]; omega

theorem eraseSinceN_ok (t : T α) : ∀ (s : St α) (par : Option Nat), t.rep s.heap par → t.addrs.Nodup →
    ∃ s', Conv (fun f => eraseSinceN f s t.ptr) (s', t.rights) := by
  induction t with
  | nil =>
    intro s par _ _
    exact ⟨s, (Conv.pure (s, 0)).succ rfl fun f => rfl⟩
  | node l co a v r ihl ihr =>
    intro s par hr hn
    obtain ⟨hc, hl, hr⟩ := hr
    simp only [T.addrs, List.nodup_append, List.nodup_cons, List.mem_cons] at hn
    obtain ⟨s1, _, cv1, _, _, _, o1⟩ := eraseSince_ok r s (some a) hr hn.2.1.2
    obtain ⟨s1', cv1'⟩ := ihr s (some a) hr hn.2.1.2
    obtain rfl : s1' = s1 := conv_fst cv1' cv1 fun f => eraseSinceN_same f s r.ptr
    have hc1 : s1'.heap a = some ⟨co, l.ptr, r.ptr, par, some v⟩ := by rw [o1 a hn.2.1.1]; exact hc
    have hl2 : l.rep (upd s1'.heap a none) (some a) := by
      refine T.rep_congr hl fun b hb => ?_
      have hba : b ≠ a := fun e => hn.2.2 b hb a (by simp) e
      rw [upd_ne _ _ hba, o1 b (fun hb2 => hn.2.2 b hb b (by simp [hb2]) rfl)]
    obtain ⟨s3, cv3⟩ := ihl { s1' with heap := upd s1'.heap a none, freed := a :: s1'.freed } (some a) hl2 hn.1
    refine ⟨s3, (cv1'.bind (h := fun f x => Rb.left x.1 (some a) >>= fun l => destroyNode x.1 (some a) >>= fun s => eraseSinceN f s l >>= fun y => .ok (y.1, max (x.2 + 1) y.2))
        (b := (s3, (T.node l co a v r).rights)) ((cv3.bind (h := fun _ y => .ok (y.1, max (r.rights + 1) y.2)) (Conv.pure _)).congr fun f => ?_)).succ rfl fun f => ?_⟩
    · simp only [Rb.left, rd, hc1, Res.ok_bind, destroyNode]
    · show eraseSinceN (f + 1) s (some a) = _
      rw [eraseSinceN]
      simp only [Rb.right, rd, hc, Res.ok_bind]

/-- C121, exactly: after any history, clearing a set takes one call of `erase_since` more at once than a
path of its tree goes right (and none if it is empty). -/
theorem C121_nesting (w : Swo lt) (hr : Reach lt multi true s) {t : T α} (hh : Holds s k t) :
    ∃ s', Conv (fun f => clearN f s (.user k)) (s', if t.inl = [] then 0 else t.rights + 1) ∧
      Conv (fun f => step lt multi f s (.clear k)) (s', .unit) := by
  obtain ⟨σ, I, ht⟩ := hr.state w
  obtain ⟨h, l, hk, i, hi, _⟩ := hh.tr I
  have i' : In s _ s h _ _ t := i
  obtain ⟨s1, cv, I1⟩ := clear_ok I keep_root hk
  suffices hs : ∃ s2, Conv (fun f => clearN f s (.user k)) (s2, if t.inl = [] then 0 else t.rights + 1) by
    obtain ⟨s2, cv2⟩ := hs
    obtain rfl : s2 = s1 := conv_fst cv2 cv fun f => C121_same f s (.user k)
    exact ⟨s2, cv2, cv.bind (h := fun _ s => .ok (s, Ret.unit)) (Conv.pure (s2, Ret.unit))⟩
  have hget := I.get hk
  by_cases hl : l.length = 0
  · have hl' : t.inl = [] := by rw [hi]; exact List.length_eq_zero_iff.1 hl
    refine ⟨s, (Conv.pure _).congr fun f => ?_⟩
    unfold clearN
    rw [hget, Res.ok_bind]
    simp only [hl, if_true, hl']
  · have hl' : t.inl ≠ [] := by rw [hi]; exact fun e => hl (by rw [e]; rfl)
    obtain ⟨s2, cv2⟩ := eraseSinceN_ok t s (some h) i'.rep i'.nodup
    obtain ⟨s2', _, cv3, e3, _, _, o3⟩ := eraseSince_ok t s (some h) i'.rep i'.nodup
    obtain rfl : s2 = s2' := conv_fst cv2 cv3 fun f => eraseSinceN_same f s t.ptr
    have hdr : s2.heap h = some ⟨.red, some (beg h t.inl), some (lst h t.inl), t.ptr, none⟩ := by rw [o3 h i'.nh]; exact i'.hdr
    have hg : s2.tree (.user k) = some (h, l.length) := by
      rw [e3]; show s.tree (.user k) = _; rw [I.slot, hk]; rfl
    refine ⟨{ s2 with heap := upd s2.heap h (some ⟨.red, some h, some h, none, none⟩), tree := upd s2.tree (.user k) (some (h, 0)) }, ?_⟩
    rw [if_neg hl']
    refine (cv2.bind (h := fun _ x => setLeft x.1 (some h) (some h) >>= fun s => setRight s (some h) (some h) >>= fun s => setParent s (some h) none >>= fun s => setCount s (.user k) 0 >>= fun s => .ok (s, x.2 + 1))
      (Conv.const ?_)).congr fun f => ?_
    · simp only [setLeft, setRight, setParent, wr, hdr, Res.ok_bind, upd_same, Verif.Box.upd_upd, setCount, getT, hg]
    · unfold clearN
      rw [hget, Res.ok_bind]
      simp only
      rw [if_neg hl, i'.root, Res.ok_bind]

/-- A tree of a set of four: the calls for 2 (the root), 3, 4 and the nothing behind 4 are active at once. -/
example : (T.node (.node .nil .black 1 1 .nil) .black 2 2 (.node .nil .black 3 3 (.node .nil .red 4 4 .nil)) : T Nat).rights + 1 = 4 ∧
    ∃ s, Reach (fun a b : Nat => decide (a < b)) false true s ∧ ∃ t, Holds s 0 t ∧ t.inl.map (·.2) = [1, 2, 3, 4] := by
  refine ⟨rfl, ?_⟩
  obtain ⟨s, σ, h, l, rs, _, hr, I, _, hk, e⟩ := history natSwo false false [1, 2, 3, 4] (.inr (by decide))
  obtain ⟨t, i, hi, _⟩ := I.rep _ _ hk
  have hi : t.inl = l := hi
  exact ⟨s, hr.any, t, ⟨h, l.length, by rw [I.slot, hk]; rfl, In.root i, In.rep i⟩, by rw [hi, e]; rfl⟩

/-- C121, in general: after any history, clearing a set takes at most one call more at once than there are
elements. -/
theorem C121_bound (w : Swo lt) (hr : Reach lt multi true s) (hx : Exists s k) :
    ∃ l s' n, Walk s k l ∧ Conv (fun f => clearN f s (.user k)) (s', n) ∧ n ≤ l.length + 1 := by
  obtain ⟨σ, I, _⟩ := hr.state w
  obtain ⟨⟨h, l⟩, hk⟩ := (I.exists k).1 hx
  obtain ⟨t, i, hti, hred⟩ := I.rep _ _ hk
  have i : Tr s h t := i
  have hti : t.inl = l := hti
  obtain ⟨s', cv, _⟩ := C121_nesting w hr (t := t) ⟨h, l.length, by rw [I.slot, hk]; rfl, In.root i, In.rep i⟩
  refine ⟨l, s', _, I.walk hk, cv, ?_⟩
  have := t.rights_le_length
  rw [hti] at this
  split <;> omega

/-- A set of three elements, inserted in descending order. -/
example : ∃ s, Reach (fun a b : Nat => decide (a < b)) false true s ∧ Exists s 0 := by
  obtain ⟨s, σ, h, l, rs, _, hr, I, _, hk, _⟩ := descending_history natSwo false [5, 3, 1] (by decide)
  exact ⟨s, hr, (I.exists 0).2 ⟨_, hk⟩⟩

/-- C121, what holds of states: after any history, if all trees are red-black trees, the calls at once are at
most twice the binary logarithm of the number of elements plus one, plus one. Missing: the other states, which
exist (C36). -/
theorem C121_balanced_partial (w : Swo lt) (hr : Reach lt multi true s) (hb : Balanced s) (hx : Exists s k) :
    ∃ l s' n, Walk s k l ∧ Conv (fun f => clearN f s (.user k)) (s', n) ∧ 2 ^ n ≤ 2 * (l.length + 1) ^ 2 := by
  obtain ⟨σ, I, _⟩ := hr.state w
  obtain ⟨⟨h, l⟩, hk⟩ := (I.exists k).1 hx
  obtain ⟨t, i, hti, hred⟩ := I.rep _ _ hk
  have i : Tr s h t := i
  have hti : t.inl = l := hti
  have ht : Holds s k t := ⟨h, l.length, by rw [I.slot, hk]; rfl, In.root i, In.rep i⟩
  obtain ⟨_, n, hn⟩ := hb k t ht
  have hs := shallow hred hn
  rw [hti] at hs
  obtain ⟨s', cv, _⟩ := C121_nesting w hr ht
  refine ⟨l, s', _, I.walk hk, cv, ?_⟩
  have h1 : 2 ^ t.rights ≤ 2 ^ t.depth := Nat.pow_le_pow_right (by omega) t.rights_le_depth
  split
  · have := Nat.one_le_two_pow (n := t.depth); omega
  · rw [Nat.pow_succ]; omega

/-- A multiset of five elements. -/
example : ∃ s, Reach (fun a b : Nat => decide (a < b)) true true s ∧ Balanced s ∧ Exists s 0 := by
  obtain ⟨s, σ, h, l, rs, _, hr, I, _, hk, e⟩ := history natSwo true false [1, 2, 2, 4, 5] (.inr (by decide))
  obtain ⟨σ', I', _⟩ := hr.inv natSwo keep_valid
  exact ⟨s, hr.any, fun k t ht => by obtain ⟨_, _, _, _, _, hv⟩ := ht.tr I'; exact hv, (I.exists 0).2 ⟨_, hk⟩⟩

/-- C121, what holds of histories: the same if elements were only ever added at the end (and erased
anywhere). Missing: other histories. -/
theorem C121_appended_partial (w : Swo lt) (hr : Reach lt multi false s) (hx : Exists s k) :
    ∃ l s' n, Walk s k l ∧ Conv (fun f => clearN f s (.user k)) (s', n) ∧ 2 ^ n ≤ 2 * (l.length + 1) ^ 2 := by
  obtain ⟨σ, I, _⟩ := hr.inv w keep_valid
  exact C121_balanced_partial w hr.any (fun k t ht => by obtain ⟨_, _, _, _, _, hv⟩ := ht.tr I; exact hv) hx

/-- A set of six elements. -/
example : ∃ s, Reach (fun a b : Nat => decide (a < b)) false false s ∧ Exists s 0 := by
  obtain ⟨s, σ, h, l, rs, _, hr, I, _, hk, e⟩ := history natSwo false false [1, 2, 3, 4, 5, 6] (.inr (by decide))
  exact ⟨s, hr, (I.exists 0).2 ⟨_, hk⟩⟩

theorem rights_spine (r : List (Nat × α)) : (spine r).rights = r.length := by
  induction r with
  | nil => rfl
  | cons x r ih => simp [spine, T.rights, ih]

/-- C121 is violated: after inserting two or more keys in descending order, clearing the set takes as many
calls of `erase_since` at once as there are elements. -/
theorem C121_descending_violated (w : Swo lt) (multi : Bool) (vs : List α) (hd : vs.Pairwise fun x y => lt y x = true) (hlen : 2 ≤ vs.length) :
    ∃ s rs s', Conv (fun f => run lt multi f St.init (.make 0 :: vs.map (.insert 0))) (s, rs) ∧ Reach lt multi true s ∧
      Conv (fun f => clearN f s (.user 0)) (s', vs.length) := by
  obtain ⟨s, σ, h, l, rs, cv, hr, I, ht, hk, e, i⟩ := descending_history w multi vs hd
  have hl : l.length = vs.length := by rw [← List.length_map (f := (·.2)), e]; simp
  have hh : Holds s 0 (dchain l) := ⟨h, l.length, by rw [I.slot, hk]; rfl, In.root i, In.rep i⟩
  obtain ⟨s', cv2, _⟩ := C121_nesting w hr hh
  refine ⟨s, rs, s', cv, hr, ?_⟩
  rw [← hl] at hlen ⊢
  suffices hp : (if (dchain l).inl = [] then 0 else (dchain l).rights + 1) = l.length by rwa [hp] at cv2
  match l, hlen with
  | x :: y :: r, _ => simp [dchain, T.inl, T.rights, rights_spine]

example : (([9, 7, 5, 2, 1] : List Nat).Pairwise fun x y => decide (y < x) = true) ∧ 2 ≤ ([9, 7, 5, 2, 1] : List Nat).length := by decide

end Verif.Rb
