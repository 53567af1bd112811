import Verif.Lemmas.RbCmp
import Verif.Lemmas.RbHist

/-!
Property C104: every `set` and `multiset` keeps to its own comparator.

`Reach ap dflt multi s` says that `s` is the state after some permitted history of calls on any
number of sets (`multi = false`) or multisets (`multi = true`), each with a comparator of its own;
`ap c` is the comparison the comparator `c` makes, `dflt` the comparator after default
initialisation (`none`: indeterminate). `Rb.Walk s.t k l` says that iterating over set `k` yields
`l`, pairs of position and value. `Und g`: the call runs into undefined behaviour.
-/

set_option backward.isDefEq.respectTransparency false

namespace Verif.RbCmp
open Verif
open Verif.Box (Slot upd upd_same upd_ne)
open Verif.Rb (St Sp T Ret Ord Swo Inv Ins insV keep_root beg Walk Exists)

variable {α C : Type} {ap : C → α → α → Bool} {dflt : Option C} {multi : Bool} {s s' : CSt α C} {k j : Nat} {l m : List (Nat × α)}

/-- What a program must observe, as in C30: objects are constructed once and used while they exist. -/
def Legal (s : CSt α C) (op : Op α C) : Prop := Rb.Legal s.t op.base

/-- The states programs reach. -/
inductive Reach (ap : C → α → α → Bool) (dflt : Option C) (multi : Bool) : CSt α C → Prop where
  | init : Reach ap dflt multi CSt.init
  | step {s s' : CSt α C} {op : Op α C} {r : Ret} (f : Nat) : Reach ap dflt multi s → Legal s op → step ap dflt multi f s op = .ok (s', r) → Reach ap dflt multi s'

theorem Reach.inv (w : ∀ c, Swo (ap c)) (hr : Reach ap dflt multi s) : ∃ σ, CInv ap dflt multi s σ ∧ σ.tree .temp = none := by
  induction hr with
  | init => exact ⟨_, CInv.init, rfl⟩
  | step f _ hl e ih =>
    rename_i s0 s1 op r _
    obtain ⟨σ, I, ht⟩ := ih
    have hp := I.inv.pre (b := true) hl (.inl rfl)
    by_cases hd : Det dflt s0 op
    · obtain ⟨σ', I', _, _, ht'⟩ := (step_ok w I ht op hp hd).sat e
      exact ⟨σ', I', ht'⟩
    · exact absurd e (step_und w I ht op hp hd).not_ok

/-- What a permitted call that reads no indeterminate comparator does. -/
theorem call (w : ∀ c, Swo (ap c)) {σ : Sp α} (I : CInv ap dflt multi s σ) (ht : σ.tree .temp = none) {op : Op α C} (hl : Legal s op) (hd : Det dflt s op) (he : op.base.erases = false) :
    ∃ s' r σ', Conv (fun f => step ap dflt multi f s op) (s', r) ∧ CInv ap dflt multi s' σ' ∧ Rb.Eff (ltOp ap dflt s op) multi s.t σ op.base r σ' ∧
      ∀ m, s'.cmp (.user m) = newCmp dflt s m op := by
  have o := step_ok w I ht op (I.inv.pre (b := true) hl (.inl rfl)) hd
  rw [he] at o
  obtain ⟨⟨s', r⟩, ⟨σ', I', E, hc, _⟩, cv⟩ := o.conv
  exact ⟨s', r, σ', cv, I', E, hc⟩

/-- Comparators of numbers: ascending (`false`) or descending (`true`). -/
def dir (d : Bool) (x y : Nat) : Bool := if d then decide (y < x) else decide (x < y)

theorem dirSwo (d : Bool) : Swo (dir d) where
  asymm := by intro x y h; cases d <;> simp [dir] at h ⊢ <;> omega
  trans := by intro x y z h; cases d <;> simp [dir] at h ⊢ <;> omega

/-- C104. In every reachable state every set is ordered by its own comparator, whatever comparators
the others have. Only where default initialisation leaves comparators indeterminate can a set be
without one, and then it has at most one element. -/
theorem C104_ordered (w : ∀ c, Swo (ap c)) (hr : Reach ap dflt multi s) (hx : Exists s.t k) :
    ∃ l, Walk s.t k l ∧ (∀ c, s.cmp (.user k) = some c → l.Pairwise fun x y => ap c y.2 x.2 = false ∧ (multi = false → ap c x.2 y.2 = true)) ∧
      (s.cmp (.user k) = none → dflt = none ∧ l.length ≤ 1) := by
  obtain ⟨σ, I, _⟩ := hr.inv w
  obtain ⟨⟨h, l⟩, hk⟩ := (I.inv.exists k).1 hx
  refine ⟨l, I.inv.walk hk, fun c hc => I.ord _ _ c hk hc, fun hc => ⟨?_, I.one _ _ hk hc⟩⟩
  exact Classical.byContradiction fun hd => I.det hd _ _ hk hc

/-- C104, searches: they find exactly what is equivalent to the key by the set's own comparator. -/
theorem C104_search (w : ∀ c, Swo (ap c)) (hr : Reach ap dflt multi s) (hw : Walk s.t k l) {c : C} (hc : s.cmp (.user k) = some c) (key : α) :
    ∃ h A B C', Rb.end' s.t (.user k) = .ok (some h) ∧ l = A ++ B ++ C' ∧ (∀ x ∈ A, ap c x.2 key = true) ∧ (∀ x ∈ B, ap c x.2 key = false ∧ ap c key x.2 = false) ∧
      (∀ x ∈ C', ap c key x.2 = true) ∧
      Conv (fun f => lowerBound ap f s (.user k) key) (some (beg h (B ++ C'))) ∧
      Conv (fun f => upperBound ap f s (.user k) key) (some (beg h C')) ∧
      Conv (fun f => find ap f s (.user k) key) (some (beg h B)) := by
  obtain ⟨σ, I, ht⟩ := hr.inv w
  obtain ⟨h, hk⟩ := I.inv.of_walk hw
  have ho := I.ord _ _ c hk hc
  have hu : useCmp ap s (.user k) = .ok (ap c) := by simp only [useCmp, hc]
  obtain ⟨A, B, C', rfl, hA, hB, hC⟩ := Rb.split3 (w c) key l ho.sorted
  have h1 := Rb.lowerBound_okG (w c) I.inv hk ho.sorted key
  have h2 := Rb.upperBound_okG (w c) I.inv hk ho.sorted key
  rw [Rb.drop_lower (w c) hA hB hC] at h1
  rw [Rb.drop_upper (w c) hA hB hC] at h2
  have h3 := Rb.find_okG (w c) I.inv hk ho.sorted hA hB hC
  refine ⟨h, A, B, C', I.inv.end hk, rfl, hA, hB, hC, h1.congr fun f => ?_, h2.congr fun f => ?_, h3.congr fun f => ?_⟩
  · rw [lowerBound, hu]; rfl
  · rw [upperBound, hu]; rfl
  · rw [find, hu]; rfl

/-- C104, insertion: the place is the one the set's own comparator gives. -/
theorem C104_insert (w : ∀ c, Swo (ap c)) (hr : Reach ap dflt multi s) (hw : Walk s.t k l) {c : C} (hc : s.cmp (.user k) = some c) (v : α) :
    ∃ s' it new l', Conv (fun f => step ap dflt multi f s (.insert k v)) (s', .iter it new) ∧ Walk s'.t k l' ∧ (∀ m, s'.cmp (.user m) = s.cmp (.user m)) ∧
      (new = true ↔ multi = true ∨ ∀ x ∈ l, ap c x.2 v = true ∨ ap c v x.2 = true) ∧
      (new = true → ∃ n xs ys, l = xs ++ ys ∧ l' = xs ++ (n, v) :: ys ∧ it = some n ∧ (∀ x ∈ xs, ap c v x.2 = false) ∧ ∀ y ∈ ys, ap c v y.2 = true) ∧
      (new = false → l' = l) := by
  obtain ⟨σ, I, ht⟩ := hr.inv w
  obtain ⟨h, hk⟩ := I.inv.of_walk hw
  obtain ⟨s', r, σ', cv, I', E, hcm⟩ := call w I ht (op := .insert k v) ((I.inv.exists k).2 ⟨_, hk⟩) (.inl (by simp [hc])) rfl
  obtain ⟨h1, l1, l', it, new, e1, hi, e2, rfl⟩ := E
  rw [hk] at e1; cases e1
  simp only [ltOp, ltOf, hc] at hi
  refine ⟨s', it, new, l', cv, I'.inv.walk (show σ'.tree (.user k) = some (h, l') by rw [e2, upd_same]), hcm, ?_, ?_, ?_⟩
  · cases hi with
    | new xs ys e h1 h2 h3 =>
      refine ⟨fun _ => ?_, fun _ => rfl⟩
      cases multi with
      | true => exact .inl rfl
      | false =>
        refine .inr fun x hx => ?_
        rw [e, List.mem_append] at hx
        rcases hx with hx | hx
        · exact .inl (h3 rfl x hx)
        · exact .inr (h2 x hx)
    | dup xs x ys _ hm e h1 h2 _ =>
      refine ⟨by simp, fun h => ?_⟩
      rcases h with h | h
      · rw [hm] at h; cases h
      · rcases h x (by rw [e]; simp) with h | h
        · rw [h1] at h; cases h
        · rw [h2] at h; cases h
  · intro hn
    cases hi with
    | new xs ys e h1 h2 h3 => exact ⟨_, xs, ys, e, rfl, rfl, h1, h2⟩
    | dup => cases hn
  · intro hn
    cases hi with
    | new => cases hn
    | dup => rfl

/-- C104, copies: copy construction and assignment from an lvalue give the elements and the
comparator; the source keeps both. -/
theorem C104_copy (w : ∀ c, Swo (ap c)) (hr : Reach ap dflt multi s) {op : Op α C} (ho : op = .copy k j ∨ (op = .assignCopy k j ∧ s.cmp (.user k) ≠ none)) (hl : Legal s op)
    (hw : Walk s.t j l) {c : C} (hc : s.cmp (.user j) = some c) :
    ∃ s' l', Conv (fun f => step ap dflt multi f s op) (s', .unit) ∧ Walk s'.t k l' ∧ l'.map (·.2) = l.map (·.2) ∧ s'.cmp (.user k) = some c ∧
      (j ≠ k → Walk s'.t j l ∧ s'.cmp (.user j) = some c) := by
  obtain ⟨σ, I, ht⟩ := hr.inv w
  obtain ⟨h, hj⟩ := I.inv.of_walk hw
  have fin : ∀ {s' : CSt α C} {σ' : Sp α} {h' : Nat} {l' : List (Nat × α)}, CInv ap dflt multi s' σ' → σ'.tree = upd σ.tree (.user k) (some (h', l')) →
      (∀ m, s'.cmp (.user m) = if m = k then s.cmp (.user j) else s.cmp (.user m)) →
      Walk s'.t k l' ∧ s'.cmp (.user k) = some c ∧ (j ≠ k → Walk s'.t j l ∧ s'.cmp (.user j) = some c) := by
    intro s' σ' h' l' I' e hcm
    refine ⟨I'.inv.walk (show σ'.tree (.user k) = some (h', l') by rw [e, upd_same]), by rw [hcm, if_pos rfl, hc], fun hjk => ⟨?_, by rw [hcm, if_neg hjk, hc]⟩⟩
    exact I'.inv.walk (show σ'.tree (.user j) = some (h, l) by rw [e, upd_ne _ _ (by simpa using hjk), hj])
  rcases ho with rfl | ⟨rfl, hk⟩
  · obtain ⟨s', r, σ', cv, I', E, hcm⟩ := call w I ht hl (show s.cmp (.user j) ≠ none by simp [hc]) rfl
    obtain ⟨rfl, h1, l1, h', l', e1, e2, e3⟩ := E
    rw [hj] at e1; cases e1
    obtain ⟨f1, f2, f3⟩ := fin I' e2 hcm
    exact ⟨s', l', cv, f1, e3, f2, f3⟩
  · obtain ⟨s', r, σ', cv, I', E, hcm⟩ := call w I ht hl (show s.cmp (.user k) ≠ none ∧ s.cmp (.user j) ≠ none from ⟨hk, by simp [hc]⟩) rfl
    obtain ⟨rfl, h1, l1, h', l', e1, e2, e3⟩ := E
    rw [hj] at e1; cases e1
    obtain ⟨f1, f2, f3⟩ := fin I' e2 hcm
    exact ⟨s', l', cv, f1, e3, f2, f3⟩

/-- C104, moves, if the comparator type has an initialising constructor: the elements, their positions and
the comparator go to the new owner. Missing for the full claim: the source is left with the default
comparator and not its own, and for other comparator types the move is undefined
(`C104_violated_pointer`). -/
theorem C104_move_partial (w : ∀ c, Swo (ap c)) (hr : Reach ap dflt multi s) {op : Op α C} (ho : op = .move k j ∨ op = .assignMove k j) (hl : Legal s op)
    (hd : dflt ≠ none) (hw : Walk s.t j l) :
    ∃ s', Conv (fun f => step ap dflt multi f s op) (s', .unit) ∧ Walk s'.t k l ∧ s'.cmp (.user k) = s.cmp (.user j) ∧
      (j ≠ k → Walk s'.t j [] ∧ s'.cmp (.user j) = dflt) := by
  obtain ⟨σ, I, ht⟩ := hr.inv w
  obtain ⟨h, hj⟩ := I.inv.of_walk hw
  have fin : ∀ {s' : CSt α C} {σ' : Sp α} {h' : Nat}, CInv ap dflt multi s' σ' → σ'.tree = upd (upd σ.tree (.user j) (some (h', []))) (.user k) (some (h, l)) →
      (∀ m, s'.cmp (.user m) = if m = k then s.cmp (.user j) else if m = j then dflt else s.cmp (.user m)) →
      Walk s'.t k l ∧ s'.cmp (.user k) = s.cmp (.user j) ∧ (j ≠ k → Walk s'.t j [] ∧ s'.cmp (.user j) = dflt) := by
    intro s' σ' h' I' e hcm
    refine ⟨I'.inv.walk (show σ'.tree (.user k) = some (h, l) by rw [e, upd_same]), by rw [hcm, if_pos rfl], fun hjk => ⟨?_, by rw [hcm, if_neg hjk, if_pos rfl]⟩⟩
    exact I'.inv.walk (show σ'.tree (.user j) = some (h', []) by rw [e, upd_ne _ _ (by simpa using hjk), upd_same])
  rcases ho with rfl | rfl
  · obtain ⟨s', r, σ', cv, I', E, hcm⟩ := call w I ht hl hd rfl
    obtain ⟨rfl, x, h', e1, e2⟩ := E
    rw [hj] at e1; cases e1
    exact ⟨s', cv, fin I' e2 hcm⟩
  · obtain ⟨s', r, σ', cv, I', E, hcm⟩ := call w I ht hl hd rfl
    obtain ⟨rfl, x, h', e1, e2⟩ := E
    rw [hj] at e1; cases e1
    exact ⟨s', cv, fin I' e2 hcm⟩

/-- C104, `swap`: elements, positions and comparators change places. -/
theorem C104_swap (w : ∀ c, Swo (ap c)) (hr : Reach ap dflt multi s) (hw : Walk s.t k l) (hw' : Walk s.t j m) (hc : s.cmp (.user k) ≠ none) (hc' : s.cmp (.user j) ≠ none) :
    ∃ s', Conv (fun f => step ap dflt multi f s (.swap k j)) (s', .unit) ∧ Walk s'.t k m ∧ Walk s'.t j l ∧
      s'.cmp (.user k) = s.cmp (.user j) ∧ s'.cmp (.user j) = s.cmp (.user k) := by
  obtain ⟨σ, I, ht⟩ := hr.inv w
  obtain ⟨h, hk⟩ := I.inv.of_walk hw
  obtain ⟨h', hj⟩ := I.inv.of_walk hw'
  obtain ⟨s', r, σ', cv, I', E, hcm⟩ := call w I ht (op := .swap k j) ⟨(I.inv.exists k).2 ⟨_, hk⟩, (I.inv.exists j).2 ⟨_, hj⟩⟩ ⟨hc, hc'⟩ rfl
  obtain ⟨rfl, x, y, e1, e2, e3, _⟩ := E
  rw [hk] at e1; cases e1
  rw [hj] at e2; cases e2
  have hcm : ∀ m, s'.cmp (.user m) = if m = j then s.cmp (.user k) else if m = k then s.cmp (.user j) else s.cmp (.user m) := hcm
  have hj2 : σ'.tree (.user j) = some (h, l) := by rw [e3, upd_same]
  have hk2 : σ'.tree (.user k) = some (h', m) := by
    by_cases e : k = j
    · subst e
      rw [hk] at hj; cases hj; exact hj2
    · rw [e3, upd_ne _ _ (by simpa using e), upd_same]
  refine ⟨s', cv, I'.inv.walk hk2, I'.inv.walk hj2, ?_, by rw [hcm, if_pos rfl]⟩
  rw [hcm]
  by_cases e : k = j
  · rw [if_pos e, e]
  · rw [if_neg e, if_pos rfl]

/-- The calls that construct, assign or exchange sets. -/
def Op.handles : Op α C → List Nat
  | .make k => [k]
  | .makeWith k _ => [k]
  | .initList k _ => [k]
  | .initRange k _ _ => [k]
  | .copy k _ => [k]
  | .move k j => [k, j]
  | .assignCopy k _ => [k]
  | .assignMove k j => [k, j]
  | .assignList k _ => [k]
  | .swap k j => [k, j]
  | _ => []

/-- C104: no other call changes a comparator, and these change only those of the sets they name. -/
theorem C104_keeps (w : ∀ c, Swo (ap c)) (hr : Reach ap dflt multi s) {op : Op α C} (hl : Legal s op) {f : Nat} {r : Ret} (e : step ap dflt multi f s op = .ok (s', r))
    (hm : k ∉ op.handles) : s'.cmp (.user k) = s.cmp (.user k) := by
  obtain ⟨σ, I, ht⟩ := hr.inv w
  have hp := I.inv.pre (b := true) hl (.inl rfl)
  by_cases hd : Det dflt s op
  · obtain ⟨σ', _, _, hc, _⟩ := (step_ok w I ht op hp hd).sat e
    rw [hc k]
    cases op <;> simp only [Op.handles, List.mem_cons, List.not_mem_nil, or_false, not_or] at hm <;> simp [newCmp, hm]
  · exact absurd e (step_und w I ht op hp hd).not_ok

/-- C104: a permitted call runs into undefined behaviour exactly if it reads an indeterminate
comparator or compares with it; never, if default initialisation initialises comparators. -/
theorem C104_undefined_iff (w : ∀ c, Swo (ap c)) (hr : Reach ap dflt multi s) {op : Op α C} (hl : Legal s op) :
    (Und (fun f => step ap dflt multi f s op) ↔ ¬ Det dflt s op) ∧ (Det dflt s op → ∀ f, step ap dflt multi f s op ≠ .ub) ∧ (dflt ≠ none → Det dflt s op) := by
  obtain ⟨σ, I, ht⟩ := hr.inv w
  have hp := I.inv.pre (b := true) hl (.inl rfl)
  refine ⟨⟨fun u hd => ?_, step_und w I ht op hp⟩, fun hd f => (step_ok w I ht op hp hd).noUb, fun hd => ?_⟩
  · obtain ⟨⟨n, hn⟩, _⟩ := u
    exact (step_ok w I ht op hp hd).noUb (hn n (Nat.le_refl n))
  · have he : ∀ k, (∃ x, σ.tree (.user k) = some x) → s.cmp (.user k) ≠ none := fun k ⟨x, hx⟩ => I.det hd _ x hx
    cases op with
    | initList => exact .inl hd
    | copy => exact he _ hp.2
    | move => exact hd
    | assignCopy => exact ⟨he _ hp.1, he _ hp.2⟩
    | assignMove => exact hd
    | assignList => exact hd
    | swap => exact ⟨he _ hp.1, he _ hp.2⟩
    | insert => obtain ⟨h, l, hk, _⟩ := hp; exact .inl (he _ ⟨_, hk⟩)
    | insertAll => obtain ⟨h, l, hk, _⟩ := hp; exact .inl (he _ ⟨_, hk⟩)
    | eraseKey => exact .inl (he _ hp)
    | _ => trivial

/-- C104: an empty set compares nothing: whatever comparison it is given, insertions and searches take
the same course. So it does not matter which one `useCmp` answers for an empty set without comparator. -/
theorem C104_empty_compares_nothing (w : ∀ c, Swo (ap c)) (hr : Reach ap dflt multi s) (hx : Exists s.t k) (he : Empty s k) (lt lt' : α → α → Bool) (f : Nat) (v : α) :
    Rb.insert lt multi f s.t (.user k) v = Rb.insert lt' multi f s.t (.user k) v ∧ Rb.lowerBound lt f s.t (.user k) v = Rb.lowerBound lt' f s.t (.user k) v ∧
      Rb.upperBound lt f s.t (.user k) v = Rb.upperBound lt' f s.t (.user k) v ∧ Rb.find lt f s.t (.user k) v = Rb.find lt' f s.t (.user k) v := by
  obtain ⟨σ, I, _⟩ := hr.inv w
  obtain ⟨⟨h, l⟩, hk⟩ := (I.inv.exists k).1 hx
  cases (I.isEmpty hk).1 he
  obtain ⟨t, i, ht, _⟩ := I.inv.rep _ _ hk
  have hr0 := Rb.In.root i
  cases t with
  | node a b c d e => simp [Rb.T.inl] at ht
  | nil =>
    have hg := I.inv.get hk
    have hh : h < s.t.next := by rw [I.inv.next]; exact I.inv.below h ⟨_, _, hk, .inl rfl⟩
    have hp : Rb.parent s.t (some h) = .ok none := hr0
    have hg' : Rb.getT (Rb.createNode s.t v).1 (.user k) = .ok (h, 0) := hg
    have hp' : Rb.parent (Rb.createNode s.t v).1 (some h) = .ok none := by
      rw [← hp]
      simp only [Rb.parent, Rb.rd, Rb.createNode]
      rw [upd_ne _ _ (Nat.ne_of_lt hh)]
    refine ⟨?_, ?_, ?_, ?_⟩
    · cases f with
      | zero =>
        cases multi <;> simp [Rb.insert, Rb.emplaceMulti, Rb.emplaceUnique, Rb.insertMultiPos, Rb.insertUniquePos, hg', hp', Rb.posLoop]
      | succ f =>
        cases multi <;> simp [Rb.insert, Rb.emplaceMulti, Rb.emplaceUnique, Rb.insertMultiPos, Rb.insertUniquePos, hg', hp', Rb.posLoop]
    · cases f <;> simp [Rb.lowerBound, hg, hp, Rb.lowerLoop]
    · cases f <;> simp [Rb.upperBound, hg, hp, Rb.upperLoop]
    · cases f <;> simp [Rb.find, hg, hp, Rb.lowerLoop]

/-- C104 is violated: assigning an initializer list replaces the set's comparator by the default one,
so a set with any other comparator is no longer ordered by it. -/
theorem C104_violated_assign_list (w : ∀ c, Swo (ap c)) (hr : Reach ap dflt multi s) (hx : Exists s.t k) {c d : C} (hd : dflt = some d) (_hc : s.cmp (.user k) = some c) (vs : List α) :
    ∃ s' l, Conv (fun f => step ap dflt multi f s (.assignList k vs)) (s', .unit) ∧ s'.cmp (.user k) = some d ∧ Walk s'.t k l ∧
      (l.Pairwise fun x y => ap d y.2 x.2 = false ∧ (multi = false → ap d x.2 y.2 = true)) ∧ (∀ x ∈ l, x.2 ∈ vs) ∧
      (∀ v ∈ vs, ∃ x ∈ l, ap d x.2 v = false ∧ ap d v x.2 = false) ∧
      ∀ x ∈ l, ∀ y ∈ l, ap d x.2 y.2 = true → ap c y.2 x.2 = true → ¬ l.Pairwise fun x y => ap c y.2 x.2 = false := by
  obtain ⟨σ, I, ht⟩ := hr.inv w
  obtain ⟨s', r, σ', cv, I', E, hcm⟩ := call w I ht (op := .assignList k vs) hx (show dflt ≠ none by simp [hd]) rfl
  obtain ⟨rfl, h, l, e1, e2⟩ := E
  simp only [ltOp, hd] at e2
  have hk : σ'.tree (.user k) = some (h, l) := by rw [e1, upd_same]
  have hcd : s'.cmp (.user k) = some d := by rw [hcm]; simp only [newCmp, if_pos, hd]
  have ho := I'.ord _ _ d hk hcd
  refine ⟨s', l, cv, hcd, I'.inv.walk hk, ho, fun x hx => ?_, fun v hv => ?_, fun x hx y hy hxy hyx hp => ?_⟩
  · have : x.2 ∈ l.map (·.2) := List.mem_map.2 ⟨x, hx, rfl⟩
    rw [e2] at this
    rcases Rb.foldl_mem vs this with h | h
    · cases h
    · exact h
  · obtain ⟨x, hx, h1⟩ := Rb.foldl_new (multi := multi) (w d) vs (l := []) hv
    rw [← e2] at hx
    obtain ⟨y, hy, rfl⟩ := List.mem_map.1 hx
    exact ⟨y, hy, h1⟩
  · obtain ⟨xs, ys, rfl⟩ := List.append_of_mem hx
    rw [List.pairwise_append, List.pairwise_cons] at hp
    have ho' := ho
    simp only [Rb.Ord, List.pairwise_append, List.pairwise_cons] at ho'
    rw [List.mem_append, List.mem_cons] at hy
    rcases hy with hy | rfl | hy
    · have := (ho'.2.2 y hy x (by simp)).1
      rw [hxy] at this; cases this
    · have := (w d).asymm _ _ hxy
      rw [hxy] at this; cases this
    · have := hp.2.1.1 y hy
      rw [hyx] at this; cases this

/-- C104 is violated: with comparators that default initialisation leaves indeterminate, such as function
pointers, moving a set, assigning from an rvalue and assigning an initializer list are undefined in
every state, whatever comparators the sets were given. -/
theorem C104_violated_pointer (w : ∀ c, Swo (ap c)) (hr : Reach ap none multi s) {op : Op α C} (ho : op = .move k j ∨ op = .assignMove k j ∨ ∃ vs, op = .assignList k vs) (hl : Legal s op) :
    Und (fun f => step ap none multi f s op) := by
  refine ((C104_undefined_iff w hr hl).1).2 fun hd => ?_
  rcases ho with rfl | rfl | ⟨vs, rfl⟩ <;> exact hd rfl

/-- A descending set next to an ascending one; a copy of the descending one; swap; insertions.
Set 0 was constructed with the descending comparator, set 1 by default. -/
example : (do
    let (s, _) ← run dir (some false) false 40 CSt.init [.initRange 0 [2, 3, 1] true, .initList 1 [2, 3, 1], .copy 2 0, .swap 0 1, .insert 0 4, .insert 1 4, .insert 2 0]
    let a ← Rb.walk 40 s.t (.user 0)
    let b ← Rb.walk 40 s.t (.user 1)
    let c ← Rb.walk 40 s.t (.user 2)
    .ok (a.map (·.2), b.map (·.2), c.map (·.2), s.cmp (.user 0), s.cmp (.user 1), s.cmp (.user 2))) =
      (.ok ([1, 2, 3, 4], [4, 3, 2, 1], [3, 2, 1, 0], some false, some true, some true) : Res (List Nat × List Nat × List Nat × Option Bool × Option Bool × Option Bool)) := by
  rfl

/-- A descending set is ascending after the assignment of a list. -/
example : (do
    let (s, _) ← run dir (some false) false 40 CSt.init [.makeWith 0 true, .insertAll 0 [1, 2, 3]]
    let a ← Rb.walk 40 s.t (.user 0)
    let (s, _) ← run dir (some false) false 40 s [.assignList 0 [1, 2, 3]]
    let b ← Rb.walk 40 s.t (.user 0)
    .ok (a.map (·.2), b.map (·.2), s.cmp (.user 0))) = (.ok ([3, 2, 1], [1, 2, 3], some false) : Res (List Nat × List Nat × Option Bool)) := by
  rfl

/-- The moved-from set is ascending too. -/
example : (do
    let (s, _) ← run dir (some false) true 40 CSt.init [.makeWith 0 true, .insertAll 0 [1, 2, 2], .move 1 0, .insert 0 1, .insert 0 2, .insert 1 3]
    let a ← Rb.walk 40 s.t (.user 0)
    let b ← Rb.walk 40 s.t (.user 1)
    .ok (a.map (·.2), b.map (·.2))) = (.ok ([1, 2], [3, 2, 2, 1]) : Res (List Nat × List Nat)) := by
  rfl

/-- A set with a function pointer can be filled, but not moved. -/
example : (match run dir none false 40 CSt.init [.makeWith 0 true, .insertAll 0 [1, 2, 3]] with
    | .ok (s, _) => (match step dir none false 40 s (.move 1 0) with | .ub => true | _ => false)
    | _ => false) = true := by
  decide +kernel

/-- The hypotheses can be met: a state with an ascending and a descending set. -/
theorem two : ∃ s : CSt Nat Bool, Reach dir (some false) false s ∧ Exists s.t 0 ∧ Exists s.t 1 ∧ s.cmp (.user 0) = some true ∧ s.cmp (.user 1) = some false := by
  obtain ⟨s1, r1, σ1, ⟨⟨n1, h1⟩, _⟩, I1, E1, c1⟩ := call dirSwo (s := CSt.init) (dflt := some false) (multi := false) CInv.init rfl (op := .makeWith 0 true)
    (show ¬ Exists _ 0 by simp [Rb.Exists, CSt.init, St.init]) trivial rfl
  have R1 := Reach.step (op := .makeWith 0 true) n1 .init (show ¬ Exists (CSt.init : CSt Nat Bool).t 0 by simp [Rb.Exists, CSt.init, St.init]) (h1 n1 (Nat.le_refl _))
  obtain ⟨rfl, x1, e1⟩ := E1
  obtain ⟨σ, I, ht⟩ := R1.inv dirSwo
  have hx1 : Exists s1.t 0 := (I1.inv.exists 0).2 ⟨_, by rw [e1]; exact upd_same _ _ _⟩
  have hn : ¬ Exists s1.t 1 := by
    rw [I1.inv.exists 1, e1]; rintro ⟨x, hx⟩; simp [upd] at hx
  obtain ⟨s2, r2, σ2, ⟨⟨n2, h2⟩, _⟩, I2, E2, c2⟩ := call dirSwo I ht (op := .initList 1 [2, 1]) hn (.inl (by simp)) rfl
  obtain ⟨rfl, x2, l2, e2, _⟩ := E2
  refine ⟨s2, Reach.step (op := .initList 1 [2, 1]) n2 R1 hn (h2 n2 (Nat.le_refl _)), ?_, ?_, ?_, ?_⟩
  · obtain ⟨x, hx⟩ := (I.inv.exists 0).1 hx1
    exact (I2.inv.exists 0).2 ⟨x, by rw [e2, upd_ne _ _ (by simp)]; exact hx⟩
  · exact (I2.inv.exists 1).2 ⟨_, by rw [e2]; exact upd_same _ _ _⟩
  · rw [c2]; simp only [newCmp]; rw [c1]; rfl
  · rw [c2]; rfl

example : ∃ s : CSt Nat Bool, Reach dir (some false) false s ∧ Exists s.t 0 ∧ Exists s.t 1 ∧ s.cmp (.user 0) = some true ∧ s.cmp (.user 1) = some false := two

end Verif.RbCmp
