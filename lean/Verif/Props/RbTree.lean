import Verif.Lemmas.RbHist

/-!
Properties C30 to C38, C72 and C73: `set` and `multiset` over `rb_tree`.

`Reach lt multi true s` says that `s` is the state after some permitted history of calls on any
number of sets (`multi = false`) or multisets (`multi = true`) with elements compared by `lt`;
`Reach lt multi false s` that this history never added an element other than at the end.
`Walk s k l` says that iterating over set `k` from `begin()` to `end()` returns and yields the
elements `l`, pairs of position (iterator) and value. `beg h ys` is the position of the rest `ys` of
the sequence: its first element, or `end()` (`h`) if it is empty. `Conv g r` says that the loops in
the computation end and its result is `r`, `Div g` that it never ends. `Swo lt`: `lt` is a strict weak
order.
-/

set_option backward.isDefEq.respectTransparency false

namespace Verif.Rb
open Verif
open Verif.Box (Slot upd upd_same upd_ne)

variable {α : Type} {lt : α → α → Bool} {multi : Bool} {s s' : St α} {k : Nat} {l : List (Nat × α)}

/-- A strict total order. -/
structure Sto (lt : α → α → Bool) : Prop where
  irrefl : ∀ x, lt x x = false
  trans : ∀ x y z, lt x y = true → lt y z = true → lt x z = true
  total : ∀ x y, x ≠ y → lt x y = true ∨ lt y x = true

theorem Sto.swo (w : Sto lt) : Swo lt where
  asymm := by
    intro x y h
    cases h2 : lt y x with
    | false => rfl
    | true => have := w.trans x y x h h2; rw [w.irrefl] at this; cases this
  trans := by
    intro x y z h
    by_cases e : x = y
    · rw [← e]; exact .inr h
    · rcases w.total x y e with h1 | h1
      · exact .inl h1
      · exact .inr (w.trans y x z h1 h)

theorem natSto : Sto (fun a b : Nat => decide (a < b)) where
  irrefl := by simp
  trans := by simp; omega
  total := by simp; omega

theorem natSwo : Swo (fun a b : Nat => decide (a < b)) := natSto.swo

/-- C30. In every reachable state iteration over every set yields its elements in strictly
increasing order; `size()` is their number, `begin()` denotes the first, which is the minimum, and
`empty()` holds if there is none. -/
theorem C30_set_ordered (w : Swo lt) (hr : Reach lt false true s) (hx : Exists s k) :
    ∃ h l, Walk s k l ∧ (l.Pairwise fun x y => lt x.2 y.2 = true) ∧ size s (.user k) = .ok l.length ∧ empty s (.user k) = .ok (l.length == 0) ∧
      begin s (.user k) = .ok (some (beg h l)) ∧ end' s (.user k) = .ok (some h) ∧ ∀ x m, l = x :: m → ∀ y ∈ m, lt x.2 y.2 = true := by
  obtain ⟨σ, I, _⟩ := hr.state w
  obtain ⟨⟨h, l⟩, hk⟩ := (I.exists k).1 hx
  have ho := I.ord _ _ hk
  have hp : l.Pairwise fun x y => lt x.2 y.2 = true := List.Pairwise.imp (fun h => h.2 rfl) ho
  have hs : size s (.user k) = .ok l.length := by rw [size, I.get hk]; rfl
  refine ⟨h, l, I.walk hk, hp, hs, by rw [empty, hs]; rfl, I.begin hk, I.end hk, ?_⟩
  rintro x m rfl y hy
  exact (List.pairwise_cons.1 hp).1 y hy

/-- C30, one insertion. It returns; it reports true exactly if no equivalent element exists; then the
new element is at its place and the iterator returned denotes it; otherwise nothing changes. All other
elements keep their positions, all other sets are as before. -/
theorem C30_set_insert (w : Swo lt) (hr : Reach lt false true s) (hw : Walk s k l) (v : α) :
    ∃ s' it new l', Conv (fun f => step lt false f s (.insert k v)) (s', .iter it new) ∧ Walk s' k l' ∧
      (new = true ↔ ∀ x ∈ l, lt x.2 v = true ∨ lt v x.2 = true) ∧
      (new = true → ∃ n xs ys, l = xs ++ ys ∧ l' = xs ++ (n, v) :: ys ∧ it = some n ∧ (∀ x ∈ xs, lt x.2 v = true) ∧ ∀ y ∈ ys, lt v y.2 = true) ∧
      (new = false → l' = l) ∧ size s' (.user k) = .ok l'.length ∧ ∀ j m, j ≠ k → (Walk s j m ↔ Walk s' j m) := by
  obtain ⟨σ, I, ht⟩ := hr.state w
  obtain ⟨h, hk⟩ := I.of_walk hw
  obtain ⟨⟨s', r⟩, ⟨σ', I', E, _⟩, cv⟩ := (call w keep_root I ht (op := .insert k v) ((I.exists k).2 ⟨_, hk⟩) (.inl rfl)).conv
  obtain ⟨h1, l1, l', it, new, e1, hi, e2, rfl⟩ := E
  rw [hk] at e1; cases e1
  have hk' : σ'.tree (.user k) = some (h, l') := by rw [e2, upd_same]
  refine ⟨s', it, new, l', cv, I'.walk hk', ?_, ?_, ?_, by rw [size, I'.get hk']; rfl, fun j m hj => I.others I' e2 hj⟩
  · cases hi with
    | new xs ys e h1 h2 h3 =>
      refine ⟨fun _ x hx => ?_, fun _ => rfl⟩
      rw [e, List.mem_append] at hx
      rcases hx with hx | hx
      · exact .inl (h3 rfl x hx)
      · exact .inr (h2 x hx)
    | dup xs x ys _ _ e h1 h2 _ =>
      refine ⟨by simp, fun h => ?_⟩
      rcases h x (by rw [e]; simp) with h | h
      · rw [h1] at h; cases h
      · rw [h2] at h; cases h
  · intro hn
    cases hi with
    | new xs ys e h1 h2 h3 => exact ⟨_, xs, ys, e, rfl, rfl, h3 rfl, h2⟩
    | dup => cases hn
  · intro hn
    cases hi with
    | new => cases hn
    | dup => rfl

/-- C30, histories. After inserting any sequence of keys into an empty set, iteration yields exactly
the keys of the sequence, each once, in increasing order. -/
theorem C30_set_history (w : Sto lt) (vs : List α) :
    ∃ s rs l, Conv (fun f => run lt false f St.init (.make 0 :: vs.map (.insert 0))) (s, rs) ∧ Reach lt false true s ∧ Walk s 0 l ∧
      (l.Pairwise fun x y => lt x.2 y.2 = true) ∧ (∀ v, v ∈ l.map (·.2) ↔ v ∈ vs) ∧ size s (.user 0) = .ok l.length := by
  obtain ⟨s, σ, h, l, rs, cv, hr, I, ht, hk, e⟩ := history w.swo false true vs (.inl rfl)
  refine ⟨s, rs, l, cv, hr, I.walk hk, List.Pairwise.imp (fun h => h.2 rfl) (I.ord _ _ hk), fun v => ?_, by rw [size, I.get hk]; rfl⟩
  rw [e]
  constructor
  · intro hv
    rcases foldl_mem vs hv with h | h
    · cases h
    · exact h
  · intro hv
    obtain ⟨x, hx, h1, h2⟩ := foldl_new (multi := false) w.swo vs (l := []) hv
    by_cases hxv : x = v
    · rw [← hxv]; exact hx
    · rcases w.total x v hxv with h | h
      · rw [h1] at h; cases h
      · rw [h2] at h; cases h

/-- A history with duplicates, as the code runs it. -/
example : (do
    let (s, rs) ← run (fun a b : Nat => decide (a < b)) false 30 St.init [.make 0, .insert 0 5, .insert 0 3, .insert 0 8, .insert 0 5, .insert 0 1, .insert 0 4]
    let l ← walk 30 s (.user 0)
    let n ← size s (.user 0)
    .ok (l.map (·.2), n, rs.map fun r => match r with | .iter _ b => b | _ => false)) =
      (.ok ([1, 3, 4, 5, 8], 5, [false, true, true, true, false, true, true]) : Res (List Nat × Nat × List Bool)) := by
  rfl

/-- A set of three elements. -/
theorem three (multi : Bool) : ∃ s l, Reach (fun a b : Nat => decide (a < b)) multi true s ∧ Walk s 0 l ∧ Exists s 0 ∧ l.map (·.2) = [1, 2, 3] := by
  obtain ⟨s, σ, h, l, rs, _, hr, I, _, hk, e⟩ := history natSwo multi true [2, 3, 1] (.inl rfl)
  refine ⟨s, l, hr, I.walk hk, (I.exists 0).2 ⟨_, hk⟩, ?_⟩
  rw [e]; cases multi <;> rfl

example : ∃ (s : St Nat) (l : List (Nat × Nat)), Reach (fun a b : Nat => decide (a < b)) false true s ∧ Walk s 0 l ∧ Exists s 0 ∧ l.map (·.2) = [1, 2, 3] := three false

/-- C31. The elements before, equivalent to and after a key are consecutive parts `A`, `B`, `C` of the
sequence; `lower_bound` returns the position of `B ++ C`, `upper_bound` that of `C`, `find` the first of `B`
or `end()`, `count` the number in `B`, `equal_range` the borders of `B` (for a set: `end()` twice if `B` is
empty). All return. -/
theorem C31_search_exact (w : Swo lt) (hr : Reach lt multi true s) (hw : Walk s k l) (key : α) :
    ∃ h A B C, end' s (.user k) = .ok (some h) ∧ l = A ++ B ++ C ∧ (∀ x ∈ A, lt x.2 key = true) ∧ (∀ x ∈ B, lt x.2 key = false ∧ lt key x.2 = false) ∧
      (∀ x ∈ C, lt key x.2 = true) ∧
      Conv (fun f => lowerBound lt f s (.user k) key) (some (beg h (B ++ C))) ∧
      Conv (fun f => upperBound lt f s (.user k) key) (some (beg h C)) ∧
      Conv (fun f => find lt f s (.user k) key) (some (beg h B)) ∧
      Conv (fun f => equalRangeMulti lt f s (.user k) key) (some (beg h (B ++ C)), some (beg h C)) ∧
      Conv (fun f => countMulti lt f s (.user k) key) B.length ∧
      (multi = false → B.length ≤ 1 ∧ Conv (fun f => countUnique lt f s (.user k) key) B.length ∧
        Conv (fun f => equalRangeUnique lt f s (.user k) key) (if B = [] then (some h, some h) else (some (beg h (B ++ C)), some (beg h C)))) := by
  obtain ⟨σ, I, ht⟩ := hr.state w
  obtain ⟨h, hk⟩ := I.of_walk hw
  obtain ⟨A, B, C, rfl, hA, hB, hC⟩ := split3 w key l (I.ord _ _ hk).sorted
  have h1 := lowerBound_ok w I hk key
  have h2 := upperBound_ok w I hk key
  rw [drop_lower w hA hB hC] at h1
  rw [drop_upper w hA hB hC] at h2
  have h3 := find_ok w I hk hA hB hC
  have he := I.end hk
  have h5 : Conv (fun f => equalRangeMulti lt f s (.user k) key) (some (beg h (B ++ C)), some (beg h C)) :=
    h1.bind (h := fun f a => upperBound lt f s (.user k) key >>= fun b => .ok (a, b)) (h2.bind (h := fun _ b => .ok (some (beg h (B ++ C)), b)) (Conv.pure _))
  obtain ⟨t, i, hti, _⟩ := I.rep _ _ hk
  have h6 := (distance_ok (n := 0) B i hti).diag
  rw [Nat.zero_add] at h6
  refine ⟨h, A, B, C, he, rfl, hA, hB, hC, h1, h2, h3, h5, ?_, ?_⟩
  · exact h5.bind (h := fun f (q : Option Nat × Option Nat) => distance f f s q.1 q.2 0) h6
  rintro rfl
  have hkeys := I.keys hk
  match B, hB, hk, h3, hkeys with
  | [], _, hk, h3, _ =>
    refine ⟨by simp, ?_, ?_⟩
    · refine h3.bind (h := fun _ it => end' s (.user k) >>= fun e => .ok (if it ≠ e then 1 else 0)) (Conv.const ?_)
      rw [he]; simp [beg]
    · refine h3.bind (h := fun f it => end' s (.user k) >>= fun e => if it = e then .ok (it, it) else increment f s it >>= fun it' => .ok (it, it')) ((Conv.pure _).congr fun f => ?_)
      rw [he]; simp [beg]
  | [x], _, hk, h3, hkeys =>
    have e : A ++ [x] ++ C = A ++ (x.1, x.2) :: C := by simp
    rw [e] at hk hkeys
    have hx : ¬ x.1 = h := beg_ne hkeys.2
    refine ⟨by simp, ?_, ?_⟩
    · refine h3.bind (h := fun _ it => end' s (.user k) >>= fun e => .ok (if it ≠ e then 1 else 0)) (Conv.const ?_)
      rw [he]; simp [beg, hx]
    · refine h3.bind (h := fun f it => end' s (.user k) >>= fun e => if it = e then .ok (it, it) else increment f s it >>= fun it' => .ok (it, it')) ?_
      have := (I.inc hk).bind (h := fun _ it' => .ok (some x.1, it')) (Conv.pure _)
      refine this.congr fun f => ?_
      rw [he]; simp [beg, hx]
  | x :: y :: B, hB, hk, _, _ =>
    exfalso
    have ho := I.ord _ _ hk
    simp only [Ord, List.append_assoc, List.cons_append, List.pairwise_append, List.pairwise_cons, List.mem_cons] at ho
    have h3 := (ho.2.1.1 y (.inl rfl)).2 trivial
    rcases w.trans x.2 key y.2 h3 with h4 | h4
    · rw [(hB x (by simp)).1] at h4; cases h4
    · rw [(hB y (by simp)).2] at h4; cases h4

example : ∃ (s : St Nat) (l : List (Nat × Nat)), Reach (fun a b : Nat => decide (a < b)) true true s ∧ Walk s 0 l ∧ Exists s 0 ∧ l.map (·.2) = [1, 2, 3] := three true

/-- C32 is violated: whenever the node of the element equal to the key has a right child, inserting
the key returns an iterator to the next greater element. -/
theorem C32_insert_duplicate_violated (w : Swo lt) (hr : Reach lt false true s) {xs ys : List (Nat × α)} {x : Nat × α} (hw : Walk s k (xs ++ x :: ys)) {v : α}
    (h1 : lt x.2 v = false) (h2 : lt v x.2 = false) {c : Nat} (hc : right s (some x.1) = .ok (some c)) :
    ∃ s' y zs, ys = y :: zs ∧ Conv (fun f => step lt false f s (.insert k v)) (s', .iter (some y.1) false) ∧ y.1 ≠ x.1 ∧ lt v y.2 = true := by
  obtain ⟨σ, I, ht⟩ := hr.state w
  obtain ⟨h, hk⟩ := I.of_walk hw
  obtain ⟨⟨s', r⟩, ⟨σ', I', E, _⟩, cv⟩ := (call w keep_root I ht (op := .insert k v) ((I.exists k).2 ⟨_, hk⟩) (.inl rfl)).conv
  obtain ⟨h3, l3, l', it, new, e1, hi, e2, rfl⟩ := E
  rw [hk] at e1; cases e1
  have ho := I.ord _ _ hk
  cases hi with
  | new zs us e h3 h4 h5 =>
    exfalso
    have hm : x ∈ zs ++ us := by rw [← e]; simp
    rcases List.mem_append.1 hm with hm | hm
    · have := h5 rfl x hm; rw [h1] at this; cases this
    · have := h4 x hm; rw [h2] at this; cases this
  | dup zs z us _ _ e h3 h4 h5 =>
    obtain ⟨rfl, rfl, rfl⟩ := uniq_pos w ho rfl e h1 h2 h3 h4
    rcases h5 with ⟨h5, _⟩ | ⟨_, _, rfl, hne⟩
    · rw [hc] at h5; cases h5
    · cases ys with
      | nil => exact absurd rfl hne
      | cons y zs =>
        refine ⟨s', y, zs, rfl, cv, ?_, ?_⟩
        · have := (I.keys hk).1
          simp only [List.map_append, List.map_cons, List.nodup_append, List.nodup_cons, List.mem_cons] at this
          exact fun e => this.2.1.1 (.inl e.symm)
        · have := (List.pairwise_cons.1 (List.pairwise_append.1 ho).2.1).1 y (by simp)
          rcases w.trans x.2 v y.2 (this.2 rfl) with h | h
          · rw [h1] at h; cases h
          · exact h

/-- Two with children one and three: inserting two returns the iterator to three (node 2). -/
example : (do
    let (s, rs) ← run (fun a b : Nat => decide (a < b)) false 30 St.init [.make 0, .insert 0 2, .insert 0 3, .insert 0 1, .insert 0 2]
    let v ← getKey s (some 2)
    let c ← right s (some 1)
    .ok (rs, v, c)) = (.ok ([.unit, .iter (some 1) true, .iter (some 2) true, .iter (some 3) true, .iter (some 2) false], 3, some 2) : Res (List Ret × Nat × Option Nat)) := by
  rfl

/-- C32, what holds: inserting a key that is present inserts nothing, and if the node of the existing
element has no right child the iterator returned denotes it. Missing: elements with a right child. -/
theorem C32_insert_duplicate_partial (w : Swo lt) (hr : Reach lt false true s) {xs ys : List (Nat × α)} {x : Nat × α} (hw : Walk s k (xs ++ x :: ys)) {v : α}
    (h1 : lt x.2 v = false) (h2 : lt v x.2 = false) :
    ∃ s' it, Conv (fun f => step lt false f s (.insert k v)) (s', .iter it false) ∧ Walk s' k (xs ++ x :: ys) ∧
      (right s (some x.1) = .ok none → it = some x.1) := by
  obtain ⟨σ, I, ht⟩ := hr.state w
  obtain ⟨h, hk⟩ := I.of_walk hw
  obtain ⟨⟨s', r⟩, ⟨σ', I', E, _⟩, cv⟩ := (call w keep_root I ht (op := .insert k v) ((I.exists k).2 ⟨_, hk⟩) (.inl rfl)).conv
  obtain ⟨h3, l3, l', it, new, e1, hi, e2, rfl⟩ := E
  rw [hk] at e1; cases e1
  have ho := I.ord _ _ hk
  cases hi with
  | new zs us e h3 h4 h5 =>
    exfalso
    have hm : x ∈ zs ++ us := by rw [← e]; simp
    rcases List.mem_append.1 hm with hm | hm
    · have := h5 rfl x hm; rw [h1] at this; cases this
    · have := h4 x hm; rw [h2] at this; cases this
  | dup zs z us _ _ e h3 h4 h5 =>
    obtain ⟨rfl, rfl, rfl⟩ := uniq_pos w ho rfl e h1 h2 h3 h4
    refine ⟨s', it, cv, I'.walk (h := h) (by rw [e2, upd_same]), fun hn => ?_⟩
    rcases h5 with ⟨_, h5⟩ | ⟨_, h5, _⟩
    · exact h5
    · rw [hn] at h5; cases h5

example : ∃ (s : St Nat) (l : List (Nat × Nat)), Reach (fun a b : Nat => decide (a < b)) false true s ∧ Walk s 0 l ∧ Exists s 0 ∧ l.map (·.2) = [1, 2, 3] := three false

/-- C33, one insertion into a multiset: it returns an iterator to a new element, which is behind all
elements not greater and before all that are greater; the others keep their order and positions. -/
theorem C33_multiset_insert (w : Swo lt) (hr : Reach lt true true s) (hw : Walk s k l) (v : α) :
    ∃ s' n xs ys, l = xs ++ ys ∧ Conv (fun f => step lt true f s (.insert k v)) (s', .iter (some n) true) ∧ Walk s' k (xs ++ (n, v) :: ys) ∧
      (∀ x ∈ xs, lt v x.2 = false) ∧ (∀ y ∈ ys, lt v y.2 = true) ∧ size s' (.user k) = .ok (l.length + 1) ∧ ∀ j m, j ≠ k → (Walk s j m ↔ Walk s' j m) := by
  obtain ⟨σ, I, ht⟩ := hr.state w
  obtain ⟨h, hk⟩ := I.of_walk hw
  obtain ⟨⟨s', r⟩, ⟨σ', I', E, _⟩, cv⟩ := (call w keep_root I ht (op := .insert k v) ((I.exists k).2 ⟨_, hk⟩) (.inl rfl)).conv
  obtain ⟨h1, l1, l', it, new, e1, hi, e2, rfl⟩ := E
  rw [hk] at e1; cases e1
  cases hi with
  | dup _ _ _ _ hm => cases hm
  | new xs ys e h1 h2 h3 =>
    have hk' : σ'.tree (.user k) = some (h, xs ++ (σ.next, v) :: ys) := by rw [e2, upd_same]
    refine ⟨s', σ.next, xs, ys, e, cv, I'.walk hk', h1, h2, ?_, fun j m hj => I.others I' e2 hj⟩
    rw [size, I'.get hk', e]; simp; omega

/-- C33, histories. After inserting any sequence of values into an empty multiset, iteration yields
a permutation of the sequence that is sorted and in which equivalent elements are in the order of
insertion. -/
theorem C33_multiset_history (w : Swo lt) (vs : List α) :
    ∃ s rs l, Conv (fun f => run lt true f St.init (.make 0 :: vs.map (.insert 0))) (s, rs) ∧ Reach lt true true s ∧ Walk s 0 l ∧
      (l.map (·.2)).Perm vs ∧ ((l.map (·.2)).Pairwise fun x y => lt y x = false) ∧
      (∀ q, (l.map (·.2)).filter (fun x => !lt q x && !lt x q) = vs.filter fun x => !lt q x && !lt x q) ∧ size s (.user 0) = .ok vs.length := by
  obtain ⟨s, σ, h, l, rs, cv, hr, I, ht, hk, e⟩ := history w true true vs (.inl rfl)
  have hp : (l.map (·.2)).Perm vs := by rw [e]; simpa using foldl_perm (lt := lt) vs (l := [])
  have hlen := hp.length_eq
  rw [List.length_map] at hlen
  refine ⟨s, rs, l, cv, hr, I.walk hk, hp, ?_, ?_, by rw [size, I.get hk, ← hlen]; rfl⟩
  · rw [List.pairwise_map]
    exact List.Pairwise.imp (fun h => h.1) (I.ord _ _ hk)
  · intro q
    rw [e]
    have := foldl_filter (q := q) w vs (l := []) List.Pairwise.nil
    rw [List.filter_nil, List.nil_append] at this
    exact this

/-- Pairs compared by their first component: equal ones stay in order. -/
example : (do
    let (s, _) ← run (fun a b : Nat × Nat => decide (a.1 < b.1)) true 30 St.init [.make 0, .insert 0 (2, 0), .insert 0 (1, 1), .insert 0 (2, 2), .insert 0 (1, 3), .insert 0 (2, 4)]
    let l ← walk 30 s (.user 0)
    .ok (l.map (·.2))) = (.ok [(1, 1), (1, 3), (2, 0), (2, 2), (2, 4)] : Res (List (Nat × Nat))) := by
  rfl

/-- C34, `erase(iterator)`. If it returns, the element is gone, the others are as before, `size()` is
right, the result is the position behind the element, and other sets are as before. (Whether it
returns: C35.) Nothing is undefined. -/
theorem C34_erase_iterator (w : Swo lt) (hr : Reach lt multi true s) {xs ys : List (Nat × α)} {a : Nat} {v : α} (hw : Walk s k (xs ++ (a, v) :: ys)) (f : Nat) :
    step lt multi f s (.eraseIt k a) ≠ .ub ∧ ∀ r, step lt multi f s (.eraseIt k a) = .ok (s', r) →
      ∃ h, end' s (.user k) = .ok (some h) ∧ end' s' (.user k) = .ok (some h) ∧ r = .iter (some (beg h ys)) false ∧ Walk s' k (xs ++ ys) ∧
        begin s' (.user k) = .ok (some (beg h (xs ++ ys))) ∧ size s' (.user k) = .ok (xs ++ ys).length ∧ ∀ j m, j ≠ k → (Walk s j m ↔ Walk s' j m) := by
  obtain ⟨σ, I, ht⟩ := hr.state w
  have hc := call w keep_root I ht (op := .eraseIt k a) ⟨xs, v, ys, hw⟩ (.inl rfl)
  refine ⟨hc.noUb, fun r e => ?_⟩
  obtain ⟨σ', I', E, _⟩ := hc.sat e
  obtain ⟨h, hk⟩ := I.of_walk hw
  obtain ⟨h1, xs1, v1, ys1, e1, e2, rfl, _⟩ := E
  rw [hk] at e1
  injection e1 with e1
  injection e1 with e1 e3
  subst e1
  have hkeys := (I.keys hk).1
  have : xs = xs1 ∧ ys = ys1 := by
    have hnd : ∀ {A B A' B' : List (Nat × α)} {u u' : α}, A ++ (a, u) :: B = A' ++ (a, u') :: B' → ((A ++ (a, u) :: B).map (·.1)).Nodup → A = A' ∧ B = B' := by
      intro A
      induction A with
      | nil =>
        intro B A' B' u u' e hn
        cases A' with
        | nil => simp at e; exact ⟨rfl, e.2⟩
        | cons z A' =>
          simp only [List.nil_append, List.cons_append, List.cons.injEq] at e
          rw [e.2] at hn; simp at hn
      | cons z A ih =>
        intro B A' B' u u' e hn
        cases A' with
        | nil =>
          simp only [List.nil_append, List.cons_append, List.cons.injEq] at e
          rw [e.1] at hn; simp at hn
        | cons z' A' =>
          simp only [List.cons_append, List.cons.injEq] at e
          simp only [List.cons_append, List.map_cons, List.nodup_cons] at hn
          obtain ⟨h1, h2⟩ := ih e.2 hn.2
          exact ⟨by rw [e.1, h1], h2⟩
    exact hnd e3 hkeys
  obtain ⟨rfl, rfl⟩ := this
  have hk' : σ'.tree (.user k) = some (h, xs ++ ys) := by rw [e2, upd_same]
  exact ⟨h, I.end hk, I'.end hk', rfl, I'.walk hk', I'.begin hk', by rw [size, I'.get hk']; rfl, fun j m hj => I.others I' e2 hj⟩

/-- C34, `erase(key)`. If it returns, exactly the elements equivalent to the key are gone, the result
is their number, the others are as before. -/
theorem C34_erase_key (w : Swo lt) (hr : Reach lt multi true s) (hw : Walk s k l) (key : α) (f : Nat) :
    step lt multi f s (.eraseKey k key) ≠ .ub ∧ ∀ r, step lt multi f s (.eraseKey k key) = .ok (s', r) →
      ∃ l', l' = l.filter (fun x => lt x.2 key || lt key x.2) ∧ Walk s' k l' ∧ r = .num (l.length - l'.length) ∧ size s' (.user k) = .ok l'.length ∧
        end' s (.user k) = end' s' (.user k) ∧ ∀ j m, j ≠ k → (Walk s j m ↔ Walk s' j m) := by
  obtain ⟨σ, I, ht⟩ := hr.state w
  obtain ⟨h, hk⟩ := I.of_walk hw
  have hc := call w keep_root I ht (op := .eraseKey k key) ((I.exists k).2 ⟨_, hk⟩) (.inl rfl)
  refine ⟨hc.noUb, fun r e => ?_⟩
  obtain ⟨σ', I', E, _⟩ := hc.sat e
  obtain ⟨h1, A, B, C, e1, hA, hB, hC, e2, rfl, _⟩ := E
  rw [hk] at e1
  injection e1 with e1
  injection e1 with e1 e3
  subst e1
  subst e3
  have hk' : σ'.tree (.user k) = some (h, A ++ C) := by rw [e2, upd_same]
  have hf : (A ++ B ++ C).filter (fun x => lt x.2 key || lt key x.2) = A ++ C := by
    have h1 : A.filter (fun x => lt x.2 key || lt key x.2) = A := List.filter_eq_self.2 fun x hx => by rw [hA x hx]; rfl
    have h2 : B.filter (fun x => lt x.2 key || lt key x.2) = [] := List.filter_eq_nil_iff.2 fun x hx => by rw [(hB x hx).1, (hB x hx).2]; simp
    have h3 : C.filter (fun x => lt x.2 key || lt key x.2) = C := List.filter_eq_self.2 fun x hx => by rw [hC x hx, Bool.or_true]
    rw [List.filter_append, List.filter_append, h1, h2, h3, List.append_nil]
  refine ⟨A ++ C, hf.symm, I'.walk hk', ?_, by rw [size, I'.get hk']; rfl, by rw [I.end hk, I'.end hk'], fun j m hj => I.others I' e2 hj⟩
  congr 1; simp; omega

/-- C34, `erase(first, last)`. If it returns, exactly the elements of the range are gone. -/
theorem C34_erase_range (w : Swo lt) (hr : Reach lt multi true s) {xs ys zs : List (Nat × α)} {h : Nat} (hw : Walk s k (xs ++ ys ++ zs)) (he : end' s (.user k) = .ok (some h)) (f : Nat) :
    step lt multi f s (.eraseRange k (beg h (ys ++ zs)) (beg h zs)) ≠ .ub ∧ ∀ r, step lt multi f s (.eraseRange k (beg h (ys ++ zs)) (beg h zs)) = .ok (s', r) →
      Walk s' k (xs ++ zs) ∧ size s' (.user k) = .ok (xs ++ zs).length ∧ end' s' (.user k) = .ok (some h) ∧ ∀ j m, j ≠ k → (Walk s j m ↔ Walk s' j m) := by
  obtain ⟨σ, I, ht⟩ := hr.state w
  obtain ⟨h', hk⟩ := I.of_walk hw
  rw [I.end hk] at he
  cases he
  have hp : Pre lt true σ (.eraseRange k (beg h (ys ++ zs)) (beg h zs)) := ⟨h, xs, ys, zs, hk, rfl, rfl⟩
  have hout : Out true (fun f => step lt multi f s (.eraseRange k (beg h (ys ++ zs)) (beg h zs))) fun r =>
      Inv lt multi Root r.1 ⟨upd σ.tree (.user k) (some (h, xs ++ zs)), σ.next⟩ := quiet_out (eraseRange_ok keep_root I hk) fun _ h => h
  refine ⟨hout.noUb, fun r e => ?_⟩
  have I' := hout.sat e
  have hk' : (⟨upd σ.tree (.user k) (some (h, xs ++ zs)), σ.next⟩ : Sp α).tree (.user k) = some (h, xs ++ zs) := upd_same _ _ _
  exact ⟨I'.walk hk', by rw [size, I'.get hk']; rfl, I'.end hk', fun j m hj => I.others I' rfl hj⟩

/-- Erasing by iterator, by key and by range, as the code runs it. -/
example : (do
    let (s, rs) ← run (fun a b : Nat => decide (a < b)) true 40 St.init [.make 0, .insertAll 0 [1, 2, 2, 3, 4, 5, 6, 7], .eraseIt 0 4, .eraseKey 0 2, .eraseRange 0 6 8]
    let l ← walk 40 s (.user 0)
    .ok (l, rs)) = (.ok ([(1, 1), (5, 4), (8, 7)], [.unit, .unit, .iter (some 5) false, .num 2, .unit]) : Res (List (Nat × Nat) × List Ret)) := by
  rfl

example : ∃ (s : St Nat) (l : List (Nat × Nat)), Reach (fun a b : Nat => decide (a < b)) true true s ∧ Walk s 0 l ∧ Exists s 0 ∧ l.map (·.2) = [1, 2, 3] := three true

/-- C35 is violated, the histories: after inserting any four or more keys in descending order,
erasing the greatest never returns. -/
theorem C35_descending_erase_violated (w : Swo lt) (multi : Bool) (vs : List α) (hd : vs.Pairwise fun x y => lt y x = true) (hlen : 4 ≤ vs.length) :
    ∃ s rs l a m, Conv (fun f => run lt multi f St.init (.make 0 :: vs.map (.insert 0))) (s, rs) ∧ Reach lt multi true s ∧ Walk s 0 (l ++ [(a, m)]) ∧
      vs.head? = some m ∧ Div (fun f => step lt multi f s (.eraseIt 0 a)) := by
  obtain ⟨s, σ, h, l, rs, cv, hr, I, ht, hk, e, i⟩ := descending_history w multi vs hd
  have hl : l.length = vs.length := by rw [← List.length_map (f := (·.2)), e]; simp
  have hne : l ≠ [] := by intro h; rw [h] at hl; simp at hl; omega
  obtain ⟨l', z, rfl⟩ : ∃ l' z, l = l' ++ [z] := ⟨l.dropLast, l.getLast hne, (List.dropLast_concat_getLast hne).symm⟩
  obtain ⟨f, c, e2, hs⟩ := dchain_last (l := l') (m := z) (by simp at hl; omega)
  rw [e2] at i
  refine ⟨s, rs, l', z.1, z.2, cv, hr, I.walk hk, ?_, ?_⟩
  · have := congrArg List.getLast? e
    simp at this
    exact this.symm
  · exact (erase_div I hk i hs).bind_left

example : (([4, 3, 2, 1] : List Nat).Pairwise fun x y => decide (y < x) = true) ∧ 4 ≤ ([4, 3, 2, 1] : List Nat).length := by decide

/-- The history in the code: with fuel 100 in every loop the last call has not returned. -/
example : (do
    let (s, _) ← run (fun a b : Nat => decide (a < b)) false 100 St.init [.make 0, .insert 0 4, .insert 0 3, .insert 0 2, .insert 0 1]
    let (s, _) ← step (fun a b : Nat => decide (a < b)) false 100 s (.eraseKey 0 4)
    walk 100 s (.user 0)) = (.oof : Res (List (Nat × Nat))) := by
  set_option maxRecDepth 10000 in rfl

/-- C35 is violated, the reason: erasing never returns whenever the node is black and has neither
children nor a sibling. -/
theorem C35_missing_sibling_violated (w : Swo lt) (hr : Reach lt multi true s) {xs ys : List (Nat × α)} {a p h : Nat} {v : α} (hw : Walk s k (xs ++ (a, v) :: ys))
    (he : end' s (.user k) = .ok (some h)) (hb : color s (some a) = .ok .black) (hl : left s (some a) = .ok none) (hrr : right s (some a) = .ok none)
    (hp : parent s (some a) = .ok (some p)) (hph : p ≠ h) (hs : left s (some p) = .ok none ∨ right s (some p) = .ok none) :
    Div (fun f => step lt multi f s (.eraseIt k a)) := by
  obtain ⟨σ, I, ht⟩ := hr.state w
  obtain ⟨h', hk⟩ := I.of_walk hw
  rw [I.end hk] at he
  cases he
  obtain ⟨t, i, hti, _⟩ := I.rep _ _ hk
  have i : Tr s h t := i
  obtain ⟨c, L, co, R, rfl, _, _⟩ := focus t hti
  rw [In.color i] at hb
  rw [In.left i] at hl
  rw [In.right i] at hrr
  rw [In.parent i] at hp
  cases hb
  have hL : L = .nil := T.ptr_none.1 (by injection hl)
  have hR : R = .nil := T.ptr_none.1 (by injection hrr)
  subst hL hR
  cases c with
  | nil => simp only [cpar_nil] at hp; cases hp; exact absurd rfl hph
  | cons f c =>
    have hf : f.sib = .nil := by
      obtain ⟨fd, fc, fa, fv, fs⟩ := f
      simp only [cpar_cons] at hp
      cases hp
      cases fd with
      | true =>
        have j : Tr s h (plug c (.node (.node .nil .black a v .nil) fc p fv fs)) := i
        rw [In.left j, In.right j] at hs
        rcases hs with hs | hs
        · cases hs
        · exact T.ptr_none.1 (by injection hs)
      | false =>
        have j : Tr s h (plug c (.node fs fc p fv (.node .nil .black a v .nil))) := i
        rw [In.left j, In.right j] at hs
        rcases hs with hs | hs
        · exact T.ptr_none.1 (by injection hs)
        · cases hs
    exact (erase_div I hk i hf).bind_left

/-- The node of four in the example above (node 1): black, without children, below three (node 2), which
has no other child. -/
example : (do
    let (s, _) ← run (fun a b : Nat => decide (a < b)) false 100 St.init [.make 0, .insert 0 4, .insert 0 3, .insert 0 2, .insert 0 1]
    let c ← color s (some 1)
    let l ← left s (some 1)
    let r ← right s (some 1)
    let p ← parent s (some 1)
    let q ← left s (some 2)
    .ok (c, l, r, p, q)) = (.ok (.black, none, none, some 2, none) : Res (Color × Option Nat × Option Nat × Option Nat × Option Nat)) := by
  rfl

/-- C35, what holds: every permitted call other than `erase` returns; if elements are only ever added at
the end, `erase` returns as well. (Searches: C31; iteration: C37 and `Walk`.) Missing: `erase` after other
histories. -/
theorem C35_termination_partial (w : Swo lt) :
    (∀ (s : St α) (op : Op α), Reach lt multi true s → Legal s op → op.erases = false → ∃ r, Conv (fun f => step lt multi f s op) r) ∧
    (∀ (s : St α) (op : Op α), Reach lt multi false s → Legal s op → Appends lt s op → ∃ r, Conv (fun f => step lt multi f s op) r) := by
  constructor
  · intro s op hr hl he
    obtain ⟨σ, I, ht⟩ := hr.state w
    have h := call w keep_root I ht hl (.inl rfl)
    rw [he] at h
    obtain ⟨r, _, cv⟩ := h.conv
    exact ⟨r, cv⟩
  · intro s op hr hl ha
    obtain ⟨σ, I, ht⟩ := hr.inv w keep_valid
    obtain ⟨r, _, cv⟩ := (call w keep_valid I ht hl (.inr ha)).conv
    exact ⟨r, cv⟩

/-- Ascending insertions, then an erasure. -/
example : ∃ s l, Reach (fun a b : Nat => decide (a < b)) false false s ∧ Walk s 0 l ∧ l.map (·.2) = [1, 2, 3, 4, 5] ∧ Legal s (.eraseKey 0 3) ∧
    Appends (fun a b : Nat => decide (a < b)) s (.eraseKey 0 3) := by
  obtain ⟨s, σ, h, l, rs, _, hr, I, _, hk, e⟩ := history natSwo false false [1, 2, 3, 4, 5] (.inr (by decide))
  exact ⟨s, l, hr, I.walk hk, by rw [e]; rfl, (I.exists 0).2 ⟨_, hk⟩, trivial⟩

/-- The tree of a set: `t` is what the pointers, from the root on, describe. -/
def Holds (s : St α) (k : Nat) (t : T α) : Prop :=
  ∃ h n, s.tree (.user k) = some (h, n) ∧ parent s (some h) = .ok t.ptr ∧ t.rep s.heap (some h)

/-- C36 is violated: after inserting any three or more keys in descending order, the tree is no
red-black tree (there is no `n` such that all paths contain `n` black nodes and no red node has a red
child), and its depth is one less than the number of keys. -/
theorem C36_descending_unbalanced_violated (w : Swo lt) (multi : Bool) (vs : List α) (hd : vs.Pairwise fun x y => lt y x = true) (hlen : 3 ≤ vs.length) :
    ∃ s rs t, Conv (fun f => run lt multi f St.init (.make 0 :: vs.map (.insert 0))) (s, rs) ∧ Reach lt multi true s ∧ Holds s 0 t ∧
      (¬ ∃ n, Bal t n) ∧ t.depth = vs.length - 1 := by
  obtain ⟨s, σ, h, l, rs, cv, hr, I, ht, hk, e, i⟩ := descending_history w multi vs hd
  have hl : l.length = vs.length := by rw [← List.length_map (f := (·.2)), e]; simp
  refine ⟨s, rs, dchain l, cv, hr, ⟨h, l.length, ?_, In.root i, In.rep i⟩, dchain_unbalanced (by omega), by rw [depth_dchain (by omega), hl]⟩
  rw [I.slot, hk]; rfl

example : (([4, 3, 2] : List Nat).Pairwise fun x y => decide (y < x) = true) ∧ 3 ≤ ([4, 3, 2] : List Nat).length := by decide

/-- C36, what holds: if elements are only ever added at the end (and erased anywhere), every tree is a
red-black tree, and its depth is at most twice the binary logarithm of the number of elements plus
one. Missing: other insertions. -/
theorem C36_appended_balanced_partial (w : Swo lt) (hr : Reach lt multi false s) (hx : Exists s k) :
    ∃ t l n, Holds s k t ∧ Walk s k l ∧ t.inl = l ∧ t.red = false ∧ Bal t n ∧ 2 ^ t.depth ≤ (l.length + 1) ^ 2 := by
  obtain ⟨σ, I, ht⟩ := hr.inv w keep_valid
  obtain ⟨⟨h, l⟩, hk⟩ := (I.exists k).1 hx
  obtain ⟨t, i, hti, hred, n, hn⟩ := I.rep _ _ hk
  have i : Tr s h t := i
  have hti : t.inl = l := hti
  refine ⟨t, l, n, ⟨h, l.length, by rw [I.slot, hk]; rfl, In.root i, In.rep i⟩, I.walk hk, hti, hred, hn, ?_⟩
  have h1 := hn.size
  have h2 := hn.depth
  rw [hred] at h2
  simp at h2
  rw [hti] at h1
  calc 2 ^ t.depth ≤ 2 ^ (n * 2) := Nat.pow_le_pow_right (by omega) (by omega)
    _ = (2 ^ n) ^ 2 := Nat.pow_mul 2 n 2
    _ ≤ (l.length + 1) ^ 2 := Nat.pow_le_pow_left h1 2

example : ∃ s, Reach (fun a b : Nat => decide (a < b)) true false s ∧ Exists s 0 := by
  obtain ⟨s, σ, h, l, rs, _, hr, I, _, hk, e⟩ := history natSwo true false [1, 2, 2, 4, 5] (.inr (by decide))
  exact ⟨s, hr, (I.exists 0).2 ⟨_, hk⟩⟩

/-- All trees are red-black trees: the root is black, no red node has a red child, all paths contain the
same number of black nodes. -/
def Balanced (s : St α) : Prop := ∀ k t, Holds s k t → t.red = false ∧ ∃ n, Bal t n

theorem Holds.tr {P : T α → Prop} {σ : Sp α} (I : Inv lt multi P s σ) {t : T α} (h : Holds s k t) : ∃ h l, σ.tree (.user k) = some (h, l) ∧ Tr s h t ∧ t.inl = l ∧ P t := by
  obtain ⟨h, n, e, hp, hrep⟩ := h
  cases hk : σ.tree (.user k) with
  | none => rw [I.slot, hk] at e; cases e
  | some x =>
    rw [I.slot, hk] at e
    cases e
    obtain ⟨t', i, hi, hP⟩ := I.rep _ _ hk
    have : t' = t := by
      have h1 := In.root i
      rw [hp] at h1
      injection h1 with h1
      exact T.rep_unique (In.rep i) hrep h1.symm
    subst this
    exact ⟨x.1, x.2, rfl, i, hi, hP⟩

theorem Holds.of {P : T α → Prop} {σ : Sp α} (I : Inv lt multi P s σ) {h : Nat} {l : List (Nat × α)} (hk : σ.tree (.user k) = some (h, l)) {t : T α} (i : Tr s h t) : Holds s k t :=
  ⟨h, l.length, by rw [I.slot, hk]; rfl, In.root i, In.rep i⟩

theorem balanced_iff {σ : Sp α} (I : Inv lt multi Root s σ) (ht : σ.tree .temp = none) : Balanced s ↔ Inv lt multi Valid s σ := by
  constructor
  · intro hb
    refine { I with rep := fun k x hk => ?_ }
    obtain ⟨t, i, hi, _⟩ := I.rep k x hk
    cases k with
    | temp => rw [ht] at hk; cases hk
    | user k => exact ⟨t, i, hi, hb k t (Holds.of I hk i)⟩
  · intro I' k t h
    obtain ⟨_, _, _, _, _, hv⟩ := h.tr I'
    exact hv

theorem same_place {c d : List (Fr α)} {v : α} (e : plug c (.nil : T α) = plug d .nil) (h1 : ∀ x ∈ cl c, lt v x.2 = false) (h2 : ∀ y ∈ cr c, lt v y.2 = true)
    (h3 : ∀ x ∈ cl d, lt v x.2 = false) (h4 : ∀ y ∈ cr d, lt v y.2 = true) : c = d := by
  have hi : cl c ++ cr c = cl d ++ cr d := by
    have := congrArg T.inl e
    rw [inl_plug, inl_plug] at this
    simpa [T.inl] using this
  refine path_unique _ c d rfl e.symm ?_
  rcases List.append_eq_append_iff.1 hi with ⟨a, ea, eb⟩ | ⟨a, ea, eb⟩
  · cases a with
    | nil => rw [ea]; simp
    | cons z a =>
      have h5 := h3 z (by rw [ea]; simp)
      rw [h2 z (by rw [eb]; simp)] at h5; cases h5
  · cases a with
    | nil => rw [ea]; simp
    | cons z a =>
      have h5 := h1 z (by rw [ea]; simp)
      rw [h4 z (by rw [eb]; simp)] at h5; cases h5

/-- C36, exactly when: let all trees be red-black trees, and insert any value into any set. The call returns.
If it adds nothing, all trees stay red-black trees. If it adds an element, at the end of the path `c` (the
elements before it are not greater, those behind it are), then all trees are red-black trees afterwards if and
only if the call did not pass rb_tree.hpp:399-400 (`Skew c`). -/
theorem C36_insert_exact_partial (w : Swo lt) (hr : Reach lt multi true s) (hb : Balanced s) (hx : Exists s k) (v : α) :
    ∃ s' it new, Conv (fun f => step lt multi f s (.insert k v)) (s', .iter it new) ∧ (new = false → Balanced s') ∧
      (new = true → ∃ c n, it = some n ∧ Holds s k (plug c .nil) ∧ Walk s k (cl c ++ cr c) ∧ Walk s' k (cl c ++ (n, v) :: cr c) ∧
        (∀ x ∈ cl c, lt v x.2 = false) ∧ (∀ y ∈ cr c, lt v y.2 = true) ∧ (Balanced s' ↔ ¬ Skew c)) := by
  obtain ⟨σ, I, ht⟩ := hr.state w
  obtain ⟨⟨h, l⟩, hk⟩ := (I.exists k).1 hx
  have IV := (balanced_iff I ht).1 hb
  obtain ⟨s', it, new, l', hi, I', cv, hn⟩ := insert_ok w I keep_root hk v (.inl rfl)
  have cv' : Conv (fun f => step lt multi f s (.insert k v)) (s', .iter it new) := by
    have c0 : Conv (fun f => Rb.insert lt multi f s (.user k) v >>= fun q => Res.ok (q.1, Ret.iter q.2.1 q.2.2)) (s', .iter it new) :=
      Conv.bind (h := fun _ q => Res.ok (q.1, Ret.iter q.2.1 q.2.2)) cv (Conv.pure _)
    exact c0
  have ht' : (⟨upd σ.tree (.user k) (some (h, l')), σ.next + 1⟩ : Sp α).tree .temp = none := by simp [upd, ht]
  have hk' : (⟨upd σ.tree (.user k) (some (h, l')), σ.next + 1⟩ : Sp α).tree (.user k) = some (h, l') := upd_same _ _ _
  have hl : ∀ c, Tr s h (plug c .nil) → l = cl c ++ cr c := by
    intro c i
    rw [← I.tree_inl hk _ i, inl_plug]; simp [T.inl]
  -- with what the insertion keeps
  have key : (∀ c, Tr s h (plug c .nil) → Valid (plug c .nil) → (∀ x ∈ cl c, lt v x.2 = false) → (∀ y ∈ cr c, lt v y.2 = true) →
      (multi = false → ∀ x ∈ cl c, lt x.2 v = true) → Valid (insFix c (.node .nil .red σ.next v .nil)).blacken) → Balanced s' := by
    intro hv
    obtain ⟨s2, it2, new2, l2, hi2, I2, cv2, hn2⟩ := insert_ok' w IV hk v (fun _ h => h.1) hv
    have := Conv.unique cv cv2
    cases this
    intro j t hh
    obtain ⟨_, _, _, _, _, hv⟩ := hh.tr I2
    exact hv
  refine ⟨s', it, new, cv', ?_, ?_⟩
  · rintro rfl
    cases hi with
    | dup xs x ys it hm e h1 h2 h3 =>
      refine key fun c i _ g1 g2 g3 => ?_
      exfalso
      have : x ∈ cl c ++ cr c := by rw [← hl c i, e]; simp
      rcases List.mem_append.1 this with hc | hc
      · rw [g3 hm x hc] at h1; cases h1
      · rw [g2 x hc] at h2; cases h2
  · rintro rfl
    obtain ⟨c, i, e, h1, h2, i'⟩ := hn rfl
    have hit : it = some σ.next := by cases hi; rfl
    have hV : Valid (plug c .nil) := hb k _ (Holds.of I hk i)
    refine ⟨c, σ.next, hit, Holds.of I hk i, ?_, ?_, h1, h2, fun hb' hs => ?_, fun hs => key fun d j hd g1 g2 _ => ?_⟩
    · rw [← hl c i]; exact I.walk hk
    · rw [e]; exact I'.walk hk'
    · exact (leaf_valid hV).1 (hb' k _ (Holds.of I' hk' i')) hs
    · have := same_place (j.unique i) g1 g2 h1 h2
      subst this
      exact (leaf_valid hd).2 hs

/-- The set of one, two and three, a red-black tree. -/
example : ∃ s l, Reach (fun a b : Nat => decide (a < b)) false true s ∧ Balanced s ∧ Exists s 0 ∧ Walk s 0 l ∧ l.map (·.2) = [1, 2, 3] := by
  obtain ⟨s, σ, h, l, rs, _, hr, I, _, hk, e⟩ := history natSwo false false [1, 2, 3] (.inr (by decide))
  refine ⟨s, l, hr.any, fun k t hh => ?_, (I.exists 0).2 ⟨_, hk⟩, I.walk hk, by rw [e]; rfl⟩
  obtain ⟨σ', I', ht'⟩ := hr.inv natSwo keep_valid
  obtain ⟨_, _, _, _, _, hv⟩ := hh.tr I'
  exact hv

/-- A leaf below a red left child whose sibling is missing is such a place, on either side; below a red right
child, and below a red left child with a red sibling, it is not. -/
example (a b : Nat) (x y : Nat) : (∀ d, Skew [⟨d, .red, a, x, .nil⟩, ⟨true, .black, b, y, .nil⟩]) ∧ (∀ d, ¬ Skew [⟨d, .red, a, x, .nil⟩, ⟨false, .black, b, y, .nil⟩]) ∧
    ∀ d, ¬ Skew [⟨d, .red, a, x, .nil⟩, ⟨true, .black, b, y, .node .nil .red b y .nil⟩] := by
  simp [Skew, T.red]

/-- The colours the code leaves: with two, one, three and nothing else the tree is balanced (two black, the others red);
after inserting zero, one and three are black. After three, two, one the root is two, and the black three has no sibling
of its height. -/
example : (do
    let (s, _) ← run (fun a b : Nat => decide (a < b)) false 100 St.init [.make 0, .insert 0 2, .insert 0 1, .insert 0 3, .insert 0 0]
    let c2 ← color s (some 1)
    let c1 ← color s (some 2)
    let c3 ← color s (some 3)
    let c0 ← color s (some 4)
    .ok (c2, c1, c3, c0)) = (.ok (.black, .black, .black, .red) : Res (Color × Color × Color × Color)) ∧
    (do
    let (s, _) ← run (fun a b : Nat => decide (a < b)) false 100 St.init [.make 0, .insert 0 3, .insert 0 2, .insert 0 1]
    let c3 ← color s (some 1)
    let c2 ← color s (some 2)
    let c1 ← color s (some 3)
    .ok (c3, c2, c1)) = (.ok (.black, .black, .red) : Res (Color × Color × Color)) := by
  constructor <;> rfl

/-- C35, exactly when: let the erased element be the node `a` of the tree, with children `L` and `R`, at the end of
the path `c`. The node taken out of its place is `a`, or, if `a` has two children, the next one; let `yc` be its
colour, `X` its only subtree and `p` the path to it (`Unl`). Then `erase` does not return if and only if that
node is black, the root of `X` is not red, and the way up from there meets a node without the other child before
the loop ends (`Stuck p`). Otherwise it returns. -/
theorem C35_erase_exact_partial (w : Swo lt) (hr : Reach lt multi true s) {xs ys : List (Nat × α)} {a : Nat} {v : α} (hw : Walk s k (xs ++ (a, v) :: ys)) :
    ∃ c L zc R yc p X, Holds s k (plug c (.node L zc a v R)) ∧ cl c ++ L.inl = xs ∧ R.inl ++ cr c = ys ∧ Unl c L zc R yc p X ∧
      (Div (fun f => step lt multi f s (.eraseIt k a)) ↔ yc = .black ∧ X.red = false ∧ Stuck p) ∧
      (¬ (yc = .black ∧ X.red = false ∧ Stuck p) → ∃ r, Conv (fun f => step lt multi f s (.eraseIt k a)) r) := by
  obtain ⟨σ, I, ht⟩ := hr.state w
  obtain ⟨h, hk⟩ := I.of_walk hw
  obtain ⟨t, i, hti, _⟩ := I.rep _ _ hk
  have i : Tr s h t := i
  have hinc := increment_ok i hti
  obtain ⟨c, L, zc, R, rfl, h1, h2⟩ := focus t hti
  obtain ⟨yc, p, X, u, hres⟩ := eraseRebalance_ok i
  have hget := I.get hk
  have unf : ∀ f, erase f s (.user k) (some a) = increment f s (some a) >>= fun next =>
      eraseRebalance f s (some a) h >>= fun s => destroyNode s (some a) >>= fun s => setCount s (.user k) ((xs ++ (a, v) :: ys).length - 1) >>= fun s => .ok (s, next) := by
    intro f
    unfold erase
    rw [hget]; rfl
  have hstuck : delT yc p X = none → Div (fun f => step lt multi f s (.eraseIt k a)) := by
    intro hn
    rcases hres with ⟨t', e, _⟩ | ⟨_, dv⟩
    · rw [hn] at e; cases e
    · refine Div.bind_left ?_
      exact (Div.bind_right (h := fun f next => eraseRebalance f s (some a) h >>= fun s => destroyNode s (some a) >>= fun s =>
        setCount s (.user k) ((xs ++ (a, v) :: ys).length - 1) >>= fun s => .ok (s, next)) hinc dv.bind_left).congr unf
  have hcall := call w keep_root I ht (op := .eraseIt k a) ⟨xs, v, ys, hw⟩ (.inl rfl)
  have hconv : delT yc p X ≠ none → ∃ r, Conv (fun f => step lt multi f s (.eraseIt k a)) r := by
    intro hn
    rcases hres with ⟨t', e, s', i', ⟨r, hz, hzv⟩, cv⟩ | ⟨e, _⟩
    · rcases hcall with ⟨r, _, cv⟩ | ⟨_, hd⟩
      · exact ⟨r, cv⟩
      · exfalso
        obtain ⟨n1, e1⟩ := hinc.1
        obtain ⟨n2, e2⟩ := cv.1
        have h3 := hd (max n1 n2)
        have h1 : increment (max n1 n2) s (some a) = _ := e1 (max n1 n2) (Nat.le_max_left _ _)
        have h2 : eraseRebalance (max n1 n2) s (some a) h = _ := e2 (max n1 n2) (Nat.le_max_right _ _)
        have hdes : destroyNode s' (some a) = .ok { s' with heap := upd s'.heap a none, freed := a :: s'.freed } := by
          obtain ⟨r1, r2, r3, r4, r5⟩ := r
          cases hzv
          simp only [destroyNode, hz]
        simp only [step, unf] at h3
        rw [h1, Res.ok_bind, h2, Res.ok_bind, hdes, Res.ok_bind] at h3
        have hg : getT ({ s' with heap := upd s'.heap a none, freed := a :: s'.freed } : St α) (.user k) = getT s (.user k) := by
          unfold getT; simp only; rw [i'.same]
        simp only [setCount, hg, hget, Res.ok_bind] at h3
        cases h3
    · exact absurd e hn
  refine ⟨c, L, zc, R, yc, p, X, Holds.of I hk i, h1, h2, u, ?_, fun hn => hconv fun e => hn (delT_none.1 e)⟩
  constructor
  · intro hd
    refine delT_none.1 (Classical.byContradiction fun hn => ?_)
    obtain ⟨r, cv⟩ := hconv hn
    obtain ⟨n, hn⟩ := cv.1
    have h3 := hd n
    rw [hn n (Nat.le_refl n)] at h3
    cases h3
  · exact fun h => hstuck (delT_none.2 h)

/-- Such an element: the black root of a tree of two black nodes, and the leaf below it. -/
example (a b : Nat) (x y : Nat) : Unl (α := Nat) [⟨false, .black, a, x, .nil⟩] .nil .black .nil .black [⟨false, .black, a, x, .nil⟩] .nil ∧
    Stuck [(⟨false, .black, a, x, .nil⟩ : Fr Nat)] ∧ ¬ Stuck [(⟨false, .black, a, x, .node .nil .red b y .nil⟩ : Fr Nat)] ∧
    ¬ Stuck [(⟨false, .black, a, x, .node .nil .black b y .nil⟩ : Fr Nat)] := by
  refine ⟨.noLeft rfl, .inl rfl, ?_, ?_⟩ <;> simp [Stuck]

/-- C35 and C36, all other calls: let all trees be red-black trees. A call that inserts nothing, or only at the
end, returns, `erase` included, and leaves all trees red-black trees. -/
theorem C36_calls_partial (w : Swo lt) (hr : Reach lt multi true s) (hb : Balanced s) {op : Op α} (hl : Legal s op) (ha : Appends lt s op) :
    ∃ s' r, Conv (fun f => step lt multi f s op) (s', r) ∧ Balanced s' := by
  obtain ⟨σ, I, ht⟩ := hr.state w
  obtain ⟨⟨s', r⟩, ⟨σ', I', _, _⟩, cv⟩ := (call w keep_valid ((balanced_iff I ht).1 hb) ht hl (.inr ha)).conv
  refine ⟨s', r, cv, fun k t hh => ?_⟩
  obtain ⟨_, _, _, _, _, hv⟩ := hh.tr I'
  exact hv

/-- C37. `*it` on the position of an element is its value, `++` leads to the position behind it (the next
element or `end()`), and `--` from there leads back, also from `end()`. -/
theorem C37_iterators (w : Swo lt) (hr : Reach lt multi true s) {xs ys : List (Nat × α)} {x : Nat × α} (hw : Walk s k (xs ++ x :: ys)) :
    ∃ h, end' s (.user k) = .ok (some h) ∧ getKey s (some x.1) = .ok x.2 ∧ Conv (fun f => increment f s (some x.1)) (some (beg h ys)) ∧
      Conv (fun f => decrement f s (some (beg h ys))) (some x.1) := by
  obtain ⟨σ, I, ht⟩ := hr.state w
  obtain ⟨h, hk⟩ := I.of_walk hw
  obtain ⟨t, i, hti, hred⟩ := I.rep _ _ hk
  have i : Tr s h t := i
  have hti : t.inl = xs ++ x :: ys := hti
  refine ⟨h, I.end hk, I.key hk, I.inc hk, ?_⟩
  cases ys with
  | nil =>
    have hne : t ≠ .nil := by rintro rfl; simp [T.inl] at hti
    refine (Conv.pure (some x.1)).congr fun f => ?_
    rw [show beg h ([] : List (Nat × α)) = h from rfl, decrement_end i hne f, hti, lst_append_cons]
  | cons y ys =>
    have := decrement_ok (xs := xs ++ [x]) (ys := ys) (a := y.1) (v := y.2) i hred (by rw [hti]; simp) (by simp)
    rw [lst_append_cons] at this
    exact this

example : ∃ (s : St Nat) (l : List (Nat × Nat)), Reach (fun a b : Nat => decide (a < b)) true true s ∧ Walk s 0 l ∧ Exists s 0 ∧ l.map (·.2) = [1, 2, 3] := three true

/-- C38, the balance. In every reachable state no node has been freed twice, and every node allocated so
far has either been freed or is, for exactly one set, its header or one of its elements. -/
theorem C38_nodes_accounted (w : Swo lt) (hr : Reach lt multi true s) :
    s.freed.Nodup ∧ (∀ a, a ∈ s.freed ↔ a < s.next ∧ ¬ ∃ k h l, Walk s k l ∧ end' s (.user k) = .ok (some h) ∧ (a = h ∨ a ∈ l.map (·.1))) ∧
      ((∀ k, ¬ Exists s k) → ∀ a, a < s.next → a ∈ s.freed) := by
  obtain ⟨σ, I, ht⟩ := hr.state w
  have hlive : ∀ a, σ.live a ↔ ∃ k h l, Walk s k l ∧ end' s (.user k) = .ok (some h) ∧ (a = h ∨ a ∈ l.map (·.1)) := by
    intro a
    constructor
    · rintro ⟨k, ⟨h, l⟩, hk, ha⟩
      cases k with
      | temp => rw [ht] at hk; cases hk
      | user k => exact ⟨k, h, l, I.walk hk, I.end hk, ha⟩
    · rintro ⟨k, h, l, hw, he, ha⟩
      obtain ⟨h', hk⟩ := I.of_walk hw
      rw [I.end hk] at he
      cases he
      exact ⟨_, _, hk, ha⟩
  have hmem : ∀ a, a ∈ s.freed ↔ a < s.next ∧ ¬ ∃ k h l, Walk s k l ∧ end' s (.user k) = .ok (some h) ∧ (a = h ∨ a ∈ l.map (·.1)) := by
    intro a; rw [I.mem, I.next, hlive]
  refine ⟨I.nodup, hmem, fun hn a ha => (hmem a).2 ⟨ha, ?_⟩⟩
  rintro ⟨k, h, l, hw, _, _⟩
  obtain ⟨h', hk⟩ := I.of_walk hw
  exact hn k ((I.exists k).2 ⟨_, hk⟩)

theorem freed_perm {P : T α → Prop} {σ σ' : Sp α} (I : Inv lt multi P s σ) (I' : Inv lt multi P s' σ') {k : Slot} {o : Option (Nat × List (Nat × α))} (e : σ'.tree = upd σ.tree k o)
    (hn : σ'.next = σ.next) {gone : List Nat} (hg : gone.Nodup) (h1 : ∀ a, own (σ.tree k) a ↔ a ∈ gone ∨ own o a) (h2 : ∀ a, a ∈ gone → ¬ own o a) :
    s'.freed.Perm (gone ++ s.freed) := by
  have hmem : ∀ a, a ∈ s'.freed ↔ a ∈ gone ++ s.freed := by
    intro a
    rw [I'.mem, List.mem_append, I.mem, hn]
    have hlive : σ'.live a ↔ σ.live a ∧ a ∉ gone := by
      constructor
      · rintro ⟨j, hj⟩
        rw [e] at hj
        by_cases hjk : j = k
        · subst hjk
          rw [upd_same] at hj
          exact ⟨⟨j, (h1 a).2 (.inr hj)⟩, fun h => h2 a h hj⟩
        · rw [upd_ne _ _ hjk] at hj
          exact ⟨⟨j, hj⟩, fun h => hjk (I.disj j k a hj ((h1 a).2 (.inl h)))⟩
      · rintro ⟨⟨j, hj⟩, hng⟩
        refine ⟨j, ?_⟩
        rw [e]
        by_cases hjk : j = k
        · subst hjk
          rw [upd_same]
          rcases (h1 a).1 hj with h | h
          · exact absurd h hng
          · exact h
        · rw [upd_ne _ _ hjk]; exact hj
    rw [hlive]
    constructor
    · rintro ⟨h3, h4⟩
      by_cases hga : a ∈ gone
      · exact .inl hga
      · exact .inr ⟨h3, fun h => h4 ⟨h, hga⟩⟩
    · rintro (h3 | h3)
      · exact ⟨I.below a ⟨k, (h1 a).2 (.inl h3)⟩, fun h => h.2 h3⟩
      · exact ⟨h3.1, fun h => h3.2 h.1⟩
  refine (List.perm_ext_iff_of_nodup I'.nodup ?_).2 hmem
  rw [List.nodup_append]
  refine ⟨hg, I.nodup, ?_⟩
  rintro a ha b hb rfl
  exact ((I.mem a).1 hb).2 ⟨k, (h1 a).2 (.inl ha)⟩

/-- C38, the calls. `clear` frees exactly the nodes of the elements, the destructor also the header,
`erase(iterator)`, if it returns, exactly the node of the element, `erase(key)` exactly those of the
elements equivalent to the key; each once. -/
theorem C38_nodes_freed (w : Swo lt) (hr : Reach lt multi true s) (hw : Walk s k l) :
    (∃ s', Conv (fun f => step lt multi f s (.clear k)) (s', .unit) ∧ Walk s' k [] ∧ s'.freed.Perm (l.map (·.1) ++ s.freed)) ∧
    (∃ s' h, Conv (fun f => step lt multi f s (.destroy k)) (s', .unit) ∧ end' s (.user k) = .ok (some h) ∧ ¬ Exists s' k ∧ s'.freed.Perm (h :: l.map (·.1) ++ s.freed)) ∧
    (∀ a, a ∈ l.map (·.1) → ∀ f s' r, step lt multi f s (.eraseIt k a) = .ok (s', r) → s'.freed.Perm (a :: s.freed)) ∧
    (∀ key f s' r, step lt multi f s (.eraseKey k key) = .ok (s', r) →
      s'.freed.Perm ((l.filter fun x => !lt x.2 key && !lt key x.2).map (·.1) ++ s.freed)) := by
  obtain ⟨σ, I, ht⟩ := hr.state w
  obtain ⟨h, hk⟩ := I.of_walk hw
  have hkeys := I.keys hk
  have hx : Exists s k := (I.exists k).2 ⟨_, hk⟩
  refine ⟨?_, ?_, ?_, ?_⟩
  · obtain ⟨⟨s', r⟩, ⟨σ', I', E, _⟩, cv⟩ := (call w keep_root I ht (op := .clear k) hx (.inl rfl)).conv
    obtain ⟨rfl, h1, l1, e1, e2, e3⟩ := E
    rw [hk] at e1; cases e1
    refine ⟨s', cv, I'.walk (h := h) (by rw [e2, upd_same]), freed_perm I I' e2 e3 hkeys.1 ?_ ?_⟩
    · intro a; rw [hk, own_some, own_some]; simp [or_comm]
    · intro a ha; rw [own_some]; rintro (rfl | h1)
      · exact hkeys.2 ha
      · cases h1
  · obtain ⟨⟨s', r⟩, ⟨σ', I', E, _⟩, cv⟩ := (call w keep_root I ht (op := .destroy k) hx (.inl rfl)).conv
    obtain ⟨rfl, e2, e3⟩ := E
    refine ⟨s', h, cv, I.end hk, ?_, freed_perm I I' e2 e3 (gone := h :: l.map (·.1)) ?_ ?_ ?_⟩
    · rw [I'.exists, e2, upd_same]; simp
    · rw [List.nodup_cons]; exact ⟨hkeys.2, hkeys.1⟩
    · intro a; rw [hk, own_some]; simp [own]
    · intro a _; exact own_none
  · intro a ha f s' r e
    obtain ⟨⟨a', v⟩, hm, rfl⟩ := List.mem_map.1 ha
    obtain ⟨xs, ys, rfl⟩ := List.append_of_mem hm
    obtain ⟨σ', I', E, _⟩ := (call w keep_root I ht (op := .eraseIt k a') ⟨xs, v, ys, hw⟩ (.inl rfl)).sat e
    obtain ⟨h1, xs1, v1, ys1, e1, e2, rfl, e3⟩ := E
    rw [hk] at e1
    injection e1 with e1
    injection e1 with e1 e4
    subst e1
    rw [e4] at hkeys
    refine freed_perm I I' e2 e3 (gone := [a']) (by simp) ?_ ?_
    · intro b; rw [hk, e4, own_some, own_some]; simp; grind
    · intro b hb
      simp only [List.mem_singleton] at hb
      subst hb
      rw [own_some]
      simp only [List.map_append, List.map_cons, List.nodup_append, List.nodup_cons, List.mem_append, List.mem_cons, List.mem_map] at hkeys ⊢
      grind
  · intro key f s' r e
    obtain ⟨σ', I', E, _⟩ := (call w keep_root I ht (op := .eraseKey k key) hx (.inl rfl)).sat e
    obtain ⟨h1, A, B, C, e1, hA, hB, hC, e2, rfl, e3⟩ := E
    rw [hk] at e1
    injection e1 with e1
    injection e1 with e1 e4
    subst e1
    subst e4
    have hf : (A ++ B ++ C).filter (fun x => !lt x.2 key && !lt key x.2) = B := by
      have h1 : A.filter (fun x => !lt x.2 key && !lt key x.2) = [] := List.filter_eq_nil_iff.2 fun x hx => by rw [hA x hx]; simp
      have h2 : B.filter (fun x => !lt x.2 key && !lt key x.2) = B := List.filter_eq_self.2 fun x hx => by rw [(hB x hx).1, (hB x hx).2]; rfl
      have h3 : C.filter (fun x => !lt x.2 key && !lt key x.2) = [] := List.filter_eq_nil_iff.2 fun x hx => by rw [hC x hx]; simp
      rw [List.filter_append, List.filter_append, h1, h2, h3, List.append_nil, List.nil_append]
    rw [hf]
    simp only [List.map_append, List.nodup_append, List.mem_append] at hkeys
    refine freed_perm I I' e2 e3 hkeys.1.1.2.1 ?_ ?_
    · intro b; rw [hk, own_some, own_some]; simp only [List.map_append, List.mem_append]; grind
    · intro b hb; rw [own_some]; simp only [List.map_append, List.mem_append]; grind

/-- No node remains: insertions (one of a duplicate), an erasure, a copy, both sets destroyed. -/
example : (do
    let (s, _) ← run (fun a b : Nat => decide (a < b)) false 40 St.init [.make 0, .insertAll 0 [1, 2, 2, 3], .eraseKey 0 2, .copy 1 0, .destroy 0, .destroy 1]
    .ok (s.freed, s.next)) = (.ok ([5, 6, 7, 0, 1, 4, 2, 3], 8) : Res (List Nat × Nat)) := by
  rfl

example : ∃ (s : St Nat) (l : List (Nat × Nat)), Reach (fun a b : Nat => decide (a < b)) true true s ∧ Walk s 0 l ∧ Exists s 0 ∧ l.map (·.2) = [1, 2, 3] := three true

/-- C72. `swap` exchanges the elements and `move` construction and move assignment transfer them with
their positions: iterators keep denoting the same elements, now of the other set (also if a set is
swapped with or moved to itself). -/
theorem C72_iterators_follow (w : Swo lt) (hr : Reach lt multi true s) {j : Nat} {m : List (Nat × α)} (hj : Walk s j m) :
    (∀ k l, Walk s k l → ∃ s', Conv (fun f => step lt multi f s (.swap k j)) (s', .unit) ∧ Walk s' k m ∧ Walk s' j l ∧
      ∀ i n, i ≠ k → i ≠ j → (Walk s i n ↔ Walk s' i n)) ∧
    (∀ k, ¬ Exists s k → ∃ s', Conv (fun f => step lt multi f s (.move k j)) (s', .unit) ∧ Walk s' k m ∧ Walk s' j [] ∧
      ∀ i n, i ≠ k → i ≠ j → (Walk s i n ↔ Walk s' i n)) ∧
    (∀ k, Exists s k → ∃ s', Conv (fun f => step lt multi f s (.assignMove k j)) (s', .unit) ∧ Walk s' k m ∧ (k ≠ j → Walk s' j []) ∧
      ∀ i n, i ≠ k → i ≠ j → (Walk s i n ↔ Walk s' i n)) := by
  obtain ⟨σ, I, ht⟩ := hr.state w
  obtain ⟨hjh, hjk⟩ := I.of_walk hj
  refine ⟨?_, ?_, ?_⟩
  · intro k l hw
    obtain ⟨h, hk⟩ := I.of_walk hw
    obtain ⟨⟨s', r⟩, ⟨σ', I', E, _⟩, cv⟩ := (call w keep_root I ht (op := .swap k j) ⟨(I.exists k).2 ⟨_, hk⟩, (I.exists j).2 ⟨_, hjk⟩⟩ (.inl rfl)).conv
    obtain ⟨rfl, x, y, e1, e2, e3, _⟩ := E
    rw [hk] at e1; cases e1
    rw [hjk] at e2; cases e2
    refine ⟨s', cv, ?_, I'.walk (h := h) (by rw [e3, upd_same]), fun i n h1 h2 => ?_⟩
    · by_cases hkj : k = j
      · subst hkj
        rw [hk] at hjk; cases hjk
        exact I'.walk (by rw [e3, upd_same])
      · exact I'.walk (h := hjh) (by rw [e3, upd_ne _ _ (by simpa using hkj), upd_same])
    · rw [I.walk_iff, I'.walk_iff, e3, upd_ne _ _ (by simpa using h2), upd_ne _ _ (by simpa using h1)]
  · intro k hn
    obtain ⟨⟨s', r⟩, ⟨σ', I', E, _⟩, cv⟩ := (call w keep_root I ht (op := .move k j) ⟨hn, (I.exists j).2 ⟨_, hjk⟩⟩ (.inl rfl)).conv
    obtain ⟨rfl, x, h', e2, e3⟩ := E
    rw [hjk] at e2; cases e2
    have hkj : j ≠ k := by rintro rfl; exact hn ((I.exists j).2 ⟨_, hjk⟩)
    refine ⟨s', cv, I'.walk (h := hjh) (by rw [e3, upd_same]), I'.walk (h := h') (by rw [e3, upd_ne _ _ (by simpa using hkj), upd_same]), fun i n h1 h2 => ?_⟩
    rw [I.walk_iff, I'.walk_iff, e3, upd_ne _ _ (by simpa using h1), upd_ne _ _ (by simpa using h2)]
  · intro k hx
    obtain ⟨⟨s', r⟩, ⟨σ', I', E, _⟩, cv⟩ := (call w keep_root I ht (op := .assignMove k j) ⟨hx, (I.exists j).2 ⟨_, hjk⟩⟩ (.inl rfl)).conv
    obtain ⟨rfl, x, h', e2, e3⟩ := E
    rw [hjk] at e2; cases e2
    refine ⟨s', cv, I'.walk (h := hjh) (by rw [e3, upd_same]), fun hkj => I'.walk (h := h') (by rw [e3, upd_ne _ _ (by simpa using hkj.symm), upd_same]), fun i n h1 h2 => ?_⟩
    rw [I.walk_iff, I'.walk_iff, e3, upd_ne _ _ (by simpa using h1), upd_ne _ _ (by simpa using h2)]

/-- Moving and swapping in the code: the nodes stay. -/
example : (do
    let (s, _) ← run (fun a b : Nat => decide (a < b)) false 40 St.init [.make 0, .insertAll 0 [3, 1, 2], .move 1 0, .insert 0 7, .swap 0 1, .assignMove 1 1]
    let a ← walk 40 s (.user 0)
    let b ← walk 40 s (.user 1)
    .ok (a, b)) = (.ok ([(2, 1), (3, 2), (1, 3)], [(5, 7)]) : Res (List (Nat × Nat) × List (Nat × Nat))) := by
  rfl

example : ∃ (s : St Nat) (l : List (Nat × Nat)), Reach (fun a b : Nat => decide (a < b)) true true s ∧ Walk s 0 l ∧ Exists s 0 ∧ l.map (·.2) = [1, 2, 3] := three true

/-- C73. Copy construction and copy assignment give the set the same values in new nodes and leave
the source and all other sets as they are; construction and assignment from a list of values give
exactly what inserting them one by one into an empty set gives. -/
theorem C73_copies (w : Swo lt) (hr : Reach lt multi true s) :
    (∀ k j m, Walk s j m → ¬ Exists s k → ∃ s' l, Conv (fun f => step lt multi f s (.copy k j)) (s', .unit) ∧ Walk s' k l ∧ l.map (·.2) = m.map (·.2) ∧
      (∀ a ∈ l.map (·.1), a ∉ m.map (·.1)) ∧ ∀ i n, i ≠ k → (Walk s i n ↔ Walk s' i n)) ∧
    (∀ k j m, Walk s j m → Exists s k → ∃ s' l, Conv (fun f => step lt multi f s (.assignCopy k j)) (s', .unit) ∧ Walk s' k l ∧ l.map (·.2) = m.map (·.2) ∧
      (k ≠ j → ∀ a ∈ l.map (·.1), a ∉ m.map (·.1)) ∧ ∀ i n, i ≠ k → (Walk s i n ↔ Walk s' i n)) ∧
    (∀ k vs, ¬ Exists s k → ∃ s' l, Conv (fun f => step lt multi f s (.initList k vs)) (s', .unit) ∧ Walk s' k l ∧
      (∃ s0 rs l0, Conv (fun f => run lt multi f St.init (.make 0 :: vs.map (.insert 0))) (s0, rs) ∧ Walk s0 0 l0 ∧ l.map (·.2) = l0.map (·.2)) ∧
      ∀ i n, i ≠ k → (Walk s i n ↔ Walk s' i n)) ∧
    (∀ k vs, Exists s k → ∃ s' l, Conv (fun f => step lt multi f s (.assignList k vs)) (s', .unit) ∧ Walk s' k l ∧
      (∃ s0 rs l0, Conv (fun f => run lt multi f St.init (.make 0 :: vs.map (.insert 0))) (s0, rs) ∧ Walk s0 0 l0 ∧ l.map (·.2) = l0.map (·.2)) ∧
      ∀ i n, i ≠ k → (Walk s i n ↔ Walk s' i n)) := by
  obtain ⟨σ, I, ht⟩ := hr.state w
  have hist : ∀ vs : List α, ∃ s0 rs l0, Conv (fun f => run lt multi f St.init (.make 0 :: vs.map (.insert 0))) (s0, rs) ∧ Walk s0 0 l0 ∧ l0.map (·.2) = vs.foldl (insV lt multi) [] := by
    intro vs
    obtain ⟨s0, σ0, h0, l0, rs0, cv0, _, I0, _, hk0, e0⟩ := history w multi true vs (.inl rfl)
    exact ⟨s0, rs0, l0, cv0, I0.walk hk0, e0⟩
  refine ⟨?_, ?_, ?_, ?_⟩
  · intro k j m hj hn
    obtain ⟨hjh, hjk⟩ := I.of_walk hj
    obtain ⟨⟨s', r⟩, ⟨σ', I', E, _⟩, cv⟩ := (call w keep_root I ht (op := .copy k j) ⟨hn, (I.exists j).2 ⟨_, hjk⟩⟩ (.inl rfl)).conv
    obtain ⟨rfl, h1, l1, h, l, e1, e2, e3⟩ := E
    rw [hjk] at e1; cases e1
    have hkj : j ≠ k := by rintro rfl; exact hn ((I.exists j).2 ⟨_, hjk⟩)
    refine ⟨s', l, cv, I'.walk (h := h) (by rw [e2, upd_same]), e3, ?_, fun i n h1 => I.others I' e2 h1⟩
    intro a ha hb
    have := I'.disj (.user k) (.user j) a (by rw [e2, upd_same, own_some]; exact .inr ha) (by rw [e2, upd_ne _ _ (by simpa using hkj), hjk, own_some]; exact .inr hb)
    exact hkj (by simpa using this.symm)
  · intro k j m hj hx
    obtain ⟨hjh, hjk⟩ := I.of_walk hj
    obtain ⟨⟨s', r⟩, ⟨σ', I', E, _⟩, cv⟩ := (call w keep_root I ht (op := .assignCopy k j) ⟨hx, (I.exists j).2 ⟨_, hjk⟩⟩ (.inl rfl)).conv
    obtain ⟨rfl, h1, l1, h, l, e1, e2, e3⟩ := E
    rw [hjk] at e1; cases e1
    refine ⟨s', l, cv, I'.walk (h := h) (by rw [e2, upd_same]), e3, ?_, fun i n h1 => I.others I' e2 h1⟩
    intro hkj a ha hb
    have := I'.disj (.user k) (.user j) a (by rw [e2, upd_same, own_some]; exact .inr ha) (by rw [e2, upd_ne _ _ (by simpa using hkj.symm), hjk, own_some]; exact .inr hb)
    exact hkj (by simpa using this)
  · intro k vs hn
    obtain ⟨⟨s', r⟩, ⟨σ', I', E, _⟩, cv⟩ := (call w keep_root I ht (op := .initList k vs) hn (.inl rfl)).conv
    obtain ⟨rfl, h, l, e2, e3⟩ := E
    obtain ⟨s0, rs0, l0, cv0, hw0, e0⟩ := hist vs
    exact ⟨s', l, cv, I'.walk (h := h) (by rw [e2, upd_same]), ⟨s0, rs0, l0, cv0, hw0, by rw [e3, e0]⟩, fun i n h1 => I.others I' e2 h1⟩
  · intro k vs hx
    obtain ⟨⟨s', r⟩, ⟨σ', I', E, _⟩, cv⟩ := (call w keep_root I ht (op := .assignList k vs) hx (.inl rfl)).conv
    obtain ⟨rfl, h, l, e2, e3⟩ := E
    obtain ⟨s0, rs0, l0, cv0, hw0, e0⟩ := hist vs
    exact ⟨s', l, cv, I'.walk (h := h) (by rw [e2, upd_same]), ⟨s0, rs0, l0, cv0, hw0, by rw [e3, e0]⟩, fun i n h1 => I.others I' e2 h1⟩

/-- Copies in the code. -/
example : (do
    let (s, _) ← run (fun a b : Nat => decide (a < b)) false 40 St.init [.initList 0 [3, 1, 2, 3], .copy 1 0, .insert 0 9, .make 2, .assignCopy 2 0, .assignCopy 2 2, .assignList 1 [5, 4]]
    let a ← walk 40 s (.user 0)
    let b ← walk 40 s (.user 1)
    let c ← walk 40 s (.user 2)
    .ok (a.map (·.2), b.map (·.2), c.map (·.2))) = (.ok ([1, 2, 3, 9], [4, 5], [1, 2, 3, 9]) : Res (List Nat × List Nat × List Nat)) := by
  rfl

example : ∃ (s : St Nat) (l : List (Nat × Nat)), Reach (fun a b : Nat => decide (a < b)) false true s ∧ Walk s 0 l ∧ Exists s 0 ∧ l.map (·.2) = [1, 2, 3] := three false

end Verif.Rb
