import Verif.Lemmas.RbAttach

/-! The public operations of the trees, for a program with any number of trees. -/

set_option backward.isDefEq.respectTransparency false

namespace Verif.Rb
open Verif
open Verif.Box (Slot upd upd_same upd_ne)

variable {α : Type}

/-- What the trees hold: for each the address of its end and the elements with their addresses. -/
structure Sp (α : Type) where
  tree : Slot → Option (Nat × List (Nat × α))
  next : Nat

/-- The addresses that belong to a tree. -/
def own (o : Option (Nat × List (Nat × α))) (a : Nat) : Prop := ∃ x, o = some x ∧ (a = x.1 ∨ a ∈ x.2.map (·.1))

def Sp.live (σ : Sp α) (a : Nat) : Prop := ∃ k, own (σ.tree k) a

/-- The order of the elements: for sets each less than the later ones, for multisets none less than
an earlier one. -/
def Ord (lt : α → α → Bool) (multi : Bool) (l : List (Nat × α)) : Prop :=
  l.Pairwise fun x y => lt y.2 x.2 = false ∧ (multi = false → lt x.2 y.2 = true)

theorem Ord.sorted {lt : α → α → Bool} {multi : Bool} {l : List (Nat × α)} (h : Ord lt multi l) : Sorted lt l :=
  List.Pairwise.imp (fun h => h.1) h

/-- A property of trees that insertion and removal keep; without `b` only appending, and removal
ends. -/
structure Keep (b : Bool) (P : T α → Prop) : Prop where
  nil : P .nil
  black : ∀ t, P t → t.red = false
  ins : ∀ c n v, P (plug c .nil) → (b = true ∨ cr c = []) → P (insFix c (.node .nil .red n v .nil)).blacken
  del : ∀ c L zc z zv R yc p X, P (plug c (.node L zc z zv R)) → Unl c L zc R yc p X →
    (b = true ∧ delT yc p X = none) ∨ ∃ t', delT yc p X = some t' ∧ P t'

structure Inv (lt : α → α → Bool) (multi : Bool) (P : T α → Prop) (s : St α) (σ : Sp α) : Prop where
  next : s.next = σ.next
  slot : ∀ k, s.tree k = (σ.tree k).map fun x => (x.1, x.2.length)
  rep : ∀ k x, σ.tree k = some x → ∃ t, Tr s x.1 t ∧ t.inl = x.2 ∧ P t
  disj : ∀ k j a, own (σ.tree k) a → own (σ.tree j) a → k = j
  below : ∀ a, σ.live a → a < σ.next
  heap : ∀ a, s.heap a ≠ none → σ.live a
  nodup : s.freed.Nodup
  mem : ∀ a, a ∈ s.freed ↔ a < σ.next ∧ ¬ σ.live a
  ord : ∀ k x, σ.tree k = some x → Ord lt multi x.2

theorem Tr.congr {s s' : St α} {h : Nat} {t : T α} (i : Tr s h t) (e : ∀ a, a = h ∨ a ∈ t.addrs → s'.heap a = s.heap a) : Tr s' h t := by
  have i : In s _ s h _ _ t := i
  exact ⟨by rw [e h (.inl rfl)]; exact i.hdr, T.rep_congr i.rep fun a ha => e a (.inr ha), i.nodup, i.nh, .inl rfl, fun a ha => .inr ha, fun _ _ => rfl, rfl⟩

theorem In.toTr {E s : St α} {A : Nat → Prop} {h : Nat} {t : T α} (i : In E A s h (some (beg h t.inl)) (some (lst h t.inl)) t) : Tr s h t := i.reset

theorem Tr.own {s : St α} {h : Nat} {t : T α} {a : Nat} : own (some (h, t.inl)) a ↔ a = h ∨ a ∈ t.addrs := by
  rw [T.addrs_eq]
  constructor
  · rintro ⟨x, e, h⟩; cases e; exact h
  · intro h; exact ⟨_, rfl, h⟩

theorem own_some {x : Nat × List (Nat × α)} {a : Nat} : own (some x) a ↔ a = x.1 ∨ a ∈ x.2.map (·.1) := by
  constructor
  · rintro ⟨x, e, h⟩; cases e; exact h
  · intro h; exact ⟨_, rfl, h⟩

theorem own_none {a : Nat} : ¬ own (none : Option (Nat × List (Nat × α))) a := by
  rintro ⟨x, e, _⟩; cases e

section
variable {lt : α → α → Bool} {multi : Bool} {P : T α → Prop} {s : St α} {σ : Sp α}

theorem Inv.init : Inv lt multi P (St.init : St α) ⟨fun _ => none, 0⟩ := by
  have hl : ∀ a, ¬ Sp.live (⟨fun _ => none, 0⟩ : Sp α) a := by
    rintro a ⟨k, h⟩; exact own_none h
  refine ⟨rfl, fun _ => rfl, fun k x h => ?_, fun k j a h => ?_, fun a h => ?_, fun a h => ?_, ?_, fun a => ?_, fun k x h => ?_⟩
  · cases h
  · exact absurd h own_none
  · exact absurd h (hl a)
  · exact absurd rfl h
  · exact List.nodup_nil
  · simp [St.init]
  · cases h

/-- One tree changes. -/
theorem Inv.update (I : Inv lt multi P s σ) {k : Slot} {o' : Option (Nat × List (Nat × α))} {n' : Nat} {s' : St α}
    (hle : σ.next ≤ n') (hnext : s'.next = n')
    (hslot : s'.tree = upd s.tree k (o'.map fun x => (x.1, x.2.length)))
    (hrep : ∀ x, o' = some x → ∃ t, Tr s' x.1 t ∧ t.inl = x.2 ∧ P t)
    (hord : ∀ x, o' = some x → Ord lt multi x.2)
    (hnew : ∀ a, own o' a → own (σ.tree k) a ∨ (σ.next ≤ a ∧ a < n'))
    (hoff : ∀ a, ¬ own (σ.tree k) a → a < σ.next → s'.heap a = s.heap a)
    (hheap : ∀ a, s'.heap a ≠ none → own (σ.tree k) a ∨ σ.next ≤ a → own o' a)
    (hfreed : s'.freed.Nodup)
    (hmem : ∀ a, a ∈ s'.freed ↔ a ∈ s.freed ∨ ((own (σ.tree k) a ∨ (σ.next ≤ a ∧ a < n')) ∧ ¬ own o' a)) :
    Inv lt multi P s' ⟨upd σ.tree k o', n'⟩ := by
  have hbelow : ∀ j a, own (σ.tree j) a → a < σ.next := fun j a h => I.below a ⟨j, h⟩
  have hlive : ∀ a, Sp.live ⟨upd σ.tree k o', n'⟩ a ↔ own o' a ∨ ∃ j, j ≠ k ∧ own (σ.tree j) a := by
    intro a
    constructor
    · rintro ⟨j, h⟩
      by_cases hj : j = k
      · subst hj; rw [show Sp.tree ⟨upd σ.tree j o', n'⟩ j = o' from upd_same _ _ _] at h; exact .inl h
      · rw [show Sp.tree ⟨upd σ.tree k o', n'⟩ j = σ.tree j from upd_ne _ _ hj] at h; exact .inr ⟨j, hj, h⟩
    · rintro (h | ⟨j, hj, h⟩)
      · exact ⟨k, by rw [show Sp.tree ⟨upd σ.tree k o', n'⟩ k = o' from upd_same _ _ _]; exact h⟩
      · exact ⟨j, by rw [show Sp.tree ⟨upd σ.tree k o', n'⟩ j = σ.tree j from upd_ne _ _ hj]; exact h⟩
  have hcross : ∀ j a, j ≠ k → own (σ.tree j) a → ¬ own o' a := by
    intro j a hj h1 h2
    rcases hnew a h2 with h3 | h3
    · exact hj (I.disj j k a h1 h3)
    · have := hbelow j a h1; omega
  refine ⟨hnext, ?_, ?_, ?_, ?_, ?_, hfreed, ?_, ?_⟩
  · intro j
    rw [hslot]
    by_cases hj : j = k
    · subst hj; rw [upd_same]; show _ = Option.map _ (upd _ _ _ _); rw [upd_same]
    · rw [upd_ne _ _ hj]; show _ = Option.map _ (upd _ _ _ _); rw [upd_ne _ _ hj]; exact I.slot j
  · intro j x h
    by_cases hj : j = k
    · subst hj; rw [show Sp.tree ⟨upd σ.tree j o', n'⟩ j = o' from upd_same _ _ _] at h; exact hrep x h
    · rw [show Sp.tree ⟨upd σ.tree k o', n'⟩ j = σ.tree j from upd_ne _ _ hj] at h
      obtain ⟨t, h1, h2, h3⟩ := I.rep j x h
      refine ⟨t, h1.congr fun a ha => ?_, h2, h3⟩
      have hown : own (σ.tree j) a := ⟨x, h, by rw [T.addrs_eq, h2] at ha; exact ha⟩
      exact hoff a (fun ho => hj (I.disj j k a hown ho)) (hbelow j a hown)
  · intro j i a h1 h2
    have h1' : (j = k ∧ own o' a) ∨ (j ≠ k ∧ own (σ.tree j) a) := by
      by_cases hj : j = k
      · subst hj; rw [show Sp.tree ⟨upd σ.tree j o', n'⟩ j = o' from upd_same _ _ _] at h1; exact .inl ⟨rfl, h1⟩
      · rw [show Sp.tree ⟨upd σ.tree k o', n'⟩ j = σ.tree j from upd_ne _ _ hj] at h1; exact .inr ⟨hj, h1⟩
    have h2' : (i = k ∧ own o' a) ∨ (i ≠ k ∧ own (σ.tree i) a) := by
      by_cases hj : i = k
      · subst hj; rw [show Sp.tree ⟨upd σ.tree i o', n'⟩ i = o' from upd_same _ _ _] at h2; exact .inl ⟨rfl, h2⟩
      · rw [show Sp.tree ⟨upd σ.tree k o', n'⟩ i = σ.tree i from upd_ne _ _ hj] at h2; exact .inr ⟨hj, h2⟩
    rcases h1' with ⟨e1, g1⟩ | ⟨e1, g1⟩ <;> rcases h2' with ⟨e2, g2⟩ | ⟨e2, g2⟩
    · rw [e1, e2]
    · exact absurd g1 (hcross i a e2 g2)
    · exact absurd g2 (hcross j a e1 g1)
    · exact I.disj j i a g1 g2
  · intro a ha
    show a < n'
    rcases (hlive a).1 ha with h | ⟨j, _, h⟩
    · rcases hnew a h with h | h
      · have := hbelow k a h; omega
      · exact h.2
    · have := hbelow j a h; omega
  · intro a ha
    rw [hlive]
    by_cases ho : own (σ.tree k) a ∨ σ.next ≤ a
    · exact .inl (hheap a ha ho)
    · have h1 : ¬ own (σ.tree k) a := fun h => ho (.inl h)
      have h2 : a < σ.next := by have : ¬ σ.next ≤ a := fun h => ho (.inr h); omega
      rw [hoff a h1 h2] at ha
      obtain ⟨j, hj⟩ := I.heap a ha
      exact .inr ⟨j, fun e => h1 (e ▸ hj), hj⟩
  · intro a
    rw [hmem, I.mem, hlive]
    constructor
    · rintro (⟨h1, h2⟩ | ⟨h1, h2⟩)
      · refine ⟨by show a < n'; omega, ?_⟩
        rintro (h3 | ⟨j, _, h3⟩)
        · rcases hnew a h3 with h4 | h4
          · exact h2 ⟨k, h4⟩
          · omega
        · exact h2 ⟨j, h3⟩
      · refine ⟨?_, ?_⟩
        · show a < n'
          rcases h1 with h1 | h1
          · have := hbelow k a h1; omega
          · exact h1.2
        · rintro (h3 | ⟨j, hj, h3⟩)
          · exact h2 h3
          · rcases h1 with h1 | h1
            · exact hj (I.disj j k a h3 h1)
            · have := hbelow j a h3; omega
    · rintro ⟨h1, h2⟩
      have h1 : a < n' := h1
      have h3 : ¬ own o' a := fun h => h2 (.inl h)
      by_cases hk : own (σ.tree k) a
      · exact .inr ⟨.inl hk, h3⟩
      · by_cases hn : σ.next ≤ a
        · exact .inr ⟨.inr ⟨hn, h1⟩, h3⟩
        · refine .inl ⟨by omega, ?_⟩
          rintro ⟨j, hj⟩
          exact h2 (.inr ⟨j, fun e => hk (e ▸ hj), hj⟩)
  · intro j x h
    by_cases hj : j = k
    · subst hj; rw [show Sp.tree ⟨upd σ.tree j o', n'⟩ j = o' from upd_same _ _ _] at h; exact hord x h
    · rw [show Sp.tree ⟨upd σ.tree k o', n'⟩ j = σ.tree j from upd_ne _ _ hj] at h; exact I.ord j x h

theorem Inv.get (I : Inv lt multi P s σ) {k : Slot} {x : Nat × List (Nat × α)} (hk : σ.tree k = some x) : getT s k = .ok (x.1, x.2.length) := by
  simp only [getT, I.slot k, hk, Option.map_some]

theorem Inv.fresh (I : Inv lt multi P s σ) {k : Slot} : ¬ own (σ.tree k) σ.next := by
  intro h; have := I.below _ ⟨k, h⟩; omega

theorem Inv.fresh_heap (I : Inv lt multi P s σ) {a : Nat} (h : σ.next ≤ a) : s.heap a = none := by
  cases e : s.heap a with
  | none => rfl
  | some r => have := I.below a (I.heap a (by rw [e]; simp)); omega

theorem Inv.fresh_freed (I : Inv lt multi P s σ) : σ.next ∉ s.freed := by
  intro h; have := (I.mem _).1 h; omega

/-- The default constructor. -/
theorem make_ok (I : Inv lt multi P s σ) {b : Bool} (K : Keep b P) {k : Slot} (hk : σ.tree k = none) :
    ∃ s', make s k = .ok s' ∧ Inv lt multi P s' ⟨upd σ.tree k (some (σ.next, [])), σ.next + 1⟩ := by
  have h1 : s.tree k = none := by rw [I.slot k, hk]; rfl
  refine ⟨_, by simp only [make, h1]; rfl, ?_⟩
  have hn := I.next
  refine I.update (by omega) ?_ ?_ ?_ ?_ ?_ ?_ ?_ ?_ ?_
  · show s.next + 1 = _; rw [hn]
  · show upd s.tree k _ = _; rw [hn]; rfl
  · intro x hx
    cases hx
    refine ⟨.nil, ?_, rfl, K.nil⟩
    refine ⟨?_, trivial, List.nodup_nil, by simp [T.addrs], .inl rfl, fun a ha => .inr ha, fun _ _ => rfl, rfl⟩
    show upd s.heap s.next _ σ.next = _
    rw [hn, upd_same]; rfl
  · intro x hx; cases hx; exact .nil
  · intro a ha
    rw [own_some] at ha
    simp at ha
    right; omega
  · intro a _ ha
    show upd s.heap s.next _ a = _
    rw [upd_ne _ _ (by omega)]
  · intro a ha ho
    rw [own_some]
    left
    by_cases hq : a = σ.next
    · exact hq
    · exfalso
      apply ha
      show upd s.heap s.next _ a = _
      rw [upd_ne _ _ (by omega)]
      rcases ho with ho | ho
      · rw [hk] at ho; exact absurd ho own_none
      · exact I.fresh_heap ho
  · exact I.nodup
  · intro a
    constructor
    · exact fun h => .inl h
    · rintro (h | ⟨h1 | h1, h2⟩)
      · exact h
      · rw [hk] at h1; exact absurd h1 own_none
      · exact absurd (own_some.2 (.inl (by show a = σ.next; omega))) h2

/-- The state after `create_node`. -/
theorem Inv.create (I : Inv lt multi P s σ) {k : Slot} {x : Nat × List (Nat × α)} {t : T α} (hk : σ.tree k = some x) (ht : t.inl = x.2)
    (i : Tr s x.1 t) (v : α) : Tr (createNode s v).1 x.1 t ∧ σ.next ∉ t.addrs ∧ σ.next ≠ x.1 := by
  have h0 := I.fresh (k := k)
  rw [hk, own_some] at h0
  have h1 : σ.next ∉ t.addrs := by rw [T.addrs_eq, ht]; exact fun h => h0 (.inr h)
  have h2 : σ.next ≠ x.1 := fun e => h0 (.inl e)
  refine ⟨i.congr fun a ha => ?_, h1, h2⟩
  show upd s.heap s.next _ a = _
  rw [I.next]
  apply upd_ne
  rintro rfl
  rcases ha with ha | ha
  · exact h2 ha
  · exact h1 ha

theorem Ord.ins (w : Swo lt) {xs ys : List (Nat × α)} {n : Nat} {v : α} (h : Ord lt multi (xs ++ ys)) (h1 : ∀ x ∈ xs, lt v x.2 = false)
    (h2 : ∀ y ∈ ys, lt v y.2 = true) (h3 : multi = false → ∀ x ∈ xs, lt x.2 v = true) : Ord lt multi (xs ++ (n, v) :: ys) := by
  simp only [Ord, List.pairwise_append, List.pairwise_cons, List.mem_cons] at h ⊢
  refine ⟨h.1, ⟨fun y hy => ⟨w.asymm _ _ (h2 y hy), fun _ => h2 y hy⟩, h.2.1⟩, ?_⟩
  rintro x hx y (rfl | hy)
  · exact ⟨h1 x hx, fun e => h3 e x hx⟩
  · exact h.2.2 x hx y hy

/-- `insert_node_at` at the end of a path. -/
theorem insertAt_ok (I : Inv lt multi P s σ) {k : Slot} {h : Nat} {l : List (Nat × α)} (hk : σ.tree k = some (h, l)) {c : List (Fr α)} {v : α}
    (i : Tr s h (plug c .nil)) (ht : (plug c .nil).inl = l) (hr : (plug c (.nil : T α)).red = false) (hP : P (insFix c (.node .nil .red σ.next v .nil)).blacken)
    (ho : Ord lt multi (cl c ++ (σ.next, v) :: cr c)) :
    ∃ s', Conv (fun f => insertNodeAt f (createNode s v).1 k (cpar (some h) c) (some σ.next) (onL c)) (s', some σ.next) ∧
      Inv lt multi P s' ⟨upd σ.tree k (some (h, cl c ++ (σ.next, v) :: cr c)), σ.next + 1⟩ ∧
      Tr s' h (insFix c (.node .nil .red σ.next v .nil)).blacken := by
  obtain ⟨i1, hf, hnh⟩ := I.create hk ht i v
  have hn := I.next
  have hnode : (createNode s v).1.heap σ.next = some ⟨.red, none, none, none, some v⟩ := by
    show upd s.heap s.next _ σ.next = _
    rw [hn, upd_same]
  obtain ⟨s2, e2, i2⟩ := attach_ok (v := v) i1 hnode hf hnh
  obtain ⟨s3, i3, cv⟩ := insertRebalance_ok i2 (topBlack_of hr)
  have hil : ((insFix c (.node .nil .red σ.next v .nil)).blacken).inl = cl c ++ (σ.next, v) :: cr c := by
    rw [T.inl_blacken, insFix_inl _ _ (by simp)]; simp [T.inl]
  have hget : getT (createNode s v).1 k = .ok (h, l.length) := I.get hk
  have hs3 : s3.tree = s.tree := by rw [i3.same]; rfl
  have hget3 : getT s3 k = .ok (h, l.length) := by
    unfold getT; rw [hs3]; exact I.get hk
  have hlen : l.length + 1 = (cl c ++ (σ.next, v) :: cr c).length := by
    rw [← ht, inl_plug]; simp [T.inl]; omega
  have i4 : Tr s3 h (insFix c (.node .nil .red σ.next v .nil)).blacken := by
    rw [← hil] at i3; exact i3.toTr
  refine ⟨{ s3 with tree := upd s3.tree k (some (h, l.length + 1)) }, ?_, ?_, i4.congr fun _ _ => rfl⟩
  · refine (Conv.bind cv (h := fun _ s => setCount s k (l.length + 1) >>= fun s => .ok (s, some σ.next)) (Conv.const ?_)).congr fun f => ?_
    · simp only [setCount, hget3, Res.ok_bind]
    · rw [insertNodeAt_eq, hget, Res.ok_bind]
      simp only
      rw [e2, Res.ok_bind]
  · refine I.update (by omega) ?_ ?_ ?_ ?_ ?_ ?_ ?_ ?_ ?_
    · show s3.next = _; rw [i3.same]; show s.next + 1 = _; rw [hn]
    · show upd s3.tree k _ = _; rw [hs3, hlen]; rfl
    · intro x hx
      cases hx
      exact ⟨_, i4.congr fun _ _ => rfl, hil, hP⟩
    · intro x hx; cases hx; exact ho
    · intro a ha
      rw [hk, own_some, ← ht, inl_plug]
      rw [own_some] at ha
      simp only [List.map_append, List.map_cons, List.mem_append, List.mem_cons, T.inl, List.append_nil] at ha ⊢
      rcases ha with ha | ha | ha | ha
      · exact .inl (.inl ha)
      · exact .inl (.inr (.inl ha))
      · right; omega
      · exact .inl (.inr (.inr ha))
    · intro a h1 h2
      show s3.heap a = _
      rw [i3.off a ?_]
      · show upd s.heap s.next _ a = _
        exact upd_ne _ _ (by omega)
      · rw [hk, own_some, ← ht, ← T.addrs_eq] at h1
        rintro (h3 | h3 | h3)
        · exact h1 (.inl h3)
        · omega
        · exact h1 (.inr h3)
    · intro a h1 h2
      by_cases hA : own (some (h, cl c ++ (σ.next, v) :: cr c)) a
      · exact hA
      · exfalso
        apply h1
        show s3.heap a = none
        rw [own_some] at hA
        have hni : a ≠ h ∧ a ≠ σ.next ∧ a ∉ (plug c (.nil : T α)).addrs := by
          refine ⟨fun e => hA (.inl e), fun e => hA (.inr (by simp [e])), fun e => hA (.inr ?_)⟩
          rw [T.addrs_eq, inl_plug] at e
          simp only [List.map_append, List.map_cons, List.mem_append, List.mem_cons, T.inl, List.append_nil] at e ⊢
          rcases e with e | e
          · exact .inl e
          · exact .inr (.inr e)
        rw [i3.off a (by rintro (h3 | h3 | h3); exact hni.1 h3; exact hni.2.1 h3; exact hni.2.2 h3)]
        show upd s.heap s.next _ a = _
        rw [hn, upd_ne _ _ hni.2.1]
        rcases h2 with h2 | h2
        · rw [hk, own_some, ← ht, ← T.addrs_eq] at h2
          rcases h2 with h2 | h2
          · exact absurd h2 hni.1
          · exact absurd h2 hni.2.2
        · exact I.fresh_heap h2
    · show s3.freed.Nodup; rw [i3.same]; exact I.nodup
    · intro a
      have : s3.freed = s.freed := by rw [i3.same]; rfl
      show a ∈ s3.freed ↔ _
      rw [this]
      constructor
      · exact fun h => .inl h
      · rintro (h1 | ⟨h1, h2⟩)
        · exact h1
        · exfalso
          apply h2
          rw [own_some]
          rcases h1 with h1 | h1
          · rw [hk, own_some, ← ht, inl_plug] at h1
            simp only [List.map_append, List.map_cons, List.mem_append, List.mem_cons, T.inl, List.append_nil] at h1 ⊢
            rcases h1 with h1 | h1 | h1
            · exact .inl h1
            · exact .inr (.inl h1)
            · exact .inr (.inr (.inr h1))
          · right; simp; omega

/-- `erase(iterator)`. -/
theorem erase_ok (I : Inv lt multi P s σ) {b : Bool} (K : Keep b P) {k : Slot} {h : Nat} {xs ys : List (Nat × α)} {a : Nat} {v : α}
    (hk : σ.tree k = some (h, xs ++ (a, v) :: ys)) :
    Out b (fun f => erase f s k (some a)) fun r => r.2 = some (beg h ys) ∧ Inv lt multi P r.1 ⟨upd σ.tree k (some (h, xs ++ ys)), σ.next⟩ := by
  obtain ⟨t, i, ht, hP⟩ := I.rep k _ hk
  have i : Tr s h t := i
  have ht : t.inl = xs ++ (a, v) :: ys := ht
  have hinc := increment_ok i ht
  obtain ⟨c, L, zc, R, rfl, hxs, hys⟩ := focus t ht
  have hget := I.get hk
  have unf : ∀ f, erase f s k (some a) = increment f s (some a) >>= fun next =>
      eraseRebalance f s (some a) h >>= fun s => destroyNode s (some a) >>= fun s => setCount s k ((xs ++ (a, v) :: ys).length - 1) >>= fun s => .ok (s, next) := by
    intro f
    unfold erase
    rw [hget]; rfl
  obtain ⟨yc, p, X, u, hres⟩ := eraseRebalance_ok i
  rcases hres with ⟨t', ht', s', i', ⟨r, hz, hzv⟩, cv⟩ | ⟨hnone, dv⟩
  · have hPt' : P t' := by
      rcases K.del _ _ _ _ _ _ _ _ _ hP u with ⟨_, h1⟩ | ⟨t2, h1, h2⟩
      · rw [h1] at ht'; cases ht'
      · rw [ht'] at h1; injection h1 with h1; rw [h1]; exact h2
    have hil : t'.inl = xs ++ ys := by
      rw [delT_inl ht', ← inl_plug, u.inl, ← hxs, ← hys]; simp
    have hdes : destroyNode s' (some a) = .ok { s' with heap := upd s'.heap a none, freed := a :: s'.freed } := by
      obtain ⟨r1, r2, r3, r4, r5⟩ := r
      cases hzv
      simp only [destroyNode, hz]
    have hs' : s'.tree = s.tree := by rw [i'.same]
    have hfr : s'.freed = s.freed := by rw [i'.same]
    have hnx : s'.next = s.next := by rw [i'.same]
    have hkeys := In.keys i
    rw [ht] at hkeys
    simp only [List.map_append, List.map_cons, List.nodup_append, List.nodup_cons, List.mem_append, List.mem_cons, List.mem_map] at hkeys
    have hnown : ¬ own (some (h, xs ++ ys)) a := by
      rw [own_some]
      simp only [List.map_append, List.mem_append, List.mem_map]
      grind
    have hown : ∀ c, own (some (h, xs ++ (a, v) :: ys)) c ↔ c = a ∨ own (some (h, xs ++ ys)) c := by
      intro c
      rw [own_some, own_some]
      simp only [List.map_append, List.map_cons, List.mem_append, List.mem_cons]
      grind
    have halive : own (σ.tree k) a := by rw [hk, hown]; exact .inl rfl
    refine Out.of (a := ({ s' with heap := upd s'.heap a none, freed := a :: s'.freed, tree := upd s'.tree k (some (h, (xs ++ ys).length)) }, some (beg h ys))) ⟨rfl, ?_⟩ ?_
    · refine I.update (by omega) ?_ ?_ ?_ ?_ ?_ ?_ ?_ ?_ ?_
      · show s'.next = _; rw [hnx]; exact I.next
      · show upd s'.tree k _ = _; rw [hs']; rfl
      · intro x hx
        cases hx
        refine ⟨t', i'.toTr.congr fun c hc => ?_, hil, hPt'⟩
        refine upd_ne _ _ ?_
        rintro rfl
        apply hnown
        rw [own_some, ← hil, ← T.addrs_eq]; exact hc
      · intro x hx
        cases hx
        have := I.ord k _ hk
        simp only [Ord, List.pairwise_append, List.pairwise_cons, List.mem_cons] at this ⊢
        exact ⟨this.1, this.2.1.2, fun x hx y hy => this.2.2 x hx y (.inr hy)⟩
      · intro c hc; left; rw [hk, hown]; exact .inr hc
      · intro c h1 h2
        have hca : c ≠ a := fun e => h1 (e ▸ halive)
        show upd s'.heap a none c = _
        rw [upd_ne _ _ hca]
        refine i'.off c fun h3 => h1 ?_
        rw [hk, ← ht, own_some, ← T.addrs_eq]; exact h3
      · intro c h1 h2
        have hca : c ≠ a := by
          rintro rfl; apply h1; exact upd_same _ _ _
        rcases h2 with h2 | h2
        · rw [hk, hown] at h2; exact h2.resolve_left hca
        · exfalso; apply h1
          show upd s'.heap a none c = none
          rw [upd_ne _ _ hca, i'.off c ?_]
          · exact I.fresh_heap h2
          · intro h3
            have : own (σ.tree k) c := by rw [hk, ← ht, own_some, ← T.addrs_eq]; exact h3
            have := I.below c ⟨k, this⟩; omega
      · show (a :: s'.freed).Nodup
        rw [hfr, List.nodup_cons]
        exact ⟨fun h1 => ((I.mem a).1 h1).2 ⟨k, halive⟩, I.nodup⟩
      · intro c
        show c ∈ a :: s'.freed ↔ _
        rw [hfr, List.mem_cons, hk, hown]
        constructor
        · rintro (rfl | h1)
          · exact .inr ⟨.inl (.inl rfl), hnown⟩
          · exact .inl h1
        · rintro (h1 | ⟨(h1 | h1) | h1, h2⟩)
          · exact .inr h1
          · exact .inl h1
          · exact absurd h1 h2
          · omega
    · refine (hinc.bind (h := fun f next => eraseRebalance f s (some a) h >>= fun s => destroyNode s (some a) >>= fun s =>
          setCount s k ((xs ++ (a, v) :: ys).length - 1) >>= fun s => .ok (s, next)) ?_).congr unf
      refine cv.bind (h := fun _ s => destroyNode s (some a) >>= fun s => setCount s k ((xs ++ (a, v) :: ys).length - 1) >>= fun s => .ok (s, some (beg h ys))) (Conv.const ?_)
      rw [hdes, Res.ok_bind]
      have : getT ({ s' with heap := upd s'.heap a none, freed := a :: s'.freed } : St α) k = .ok (h, (xs ++ (a, v) :: ys).length) := by
        unfold getT; simp only; rw [hs']; exact hget
      simp only [setCount, this, Res.ok_bind]
      congr 3
      simp
  · right
    have hb : b = true := by
      rcases K.del _ _ _ _ _ _ _ _ _ hP u with ⟨h1, _⟩ | ⟨t2, h1, h2⟩
      · exact h1
      · rw [hnone] at h1; cases h1
    exact ⟨hb, (Div.bind_right (h := fun f next => eraseRebalance f s (some a) h >>= fun s => destroyNode s (some a) >>= fun s =>
          setCount s k ((xs ++ (a, v) :: ys).length - 1) >>= fun s => .ok (s, next)) hinc dv.bind_left).congr unf⟩

/-- `clear`. -/
theorem clear_ok (I : Inv lt multi P s σ) {b : Bool} (K : Keep b P) {k : Slot} {h : Nat} {l : List (Nat × α)} (hk : σ.tree k = some (h, l)) :
    ∃ s', Conv (fun f => clear f s k) s' ∧ Inv lt multi P s' ⟨upd σ.tree k (some (h, [])), σ.next⟩ := by
  obtain ⟨t, i, ht, hP⟩ := I.rep k _ hk
  have i : In s _ s h _ _ t := i
  have ht : t.inl = l := ht
  have hget := I.get hk
  by_cases hl : l.length = 0
  · have hl : l = [] := List.length_eq_zero_iff.1 hl
    refine ⟨s, (Conv.pure s).congr fun f => ?_, ?_⟩
    · unfold clear
      rw [hget, Res.ok_bind]
      simp [hl]
    · rw [← hl, ← hk, Verif.Box.upd_self]; exact I
  · obtain ⟨s1, ls, cv, e1, p1, d1, o1⟩ := eraseSince_ok t s (some h) i.rep i.nodup
    have hdr : s1.heap h = some ⟨.red, some (beg h t.inl), some (lst h t.inl), t.ptr, none⟩ := by rw [o1 h i.nh]; exact i.hdr
    have ht1 : s1.tree = s.tree := by rw [e1]
    have hn1 : s1.next = s.next := by rw [e1]
    have hf1 : s1.freed = ls ++ s.freed := by rw [e1]
    refine ⟨{ s1 with heap := upd s1.heap h (some ⟨.red, some h, some h, none, none⟩), tree := upd s1.tree k (some (h, 0)) }, ?_, ?_⟩
    · refine (cv.bind (h := fun _ s => setLeft s (some h) (some h) >>= fun s => setRight s (some h) (some h) >>= fun s => setParent s (some h) none >>= fun s => setCount s k 0)
        (Conv.const ?_)).congr fun f => ?_
      · have hg : s1.tree k = some (h, l.length) := by
          rw [ht1, I.slot k, hk]; rfl
        simp only [setLeft, setRight, setParent, wr, hdr, Res.ok_bind, upd_same, Verif.Box.upd_upd, setCount, getT, hg]
      · unfold clear
        rw [hget, Res.ok_bind]
        simp only
        rw [if_neg hl, i.root, Res.ok_bind]
    · have hsub : ∀ a, own (σ.tree k) a ↔ a = h ∨ a ∈ t.addrs := by
        intro a; rw [hk, own_some, ← ht, ← T.addrs_eq]
      refine I.update (by omega) ?_ ?_ ?_ ?_ ?_ ?_ ?_ ?_ ?_
      · show s1.next = _; rw [hn1]; exact I.next
      · show upd s1.tree k _ = _; rw [ht1]; rfl
      · intro x hx
        cases hx
        refine ⟨.nil, ?_, rfl, K.nil⟩
        refine ⟨?_, trivial, List.nodup_nil, by simp [T.addrs], .inl rfl, fun a ha => .inr ha, fun _ _ => rfl, rfl⟩
        exact upd_same _ _ _
      · intro x hx; cases hx; exact .nil
      · intro a ha
        left
        rw [own_some] at ha
        rw [hsub]
        simp at ha; exact .inl ha
      · intro a h1 _
        rw [hsub] at h1
        show upd s1.heap h _ a = _
        rw [upd_ne _ _ (fun e => h1 (.inl e)), o1 a (fun e => h1 (.inr e))]
      · intro a h1 h2
        rw [own_some]
        left
        by_cases hah : a = h
        · exact hah
        · exfalso; apply h1
          show upd s1.heap h _ a = _
          rw [upd_ne _ _ hah]
          by_cases hat : a ∈ t.addrs
          · exact d1 a hat
          · rw [o1 a hat]
            rcases h2 with h2 | h2
            · rw [hsub] at h2; exact absurd h2 (by simp [hah, hat])
            · exact I.fresh_heap h2
      · show s1.freed.Nodup
        rw [hf1, List.nodup_append]
        refine ⟨p1.nodup_iff.2 i.nodup, I.nodup, ?_⟩
        rintro a ha b hb rfl
        exact ((I.mem a).1 hb).2 ⟨k, by rw [hsub]; exact .inr (p1.mem_iff.1 ha)⟩
      · intro a
        show a ∈ s1.freed ↔ _
        rw [hf1, List.mem_append, p1.mem_iff, hsub, own_some]
        constructor
        · rintro (h1 | h1)
          · refine .inr ⟨.inl (.inr h1), ?_⟩
            simp only [List.map_nil, List.not_mem_nil, or_false]
            rintro rfl; exact i.nh h1
          · exact .inl h1
        · rintro (h1 | ⟨(h1 | h1) | h1, h2⟩)
          · exact .inr h1
          · exact absurd (.inl h1) h2
          · exact .inl h1
          · omega

/-- The destructor. -/
theorem destroy_ok (I : Inv lt multi P s σ) {b : Bool} (K : Keep b P) {k : Slot} {h : Nat} {l : List (Nat × α)} (hk : σ.tree k = some (h, l)) :
    ∃ s', Conv (fun f => destroy f s k) s' ∧ Inv lt multi P s' ⟨upd σ.tree k none, σ.next⟩ := by
  obtain ⟨s1, cv, I1⟩ := clear_ok I K hk
  have hk1 : (⟨upd σ.tree k (some (h, [])), σ.next⟩ : Sp α).tree k = some (h, []) := upd_same _ _ _
  obtain ⟨t, i, ht, hP⟩ := I1.rep k _ hk1
  have i : In s1 _ s1 h _ _ t := i
  have hget := I1.get hk1
  refine ⟨{ s1 with heap := upd s1.heap h none, freed := h :: s1.freed, tree := upd s1.tree k none }, ?_, ?_⟩
  · refine (cv.bind (h := fun _ s => getT s k >>= fun x => match s.heap x.1 with
      | some _ => .ok { s with heap := upd s.heap x.1 none, freed := x.1 :: s.freed, tree := upd s.tree k none }
      | none => .ub) (Conv.const ?_)).congr fun f => ?_
    · rw [hget, Res.ok_bind]; simp only; rw [i.hdr]
    · rfl
  · have hown : ∀ a, own ((⟨upd σ.tree k (some (h, [])), σ.next⟩ : Sp α).tree k) a ↔ a = h := by
      intro a; rw [hk1, own_some]; simp
    have := I1.update (k := k) (o' := none) (n' := σ.next)
      (s' := { s1 with heap := upd s1.heap h none, freed := h :: s1.freed, tree := upd s1.tree k none }) (Nat.le_refl _) I1.next rfl
      (fun x hx => by cases hx) (fun x hx => by cases hx) (fun a ha => absurd ha own_none) ?_ ?_ ?_ ?_
    · rw [show upd (⟨upd σ.tree k (some (h, [])), σ.next⟩ : Sp α).tree k none = upd σ.tree k none from Verif.Box.upd_upd _ _ _ _] at this
      exact this
    · intro a h1 _
      rw [hown] at h1
      exact upd_ne _ _ h1
    · intro a h1 h2
      exfalso
      apply h1
      show upd s1.heap h none a = none
      by_cases hah : a = h
      · rw [hah, upd_same]
      · rw [upd_ne _ _ hah]
        rcases h2 with h2 | h2
        · rw [hown] at h2; exact absurd h2 hah
        · exact I1.fresh_heap h2
    · show (h :: s1.freed).Nodup
      rw [List.nodup_cons]
      refine ⟨fun h1 => ((I1.mem h).1 h1).2 ⟨k, ?_⟩, I1.nodup⟩
      rw [hown]
    · intro a
      show a ∈ h :: s1.freed ↔ _
      rw [List.mem_cons, hown]
      constructor
      · rintro (h1 | h1)
        · exact .inr ⟨.inl h1, own_none⟩
        · exact .inl h1
      · rintro (h1 | ⟨h1 | h1, _⟩)
        · exact .inr h1
        · exact .inl h1
        · exact absurd h1.2 (by show ¬ a < σ.next; have : σ.next ≤ a := h1.1; omega)

/-- `swap`. -/
theorem swap_ok (I : Inv lt multi P s σ) {k j : Slot} {x y : Nat × List (Nat × α)} (hk : σ.tree k = some x) (hj : σ.tree j = some y) :
    ∃ s', swap s k j = .ok s' ∧ Inv lt multi P s' ⟨upd (upd σ.tree k (some y)) j (some x), σ.next⟩ := by
  refine ⟨_, by simp only [swap, I.get hk, I.get hj, Res.ok_bind]; rfl, ?_⟩
  -- the renaming of slots
  let f : Slot → Slot := fun i => if i = j then k else if i = k then j else i
  have hf : ∀ i, upd (upd σ.tree k (some y)) j (some x) i = σ.tree (f i) := by
    intro i
    simp only [f]
    by_cases h1 : i = j
    · subst h1; rw [upd_same, if_pos rfl, hk]
    · rw [upd_ne _ _ h1, if_neg h1]
      by_cases h2 : i = k
      · subst h2; rw [upd_same, if_pos rfl, hj]
      · rw [upd_ne _ _ h2, if_neg h2]
  have hinj : ∀ a b, f a = f b → a = b := by
    intro a b; simp only [f]; grind
  have hsur : ∀ a, ∃ b, f b = a := by
    intro a
    refine ⟨f a, ?_⟩
    simp only [f]; grind
  have hlive : ∀ a, Sp.live ⟨upd (upd σ.tree k (some y)) j (some x), σ.next⟩ a ↔ σ.live a := by
    intro a
    constructor
    · rintro ⟨i, hi⟩; exact ⟨f i, by rw [← hf]; exact hi⟩
    · rintro ⟨i, hi⟩
      obtain ⟨i', rfl⟩ := hsur i
      exact ⟨i', by show own (upd _ _ _ i') a; rw [hf]; exact hi⟩
  refine ⟨I.next, ?_, ?_, ?_, ?_, ?_, I.nodup, ?_, ?_⟩
  · intro i
    show upd (upd s.tree k _) j _ i = Option.map _ (upd (upd σ.tree k (some y)) j (some x) i)
    by_cases h1 : i = j
    · subst h1; rw [upd_same, upd_same]; rfl
    · rw [upd_ne _ _ h1, upd_ne _ _ h1]
      by_cases h2 : i = k
      · subst h2; rw [upd_same, upd_same]; rfl
      · rw [upd_ne _ _ h2, upd_ne _ _ h2]; exact I.slot i
  · intro i z hi
    rw [show Sp.tree ⟨upd (upd σ.tree k (some y)) j (some x), σ.next⟩ i = σ.tree (f i) from hf i] at hi
    obtain ⟨t, h1, h2, h3⟩ := I.rep (f i) z hi
    exact ⟨t, h1.congr fun _ _ => rfl, h2, h3⟩
  · intro i i' a h1 h2
    rw [show Sp.tree ⟨upd (upd σ.tree k (some y)) j (some x), σ.next⟩ i = σ.tree (f i) from hf i] at h1
    rw [show Sp.tree ⟨upd (upd σ.tree k (some y)) j (some x), σ.next⟩ i' = σ.tree (f i') from hf i'] at h2
    exact hinj _ _ (I.disj _ _ a h1 h2)
  · intro a ha; exact I.below a ((hlive a).1 ha)
  · intro a ha; exact (hlive a).2 (I.heap a ha)
  · intro a; rw [hlive]; exact I.mem a
  · intro i z hi
    rw [show Sp.tree ⟨upd (upd σ.tree k (some y)) j (some x), σ.next⟩ i = σ.tree (f i) from hf i] at hi
    exact I.ord (f i) z hi

end

end Verif.Rb
