import Verif.Lemmas.RbHist

/-! How many rounds the loops of the red-black tree take. -/

set_option backward.isDefEq.respectTransparency false

namespace Verif.Rb

open Verif
open Verif.Box (Slot upd upd_same upd_ne)

variable {α : Type} {lt : α → α → Bool} {multi : Bool} {s : St α} {σ : Sp α} {h : Nat} {P : T α → Prop}

/-- The number of nodes on the way of `lower_bound` from the root of a tree. -/
def pathL (lt : α → α → Bool) (key : α) : T α → Nat
  | .nil => 0
  | .node l _ _ v r => 1 + (if lt v key then pathL lt key r else pathL lt key l)

/-- The number of nodes on the way of `upper_bound` from the root of a tree. -/
def pathU (lt : α → α → Bool) (key : α) : T α → Nat
  | .nil => 0
  | .node l _ _ v r => 1 + (if lt key v then pathU lt key l else pathU lt key r)

theorem pathL_le (key : α) (t : T α) : pathL lt key t ≤ t.depth := by
  induction t with
  | nil => simp [pathL]
  | node l c a v r ihl ihr => simp only [pathL, T.depth]; split <;> omega

theorem pathU_le (key : α) (t : T α) : pathU lt key t ≤ t.depth := by
  induction t with
  | nil => simp [pathU]
  | node l c a v r ihl ihr => simp only [pathU, T.depth]; split <;> omega

theorem noof_bind {β γ : Type} {x : Res β} {g : β → Res γ} (h1 : x ≠ .oof) (h2 : ∀ a, x = .ok a → g a ≠ .oof) : (x >>= g) ≠ .oof := by
  cases x with
  | ok a => exact h2 a rfl
  | ub => intro e; cases e
  | oof => exact absurd rfl h1

theorem noof_of_ok {β : Type} {x : Res β} {a : β} (e : x = .ok a) : x ≠ .oof := by rw [e]; intro h; cases h

theorem noof_rd (s : St α) (p : Option Nat) : rd s p ≠ .oof := by
  unfold rd; repeat' split
  all_goals (intro h; cases h)

theorem noof_left (s : St α) (p : Option Nat) : left s p ≠ .oof := noof_bind (noof_rd s p) fun _ _ h => by cases h
theorem noof_right (s : St α) (p : Option Nat) : right s p ≠ .oof := noof_bind (noof_rd s p) fun _ _ h => by cases h
theorem noof_parent (s : St α) (p : Option Nat) : parent s p ≠ .oof := noof_bind (noof_rd s p) fun _ _ h => by cases h
theorem noof_color (s : St α) (p : Option Nat) : color s p ≠ .oof := noof_bind (noof_rd s p) fun _ _ h => by cases h

theorem noof_key (s : St α) (p : Option Nat) : getKey s p ≠ .oof := by
  unfold getKey
  refine noof_bind (noof_rd s p) fun c _ => ?_
  split <;> (intro h; cases h)

theorem lowerLoop_rounds (key : α) (t : T α) : ∀ (c : List (Fr α)) (n : Option Nat) (f : Nat), Tr s h (plug c t) →
    (lowerLoop lt f s key n t.ptr ≠ .oof ↔ pathL lt key t < f) := by
  induction t with
  | nil =>
    intro c n f i
    cases f with
    | zero => simp [lowerLoop]
    | succ f => simp [lowerLoop, T.ptr, pathL]
  | node l co a v r ihl ihr =>
    intro c n f i
    have i' : In _ _ s h _ _ (plug c (.node l co a v r)) := i
    cases f with
    | zero => simp [lowerLoop]
    | succ f =>
      show lowerLoop lt (f + 1) s key n (some a) ≠ .oof ↔ _
      rw [lowerLoop, i'.key, Res.ok_bind]
      by_cases hv : lt v key = true
      · rw [if_neg (by simp [hv]), i'.right, Res.ok_bind, ihr (⟨false, co, a, v, l⟩ :: c) n f i]
        simp only [pathL, hv, if_true]; omega
      · rw [if_pos (by simp [hv]), i'.left, Res.ok_bind, ihl (⟨true, co, a, v, r⟩ :: c) (some a) f i]
        simp only [pathL, hv]; simp; omega

theorem upperLoop_rounds (key : α) (t : T α) : ∀ (c : List (Fr α)) (n : Option Nat) (f : Nat), Tr s h (plug c t) →
    (upperLoop lt f s key n t.ptr ≠ .oof ↔ pathU lt key t < f) := by
  induction t with
  | nil =>
    intro c n f i
    cases f with
    | zero => simp [upperLoop]
    | succ f => simp [upperLoop, T.ptr, pathU]
  | node l co a v r ihl ihr =>
    intro c n f i
    have i' : In _ _ s h _ _ (plug c (.node l co a v r)) := i
    cases f with
    | zero => simp [upperLoop]
    | succ f =>
      show upperLoop lt (f + 1) s key n (some a) ≠ .oof ↔ _
      rw [upperLoop, i'.key, Res.ok_bind]
      by_cases hv : lt key v = true
      · rw [if_pos hv, i'.left, Res.ok_bind, ihl (⟨true, co, a, v, r⟩ :: c) (some a) f i]
        simp only [pathU, hv, if_true]; omega
      · rw [if_neg hv, i'.right, Res.ok_bind, ihr (⟨false, co, a, v, l⟩ :: c) n f i]
        simp only [pathU, hv]; simp; omega

theorem posLoop_rounds (key : α) (t : T α) : ∀ (c : List (Fr α)) (n : Option Nat) (b : Bool) (f : Nat), Tr s h (plug c t) →
    (posLoop lt f s key n t.ptr b ≠ .oof ↔ pathU lt key t < f) := by
  induction t with
  | nil =>
    intro c n b f i
    cases f with
    | zero => simp [posLoop]
    | succ f => simp [posLoop, T.ptr, pathU]
  | node l co a v r ihl ihr =>
    intro c n b f i
    have i' : In _ _ s h _ _ (plug c (.node l co a v r)) := i
    cases f with
    | zero => simp [posLoop]
    | succ f =>
      show posLoop lt (f + 1) s key n (some a) b ≠ .oof ↔ _
      rw [posLoop, i'.key, Res.ok_bind]
      cases hv : lt key v
      · simp only [Bool.false_eq_true, if_false]
        rw [i'.right, Res.ok_bind, ihr (⟨false, co, a, v, l⟩ :: c) (some a) false f i]
        simp only [pathU, hv]; simp; omega
      · simp only [if_true]
        rw [i'.left, Res.ok_bind, ihl (⟨true, co, a, v, r⟩ :: c) (some a) true f i]
        simp only [pathU, hv, if_true]; omega

/-- The length of a path is at most the depth of the tree. -/
theorem length_le_depth (c : List (Fr α)) : ∀ t : T α, c.length + t.depth ≤ (plug c t).depth := by
  induction c with
  | nil => intro t; simp [plug]
  | cons f c ih =>
    intro t
    have := ih (Fr.fill f t)
    have h2 : t.depth + 1 ≤ (Fr.fill f t).depth := by
      obtain ⟨d, fc, fa, fv, fs⟩ := f
      cases d <;> simp only [Fr.fill, T.depth] <;> omega
    simp only [plug, List.length_cons]; omega

theorem decUp_fuel (c : List (Fr α)) : ∀ (l : T α) (co : Color) (a : Nat) (v : α) (r : T α) (f : Nat), Tr s h (plug c (.node l co a v r)) → cl c ≠ [] →
    c.length ≤ f → decUp f s (some a) (cpar (some h) c) ≠ .oof := by
  induction c with
  | nil => intro l co a v r f _ hc; cases hc rfl
  | cons g c ih =>
    obtain ⟨fd, fc, fa, fv, fs⟩ := g
    intro l co a v r f i hc hf
    obtain ⟨f, rfl⟩ : ∃ k, f = k + 1 := ⟨f - 1, by simp at hf; omega⟩
    show decUp (f + 1) s (some a) (some fa) ≠ _
    cases fd
    · have i' : In _ _ s h _ _ (plug c (.node fs fc fa fv (.node l co a v r))) := i
      have i2 : In _ _ s h _ _ (plug (⟨false, fc, fa, fv, fs⟩ :: c) (.node l co a v r)) := i
      have hd := i2.disj.2.2.1
      have h1 : some a ≠ fs.ptr := fun e => hd a (by simp [caddrs, T.ptr_mem e.symm]) a (by simp [T.addrs]) rfl
      rw [decUp, i'.left, Res.ok_bind, if_neg h1]
      intro h; cases h
    · have i : In _ _ s h _ _ (plug c (.node (.node l co a v r) fc fa fv fs)) := i
      have e1 : cl (⟨true, fc, fa, fv, fs⟩ :: c) = cl c := by simp [cl]
      rw [e1] at hc
      rw [decUp, i.left, Res.ok_bind, T.ptr_node, if_pos rfl, i.parent, Res.ok_bind]
      exact ih (.node l co a v r) fc fa fv fs f i hc (by simp at hf; omega)

theorem decrement_fuel {c : List (Fr α)} {co : Color} {a : Nat} {v : α} {r : T α} (i : Tr s h (plug c (.node .nil co a v r))) (hne : cl c ≠ []) {f : Nat}
    (hf : c.length ≤ f) : decrement f s (some a) ≠ .oof := by
  have i' : In _ _ s h _ _ (plug c (.node .nil co a v r)) := i
  unfold decrement
  refine noof_bind (noof_parent _ _) fun p hp => noof_bind (noof_parent _ _) fun pp _ => noof_bind (noof_color _ _) fun cc _ => ?_
  split
  · exact noof_right _ _
  · rw [i'.left, Res.ok_bind]
    show (parent s (some a) >>= fun p => decUp f s (some a) p) ≠ _
    rw [i'.parent, Res.ok_bind]
    exact decUp_fuel c _ _ _ _ _ f i hne hf

section
variable {E : St α} {A : Nat → Prop} {m M : Option Nat}

theorem insLoop_fuel (k : Nat) : ∀ (c : List (Fr α)) (s : St α) (tl tr : T α) (tc : Color) (n : Nat) (nv : α), c.length < 2 * k →
    In E A s h m M (plug c (.node tl tc n nv tr)) → topBlack c → ∀ f, k ≤ f → insLoop f s (some n) h ≠ .oof := by
  induction k with
  | zero => intro c _ _ _ _ _ _ hk; omega
  | succ k ih =>
    intro c s tl tr tc n nv hk i hb f hf
    obtain ⟨f, rfl⟩ : ∃ j, f = j + 1 := ⟨f - 1, by omega⟩
    have hf : k ≤ f := by omega
    match c, hk, i, hb with
    | [], _, i, _ =>
      unfold insLoop
      rw [i.root, Res.ok_bind, if_pos (i.isRoot.2 rfl)]
      intro h; cases h
    | [f], _, i, hb =>
      have hcol : Rb.color s (some f.a) = .ok f.c := by
        simp only [Rb.color, rd, (rep_plug.1 i.rep).2.1, Res.ok_bind]
      simp only [topBlack] at hb
      unfold insLoop
      rw [i.root, Res.ok_bind, if_neg (fun e => by simpa using i.isRoot.1 e), i.parent, Res.ok_bind, cpar_cons, hcol, Res.ok_bind, hb]
      intro h; cases h
    | ⟨fd, fc, fa, fv, fs⟩ :: ⟨gd, gc, ga, gv, gs⟩ :: c, hk, i, hb =>
      have hroot := mt i.isRoot.1 (by simp)
      have hb' : topBlack c := topBlack_tail (topBlack_tail hb)
      have ip : In E A s h m M (plug (⟨gd, gc, ga, gv, gs⟩ :: c) (Fr.fill ⟨fd, fc, fa, fv, fs⟩ (.node tl tc n nv tr))) := i
      have hpc : Rb.color s (some fa) = .ok fc := by
        cases fd <;> exact In.color (c := ⟨gd, gc, ga, gv, gs⟩ :: c) ip
      have hpl : isLchild s (some fa) = .ok gd := by
        cases fd <;> exact In.lchild (f := ⟨gd, gc, ga, gv, gs⟩) (c := c) ip
      have hpp : Rb.parent s (some fa) = .ok (some ga) := by
        cases fd <;> exact In.parent (c := ⟨gd, gc, ga, gv, gs⟩ :: c) ip
      have hnp : Rb.parent s (some n) = .ok (some fa) := i.parent
      cases fc with
      | black =>
        unfold insLoop
        rw [i.root, Res.ok_bind, if_neg hroot, hnp, Res.ok_bind, hpc, Res.ok_bind]
        intro h; cases h
      | red =>
        by_cases hu : gs.red = true
        · -- the uncle is red
          obtain ⟨ul, ua, uv, ur, rfl⟩ : ∃ ul ua uv ur, gs = .node ul .red ua uv ur := by
            cases gs with
            | nil => cases hu
            | node ul uc ua uv ur =>
              cases uc
              · exact ⟨_, _, _, _, rfl⟩
              · cases hu
          obtain ⟨s1, e1, i1⟩ : ∃ s1, Rb.setColor s (some fa) .black = .ok s1 ∧ In E A s1 h m M
              (plug (⟨gd, gc, ga, gv, .node ul .red ua uv ur⟩ :: c) (Fr.fill ⟨fd, .black, fa, fv, fs⟩ (.node tl tc n nv tr))) := by
            cases fd <;> exact In.setColor (c := ⟨gd, gc, ga, gv, .node ul .red ua uv ur⟩ :: c) ip .black
          obtain ⟨s2, e2, i2⟩ : ∃ s2, Rb.setColor s1 (some ua) .black = .ok s2 ∧ In E A s2 h m M
              (plug (⟨gd, gc, ga, gv, .node ul .black ua uv ur⟩ :: c) (Fr.fill ⟨fd, .black, fa, fv, fs⟩ (.node tl tc n nv tr))) := by
            cases gd
            · exact In.setColor (c := ⟨true, gc, ga, gv, Fr.fill ⟨fd, .black, fa, fv, fs⟩ (.node tl tc n nv tr)⟩ :: c) i1 .black
            · exact In.setColor (c := ⟨false, gc, ga, gv, Fr.fill ⟨fd, .black, fa, fv, fs⟩ (.node tl tc n nv tr)⟩ :: c) i1 .black
          obtain ⟨s3, e3, i3⟩ : ∃ s3, Rb.setColor s2 (some ga) .red = .ok s3 ∧ In E A s3 h m M
              (plug c (Fr.fill ⟨gd, .red, ga, gv, .node ul .black ua uv ur⟩ (Fr.fill ⟨fd, .black, fa, fv, fs⟩ (.node tl tc n nv tr)))) := by
            cases gd <;> exact In.setColor (c := c) i2 .red
          have p1 : Rb.parent s2 (some n) = .ok (some fa) := In.parent (c := ⟨fd, .black, fa, fv, fs⟩ :: ⟨gd, gc, ga, gv, .node ul .black ua uv ur⟩ :: c) i2
          have p2 : Rb.parent s2 (some fa) = .ok (some ga) := by
            cases fd <;> exact In.parent (c := ⟨gd, gc, ga, gv, .node ul .black ua uv ur⟩ :: c) i2
          have hk' : c.length < 2 * k := by simp at hk; omega
          have hrec : insLoop f s3 (some ga) h ≠ .oof := by
            cases gd
            · exact ih c s3 _ _ _ _ _ hk' i3 hb' f hf
            · exact ih c s3 _ _ _ _ _ hk' i3 hb' f hf
          unfold insLoop
          rw [i.root, Res.ok_bind, if_neg hroot, hnp, Res.ok_bind, hpc, Res.ok_bind, hpl, Res.ok_bind, hpp]
          cases gd
          · have hul : Rb.left s (some ga) = .ok (some ua) := In.left (c := c) ip
            have hur : Rb.isRed s (some ua) = .ok true := In.isRed (c := ⟨true, gc, ga, gv, Fr.fill ⟨fd, .red, fa, fv, fs⟩ (.node tl tc n nv tr)⟩ :: c) (t := .node ul .red ua uv ur) ip
            simpa [hul, hur, e1, e2, p1, p2, e3] using hrec
          · have hul : Rb.right s (some ga) = .ok (some ua) := In.right (c := c) ip
            have hur : Rb.isRed s (some ua) = .ok true := In.isRed (c := ⟨false, gc, ga, gv, Fr.fill ⟨fd, .red, fa, fv, fs⟩ (.node tl tc n nv tr)⟩ :: c) (t := .node ul .red ua uv ur) ip
            simpa [hul, hur, e1, e2, p1, p2, e3] using hrec
        · -- the uncle is black: this is the last round
          obtain ⟨s', _, ⟨⟨q, hq⟩, _⟩⟩ := insLoop_ok (c.length + 3) _ s tl tr tc n nv (by simp) i hb
          have hq := hq (q + 1) (by omega)
          have hq : insLoop (q + 1) s (some n) h ≠ .oof := noof_of_ok hq
          have : insLoop (f + 1) s (some n) h = insLoop (q + 1) s (some n) h := by
            unfold insLoop
            rw [i.root, Res.ok_bind, Res.ok_bind, if_neg hroot, if_neg hroot, hnp, Res.ok_bind, Res.ok_bind, hpc, Res.ok_bind, Res.ok_bind, hpl, Res.ok_bind, Res.ok_bind, hpp]
            cases gd
            · have hul : Rb.left s (some ga) = .ok gs.ptr := In.left (c := c) ip
              have hur : Rb.isRed s gs.ptr = .ok false := by
                rw [In.isRed (c := ⟨true, gc, ga, gv, Fr.fill ⟨fd, .red, fa, fv, fs⟩ (.node tl tc n nv tr)⟩ :: c) (t := gs) ip]; simp [hu]
              simp [hul, hur, hpc, hpl]
            · have hul : Rb.right s (some ga) = .ok gs.ptr := In.right (c := c) ip
              have hur : Rb.isRed s gs.ptr = .ok false := by
                rw [In.isRed (c := ⟨false, gc, ga, gv, Fr.fill ⟨fd, .red, fa, fv, fs⟩ (.node tl tc n nv tr)⟩ :: c) (t := gs) ip]; simp [hu]
              simp [hul, hur, hpc, hpl]
          rw [this]; exact hq

end

theorem noof_setColor (s : St α) (p : Option Nat) (c : Color) : setColor s p c ≠ .oof := by
  unfold setColor wr
  repeat' split
  all_goals (intro h; cases h)

theorem noof_getT (s : St α) (k : Slot) : getT s k ≠ .oof := by
  unfold getT; split <;> (intro h; cases h)

theorem noof_destroyNode (s : St α) (p : Option Nat) : destroyNode s p ≠ .oof := by
  unfold destroyNode
  repeat' split
  all_goals (intro h; cases h)

theorem noof_begin (s : St α) (k : Slot) : Rb.begin s k ≠ .oof := by
  unfold Rb.begin
  exact noof_bind (noof_getT _ _) fun _ _ => noof_left _ _

theorem insertAt_fuel (I : Inv lt multi P s σ) {k : Slot} {h : Nat} {l : List (Nat × α)} (hk : σ.tree k = some (h, l)) {c : List (Fr α)} {v : α}
    (i : Tr s h (plug c .nil)) (ht : (plug c .nil).inl = l) (hr : (plug c (.nil : T α)).red = false) {f : Nat} (hf : c.length < 2 * f) :
    insertNodeAt f (createNode s v).1 k (cpar (some h) c) (some σ.next) (onL c) ≠ .oof := by
  obtain ⟨i1, hf', hnh⟩ := I.create hk ht i v
  have hn := I.next
  have hnode : (createNode s v).1.heap σ.next = some ⟨.red, none, none, none, some v⟩ := by
    show upd s.heap s.next _ σ.next = _
    rw [hn, upd_same]
  obtain ⟨s2, e2, i2⟩ := attach_ok (v := v) i1 hnode hf' hnh
  have hget : getT (createNode s v).1 k = .ok (h, l.length) := I.get hk
  rw [insertNodeAt_eq, hget, Res.ok_bind]
  simp only
  rw [e2, Res.ok_bind]
  refine noof_bind ?_ fun s3 _ => noof_bind ?_ fun _ _ h => by cases h
  · obtain ⟨s3, e3, i3⟩ := i2.setColor .red
    unfold insertRebalance
    rw [e3, Res.ok_bind]
    exact noof_bind (insLoop_fuel f c s3 _ _ _ _ _ hf i3 (topBlack_of hr) f (Nat.le_refl f)) fun _ _ => noof_bind (noof_parent _ _) fun _ _ => noof_setColor _ _ _
  · unfold setCount
    exact noof_bind (noof_getT _ _) fun _ _ h => by cases h

theorem posLoop_path {s' : St α} {t : T α} (w : Swo lt) (i : Tr s' h t) (hs : Sorted lt t.inl) (v : α) {f : Nat} {q : Option Nat × Bool}
    (e : posLoop lt f s' v (some h) t.ptr true = .ok q) :
    ∃ c, plug c .nil = t ∧ q = (cpar (some h) c, onL c) := by
  obtain ⟨c, e', _, _, cv⟩ := posLoop_ok w v t [] i hs (by simp [cl]) (by simp [cr])
  exact ⟨c, e', Conv.eq cv e⟩

/-- Inserting takes at most one round more than the tree is deep, in each of its loops. -/
theorem insert_fuel (w : Swo lt) (I : Inv lt multi P s σ) {k : Slot} {l : List (Nat × α)} (hk : σ.tree k = some (h, l)) {t : T α} (i : Tr s h t) (ht : t.inl = l)
    (hr : t.red = false) (v : α) {f : Nat} (hf : t.depth < f) : Rb.insert lt multi f s k v ≠ .oof := by
  obtain ⟨i1, hf', hnh⟩ := I.create hk ht i v
  have hs : Sorted lt t.inl := by rw [ht]; exact (I.ord k _ hk).sorted
  have hi1 : In (createNode s v).1 _ (createNode s v).1 h _ _ t := i1
  have hg : getT (createNode s v).1 k = .ok (h, l.length) := I.get hk
  have hkey : getKey (createNode s v).1 (some σ.next) = .ok v := by
    simp only [getKey, rd, createNode, I.next, upd_same, Res.ok_bind]
  have hcn : (createNode s v).2 = some σ.next := by simp only [createNode, I.next]
  have hpos : posLoop lt f (createNode s v).1 v (some h) t.ptr true ≠ .oof :=
    (posLoop_rounds v t [] _ _ f i1).2 (Nat.lt_of_le_of_lt (pathU_le v t) hf)
  have hat : ∀ q, posLoop lt f (createNode s v).1 v (some h) t.ptr true = .ok q →
      insertNodeAt f (createNode s v).1 k q.1 (some σ.next) q.2 ≠ .oof := by
    intro q e
    obtain ⟨c, e', rfl⟩ := posLoop_path w i1 hs v e
    have h2 := length_le_depth c .nil
    rw [e'] at h2
    subst e'
    exact insertAt_fuel I hk i ht hr (by simp [T.depth] at h2; omega)
  unfold Rb.insert
  cases multi with
  | true =>
    rw [if_pos rfl]
    refine noof_bind ?_ fun _ _ h => by cases h
    rw [emplaceMulti]
    simp only
    rw [hcn, hkey, Res.ok_bind, insertMultiPos, hg, Res.ok_bind]
    simp only
    rw [hi1.root, Res.ok_bind]
    exact noof_bind hpos hat
  | false =>
    rw [if_neg (by simp), emplaceUnique]
    simp only
    rw [hcn, hkey, Res.ok_bind, insertUniquePos, hg, Res.ok_bind]
    simp only
    rw [hi1.root, Res.ok_bind, bind_assoc]
    refine noof_bind hpos fun q hq => ?_
    have hrest : ∀ b : Bool, (if b = true then do
          let (s, it) ← insertNodeAt f (createNode s v).1 k q.1 (some σ.next) q.2
          .ok (s, it, b)
        else do
          let s ← destroyNode (createNode s v).1 (some σ.next)
          .ok (s, q.1, false) : Res (St α × Option Nat × Bool)) ≠ .oof := by
      intro b
      split
      · exact noof_bind (hat q hq) fun _ _ h => by cases h
      · refine noof_bind ?_ fun _ _ h => by cases h
        exact noof_destroyNode _ _
    refine noof_bind ?_ fun b hb => ?_
    · split
      · refine noof_bind (noof_begin _ _) fun b hb => ?_
        split
        · intro h; cases h
        · rename_i h1 h2
          refine noof_bind ?_ fun _ _ => noof_bind (noof_key _ _) fun _ _ h => by cases h
          obtain ⟨c, e', rfl⟩ := posLoop_path w i1 hs v hq
          subst e'
          cases c with
          | nil => exact absurd (.inl rfl) h2
          | cons g d =>
            obtain ⟨fd, fc, fa, fv, fs⟩ := g
            cases fd with
            | false => cases h1
            | true =>
              have hd := length_le_depth (⟨true, fc, fa, fv, fs⟩ :: d) .nil
              refine decrement_fuel (c := d) i1 ?_ (by simp at hd; omega)
              intro e0
              refine h2 (.inr ?_)
              have hb : Rb.begin (createNode s v).1 k = .ok b := hb
              rw [Rb.begin, hg, Res.ok_bind] at hb
              simp only at hb
              rw [hi1.lm] at hb
              injection hb with hb
              rw [← hb, inl_plug]
              simp [cpar, cl, cr, T.inl, e0, beg]
      · exact noof_bind (noof_key _ _) fun _ _ h => by cases h
    · have hb : b.1 = (q.1, q.2) := by
        split at hb
        · obtain ⟨_, _, hb⟩ := Res.bind_eq_ok.1 hb
          split at hb
          · cases hb; rfl
          · obtain ⟨_, _, hb⟩ := Res.bind_eq_ok.1 hb
            obtain ⟨_, _, hb⟩ := Res.bind_eq_ok.1 hb
            cases hb; rfl
        · obtain ⟨_, _, hb⟩ := Res.bind_eq_ok.1 hb
          cases hb; rfl
      obtain ⟨b1, b2⟩ := b
      subst hb
      exact hrest b2

end Verif.Rb
