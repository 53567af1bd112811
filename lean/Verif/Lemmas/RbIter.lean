import Verif.Lemmas.RbDel

/-! Iterators and searches on trees. -/

set_option backward.isDefEq.respectTransparency false

namespace Verif.Rb
open Verif
open Verif.Box (Slot upd upd_same upd_ne)

variable {α : Type}

/-- State `s` holds the tree `t` under the header `h`, with leftmost and rightmost right. -/
def Tr (s : St α) (h : Nat) (t : T α) : Prop :=
  In s (fun a => a = h ∨ a ∈ t.addrs) s h (some (beg h t.inl)) (some (lst h t.inl)) t

/-- Every element is at some place in the tree. -/
theorem focus (t : T α) : ∀ {xs ys : List (Nat × α)} {a : Nat} {v : α}, t.inl = xs ++ (a, v) :: ys →
    ∃ c l co r, t = plug c (.node l co a v r) ∧ cl c ++ l.inl = xs ∧ r.inl ++ cr c = ys := by
  induction t with
  | nil => intro xs ys a v e; simp [T.inl] at e
  | node l co b w r ihl ihr =>
    intro xs ys a v e
    rw [T.inl, List.append_eq_append_iff] at e
    rcases e with ⟨zs, rfl, e⟩ | ⟨zs, e1, e⟩
    · cases zs with
      | nil =>
        simp only [List.nil_append, List.cons.injEq, Prod.mk.injEq] at e
        obtain ⟨⟨rfl, rfl⟩, rfl⟩ := e
        exact ⟨[], l, co, r, rfl, by simp [cl], by simp [cr]⟩
      | cons z zs =>
        simp only [List.cons_append, List.cons.injEq] at e
        obtain ⟨rfl, e⟩ := e
        obtain ⟨c, l', co', r', rfl, rfl, rfl⟩ := ihr e
        refine ⟨c ++ [⟨false, co, b, w, l⟩], l', co', r', by rw [plug_append]; rfl, ?_, ?_⟩
        · rw [cl_append]; simp [cl]
        · rw [cr_append]; simp [cr]
    · cases zs with
      | nil =>
        simp only [List.nil_append, List.cons.injEq, Prod.mk.injEq] at e
        obtain ⟨⟨rfl, rfl⟩, rfl⟩ := e
        exact ⟨[], l, co, _, rfl, by simpa [cl] using e1, by simp [cr]⟩
      | cons z zs =>
        simp only [List.cons_append, List.cons.injEq] at e
        obtain ⟨rfl, rfl⟩ := e
        obtain ⟨c, l', co', r', rfl, rfl, rfl⟩ := ihl e1
        refine ⟨c ++ [⟨true, co, b, w, r⟩], l', co', r', by rw [plug_append]; rfl, ?_, ?_⟩
        · rw [cl_append]; simp [cl]
        · rw [cr_append]; simp [cr]

section
variable {s : St α} {h : Nat}

/-- Upwards to the next element. -/
theorem incUp_ok (c : List (Fr α)) : ∀ (l : T α) (co : Color) (a : Nat) (v : α) (r : T α), Tr s h (plug c (.node l co a v r)) →
    Conv (fun f => incUp f s (some a) (cpar (some h) c) >>= fun q => right s q.1 >>= fun r => if r ≠ q.2 then .ok q.2 else .ok q.1)
      (some (beg h (cr c))) := by
  induction c with
  | nil =>
    intro l co a v r i
    have i : In _ _ s h _ _ (plug [] (.node l co a v r)) := i
    have hd := i.disj
    have hrm := i.rm
    have har : Rb.right s (some a) = .ok r.ptr := i.right
    have hrh : r.ptr ≠ some h := fun e => hd.2.2.2.2 (by simp [T.addrs, T.ptr_mem e])
    have hah : a ≠ h := fun e => hd.2.2.2.2 (by simp [T.addrs, e])
    by_cases hM : lst h (plug [] (.node l co a v r)).inl = a
    · have hrn : r = .nil := by
        by_cases hr : r = .nil
        · exact hr
        · have hne := T.inl_ne_nil hr
          exfalso
          have : lst h (T.node l co a v r).inl = lst h r.inl := by
            rw [T.inl, ← List.singleton_append, ← List.append_assoc, lst_append hne]
          have hm : lst h r.inl ∈ r.addrs := by
            rw [T.addrs_eq]
            simp only [lst, List.getLast?_eq_some_getLast hne]
            exact List.mem_map_of_mem (List.getLast_mem hne)
          rw [← this, show T.node l co a v r = plug [] (.node l co a v r) from rfl, hM] at hm
          have := hd.2.1
          simp only [T.addrs, List.nodup_append, List.nodup_cons] at this
          exact this.2.1.1 hm
      subst hrn
      have h1 : ∀ f, incUp (f + 1 + 1) s (some a) (some h) = .ok (some h, some a) := by
        intro f
        have hroot := i.root
        rw [incUp, hrm, Res.ok_bind, if_pos (by rw [hM]), hroot, Res.ok_bind]
        show incUp (f + 1) s (some h) (some a) = _
        rw [incUp, har, Res.ok_bind, if_neg (by simp [T.ptr_nil])]
      refine ⟨⟨2, fun f hf => ?_⟩, fun f => ?_⟩
      · obtain ⟨k, rfl⟩ : ∃ k, f = k + 1 + 1 := ⟨f - 2, by omega⟩
        show (incUp _ s (some a) (some h) >>= _) = _
        rw [h1, Res.ok_bind, hrm, Res.ok_bind, if_neg (by rw [hM]; simp)]; rfl
      · show (incUp _ s (some a) (some h) >>= _) = _ ∨ (incUp _ s (some a) (some h) >>= _) = _
        match f with
        | 0 => exact .inl rfl
        | 1 =>
          left
          rw [incUp, hrm, Res.ok_bind, if_pos (by rw [hM]), i.root]
          rfl
        | f + 2 =>
          right
          rw [show f + 2 = f + 1 + 1 from rfl, h1, Res.ok_bind, hrm, Res.ok_bind, if_neg (by rw [hM]; simp)]; rfl
    · have h1 : ∀ f, incUp (f + 1) s (some a) (some h) = .ok (some a, some h) := by
        intro f
        rw [incUp, hrm, Res.ok_bind, if_neg (fun e => hM (Option.some.inj e))]
      refine (Conv.pure _).succ rfl fun f => ?_
      show (incUp _ s (some a) (some h) >>= _) = _
      rw [h1, Res.ok_bind, har, Res.ok_bind, if_pos hrh]; rfl
  | cons f c ih =>
    obtain ⟨fd, fc, fa, fv, fs⟩ := f
    intro l co a v r i
    cases fd
    · have i : In _ _ s h _ _ (plug c (.node fs fc fa fv (.node l co a v r))) := i
      have := ih fs fc fa fv (.node l co a v r) i
      have e1 : cr (⟨false, fc, fa, fv, fs⟩ :: c) = cr c := by simp [cr]
      rw [e1]
      refine this.succ rfl fun f => ?_
      show (incUp _ s (some a) (some fa) >>= _) = _
      rw [incUp, i.right, Res.ok_bind, T.ptr_node, if_pos rfl, i.parent, Res.ok_bind]
    · have i' : In _ _ s h _ _ (plug c (.node (.node l co a v r) fc fa fv fs)) := i
      have i2 : In _ _ s h _ _ (plug (⟨true, fc, fa, fv, fs⟩ :: c) (.node l co a v r)) := i
      have hd := i2.disj.2.2.1
      have h1 : fs.ptr ≠ some a := fun e => hd a (by simp [caddrs, T.ptr_mem e]) a (by simp [T.addrs]) rfl
      have h2 : r.ptr ≠ some fa := fun e => hd fa (by simp [caddrs]) fa (by simp [T.addrs, T.ptr_mem e]) rfl
      refine (Conv.pure _).succ rfl fun f => ?_
      show (incUp _ s (some a) (some fa) >>= _) = _
      rw [incUp, i'.right, Res.ok_bind, if_neg h1, Res.ok_bind, i2.right, Res.ok_bind, if_pos h2]
      simp [cr, beg]

theorem increment_at {c : List (Fr α)} {l : T α} {co : Color} {a : Nat} {v : α} {r : T α} (i : Tr s h (plug c (.node l co a v r))) :
    Conv (fun f => increment f s (some a)) (some (beg h (r.inl ++ cr c))) := by
  have i' : In _ _ s h _ _ (plug c (.node l co a v r)) := i
  cases hr : r with
  | nil =>
    subst hr
    simp only [T.inl, List.nil_append]
    refine (incUp_ok c _ _ _ _ _ i).congr fun f => ?_
    rw [increment, i'.right, Res.ok_bind, T.ptr_nil]
    simp only
    rw [i'.parent, Res.ok_bind]
  | node l2 c2 a2 v2 r2 =>
    have hne : r ≠ .nil := by rw [hr]; simp
    have := treeMin_ok r (⟨false, co, a, v, l⟩ :: c) hne i'
    rw [← hr, beg_append (T.inl_ne_nil hne)]
    refine this.congr fun f => ?_
    rw [increment, i'.right, Res.ok_bind, hr]; rfl

theorem increment_ok {t : T α} {xs ys : List (Nat × α)} {a : Nat} {v : α} (i : Tr s h t) (e : t.inl = xs ++ (a, v) :: ys) :
    Conv (fun f => increment f s (some a)) (some (beg h ys)) := by
  obtain ⟨c, l, co, r, rfl, rfl, rfl⟩ := focus t e
  exact increment_at i

/-- Upwards to the element before. -/
theorem decUp_ok (c : List (Fr α)) : ∀ (l : T α) (co : Color) (a : Nat) (v : α) (r : T α), Tr s h (plug c (.node l co a v r)) → cl c ≠ [] →
    Conv (fun f => decUp f s (some a) (cpar (some h) c)) (some (lst h (cl c))) := by
  induction c with
  | nil => intro l co a v r _ hc; cases hc rfl
  | cons f c ih =>
    obtain ⟨fd, fc, fa, fv, fs⟩ := f
    intro l co a v r i hc
    cases fd
    · have i' : In _ _ s h _ _ (plug c (.node fs fc fa fv (.node l co a v r))) := i
      have i2 : In _ _ s h _ _ (plug (⟨false, fc, fa, fv, fs⟩ :: c) (.node l co a v r)) := i
      have hd := i2.disj.2.2.1
      have h1 : some a ≠ fs.ptr := fun e => hd a (by simp [caddrs, T.ptr_mem e.symm]) a (by simp [T.addrs]) rfl
      have e1 : lst h (cl (⟨false, fc, fa, fv, fs⟩ :: c)) = fa := by
        simp only [cl, Bool.false_eq_true, if_false]
        rw [← List.append_assoc, lst_append_cons]
      rw [e1]
      refine (Conv.pure _).succ rfl fun f => ?_
      show decUp (f + 1) s (some a) (some fa) = _
      rw [decUp, i'.left, Res.ok_bind, if_neg h1]
    · have i : In _ _ s h _ _ (plug c (.node (.node l co a v r) fc fa fv fs)) := i
      have e1 : cl (⟨true, fc, fa, fv, fs⟩ :: c) = cl c := by simp [cl]
      rw [e1] at hc ⊢
      have := ih (.node l co a v r) fc fa fv fs i hc
      refine this.succ rfl fun f => ?_
      show decUp (f + 1) s (some a) (some fa) = _
      rw [decUp, i.left, Res.ok_bind, T.ptr_node, if_pos rfl, i.parent, Res.ok_bind]

theorem decrement_at {c : List (Fr α)} {l : T α} {co : Color} {a : Nat} {v : α} {r : T α} (i : Tr s h (plug c (.node l co a v r)))
    (hb : (plug c (.node l co a v r)).red = false) (hne : cl c ++ l.inl ≠ []) :
    Conv (fun f => decrement f s (some a)) (some (lst h (cl c ++ l.inl))) := by
  have i' : In _ _ s h _ _ (plug c (.node l co a v r)) := i
  have h1 : ∀ pp, ∀ f, Rb.parent s (cpar (some h) c) = .ok pp → ¬ (pp = some a ∧ co = .red) →
      (∀ b, l.ptr = some b → decrement f s (some a) = treeMax f s (some b)) ∧
      (l.ptr = none → decrement f s (some a) = decUp f s (some a) (cpar (some h) c)) := by
    intro pp f e1 e2
    have := i'.parent
    rw [decrement, this, Res.ok_bind, e1, Res.ok_bind, i'.color, Res.ok_bind, if_neg e2, i'.left, Res.ok_bind]
    refine ⟨fun b hb => ?_, fun hb => ?_⟩
    · rw [hb]
    · rw [hb]; rfl
  obtain ⟨pp, hp, hpp⟩ : ∃ pp, Rb.parent s (cpar (some h) c) = .ok pp ∧ ¬ (pp = some a ∧ co = .red) := by
    cases c with
    | nil =>
      refine ⟨_, i'.root, ?_⟩
      rintro ⟨_, rfl⟩
      simp [plug, T.red] at hb
    | cons f c =>
      obtain ⟨fd, fc, fa, fv, fs⟩ := f
      have hd := i'.disj
      refine ⟨cpar (some h) c, ?_, ?_⟩
      · cases fd
        · have i2 : In _ _ s h _ _ (plug c (.node fs fc fa fv (.node l co a v r))) := i'
          exact i2.parent
        · have i2 : In _ _ s h _ _ (plug c (.node (.node l co a v r) fc fa fv fs)) := i'
          exact i2.parent
      · rintro ⟨e, _⟩
        rcases cpar_mem e.symm with h3 | h3
        · exact hd.2.2.2.2 (by simp [T.addrs, h3])
        · exact hd.2.2.1 a (by simp [caddrs, h3]) a (by simp [T.addrs]) rfl
  cases hl : l with
  | nil =>
    subst hl
    simp only [T.inl, List.append_nil] at hne ⊢
    exact (decUp_ok c _ _ _ _ _ i hne).congr fun f => (h1 _ f hp hpp).2 rfl
  | node l2 c2 a2 v2 r2 =>
    have hln : l ≠ .nil := by rw [hl]; simp
    have := treeMax_ok l (⟨true, co, a, v, r⟩ :: c) hln i'
    rw [← hl, lst_append (T.inl_ne_nil hln)]
    refine this.congr fun f => ?_
    rw [hl]; exact (h1 _ f hp hpp).1 a2 (by rw [hl]; rfl)

theorem decrement_ok {t : T α} {xs ys : List (Nat × α)} {a : Nat} {v : α} (i : Tr s h t) (hb : t.red = false)
    (e : t.inl = xs ++ (a, v) :: ys) (hne : xs ≠ []) : Conv (fun f => decrement f s (some a)) (some (lst h xs)) := by
  obtain ⟨c, l, co, r, rfl, rfl, rfl⟩ := focus t e
  exact decrement_at i hb hne

/-- `--end()`. -/
theorem decrement_end {t : T α} (i : Tr s h t) (hne : t ≠ .nil) (f : Nat) : decrement f s (some h) = .ok (some (lst h t.inl)) := by
  cases t with
  | nil => cases hne rfl
  | node l co a v r =>
    have i1 : In _ _ s h _ _ (T.node l co a v r) := i
    have i' : In _ _ s h _ _ (plug [] (.node l co a v r)) := i
    have h2 : Rb.color s (some h) = .ok .red := by simp [color, i1.rdH]
    rw [decrement, i1.root, Res.ok_bind, T.ptr_node, i'.parent, Res.ok_bind, h2, Res.ok_bind, if_pos (by simp [cpar]), i1.rm]

theorem key_ok {t : T α} {xs ys : List (Nat × α)} {a : Nat} {v : α} (i : Tr s h t) (e : t.inl = xs ++ (a, v) :: ys) : getKey s (some a) = .ok v := by
  obtain ⟨c, l, co, r, rfl, rfl, rfl⟩ := focus t e
  have i' : In _ _ s h _ _ (plug c (.node l co a v r)) := i
  exact i'.key

/-- Counting from one position to another. -/
theorem distance_ok {t : T α} (ys : List (Nat × α)) : ∀ {xs zs : List (Nat × α)} {n : Nat}, Tr s h t → t.inl = xs ++ ys ++ zs →
    Conv2 (fun f k => distance f k s (some (beg h (ys ++ zs))) (some (beg h zs)) n) (n + ys.length) := by
  induction ys with
  | nil =>
    intro xs zs n i e
    refine Conv2.stop (fun _ => rfl) fun f k => ?_
    simp [distance]
  | cons y ys ih =>
    intro xs zs n i e
    have hne : y.1 ≠ beg h zs := by
      have hk := In.keys i
      rw [e] at hk
      cases zs with
      | nil => intro e2; apply hk.2; simp [beg] at e2; simp [← e2]
      | cons z zs => intro e2; simp only [beg] at e2; have := hk.1; simp [List.nodup_append, List.nodup_cons, e2] at this
    have e2 : t.inl = xs ++ (y.1, y.2) :: (ys ++ zs) := by rw [e]; simp
    have hi := increment_ok i e2
    have := ih (xs := xs ++ [y]) (zs := zs) (n := n + 1) i (by rw [e]; simp)
    rw [show n + (y :: ys).length = n + 1 + ys.length by simp; omega]
    refine Conv2.step (c := fun f => increment f s (some y.1)) (b := some (beg h (ys ++ zs)))
      (h := fun f k first => distance f k s first (some (beg h zs)) (n + 1)) hi this (fun _ => rfl) fun f k => ?_
    show distance f (k + 1) s (some y.1) (some (beg h zs)) n = _
    rw [distance, if_neg (fun e => hne (Option.some.inj e))]

/-- Iteration from a position to the end. -/
theorem collect_ok {t : T α} (ys : List (Nat × α)) : ∀ {xs : List (Nat × α)}, Tr s h t → t.inl = xs ++ ys →
    Conv2 (fun f k => collect f k s (some (beg h ys)) (some h)) ys := by
  induction ys with
  | nil =>
    intro xs i e
    refine Conv2.stop (fun _ => rfl) fun f k => ?_
    simp [collect, beg]
  | cons y ys ih =>
    intro xs i e
    have hne : y.1 ≠ h := by
      have hk := In.keys i
      rw [e] at hk
      intro e2; apply hk.2; simp [← e2]
    have e2 : t.inl = xs ++ (y.1, y.2) :: ys := e
    have hi := increment_ok i e2
    have hk := key_ok i e2
    have := ih (xs := xs ++ [y]) i (by rw [e]; simp)
    have := Conv2.map (h := fun vs => Res.ok ((y.1, y.2) :: vs)) (b := y :: ys) this rfl
    refine Conv2.step (c := fun f => increment f s (some y.1)) (b := some (beg h ys))
      (h := fun f k it => collect f k s it (some h) >>= fun vs => Res.ok ((y.1, y.2) :: vs)) hi this (fun _ => rfl) fun f k => ?_
    show collect f (k + 1) s (some y.1) (some h) = _
    rw [collect, if_neg (fun e => hne (Option.some.inj e)), hk, Res.ok_bind]; rfl

/-! Searching. -/

/-- Ordered sequences: no element less than one before it. -/
def Sorted (lt : α → α → Bool) (l : List (Nat × α)) : Prop := l.Pairwise fun x y => lt y.2 x.2 = false

/-- The comparison is a strict weak order. -/
structure Swo (lt : α → α → Bool) : Prop where
  asymm : ∀ x y, lt x y = true → lt y x = false
  trans : ∀ x y z, lt x z = true → lt x y = true ∨ lt y z = true

theorem lowerLoop_ok {lt : α → α → Bool} (w : Swo lt) (key : α) (t : T α) : ∀ (c : List (Fr α)) (n : Nat), Tr s h (plug c t) → Sorted lt t.inl →
    Conv (fun f => lowerLoop lt f s key (some n) t.ptr) (some (beg n (t.inl.dropWhile fun x => lt x.2 key))) := by
  induction t with
  | nil =>
    intro c n i _
    refine (Conv.pure _).succ rfl fun f => ?_
    rfl
  | node l co a v r ihl ihr =>
    intro c n i hs
    have i' : In _ _ s h _ _ (plug c (.node l co a v r)) := i
    have hs' : Sorted lt l.inl ∧ (∀ y ∈ r.inl, lt y.2 v = false) ∧ Sorted lt r.inl ∧ ∀ x ∈ l.inl, lt v x.2 = false := by
      simp only [Sorted, T.inl, List.pairwise_append, List.pairwise_cons] at hs
      exact ⟨hs.1, fun y hy => hs.2.1.1 y hy, hs.2.1.2, fun x hx => hs.2.2 x hx (a, v) (by simp)⟩
    by_cases hv : lt v key = true
    · have hall : ∀ x ∈ l.inl, lt x.2 key = true := by
        intro x hx
        rcases w.trans v x.2 key hv with h1 | h1
        · rw [hs'.2.2.2 x hx] at h1; cases h1
        · exact h1
      have e : (T.node l co a v r).inl.dropWhile (fun x => lt x.2 key) = r.inl.dropWhile fun x => lt x.2 key := by
        rw [T.inl, List.dropWhile_append_of_pos hall, List.dropWhile_cons_of_pos (by exact hv)]
      rw [e]
      refine (ihr (⟨false, co, a, v, l⟩ :: c) n i hs'.2.2.1).succ rfl fun f => ?_
      show lowerLoop lt (f + 1) s key (some n) (some a) = _
      rw [lowerLoop, i'.key, Res.ok_bind, if_neg (by simp [hv]), i'.right, Res.ok_bind]
    · have e : beg n ((T.node l co a v r).inl.dropWhile (fun x => lt x.2 key)) = beg a (l.inl.dropWhile fun x => lt x.2 key) := by
        rw [T.inl, List.dropWhile_append]
        split
        · rename_i h1
          rw [List.dropWhile_cons_of_neg (by exact hv)]
          rw [List.isEmpty_iff] at h1
          rw [h1]; rfl
        · rename_i h1
          cases hq : l.inl.dropWhile fun x => lt x.2 key with
          | nil => rw [hq] at h1; exact absurd rfl h1
          | cons y ys => rfl
      rw [e]
      refine (ihl (⟨true, co, a, v, r⟩ :: c) a i hs'.1).succ rfl fun f => ?_
      show lowerLoop lt (f + 1) s key (some n) (some a) = _
      rw [lowerLoop, i'.key, Res.ok_bind, if_pos (by simp [hv]), i'.left, Res.ok_bind]

theorem upperLoop_ok {lt : α → α → Bool} (w : Swo lt) (key : α) (t : T α) : ∀ (c : List (Fr α)) (n : Nat), Tr s h (plug c t) → Sorted lt t.inl →
    Conv (fun f => upperLoop lt f s key (some n) t.ptr) (some (beg n (t.inl.dropWhile fun x => !lt key x.2))) := by
  induction t with
  | nil =>
    intro c n i _
    refine (Conv.pure _).succ rfl fun f => ?_
    rfl
  | node l co a v r ihl ihr =>
    intro c n i hs
    have i' : In _ _ s h _ _ (plug c (.node l co a v r)) := i
    have hs' : Sorted lt l.inl ∧ (∀ y ∈ r.inl, lt y.2 v = false) ∧ Sorted lt r.inl ∧ ∀ x ∈ l.inl, lt v x.2 = false := by
      simp only [Sorted, T.inl, List.pairwise_append, List.pairwise_cons] at hs
      exact ⟨hs.1, fun y hy => hs.2.1.1 y hy, hs.2.1.2, fun x hx => hs.2.2 x hx (a, v) (by simp)⟩
    by_cases hv : lt key v = true
    · have e : beg n ((T.node l co a v r).inl.dropWhile (fun x => !lt key x.2)) = beg a (l.inl.dropWhile fun x => !lt key x.2) := by
        rw [T.inl, List.dropWhile_append]
        split
        · rename_i h1
          rw [List.dropWhile_cons_of_neg (by simp [hv])]
          rw [List.isEmpty_iff] at h1
          rw [h1]; rfl
        · rename_i h1
          cases hq : l.inl.dropWhile fun x => !lt key x.2 with
          | nil => rw [hq] at h1; exact absurd rfl h1
          | cons y ys => rfl
      rw [e]
      refine (ihl (⟨true, co, a, v, r⟩ :: c) a i hs'.1).succ rfl fun f => ?_
      show upperLoop lt (f + 1) s key (some n) (some a) = _
      rw [upperLoop, i'.key, Res.ok_bind, if_pos hv, i'.left, Res.ok_bind]
    · have hall : ∀ x ∈ l.inl, (!lt key x.2) = true := by
        intro x hx
        by_cases hx2 : lt key x.2 = true
        · rcases w.trans key v x.2 hx2 with h1 | h1
          · exact absurd h1 hv
          · rw [hs'.2.2.2 x hx] at h1; cases h1
        · simpa using hx2
      have e : (T.node l co a v r).inl.dropWhile (fun x => !lt key x.2) = r.inl.dropWhile fun x => !lt key x.2 := by
        rw [T.inl, List.dropWhile_append_of_pos hall, List.dropWhile_cons_of_pos (by simp [hv])]
      rw [e]
      refine (ihr (⟨false, co, a, v, l⟩ :: c) n i hs'.2.2.1).succ rfl fun f => ?_
      show upperLoop lt (f + 1) s key (some n) (some a) = _
      rw [upperLoop, i'.key, Res.ok_bind, if_neg hv, i'.right, Res.ok_bind]

/-- Whether the place at the end of a path is a left one (the initial value for the root). -/
def onL : List (Fr α) → Bool
  | [] => true
  | f :: _ => f.d

theorem posLoop_ok {lt : α → α → Bool} (w : Swo lt) (key : α) (t : T α) : ∀ (c : List (Fr α)), Tr s h (plug c t) → Sorted lt (plug c t).inl →
    (∀ x ∈ cl c, lt key x.2 = false) → (∀ x ∈ cr c, lt key x.2 = true) →
    ∃ c', plug c' .nil = plug c t ∧ (∀ x ∈ cl c', lt key x.2 = false) ∧ (∀ x ∈ cr c', lt key x.2 = true) ∧
      Conv (fun f => posLoop lt f s key (cpar (some h) c) t.ptr (onL c)) (cpar (some h) c', onL c') := by
  induction t with
  | nil =>
    intro c i _ h1 h2
    refine ⟨c, rfl, h1, h2, (Conv.pure _).succ rfl fun f => ?_⟩
    rfl
  | node l co a v r ihl ihr =>
    intro c i hs h1 h2
    have i' : In _ _ s h _ _ (plug c (.node l co a v r)) := i
    have hs' : (∀ y ∈ r.inl, lt y.2 v = false) ∧ (∀ x ∈ l.inl, lt v x.2 = false) := by
      rw [inl_plug] at hs
      simp only [Sorted, T.inl, List.pairwise_append, List.pairwise_cons] at hs
      exact ⟨fun y hy => hs.1.2.1.2.1.1 y hy, fun x hx => hs.1.2.1.2.2 x hx (a, v) (by simp)⟩
    cases hv : lt key v
    · obtain ⟨c', e', a1, a2, cv⟩ := ihr (⟨false, co, a, v, l⟩ :: c) i hs (by
        intro x hx
        simp only [cl, Bool.false_eq_true, if_false, List.mem_append, List.mem_singleton] at hx
        rcases hx with hx | hx | rfl
        · exact h1 x hx
        · cases hx2 : lt key x.2
          · rfl
          · rcases w.trans key v x.2 hx2 with h3 | h3
            · rw [hv] at h3; cases h3
            · rw [hs'.2 x hx] at h3; cases h3
        · exact hv) (by
        intro x hx
        simp only [cr, Bool.false_eq_true, if_false, List.nil_append] at hx
        exact h2 x hx)
      refine ⟨c', e', a1, a2, cv.succ rfl fun f => ?_⟩
      show posLoop lt (f + 1) s key (cpar (some h) c) (some a) (onL c) = _
      rw [posLoop, i'.key, Res.ok_bind]
      simp only [hv, Bool.false_eq_true, if_false]
      rw [i'.right]; rfl
    · obtain ⟨c', e', a1, a2, cv⟩ := ihl (⟨true, co, a, v, r⟩ :: c) i hs (by
        intro x hx
        simp only [cl, if_true, List.append_nil] at hx
        exact h1 x hx) (by
        intro x hx
        simp only [cr, if_true, List.cons_append, List.mem_cons, List.mem_append] at hx
        rcases hx with rfl | hx | hx
        · exact hv
        · rcases w.trans key x.2 v hv with h3 | h3
          · exact h3
          · rw [hs'.1 x hx] at h3; cases h3
        · exact h2 x hx)
      refine ⟨c', e', a1, a2, cv.succ rfl fun f => ?_⟩
      show posLoop lt (f + 1) s key (cpar (some h) c) (some a) (onL c) = _
      rw [posLoop, i'.key, Res.ok_bind]
      simp only [hv, if_true]
      rw [i'.left]; rfl

end

end Verif.Rb
