import Verif.Lemmas.RbOps

/-! One call of the program, at the level of sequences. -/

set_option backward.isDefEq.respectTransparency false

namespace Verif.Rb
open Verif
open Verif.Box (Slot upd upd_same upd_ne)

variable {α : Type}

/-! The tree is determined by the heap. -/

theorem T.rep_unique {H : Nat → Option (Rec α)} {t : T α} : ∀ {t' : T α} {par par' : Option Nat}, t.rep H par → t'.rep H par' → t.ptr = t'.ptr → t = t' := by
  induction t with
  | nil => intro t' par par' _ _ e; exact (T.ptr_none.1 e.symm).symm
  | node l c a v r ihl ihr =>
    intro t' par par' h h' e
    cases t' with
    | nil => cases e
    | node l' c' a' v' r' =>
      cases e
      have h1 := h.1
      rw [h'.1] at h1
      injection h1 with h1
      injection h1 with hc hl hr _ hv
      injection hv with hv
      rw [ihl h.2.1 h'.2.1 hl.symm, ihr h.2.2 h'.2.2 hr.symm, hc, hv]

theorem Tr.unique {s : St α} {h : Nat} {t t' : T α} (i : Tr s h t) (i' : Tr s h t') : t = t' := by
  refine T.rep_unique (In.rep i) (In.rep i') ?_
  have h1 := In.root i
  rw [In.root i'] at h1
  injection h1 with h1; exact h1.symm

/-- Insertion into an ordered sequence: behind all elements not greater, and for sets only if there
is no equivalent element. -/
def insV (lt : α → α → Bool) (multi : Bool) (l : List α) (v : α) : List α :=
  if multi || l.all (fun x => lt x v || lt v x) then l.takeWhile (fun x => !lt v x) ++ v :: l.dropWhile (fun x => !lt v x) else l

theorem insV_new {lt : α → α → Bool} {multi : Bool} {xs ys : List α} {v : α} (h1 : ∀ x ∈ xs, lt v x = false) (h2 : ∀ y ∈ ys, lt v y = true)
    (h3 : multi = false → ∀ x ∈ xs, lt x v = true) : insV lt multi (xs ++ ys) v = xs ++ v :: ys := by
  have hc : (multi || (xs ++ ys).all (fun x => lt x v || lt v x)) = true := by
    cases multi with
    | true => rfl
    | false =>
      simp only [Bool.false_or, List.all_eq_true, List.mem_append]
      rintro x (hx | hx)
      · rw [h3 rfl x hx]; rfl
      · rw [h2 x hx, Bool.or_true]
  have ht : (xs ++ ys).takeWhile (fun x => !lt v x) = xs := by
    rw [List.takeWhile_append_of_pos (by intro x hx; rw [h1 x hx]; rfl)]
    cases ys with
    | nil => simp
    | cons y ys => rw [List.takeWhile_cons_of_neg (by rw [h2 y (by simp)]; simp), List.append_nil]
  have hd : (xs ++ ys).dropWhile (fun x => !lt v x) = ys := by
    rw [List.dropWhile_append_of_pos (by intro x hx; rw [h1 x hx]; rfl)]
    cases ys with
    | nil => simp
    | cons y ys => rw [List.dropWhile_cons_of_neg (by rw [h2 y (by simp)]; simp)]
  rw [insV, if_pos hc, ht, hd]

theorem insV_dup {lt : α → α → Bool} {l : List α} {x v : α} (hx : x ∈ l) (h1 : lt x v = false) (h2 : lt v x = false) : insV lt false l v = l := by
  have : (false || l.all (fun x => lt x v || lt v x)) = false := by
    rw [Bool.false_or, List.all_eq_false]
    exact ⟨x, hx, by simp [h1, h2]⟩
  rw [insV, this]; rfl

section
variable {lt : α → α → Bool} {multi : Bool} {P : T α → Prop}

theorem Ins.vals {s : St α} {h n : Nat} {l l' : List (Nat × α)} {v : α} {it : Option Nat} {new : Bool} (i : Ins lt multi s h n l v l' it new) :
    l'.map (·.2) = insV lt multi (l.map (·.2)) v := by
  cases i with
  | new xs ys e h1 h2 h3 =>
    subst e
    rw [List.map_append, List.map_append, List.map_cons, insV_new]
    · intro x hx; obtain ⟨y, hy, rfl⟩ := List.mem_map.1 hx; exact h1 y hy
    · intro x hx; obtain ⟨y, hy, rfl⟩ := List.mem_map.1 hx; exact h2 y hy
    · intro hm x hx; obtain ⟨y, hy, rfl⟩ := List.mem_map.1 hx; exact h3 hm y hy
  | dup xs x ys _ hm e h1 h2 _ =>
    subst hm
    rw [insV_dup (x := x.2) (by rw [e]; simp) h1 h2]

theorem Ins.mem {s : St α} {h n : Nat} {l l' : List (Nat × α)} {v : α} {it : Option Nat} {new : Bool} (i : Ins lt multi s h n l v l' it new) :
    ∀ x ∈ l', x ∈ l ∨ x.2 = v := by
  cases i with
  | new xs ys e h1 h2 h3 =>
    subst e
    intro x hx
    simp only [List.mem_append, List.mem_cons] at hx ⊢
    rcases hx with hx | rfl | hx
    · exact .inl (.inl hx)
    · exact .inr rfl
    · exact .inl (.inr hx)
  | dup => intro x hx; exact .inl hx

/-- Insertion keeps what appending keeps, if it appends. -/
theorem Keep.insert {b : Bool} (K : Keep b P) {s : St α} {h n : Nat} {l : List (Nat × α)} {v : α} (hl : ∀ t, Tr s h t → t.inl = l) (hb : b = true ∨ ∀ x ∈ l, lt v x.2 = false) :
    ∀ c, Tr s h (plug c .nil) → P (plug c .nil) → (∀ x ∈ cl c, lt v x.2 = false) → (∀ y ∈ cr c, lt v y.2 = true) → (multi = false → ∀ x ∈ cl c, lt x.2 v = true) → P (insFix c (.node .nil .red n v .nil)).blacken := by
  intro c i hP _ h2 _
  refine K.ins c _ v hP (hb.imp id fun hb => ?_)
  cases hc : cr c with
  | nil => rfl
  | cons y ys =>
    have := hb y (by rw [← hl _ i, inl_plug, hc]; simp)
    rw [h2 y (by rw [hc]; simp)] at this; cases this

/-- `insert` of `set` and `multiset`. -/
theorem insert_okG {lt' : α → α → Bool} {mu' : Bool} (w : Swo lt) {s : St α} {σ : Sp α} (I : Inv lt' mu' P s σ) {k : Slot} {h : Nat} {l : List (Nat × α)} (hk : σ.tree k = some (h, l)) (hol : Ord lt multi l)
    (hno : ∀ l : List (Nat × α), Ord lt multi l → Ord lt' mu' l) (v : α)
    (hB : ∀ t, P t → t.red = false)
    (hins : ∀ c, Tr s h (plug c .nil) → P (plug c .nil) → (∀ x ∈ cl c, lt v x.2 = false) → (∀ y ∈ cr c, lt v y.2 = true) → (multi = false → ∀ x ∈ cl c, lt x.2 v = true) → P (insFix c (.node .nil .red σ.next v .nil)).blacken) :
    ∃ s' it new l', Ins lt multi s h σ.next l v l' it new ∧ Ord lt multi l' ∧ Inv lt' mu' P s' ⟨upd σ.tree k (some (h, l')), σ.next + 1⟩ ∧
      Conv (fun f => Rb.insert lt multi f s k v) (s', it, new) ∧
      (new = true → ∃ c, Tr s h (plug c .nil) ∧ cl c ++ (σ.next, v) :: cr c = l' ∧ (∀ x ∈ cl c, lt v x.2 = false) ∧ (∀ y ∈ cr c, lt v y.2 = true) ∧
        Tr s' h (insFix c (.node .nil .red σ.next v .nil)).blacken) := by
  cases multi with
  | true =>
    obtain ⟨s', xs, ys, h1, h2, h3, h4, ho, I', cv, c, i, rfl, rfl, i'⟩ := emplaceMulti_okG w I hk hol hno v hB hins (by intro h; cases h)
    refine ⟨s', some σ.next, true, _, .new (cl c) (cr c) h1 h2 h3 h4, ho, I', ?_, fun _ => ⟨c, i, rfl, h2, h3, i'⟩⟩
    exact (cv.bind (h := fun _ q => .ok (q.1, q.2, true)) (Conv.pure _)).congr fun f => rfl
  | false =>
    obtain ⟨s', it, new, l', h1, h2, cv⟩ := emplaceUnique_okG w I hk hol hno v hB fun c i hP h1 h2 h3 => hins c i hP h1 h2 fun _ => h3
    exact ⟨s', it, new, l', h1, h2, cv⟩

theorem insert_ok' (w : Swo lt) {s : St α} {σ : Sp α} (I : Inv lt multi P s σ) {k : Slot} {h : Nat} {l : List (Nat × α)} (hk : σ.tree k = some (h, l)) (v : α)
    (hB : ∀ t, P t → t.red = false)
    (hins : ∀ c, Tr s h (plug c .nil) → P (plug c .nil) → (∀ x ∈ cl c, lt v x.2 = false) → (∀ y ∈ cr c, lt v y.2 = true) → (multi = false → ∀ x ∈ cl c, lt x.2 v = true) → P (insFix c (.node .nil .red σ.next v .nil)).blacken) :
    ∃ s' it new l', Ins lt multi s h σ.next l v l' it new ∧ Inv lt multi P s' ⟨upd σ.tree k (some (h, l')), σ.next + 1⟩ ∧
      Conv (fun f => Rb.insert lt multi f s k v) (s', it, new) ∧
      (new = true → ∃ c, Tr s h (plug c .nil) ∧ cl c ++ (σ.next, v) :: cr c = l' ∧ (∀ x ∈ cl c, lt v x.2 = false) ∧ (∀ y ∈ cr c, lt v y.2 = true) ∧
        Tr s' h (insFix c (.node .nil .red σ.next v .nil)).blacken) := by
  obtain ⟨s', it, new, l', h1, _, h2⟩ := insert_okG w I hk (I.ord k _ hk) (fun _ h => h) v hB hins
  exact ⟨s', it, new, l', h1, h2⟩

theorem Inv.tree_inl {s : St α} {σ : Sp α} (I : Inv lt multi P s σ) {k : Slot} {h : Nat} {l : List (Nat × α)} (hk : σ.tree k = some (h, l)) : ∀ t, Tr s h t → t.inl = l := by
  intro t i
  obtain ⟨t', i', ht, _⟩ := I.rep k _ hk
  rw [Tr.unique i i']; exact ht

theorem insert_ok (w : Swo lt) {s : St α} {σ : Sp α} (I : Inv lt multi P s σ) {b : Bool} (K : Keep b P) {k : Slot} {h : Nat} {l : List (Nat × α)} (hk : σ.tree k = some (h, l)) (v : α)
    (hb : b = true ∨ ∀ x ∈ l, lt v x.2 = false) :
    ∃ s' it new l', Ins lt multi s h σ.next l v l' it new ∧ Inv lt multi P s' ⟨upd σ.tree k (some (h, l')), σ.next + 1⟩ ∧
      Conv (fun f => Rb.insert lt multi f s k v) (s', it, new) ∧
      (new = true → ∃ c, Tr s h (plug c .nil) ∧ cl c ++ (σ.next, v) :: cr c = l' ∧ (∀ x ∈ cl c, lt v x.2 = false) ∧ (∀ y ∈ cr c, lt v y.2 = true) ∧
        Tr s' h (insFix c (.node .nil .red σ.next v .nil)).blacken) :=
  insert_ok' w I hk v K.black (K.insert (I.tree_inl hk) hb)

theorem insertAll_ok (w : Swo lt) {b : Bool} (K : Keep b P) {k : Slot} {h : Nat} (vs : List α) : ∀ {s : St α} {σ : Sp α} {l : List (Nat × α)}, Inv lt multi P s σ →
    σ.tree k = some (h, l) → (b = true ∨ ((∀ x ∈ l, ∀ v ∈ vs, lt v x.2 = false) ∧ vs.Pairwise fun x y => lt y x = false)) →
    ∃ s' l' n', l'.map (·.2) = vs.foldl (insV lt multi) (l.map (·.2)) ∧ Inv lt multi P s' ⟨upd σ.tree k (some (h, l')), n'⟩ ∧
      Conv (fun f => insertAll lt multi f s k vs) s' := by
  induction vs with
  | nil =>
    intro s σ l I hk _
    refine ⟨s, l, σ.next, rfl, ?_, Conv.pure s⟩
    rw [← hk, Verif.Box.upd_self]; exact I
  | cons v vs ih =>
    intro s σ l I hk hb
    obtain ⟨s1, it, new, l1, hi, I1, cv, _⟩ := insert_ok w I K hk v (by
      rcases hb with hb | hb
      · exact .inl hb
      · exact .inr fun x hx => hb.1 x hx v (by simp))
    obtain ⟨s2, l2, n2, e2, I2, cv2⟩ := ih (l := l1) I1 (upd_same _ _ _) (by
      rcases hb with hb | ⟨hb1, hb2⟩
      · exact .inl hb
      · rw [List.pairwise_cons] at hb2
        refine .inr ⟨fun x hx u hu => ?_, hb2.2⟩
        rcases hi.mem x hx with h1 | h1
        · exact hb1 x h1 u (by simp [hu])
        · rw [h1]; exact hb2.1 u hu)
    refine ⟨s2, l2, n2, by rw [e2, hi.vals]; rfl, ?_, ?_⟩
    · rw [show upd (⟨upd σ.tree k (some (h, l1)), σ.next + 1⟩ : Sp α).tree k (some (h, l2)) = upd σ.tree k (some (h, l2)) from Verif.Box.upd_upd _ _ _ _] at I2
      exact I2
    · exact (cv.bind (h := fun f q => insertAll lt multi f q.1 k vs) cv2).congr fun f => rfl

theorem initList_ok (w : Swo lt) {s : St α} {σ : Sp α} {b : Bool} (K : Keep b P) {k : Slot} (vs : List α) (I : Inv lt multi P s σ)
    (hk : σ.tree k = none) (hb : b = true ∨ vs.Pairwise fun x y => lt y x = false) :
    ∃ s' h l' n', l'.map (·.2) = vs.foldl (insV lt multi) [] ∧ Inv lt multi P s' ⟨upd σ.tree k (some (h, l')), n'⟩ ∧
      Conv (fun f => initList lt multi f s k vs) s' := by
  obtain ⟨s1, e1, I1⟩ := make_ok I K hk
  obtain ⟨s2, l2, n2, e2, I2, cv2⟩ := insertAll_ok (h := σ.next) (l := []) w K vs I1 (upd_same _ _ _) (by
    rcases hb with hb | hb
    · exact .inl hb
    · exact .inr ⟨by simp, hb⟩)
  refine ⟨s2, σ.next, l2, n2, e2, ?_, ?_⟩
  · rw [show upd (⟨upd σ.tree k (some (σ.next, [])), σ.next + 1⟩ : Sp α).tree k (some (σ.next, l2)) = upd σ.tree k (some (σ.next, l2)) from Verif.Box.upd_upd _ _ _ _] at I2
    exact I2
  · refine cv2.congr fun f => ?_
    rw [initList, e1, Res.ok_bind]

theorem copyLoop_okG {lt' : α → α → Bool} {mu' : Bool} (w : Swo lt) {b : Bool} (K : Keep b P) {k j : Slot} (hkj : k ≠ j) {h hj : Nat}
    (hno : ∀ l : List (Nat × α), Ord lt multi l → Ord lt' mu' l) (ys : List (Nat × α)) :
    ∀ {s : St α} {σ : Sp α} {xs l : List (Nat × α)}, Inv lt' mu' P s σ → σ.tree j = some (hj, xs ++ ys) → σ.tree k = some (h, l) →
    Ord lt multi (xs ++ ys) → Ord lt multi l →
    (∀ x ∈ l, ∀ y ∈ ys, lt y.2 x.2 = false ∧ (multi = false → lt x.2 y.2 = true)) →
    ∃ s' l' n', l'.map (·.2) = l.map (·.2) ++ ys.map (·.2) ∧ Ord lt multi l' ∧ Inv lt' mu' P s' ⟨upd σ.tree k (some (h, l')), n'⟩ ∧
      Conv2 (fun f n => copyLoop lt f n s k (some (beg hj ys)) (some hj)) s' := by
  induction ys with
  | nil =>
    intro s σ xs l I hj' hk _ hol _
    refine ⟨s, l, σ.next, by simp, hol, ?_, ?_⟩
    · rw [← hk, Verif.Box.upd_self]; exact I
    · exact Conv2.stop (fun _ => rfl) fun f n => by simp [copyLoop, beg]
  | cons y ys ih =>
    intro s σ xs l I hj' hk hos hol hlt
    have hkeys := I.keys hj'
    have hy : y.1 ≠ hj := beg_ne hkeys.2
    have hkey : getKey s (some y.1) = .ok y.2 := I.key hj'
    obtain ⟨s1, zs, us, h1, h2, h3, h4, ho1, I1, cv1, _⟩ := emplaceMulti_okG w I hk hol hno y.2 K.black (K.insert (I.tree_inl hk) (.inr fun x hx => (hlt x hx y (by simp)).1))
      (fun hm x hx => .inl ((hlt x hx y (by simp)).2 hm))
    have hus : us = [] := by
      cases us with
      | nil => rfl
      | cons u us =>
        have h5 := h3 u (by simp)
        rw [(hlt u (by rw [h1]; simp) y (by simp)).1] at h5; cases h5
    subst hus
    have hj1 : (⟨upd σ.tree k (some (h, zs ++ [(σ.next, y.2)])), σ.next + 1⟩ : Sp α).tree j = some (hj, xs ++ (y.1, y.2) :: ys) :=
      (upd_ne _ _ (fun e => hkj e.symm)).trans hj'
    have hinc := I1.inc hj1
    have hos' := hos
    simp only [Ord, List.pairwise_append, List.pairwise_cons] at hos
    obtain ⟨s2, l2, n2, e2, ho2, I2, cv2⟩ := ih (xs := xs ++ [y]) (l := zs ++ [(σ.next, y.2)]) I1 (by rw [hj1]; simp) (upd_same _ _ _) (by simpa using hos') ho1 (by
      intro x hx u hu
      simp only [List.mem_append, List.mem_singleton] at hx
      rcases hx with hx | rfl
      · exact hlt x (by rw [h1]; simp [hx]) u (by simp [hu])
      · exact hos.2.1.1 u hu)
    refine ⟨s2, l2, n2, ?_, ho2, ?_, ?_⟩
    · rw [e2, h1]; simp
    · rw [show upd (⟨upd σ.tree k (some (h, zs ++ [(σ.next, y.2)])), σ.next + 1⟩ : Sp α).tree k (some (h, l2)) = upd σ.tree k (some (h, l2)) from Verif.Box.upd_upd _ _ _ _] at I2
      exact I2
    · refine Conv2.step (c := fun f => emplaceMulti lt f s k y.2 >>= fun q => increment f q.1 (some y.1) >>= fun it => .ok (q.1, it)) (b := (s1, some (beg hj ys)))
        (h := fun f n q => copyLoop lt f n q.1 k q.2 (some hj)) ?_ cv2 (fun _ => rfl) fun f n => ?_
      · refine cv1.bind (h := fun f q => increment f q.1 (some y.1) >>= fun it => .ok (q.1, it)) ?_
        exact hinc.bind (h := fun _ it => .ok (s1, it)) (Conv.pure _)
      · show copyLoop lt f (n + 1) s k (some y.1) (some hj) = _
        rw [copyLoop, if_neg (fun e => hy (Option.some.inj e)), hkey, Res.ok_bind]
        simp only [bind_assoc, Res.ok_bind]

theorem copy_okG {lt' : α → α → Bool} {mu' : Bool} (w : Swo lt) {s : St α} {σ : Sp α} {b : Bool} (K : Keep b P) {k j : Slot} {hj : Nat} {lj : List (Nat × α)} (I : Inv lt' mu' P s σ)
    (hno : ∀ l : List (Nat × α), Ord lt multi l → Ord lt' mu' l) (hol : Ord lt multi lj)
    (hk : σ.tree k = none) (hj' : σ.tree j = some (hj, lj)) :
    ∃ s' h l' n', l'.map (·.2) = lj.map (·.2) ∧ Ord lt multi l' ∧ Inv lt' mu' P s' ⟨upd σ.tree k (some (h, l')), n'⟩ ∧ Conv (fun f => copy lt f s k j) s' := by
  have hkj : k ≠ j := by rintro rfl; rw [hk] at hj'; cases hj'
  obtain ⟨s1, e1, I1⟩ := make_ok I K hk
  have hj1 : (⟨upd σ.tree k (some (σ.next, [])), σ.next + 1⟩ : Sp α).tree j = some (hj, [] ++ lj) :=
    (upd_ne _ _ (fun e => hkj e.symm)).trans hj'
  obtain ⟨s2, l2, n2, e2, ho2, I2, cv2⟩ := copyLoop_okG w K hkj (h := σ.next) hno (l := []) lj I1 hj1 (upd_same _ _ _) (by simpa using hol) List.Pairwise.nil (by simp)
  refine ⟨s2, σ.next, l2, n2, by simpa using e2, ho2, ?_, ?_⟩
  · rw [show upd (⟨upd σ.tree k (some (σ.next, [])), σ.next + 1⟩ : Sp α).tree k (some (σ.next, l2)) = upd σ.tree k (some (σ.next, l2)) from Verif.Box.upd_upd _ _ _ _] at I2
    exact I2
  · refine cv2.diag.congr fun f => ?_
    rw [copy, e1, Res.ok_bind, I1.begin hj1, Res.ok_bind, I1.end hj1, Res.ok_bind]; rfl

theorem copy_ok (w : Swo lt) {s : St α} {σ : Sp α} {b : Bool} (K : Keep b P) {k j : Slot} {hj : Nat} {lj : List (Nat × α)} (I : Inv lt multi P s σ)
    (hk : σ.tree k = none) (hj' : σ.tree j = some (hj, lj)) :
    ∃ s' h l' n', l'.map (·.2) = lj.map (·.2) ∧ Inv lt multi P s' ⟨upd σ.tree k (some (h, l')), n'⟩ ∧ Conv (fun f => copy lt f s k j) s' := by
  obtain ⟨s', h, l', n', h1, _, h2⟩ := copy_okG w K I (fun _ h => h) (I.ord j _ hj') hk hj'
  exact ⟨s', h, l', n', h1, h2⟩

theorem move_ok {s : St α} {σ : Sp α} {b : Bool} (K : Keep b P) {k j : Slot} {x : Nat × List (Nat × α)} (I : Inv lt multi P s σ)
    (hk : σ.tree k = none) (hj : σ.tree j = some x) :
    ∃ s', Rb.move s k j = .ok s' ∧ Inv lt multi P s' ⟨upd (upd σ.tree j (some (σ.next, []))) k (some x), σ.next + 1⟩ := by
  have hkj : j ≠ k := by rintro rfl; rw [hk] at hj; cases hj
  obtain ⟨s1, e1, I1⟩ := make_ok I K hk
  obtain ⟨s2, e2, I2⟩ := swap_ok (k := j) (j := k) (x := x) (y := (σ.next, [])) I1 ((upd_ne _ _ hkj).trans hj) (upd_same _ _ _)
  refine ⟨s2, by rw [Rb.move, e1, Res.ok_bind, e2], ?_⟩
  have : upd (upd (⟨upd σ.tree k (some (σ.next, [])), σ.next + 1⟩ : Sp α).tree j (some (σ.next, []))) k (some x) =
      upd (upd σ.tree j (some (σ.next, []))) k (some x) := by
    show upd (upd (upd σ.tree k (some (σ.next, []))) j (some (σ.next, []))) k (some x) = _
    rw [← Verif.Box.upd_comm _ _ _ hkj, Verif.Box.upd_upd]
  rw [this] at I2
  exact I2

/-- The second half of the assignments: `swap` with the temporary, which is destroyed. -/
theorem assignTail {s : St α} {σ : Sp α} {b : Bool} (K : Keep b P) {k : Slot} (hkt : k ≠ .temp) {x y : Nat × List (Nat × α)} (I : Inv lt multi P s σ)
    (ht : σ.tree .temp = some x) (hk : σ.tree k = some y) :
    ∃ s', Inv lt multi P s' ⟨upd (upd σ.tree .temp none) k (some x), σ.next⟩ ∧
      Conv (fun f => swap s .temp k >>= fun s => destroy f s .temp) s' := by
  obtain ⟨s1, e1, I1⟩ := swap_ok I ht hk
  have ht1 : (⟨upd (upd σ.tree .temp (some y)) k (some x), σ.next⟩ : Sp α).tree .temp = some (y.1, y.2) :=
    (upd_ne _ _ (fun e => hkt e.symm)).trans (upd_same _ _ _)
  obtain ⟨s2, cv, I2⟩ := destroy_ok I1 K ht1
  refine ⟨s2, ?_, cv.congr fun f => by rw [e1, Res.ok_bind]⟩
  have : upd (⟨upd (upd σ.tree .temp (some y)) k (some x), σ.next⟩ : Sp α).tree .temp none = upd (upd σ.tree .temp none) k (some x) := by
    show upd (upd (upd σ.tree .temp (some y)) k (some x)) .temp none = _
    rw [Verif.Box.upd_comm _ _ _ hkt, Verif.Box.upd_upd]
  rw [this] at I2
  exact I2

theorem upd_back {β : Type} {g : Slot → Option β} {k : Slot} {o : Option β} (h : g k = none) : upd (upd g k o) k none = g := by
  rw [Verif.Box.upd_upd, ← h, Verif.Box.upd_self]

/-! Erasing ranges. -/

theorem eraseRangeLoop_ok {b : Bool} (K : Keep b P) {k : Slot} {h : Nat} {xs zs : List (Nat × α)} (ys : List (Nat × α)) :
    ∀ {s : St α} {σ : Sp α}, Inv lt multi P s σ → σ.tree k = some (h, xs ++ ys ++ zs) →
    (∃ s', Inv lt multi P s' ⟨upd σ.tree k (some (h, xs ++ zs)), σ.next⟩ ∧
      Conv2 (fun f n => eraseRangeLoop f n s k (some (beg h (ys ++ zs))) (some (beg h zs))) s') ∨
    (b = true ∧ ∀ f n, eraseRangeLoop f n s k (some (beg h (ys ++ zs))) (some (beg h zs)) = .oof) := by
  induction ys with
  | nil =>
    intro s σ I hk
    left
    refine ⟨s, ?_, Conv2.stop (fun _ => rfl) fun f n => by simp [eraseRangeLoop]⟩
    rw [show xs ++ zs = xs ++ [] ++ zs by simp, ← hk, Verif.Box.upd_self]; exact I
  | cons y ys ih =>
    intro s σ I hk
    have hkeys := I.keys hk
    have e0 : xs ++ y :: ys ++ zs = xs ++ (y.1, y.2) :: (ys ++ zs) := by simp
    rw [e0] at hk
    have hne : ¬ some y.1 = some (beg h zs) := by
      intro e2
      injection e2 with e2
      cases zs with
      | nil => apply hkeys.2; simp [beg] at e2; simp [← e2]
      | cons z zs => simp only [beg] at e2; have := hkeys.1; simp [List.nodup_append, List.nodup_cons, e2] at this
    have hinc := I.inc hk
    have unf : ∀ f n, eraseRangeLoop f (n + 1) s k (some (beg h (y :: ys ++ zs))) (some (beg h zs)) =
        (increment f s (some y.1) >>= fun next => erase f s k (some y.1) >>= fun q => Res.ok (next, q.1)) >>= fun q => eraseRangeLoop f n q.2 k q.1 (some (beg h zs)) := by
      intro f n
      show eraseRangeLoop f (n + 1) s k (some y.1) (some (beg h zs)) = _
      rw [eraseRangeLoop, if_neg hne]
      simp only [bind_assoc, Res.ok_bind]
    rcases erase_ok I K hk with ⟨⟨s1, it⟩, ⟨_, I1⟩, cv⟩ | ⟨hb, dv⟩
    · have hc : Conv (fun f => increment f s (some y.1) >>= fun next => erase f s k (some y.1) >>= fun q => Res.ok (next, q.1)) (some (beg h (ys ++ zs)), s1) := by
        refine hinc.bind (h := fun f next => erase f s k (some y.1) >>= fun q => Res.ok (next, q.1)) ?_
        exact cv.bind (h := fun _ q => .ok (some (beg h (ys ++ zs)), q.1)) (Conv.pure _)
      rcases ih I1 (by show upd _ _ _ k = _; rw [upd_same]; simp) with ⟨s2, I2, cv2⟩ | ⟨hb, dv⟩
      · left
        refine ⟨s2, ?_, ?_⟩
        · rw [show upd (⟨upd σ.tree k (some (h, xs ++ (ys ++ zs))), σ.next⟩ : Sp α).tree k (some (h, xs ++ zs)) = upd σ.tree k (some (h, xs ++ zs)) from Verif.Box.upd_upd _ _ _ _] at I2
          exact I2
        · exact Conv2.step (h := fun f n q => eraseRangeLoop f n q.2 k q.1 (some (beg h zs))) hc cv2 (fun _ => rfl) unf
      · right
        refine ⟨hb, fun f n => ?_⟩
        cases n with
        | zero => rfl
        | succ n =>
          rw [unf]
          rcases hc.2 f with e | e <;> simp only at e
          · rw [e]; rfl
          · rw [e, Res.ok_bind]; exact dv f n
    · right
      refine ⟨hb, fun f n => ?_⟩
      cases n with
      | zero => rfl
      | succ n =>
        rw [unf]
        have dv' : erase f s k (some y.1) = .oof := dv f
        rcases hinc.2 f with e | e <;> simp only at e
        · rw [e]; rfl
        · rw [e, Res.ok_bind, dv']; rfl

theorem eraseRange_ok {s : St α} {σ : Sp α} {b : Bool} (K : Keep b P) {k : Slot} {h : Nat} {xs ys zs : List (Nat × α)} (I : Inv lt multi P s σ)
    (hk : σ.tree k = some (h, xs ++ ys ++ zs)) :
    Out b (fun f => eraseRange f s k (some (beg h (ys ++ zs))) (some (beg h zs))) fun s' => Inv lt multi P s' ⟨upd σ.tree k (some (h, xs ++ zs)), σ.next⟩ := by
  have hkeys := I.keys hk
  have unf : ∀ f, eraseRange f s k (some (beg h (ys ++ zs))) (some (beg h zs)) =
      if some (beg h (ys ++ zs)) = some (beg h (xs ++ ys ++ zs)) ∧ some (beg h zs) = some h then clear f s k
      else eraseRangeLoop f f s k (some (beg h (ys ++ zs))) (some (beg h zs)) := by
    intro f
    rw [eraseRange, I.begin hk, Res.ok_bind, I.end hk, Res.ok_bind]
  by_cases hc : some (beg h (ys ++ zs)) = some (beg h (xs ++ ys ++ zs)) ∧ some (beg h zs) = some h
  · have hzs : zs = [] := by
      cases zs with
      | nil => rfl
      | cons z zs =>
        have := hc.2
        injection this with h1
        exact absurd h1 (by rw [show beg h (z :: zs) = z.1 from rfl]; exact beg_ne (xs := xs ++ ys) hkeys.2)
    have hxs : xs = [] := by
      cases xs with
      | nil => rfl
      | cons x xs =>
        have h1 := hc.1
        injection h1 with h1
        exfalso
        rw [List.append_assoc, List.cons_append, show beg h (x :: (xs ++ (ys ++ zs))) = x.1 from rfl] at h1
        by_cases hyz : ys ++ zs = []
        · rw [hyz] at h1
          exact hkeys.2 (by rw [show h = x.1 from h1]; simp)
        · have h2 := mem_beg (h := h) hyz
          rw [h1] at h2
          have := hkeys.1
          rw [List.append_assoc, List.cons_append, List.map_cons, List.nodup_cons] at this
          exact this.1 (by rw [List.map_append]; exact List.mem_append.2 (.inr h2))
    subst hzs hxs
    obtain ⟨s', cv, I'⟩ := clear_ok I K hk
    exact Out.of I' (cv.congr fun f => by rw [unf, if_pos hc])
  · rcases eraseRangeLoop_ok K ys I hk with ⟨s', I', cv⟩ | ⟨hb, dv⟩
    · exact Out.of I' (cv.diag.congr fun f => by rw [unf, if_neg hc])
    · exact .inr ⟨hb, fun f => (unf f).trans (by rw [if_neg hc]; exact dv f f)⟩

/-- `erase(key)`. -/
theorem eraseKey_okG {lt' : α → α → Bool} {mu' : Bool} (w : Swo lt) {s : St α} {σ : Sp α} {b : Bool} (K : Keep b P) {k : Slot} {h : Nat} {A B C : List (Nat × α)} {key : α} (I : Inv lt' mu' P s σ) (hol : Ord lt multi (A ++ B ++ C))
    (hk : σ.tree k = some (h, A ++ B ++ C)) (hA : ∀ x ∈ A, lt x.2 key = true) (hB : ∀ x ∈ B, lt x.2 key = false ∧ lt key x.2 = false)
    (hC : ∀ x ∈ C, lt key x.2 = true) :
    Out b (fun f => if multi then eraseMulti lt f s k key else eraseUnique lt f s k key) fun r => r.2 = B.length ∧
      Inv lt' mu' P r.1 ⟨upd σ.tree k (some (h, A ++ C)), σ.next⟩ := by
  cases multi with
  | true =>
    have h1 := lowerBound_okG w I hk hol.sorted key
    have h2 := upperBound_okG w I hk hol.sorted key
    rw [drop_lower w hA hB hC] at h1
    rw [drop_upper w hA hB hC] at h2
    obtain ⟨t, i, ht, _⟩ := I.rep k _ hk
    have h3 := (distance_ok (n := 0) B i ht).diag
    rw [Nat.zero_add] at h3
    have h4 := eraseRange_ok K I hk
    have h5 : Conv (fun f => equalRangeMulti lt f s k key) (some (beg h (B ++ C)), some (beg h C)) :=
      h1.bind (h := fun f a => upperBound lt f s k key >>= fun b => .ok (a, b)) (h2.bind (h := fun _ b => .ok (some (beg h (B ++ C)), b)) (Conv.pure _))
    refine ((Out.of (P := fun q => q = (some (beg h (B ++ C)), some (beg h C))) rfl h5).bind (h := fun f q => distance f f s q.1 q.2 0 >>= fun n =>
      eraseRange f s k q.1 q.2 >>= fun s => .ok (s, n)) ?_).congr fun f => ?_
    · rintro _ rfl
      refine (Out.of (P := fun n => n = B.length) rfl h3).bind (h := fun f n => eraseRange f s k (some (beg h (B ++ C))) (some (beg h C)) >>= fun s => .ok (s, n)) ?_
      rintro _ rfl
      refine h4.bind (h := fun _ s => .ok (s, B.length)) ?_
      intro s' I'
      exact Out.of ⟨rfl, I'⟩ (Conv.pure _)
    · simp only [if_true]; rfl
  | false =>
    have h1 := find_okG w I hk hol.sorted hA hB hC
    have he := I.end hk
    have hkeys := I.keys hk
    have unf : ∀ f, (if false = true then eraseMulti lt f s k key else eraseUnique lt f s k key) = find lt f s k key >>= fun it =>
        if it = some h then .ok (s, 0) else erase f s k it >>= fun q => .ok (q.1, 1) := by
      intro f
      rw [if_neg (by simp), eraseUnique]
      simp only [he, Res.ok_bind]
    refine ((Out.of (P := fun q => q = some (beg h B)) rfl h1).bind (h := fun f it =>
        if it = some h then .ok (s, 0) else erase f s k it >>= fun q => .ok (q.1, 1)) ?_).congr unf
    rintro _ rfl
    match B, hB, hk, hkeys, hol with
    | [], _, hk, _, _ =>
      simp only [beg, if_true]
      refine Out.of (a := (s, 0)) ⟨rfl, ?_⟩ (Conv.pure _)
      rw [show A ++ C = A ++ [] ++ C by simp, ← hk, Verif.Box.upd_self]; exact I
    | [x], _, hk, hkeys, _ =>
      have e : A ++ [x] ++ C = A ++ (x.1, x.2) :: C := by simp
      rw [e] at hk hkeys
      have hx : ¬ some x.1 = some h := fun e => beg_ne hkeys.2 (Option.some.inj e)
      simp only [beg, hx, if_false]
      refine (erase_ok I K hk).bind (h := fun _ q => .ok (q.1, 1)) ?_
      rintro ⟨s', it⟩ ⟨_, I'⟩
      exact Out.of ⟨rfl, I'⟩ (Conv.pure _)
    | x :: y :: B, hB, hk, _, ho =>
      exfalso
      simp only [Ord, List.append_assoc, List.cons_append, List.pairwise_append, List.pairwise_cons, List.mem_cons] at ho
      have h3 := (ho.2.1.1 y (.inl rfl)).2 trivial
      rcases w.trans x.2 key y.2 h3 with h4 | h4
      · rw [(hB x (by simp)).1] at h4; cases h4
      · rw [(hB y (by simp)).2] at h4; cases h4

theorem eraseKey_ok (w : Swo lt) {s : St α} {σ : Sp α} {b : Bool} (K : Keep b P) {k : Slot} {h : Nat} {A B C : List (Nat × α)} {key : α} (I : Inv lt multi P s σ)
    (hk : σ.tree k = some (h, A ++ B ++ C)) (hA : ∀ x ∈ A, lt x.2 key = true) (hB : ∀ x ∈ B, lt x.2 key = false ∧ lt key x.2 = false)
    (hC : ∀ x ∈ C, lt key x.2 = true) :
    Out b (fun f => if multi then eraseMulti lt f s k key else eraseUnique lt f s k key) fun r => r.2 = B.length ∧
      Inv lt multi P r.1 ⟨upd σ.tree k (some (h, A ++ C)), σ.next⟩ :=
  eraseKey_okG w K I (I.ord k _ hk) hk hA hB hC

/-! One call. -/

/-- What the program must ensure: objects exist or not, iterators are positions of the object.
Without `b` elements are only appended. -/
def Pre (lt : α → α → Bool) (b : Bool) (σ : Sp α) : Op α → Prop
  | .make k => σ.tree (.user k) = none
  | .initList k vs => σ.tree (.user k) = none ∧ (b = true ∨ vs.Pairwise fun x y => lt y x = false)
  | .copy k j => σ.tree (.user k) = none ∧ ∃ x, σ.tree (.user j) = some x
  | .move k j => σ.tree (.user k) = none ∧ ∃ x, σ.tree (.user j) = some x
  | .destroy k => ∃ x, σ.tree (.user k) = some x
  | .assignCopy k j => (∃ x, σ.tree (.user k) = some x) ∧ ∃ x, σ.tree (.user j) = some x
  | .assignMove k j => (∃ x, σ.tree (.user k) = some x) ∧ ∃ x, σ.tree (.user j) = some x
  | .assignList k vs => (∃ x, σ.tree (.user k) = some x) ∧ (b = true ∨ vs.Pairwise fun x y => lt y x = false)
  | .swap k j => (∃ x, σ.tree (.user k) = some x) ∧ ∃ x, σ.tree (.user j) = some x
  | .insert k v => ∃ h l, σ.tree (.user k) = some (h, l) ∧ (b = true ∨ ∀ x ∈ l, lt v x.2 = false)
  | .insertAll k vs => ∃ h l, σ.tree (.user k) = some (h, l) ∧ (b = true ∨ ((∀ x ∈ l, ∀ v ∈ vs, lt v x.2 = false) ∧ vs.Pairwise fun x y => lt y x = false))
  | .eraseIt k a => ∃ h xs v ys, σ.tree (.user k) = some (h, xs ++ (a, v) :: ys)
  | .eraseRange k a e => ∃ h xs ys zs, σ.tree (.user k) = some (h, xs ++ ys ++ zs) ∧ a = beg h (ys ++ zs) ∧ e = beg h zs
  | .eraseKey k _ => ∃ x, σ.tree (.user k) = some x
  | .clear k => ∃ x, σ.tree (.user k) = some x

/-- The calls that erase elements. -/
def Op.erases : Op α → Bool
  | .eraseIt _ _ => true
  | .eraseRange _ _ _ => true
  | .eraseKey _ _ => true
  | _ => false

/-- What the call does and returns. -/
def Eff (lt : α → α → Bool) (multi : Bool) (s : St α) (σ : Sp α) : Op α → Ret → Sp α → Prop
  | .make k, r, σ' => r = .unit ∧ ∃ h, σ'.tree = upd σ.tree (.user k) (some (h, []))
  | .initList k vs, r, σ' => r = .unit ∧ ∃ h l, σ'.tree = upd σ.tree (.user k) (some (h, l)) ∧ l.map (·.2) = vs.foldl (insV lt multi) []
  | .copy k j, r, σ' => r = .unit ∧ ∃ hj lj h l, σ.tree (.user j) = some (hj, lj) ∧ σ'.tree = upd σ.tree (.user k) (some (h, l)) ∧ l.map (·.2) = lj.map (·.2)
  | .move k j, r, σ' => r = .unit ∧ ∃ x h, σ.tree (.user j) = some x ∧ σ'.tree = upd (upd σ.tree (.user j) (some (h, []))) (.user k) (some x)
  | .destroy k, r, σ' => r = .unit ∧ σ'.tree = upd σ.tree (.user k) none ∧ σ'.next = σ.next
  | .assignCopy k j, r, σ' => r = .unit ∧ ∃ hj lj h l, σ.tree (.user j) = some (hj, lj) ∧ σ'.tree = upd σ.tree (.user k) (some (h, l)) ∧ l.map (·.2) = lj.map (·.2)
  | .assignMove k j, r, σ' => r = .unit ∧ ∃ x h, σ.tree (.user j) = some x ∧ σ'.tree = upd (upd σ.tree (.user j) (some (h, []))) (.user k) (some x)
  | .assignList k vs, r, σ' => r = .unit ∧ ∃ h l, σ'.tree = upd σ.tree (.user k) (some (h, l)) ∧ l.map (·.2) = vs.foldl (insV lt multi) []
  | .swap k j, r, σ' => r = .unit ∧ ∃ x y, σ.tree (.user k) = some x ∧ σ.tree (.user j) = some y ∧ σ'.tree = upd (upd σ.tree (.user k) (some y)) (.user j) (some x) ∧ σ'.next = σ.next
  | .insert k v, r, σ' => ∃ h l l' it new, σ.tree (.user k) = some (h, l) ∧ Ins lt multi s h σ.next l v l' it new ∧
      σ'.tree = upd σ.tree (.user k) (some (h, l')) ∧ r = .iter it new
  | .insertAll k vs, r, σ' => r = .unit ∧ ∃ h l l', σ.tree (.user k) = some (h, l) ∧ σ'.tree = upd σ.tree (.user k) (some (h, l')) ∧
      l'.map (·.2) = vs.foldl (insV lt multi) (l.map (·.2))
  | .eraseIt k a, r, σ' => ∃ h xs v ys, σ.tree (.user k) = some (h, xs ++ (a, v) :: ys) ∧ σ'.tree = upd σ.tree (.user k) (some (h, xs ++ ys)) ∧
      r = .iter (some (beg h ys)) false ∧ σ'.next = σ.next
  | .eraseRange k a e, r, σ' => r = .unit ∧ ∃ h xs ys zs, σ.tree (.user k) = some (h, xs ++ ys ++ zs) ∧ a = beg h (ys ++ zs) ∧ e = beg h zs ∧
      σ'.tree = upd σ.tree (.user k) (some (h, xs ++ zs)) ∧ σ'.next = σ.next
  | .eraseKey k v, r, σ' => ∃ h A B C, σ.tree (.user k) = some (h, A ++ B ++ C) ∧ (∀ x ∈ A, lt x.2 v = true) ∧
      (∀ x ∈ B, lt x.2 v = false ∧ lt v x.2 = false) ∧ (∀ x ∈ C, lt v x.2 = true) ∧
      σ'.tree = upd σ.tree (.user k) (some (h, A ++ C)) ∧ r = .num B.length ∧ σ'.next = σ.next
  | .clear k, r, σ' => r = .unit ∧ ∃ h l, σ.tree (.user k) = some (h, l) ∧ σ'.tree = upd σ.tree (.user k) (some (h, [])) ∧ σ'.next = σ.next

theorem quiet_out {b : Bool} {g : Nat → Res (St α)} {Q : St α → Prop} {R : St α × Ret → Prop} (h : Out b g Q) (hq : ∀ s, Q s → R (s, .unit)) :
    Out b (fun f => quiet (g f)) R := by
  refine h.bind (h := fun _ s => Res.ok (s, Ret.unit)) ?_
  intro s hs
  exact Out.of (hq s hs) (Conv.pure _)

theorem quiet_conv {b : Bool} {g : Nat → Res (St α)} {s : St α} {R : St α × Ret → Prop} (h : Conv g s) (hq : R (s, .unit)) :
    Out b (fun f => quiet (g f)) R :=
  quiet_out (Out.of (P := fun x => x = s) rfl h) (by rintro _ rfl; exact hq)

theorem step_ok (w : Swo lt) {s : St α} {σ : Sp α} {b : Bool} (K : Keep b P) (I : Inv lt multi P s σ) (ht : σ.tree .temp = none) (op : Op α)
    (hp : Pre lt b σ op) :
    Out (b && op.erases) (fun f => step lt multi f s op) fun r => ∃ σ', Inv lt multi P r.1 σ' ∧ Eff lt multi s σ op r.2 σ' ∧ σ'.tree .temp = none := by
  have hut : ∀ (k : Nat), Slot.user k ≠ Slot.temp := by intro k; simp
  have htu : ∀ (k : Nat), Slot.temp ≠ Slot.user k := by intro k; simp
  have hup : ∀ (k : Nat) (o : Option (Nat × List (Nat × α))) (g : Slot → Option (Nat × List (Nat × α))), g .temp = none → upd g (.user k) o .temp = none := by
    intro k o g hg; rw [upd_ne _ _ (htu k)]; exact hg
  cases op with
  | make k =>
    obtain ⟨s', e, I'⟩ := make_ok I K hp
    exact quiet_conv (Conv.const e) ⟨_, I', ⟨rfl, _, rfl⟩, by simp [upd, ht]⟩
  | initList k vs =>
    obtain ⟨s', h, l, n, e, I', cv⟩ := initList_ok w K vs I hp.1 hp.2
    exact quiet_conv cv ⟨_, I', ⟨rfl, _, _, rfl, e⟩, by simp [upd, ht]⟩
  | copy k j =>
    obtain ⟨hk, ⟨hj, lj⟩, hj'⟩ := hp
    obtain ⟨s', h, l, n, e, I', cv⟩ := copy_ok w K I hk hj'
    exact quiet_conv cv ⟨_, I', ⟨rfl, _, _, _, _, hj', rfl, e⟩, by simp [upd, ht]⟩
  | move k j =>
    obtain ⟨hk, x, hj⟩ := hp
    obtain ⟨s', e, I'⟩ := move_ok K I hk hj
    exact quiet_conv (Conv.const e) ⟨_, I', ⟨rfl, _, _, hj, rfl⟩, by simp [upd, ht]⟩
  | destroy k =>
    obtain ⟨⟨h, l⟩, hk⟩ := hp
    obtain ⟨s', cv, I'⟩ := destroy_ok I K hk
    exact quiet_conv cv ⟨_, I', ⟨rfl, rfl, rfl⟩, by simp [upd, ht]⟩
  | assignCopy k j =>
    obtain ⟨⟨x, hk⟩, ⟨hj, lj⟩, hj'⟩ := hp
    obtain ⟨s1, h, l, n, e, I1, cv1⟩ := copy_ok w K I ht hj'
    have e1 : (⟨upd σ.tree .temp (some (h, l)), n⟩ : Sp α).tree .temp = some (h, l) := by simp [upd]
    have e2 : (⟨upd σ.tree .temp (some (h, l)), n⟩ : Sp α).tree (.user k) = some x := by simp [upd, hk]
    obtain ⟨s2, I2, cv2⟩ := assignTail K (hut k) I1 e1 e2
    refine quiet_conv (cv1.bind (h := fun f s => swap s .temp (.user k) >>= fun s => destroy f s .temp) cv2) ⟨_, I2, ⟨rfl, hj, lj, h, l, hj', ?_, e⟩, ?_⟩
    · show upd (upd (upd σ.tree .temp _) .temp none) (.user k) _ = _
      rw [upd_back ht]
    · simp [upd]
  | assignMove k j =>
    obtain ⟨⟨x, hk⟩, y, hj⟩ := hp
    obtain ⟨s1, e1, I1⟩ := move_ok K I ht hj
    obtain ⟨z, hz⟩ : ∃ z, (⟨upd (upd σ.tree (.user j) (some (σ.next, []))) .temp (some y), σ.next + 1⟩ : Sp α).tree (.user k) = some z := by
      by_cases hkj : k = j
      · subst hkj; exact ⟨(σ.next, []), by simp [upd]⟩
      · exact ⟨x, by simp [upd, hkj, hk]⟩
    have e2 : (⟨upd (upd σ.tree (.user j) (some (σ.next, []))) .temp (some y), σ.next + 1⟩ : Sp α).tree .temp = some y := by simp [upd]
    obtain ⟨s2, I2, cv2⟩ := assignTail K (hut k) I1 e2 hz
    refine quiet_conv (g := fun f => assignMove f s (.user k) (.user j)) (cv2.congr fun f => ?_) ⟨_, I2, ⟨rfl, y, σ.next, hj, ?_⟩, ?_⟩
    · rw [assignMove, e1, Res.ok_bind]
    · show upd (upd (upd (upd σ.tree (.user j) _) .temp _) .temp none) (.user k) _ = _
      rw [upd_back (hup _ _ _ ht)]
    · simp [upd]
  | assignList k vs =>
    obtain ⟨⟨x, hk⟩, hb⟩ := hp
    obtain ⟨s1, h, l, n, e, I1, cv1⟩ := initList_ok w K vs I ht hb
    have e1 : (⟨upd σ.tree .temp (some (h, l)), n⟩ : Sp α).tree .temp = some (h, l) := by simp [upd]
    have e2 : (⟨upd σ.tree .temp (some (h, l)), n⟩ : Sp α).tree (.user k) = some x := by simp [upd, hk]
    obtain ⟨s2, I2, cv2⟩ := assignTail K (hut k) I1 e1 e2
    refine quiet_conv (cv1.bind (h := fun f s => swap s .temp (.user k) >>= fun s => destroy f s .temp) cv2) ⟨_, I2, ⟨rfl, h, l, ?_, e⟩, ?_⟩
    · show upd (upd (upd σ.tree .temp _) .temp none) (.user k) _ = _
      rw [upd_back ht]
    · simp [upd]
  | swap k j =>
    obtain ⟨⟨x, hk⟩, y, hj⟩ := hp
    obtain ⟨s', e, I'⟩ := swap_ok I hk hj
    exact quiet_conv (Conv.const e) ⟨_, I', ⟨rfl, _, _, hk, hj, rfl, rfl⟩, by simp [upd, ht]⟩
  | insert k v =>
    obtain ⟨h, l, hk, hb⟩ := hp
    obtain ⟨s', it, new, l', hi, I', cv, _⟩ := insert_ok w I K hk v hb
    have cv' : Conv (fun f => step lt multi f s (.insert k v)) (s', .iter it new) := by
      have c0 : Conv (fun f => Rb.insert lt multi f s (.user k) v >>= fun q => Res.ok (q.1, Ret.iter q.2.1 q.2.2)) (s', .iter it new) :=
        Conv.bind (h := fun _ q => Res.ok (q.1, Ret.iter q.2.1 q.2.2)) cv (Conv.pure _)
      exact c0
    exact Out.of ⟨⟨upd σ.tree (.user k) (some (h, l')), σ.next + 1⟩, I', ⟨h, l, l', it, new, hk, hi, rfl, rfl⟩, by simp [upd, ht]⟩ cv'
  | insertAll k vs =>
    obtain ⟨h, l, hk, hb⟩ := hp
    obtain ⟨s', l', n, e, I', cv⟩ := insertAll_ok w K vs I hk hb
    exact quiet_conv cv ⟨_, I', ⟨rfl, _, _, _, hk, rfl, e⟩, by simp [upd, ht]⟩
  | eraseIt k a =>
    rw [show (b && (Op.eraseIt k a : Op α).erases) = b from Bool.and_true b]
    obtain ⟨h, xs, v, ys, hk⟩ := hp
    refine (erase_ok I K hk).bind (h := fun _ q => Res.ok (q.1, Ret.iter q.2 false)) ?_
    rintro ⟨s', it⟩ ⟨rfl, I'⟩
    exact Out.of ⟨⟨upd σ.tree (.user k) (some (h, xs ++ ys)), σ.next⟩, I', ⟨h, xs, v, ys, hk, rfl, rfl, rfl⟩, by simp [upd, ht]⟩ (Conv.pure _)
  | eraseRange k a e =>
    rw [show (b && (Op.eraseRange k a e : Op α).erases) = b from Bool.and_true b]
    obtain ⟨h, xs, ys, zs, hk, rfl, rfl⟩ := hp
    refine quiet_out (eraseRange_ok K I hk) ?_
    intro s' I'
    exact ⟨_, I', ⟨rfl, h, xs, ys, zs, hk, rfl, rfl, rfl, rfl⟩, by simp [upd, ht]⟩
  | eraseKey k v =>
    rw [show (b && (Op.eraseKey k v : Op α).erases) = b from Bool.and_true b]
    obtain ⟨⟨h, l⟩, hk⟩ := hp
    obtain ⟨A, B, C, rfl, hA, hB, hC⟩ := split3 w v l (I.ord _ _ hk).sorted
    refine (eraseKey_ok w K I hk hA hB hC).bind (h := fun _ q => Res.ok (q.1, Ret.num q.2)) ?_
    rintro ⟨s', n⟩ ⟨rfl, I'⟩
    exact Out.of ⟨⟨upd σ.tree (.user k) (some (h, A ++ C)), σ.next⟩, I', ⟨h, A, B, C, hk, hA, hB, hC, rfl, rfl, rfl⟩, by simp [upd, ht]⟩ (Conv.pure _)
  | clear k =>
    obtain ⟨⟨h, l⟩, hk⟩ := hp
    obtain ⟨s', cv, I'⟩ := clear_ok I K hk
    exact quiet_conv cv ⟨_, I', ⟨rfl, _, _, hk, rfl, rfl⟩, by simp [upd, ht]⟩

end

end Verif.Rb
