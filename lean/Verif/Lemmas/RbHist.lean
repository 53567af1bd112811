import Verif.Lemmas.RbReach

/-! Histories of insertions: what is in the set afterwards, and the tree that descending
insertions build. -/

set_option backward.isDefEq.respectTransparency false

namespace Verif.Rb
open Verif
open Verif.Box (Slot upd upd_same upd_ne)

variable {α : Type} {lt : α → α → Bool} {multi b : Bool} {s : St α} {σ : Sp α}

/-- What all histories keep. -/
abbrev Root : T α → Prop := fun t => t.red = false

theorem Conv.run_cons {o : Op α} {os : List (Op α)} {s1 s2 : St α} {r : Ret} {rs : List Ret} (h1 : Conv (fun f => step lt multi f s o) (s1, r))
    (h2 : Conv (fun f => run lt multi f s1 os) (s2, rs)) : Conv (fun f => run lt multi f s (o :: os)) (s2, r :: rs) := by
  have h3 : Conv (fun f => run lt multi f s1 os >>= fun q => Res.ok (q.1, r :: q.2)) (s2, r :: rs) := h2.bind (h := fun _ q => Res.ok (q.1, r :: q.2)) (Conv.pure _)
  exact h1.bind (h := fun f q => run lt multi f q.1 os >>= fun p => Res.ok (p.1, q.2 :: p.2)) h3

/-- Insertions one after the other. -/
theorem inserts (w : Swo lt) {k h : Nat} (vs : List α) : ∀ {s : St α} {σ : Sp α} {l : List (Nat × α)}, Reach lt multi b s → Inv lt multi Root s σ → σ.tree .temp = none →
    σ.tree (.user k) = some (h, l) → (b = true ∨ ((∀ x ∈ l, ∀ v ∈ vs, lt v x.2 = false) ∧ vs.Pairwise fun x y => lt y x = false)) →
    ∃ s' σ' l' rs, Conv (fun f => run lt multi f s (vs.map (.insert k))) (s', rs) ∧ Reach lt multi b s' ∧ Inv lt multi Root s' σ' ∧ σ'.tree .temp = none ∧
      σ'.tree (.user k) = some (h, l') ∧ l'.map (·.2) = vs.foldl (insV lt multi) (l.map (·.2)) := by
  induction vs with
  | nil => intro s σ l hr I ht hk _; exact ⟨s, σ, l, [], Conv.pure _, hr, I, ht, hk, rfl⟩
  | cons v vs ih =>
    intro s σ l hr I ht hk hb
    have hl : Legal s (.insert k v) := (I.exists k).2 ⟨_, hk⟩
    have ha : b = true ∨ Appends lt s (.insert k v) := by
      rcases hb with hb | hb
      · exact .inl hb
      · refine .inr fun l' hw x hx => ?_
        obtain ⟨h', hk'⟩ := I.of_walk hw
        rw [hk] at hk'; cases hk'
        exact hb.1 x hx v (by simp)
    obtain ⟨⟨s1, r1⟩, ⟨σ1, I1, E, ht1⟩, cv⟩ := (call w keep_root I ht hl (.inl rfl)).conv
    obtain ⟨h1, l1, l1', it, new, e1, hi, e2, rfl⟩ := E
    rw [hk] at e1; cases e1
    obtain ⟨s2, σ2, l2, rs, cv2, hr2, I2, ht2, hk2, e3⟩ := ih (l := l1') (Conv.reach hr hl ha cv) I1 ht1 (by rw [e2, upd_same]) (by
      rcases hb with hb | ⟨hb1, hb2⟩
      · exact .inl hb
      · rw [List.pairwise_cons] at hb2
        refine .inr ⟨fun x hx u hu => ?_, hb2.2⟩
        rcases hi.mem x hx with h1 | h1
        · exact hb1 x h1 u (by simp [hu])
        · rw [h1]; exact hb2.1 u hu)
    exact ⟨s2, σ2, l2, _, Conv.run_cons cv cv2, hr2, I2, ht2, hk2, by rw [e3, hi.vals]; rfl⟩

/-- A new set and insertions into it. -/
theorem history (w : Swo lt) (multi b : Bool) (vs : List α) (hb : b = true ∨ vs.Pairwise fun x y => lt y x = false) :
    ∃ s σ h l rs, Conv (fun f => run lt multi f St.init (.make 0 :: vs.map (.insert 0))) (s, rs) ∧ Reach lt multi b s ∧ Inv lt multi Root s σ ∧ σ.tree .temp = none ∧
      σ.tree (.user 0) = some (h, l) ∧ l.map (·.2) = vs.foldl (insV lt multi) [] := by
  have hl : Legal (St.init : St α) (.make 0) := fun h => h rfl
  have ha : b = true ∨ Appends lt St.init (.make 0) := .inr trivial
  obtain ⟨⟨s1, r1⟩, ⟨σ1, I1, E, ht1⟩, cv⟩ := (call (multi := multi) w keep_root Inv.init rfl hl (.inl rfl)).conv
  obtain ⟨rfl, h, e⟩ := E
  obtain ⟨s2, σ2, l2, rs, cv2, hr2, I2, ht2, hk2, e3⟩ := inserts (b := b) (k := 0) (h := h) (l := []) w vs (Conv.reach .init hl ha cv) I1 ht1 (by rw [e, upd_same]) (by
    rcases hb with hb | hb
    · exact .inl hb
    · exact .inr ⟨by simp, hb⟩)
  exact ⟨s2, σ2, h, l2, _, Conv.run_cons cv cv2, hr2, I2, ht2, hk2, e3⟩

/-! Contents. -/

theorem insV_mem {l : List α} {v x : α} : x ∈ insV lt multi l v → x ∈ l ∨ x = v := by
  rw [insV]
  split
  · intro h
    simp only [List.mem_append, List.mem_cons] at h
    have h1 := List.takeWhile_append_dropWhile (p := fun x => !lt v x) (l := l)
    rcases h with h | h | h
    · left; rw [← h1]; exact List.mem_append.2 (.inl h)
    · exact .inr h
    · left; rw [← h1]; exact List.mem_append.2 (.inr h)
  · exact .inl

theorem insV_old {l : List α} {v x : α} (h : x ∈ l) : x ∈ insV lt multi l v := by
  rw [insV]
  split
  · have h1 := List.takeWhile_append_dropWhile (p := fun x => !lt v x) (l := l)
    rw [← h1, List.mem_append] at h
    simp only [List.mem_append, List.mem_cons]
    rcases h with h | h
    · exact .inl h
    · exact .inr (.inr h)
  · exact h

/-- After the insertion there is an element equivalent to the one inserted. -/
theorem insV_new_mem (w : Swo lt) {l : List α} {v : α} : ∃ x ∈ insV lt multi l v, lt x v = false ∧ lt v x = false := by
  have hv : lt v v = false := by
    cases h : lt v v with
    | false => rfl
    | true => rw [w.asymm v v h] at h; cases h
  by_cases hc : (multi || l.all (fun x => lt x v || lt v x)) = true
  · refine ⟨v, ?_, hv, hv⟩
    rw [insV, if_pos hc]; simp
  · have hc' : ∃ x ∈ l, lt x v = false ∧ lt v x = false := by
      simp only [Bool.or_eq_true, List.all_eq_true, not_or, Classical.not_forall, Bool.not_eq_true] at hc
      obtain ⟨_, x, hx, h1, h2⟩ := hc
      exact ⟨x, hx, h1, h2⟩
    obtain ⟨x, hx, h⟩ := hc'
    exact ⟨x, insV_old hx, h⟩

theorem foldl_mem (vs : List α) : ∀ {l : List α} {x : α}, x ∈ vs.foldl (insV lt multi) l → x ∈ l ∨ x ∈ vs := by
  induction vs with
  | nil => intro l x h; exact .inl h
  | cons v vs ih =>
    intro l x h
    rcases ih h with h | h
    · rcases insV_mem h with h | h
      · exact .inl h
      · exact .inr (by simp [h])
    · exact .inr (by simp [h])

theorem foldl_old (vs : List α) : ∀ {l : List α} {x : α}, x ∈ l → x ∈ vs.foldl (insV lt multi) l := by
  induction vs with
  | nil => intro l x h; exact h
  | cons v vs ih => intro l x h; exact ih (insV_old h)

theorem foldl_new (w : Swo lt) (vs : List α) : ∀ {l : List α} {v : α}, v ∈ vs → ∃ x ∈ vs.foldl (insV lt multi) l, lt x v = false ∧ lt v x = false := by
  induction vs with
  | nil => intro l v h; cases h
  | cons u vs ih =>
    intro l v h
    rcases List.mem_cons.1 h with rfl | h
    · obtain ⟨x, hx, h⟩ := insV_new_mem (multi := multi) w (l := l) (v := v)
      exact ⟨x, foldl_old vs hx, h⟩
    · exact ih h

theorem insV_perm {l : List α} {v : α} : (insV lt true l v).Perm (v :: l) := by
  have h1 := List.takeWhile_append_dropWhile (p := fun x => !lt v x) (l := l)
  rw [insV, Bool.true_or, if_pos rfl]
  refine List.perm_middle.trans ?_
  rw [h1]

theorem foldl_perm (vs : List α) : ∀ {l : List α}, (vs.foldl (insV lt true) l).Perm (vs ++ l) := by
  induction vs with
  | nil => intro l; exact .refl _
  | cons v vs ih =>
    intro l
    refine ih.trans ?_
    refine (List.Perm.append_left vs insV_perm).trans ?_
    exact List.perm_middle

/-- Equivalent to `q`. -/
def eqv (lt : α → α → Bool) (q x : α) : Bool := !lt q x && !lt x q

def SortedV (lt : α → α → Bool) (l : List α) : Prop := l.Pairwise fun x y => lt y x = false

theorem drop_greater {l : List α} {v : α} (w : Swo lt) (hs : SortedV lt l) : ∀ y ∈ l.dropWhile (fun x => !lt v x), lt v y = true := by
  induction l with
  | nil => intro y hy; cases hy
  | cons x l ih =>
    rw [SortedV, List.pairwise_cons] at hs
    cases hx : lt v x with
    | false => rw [List.dropWhile_cons_of_pos (by simp [hx])]; exact ih hs.2
    | true =>
      rw [List.dropWhile_cons_of_neg (by simp [hx])]
      intro y hy
      rcases List.mem_cons.1 hy with rfl | hy
      · exact hx
      · rcases w.trans v y x hx with h | h
        · exact h
        · rw [hs.1 y hy] at h; cases h

theorem take_not {l : List α} {v : α} : ∀ y ∈ l.takeWhile (fun x => !lt v x), lt v y = false := by
  intro y hy
  have := List.all_takeWhile (p := fun x => !lt v x) (l := l)
  rw [List.all_eq_true] at this
  simpa using this y hy

theorem insV_sorted (w : Swo lt) {l : List α} {v : α} (hs : SortedV lt l) : SortedV lt (insV lt multi l v) := by
  rw [insV]
  split
  · have h1 := List.takeWhile_append_dropWhile (p := fun x => !lt v x) (l := l)
    rw [SortedV, ← h1, List.pairwise_append] at hs
    have hd := drop_greater (v := v) w (l := l) (by rw [SortedV, ← h1, List.pairwise_append]; exact hs)
    have ht := take_not (lt := lt) (l := l) (v := v)
    rw [SortedV, List.pairwise_append, List.pairwise_cons]
    refine ⟨hs.1, ⟨fun y hy => w.asymm _ _ (hd y hy), hs.2.1⟩, ?_⟩
    intro x hx y hy
    rcases List.mem_cons.1 hy with rfl | hy
    · exact ht x hx
    · exact hs.2.2 x hx y hy
  · exact hs

theorem insV_filter (w : Swo lt) {l : List α} {v q : α} (hs : SortedV lt l) : (insV lt true l v).filter (eqv lt q) = l.filter (eqv lt q) ++ [v].filter (eqv lt q) := by
  have h1 := List.takeWhile_append_dropWhile (p := fun x => !lt v x) (l := l)
  have hd := drop_greater (v := v) w hs
  rw [insV, Bool.true_or, if_pos rfl]
  by_cases hv : eqv lt q v = true
  · have h2 : (l.dropWhile fun x => !lt v x).filter (eqv lt q) = [] := by
      rw [List.filter_eq_nil_iff]
      intro y hy hq
      simp only [eqv, Bool.and_eq_true, Bool.not_eq_true'] at hv hq
      rcases w.trans v q y (hd y hy) with h | h
      · rw [hv.2] at h; cases h
      · rw [hq.1] at h; cases h
    conv => rhs; rw [← h1]
    rw [List.filter_append, List.filter_append, List.filter_cons_of_pos hv, h2]
    simp [hv]
  · conv => rhs; rw [← h1]
    rw [List.filter_append, List.filter_cons_of_neg hv, List.filter_append, List.filter_cons_of_neg hv]
    simp

theorem foldl_filter (w : Swo lt) {q : α} (vs : List α) : ∀ {l : List α}, SortedV lt l →
    (vs.foldl (insV lt true) l).filter (eqv lt q) = l.filter (eqv lt q) ++ vs.filter (eqv lt q) := by
  induction vs with
  | nil => intro l _; simp
  | cons v vs ih =>
    intro l hs
    rw [List.foldl_cons, ih (insV_sorted w hs), insV_filter w hs, List.append_assoc, ← List.filter_append]
    rfl

/-! Descending insertions. -/

/-- A path of black nodes to the right. -/
def spine : List (Nat × α) → T α
  | [] => .nil
  | x :: r => .node .nil .black x.1 x.2 (spine r)

/-- The least element red on the left of the second, the others on the right. -/
def dchain : List (Nat × α) → T α
  | [] => .nil
  | [x] => .node .nil .black x.1 x.2 .nil
  | x :: y :: r => .node (.node .nil .red x.1 x.2 .nil) .black y.1 y.2 (spine r)

theorem spine_black (r : List (Nat × α)) : (spine r).red = false := by cases r <;> rfl

/-- The path to the place before the first element. -/
def dpath : List (Nat × α) → List (Fr α)
  | [] => []
  | [x] => [⟨true, .black, x.1, x.2, .nil⟩]
  | x :: y :: r => [⟨true, .red, x.1, x.2, .nil⟩, ⟨true, .black, y.1, y.2, spine r⟩]

theorem dpath_plug (l : List (Nat × α)) : plug (dpath l) .nil = dchain l := by
  match l with
  | [] => rfl
  | [x] => rfl
  | x :: y :: r => rfl

theorem dpath_cl (l : List (Nat × α)) : cl (dpath l) = [] := by
  match l with
  | [] => rfl
  | [x] => rfl
  | x :: y :: r => rfl

theorem dpath_ins (l : List (Nat × α)) (n : Nat) (v : α) : (insFix (dpath l) (.node .nil .red n v .nil)).blacken = dchain ((n, v) :: l) := by
  match l with
  | [] => rfl
  | [x] => rfl
  | x :: y :: r =>
    rw [dpath, insFix]
    simp only [spine_black, Bool.false_eq_true, if_false]
    rfl

theorem insert_min (w : Swo lt) {k h : Nat} {l : List (Nat × α)} {v : α} (I : Inv lt multi Root s σ) (ht : σ.tree .temp = none) (hk : σ.tree (.user k) = some (h, l))
    (hd : ∀ x ∈ l, lt v x.2 = true) (hc : Tr s h (dchain l)) :
    ∃ s' n, Conv (fun f => step lt multi f s (.insert k v)) (s', .iter (some n) true) ∧ Legal s (.insert k v) ∧
      Inv lt multi Root s' ⟨upd σ.tree (.user k) (some (h, (n, v) :: l)), σ.next + 1⟩ ∧ Tr s' h (dchain ((n, v) :: l)) := by
  obtain ⟨s', it, new, l', hi, I', cv, hn⟩ := insert_ok w I keep_root hk v (.inl rfl)
  have hv : lt v v = false := by
    cases h : lt v v with
    | false => rfl
    | true => rw [w.asymm v v h] at h; cases h
  cases hi with
  | dup xs x ys _ _ e h1 h2 _ => rw [hd x (by rw [e]; simp)] at h2; cases h2
  | new xs ys e h1 h2 h3 =>
    have hxs : xs = [] := by
      cases xs with
      | nil => rfl
      | cons x xs => have := hd x (by rw [e]; simp); rw [h1 x (by simp)] at this; cases this
    subst hxs
    have e : l = ys := e
    subst e
    obtain ⟨c, i1, e2, _, _, i2⟩ := hn rfl
    have e3 := i1.unique hc
    have hlc : l = cl c ++ cr c := by
      obtain ⟨t, it', ht', _⟩ := I.rep _ _ hk
      rw [← show t.inl = l from ht', it'.unique i1, inl_plug]; simp [T.inl]
    have hcl : cl c = [] := by
      cases hcc : cl c with
      | nil => rfl
      | cons z zs =>
        rw [hcc] at e2
        simp only [List.cons_append, List.nil_append, List.cons.injEq] at e2
        have := hd z (by rw [hlc, hcc]; simp)
        rw [e2.1, hv] at this; cases this
    have e4 : c = dpath l := path_unique _ c (dpath l) e3 (dpath_plug l) (by rw [hcl, dpath_cl])
    subst e4
    rw [dpath_ins] at i2
    refine ⟨s', σ.next, ?_, (I.exists k).2 ⟨_, hk⟩, I', i2⟩
    have c0 : Conv (fun f => Rb.insert lt multi f s (.user k) v >>= fun q => Res.ok (q.1, Ret.iter q.2.1 q.2.2)) (s', .iter (some σ.next) true) :=
      Conv.bind (h := fun _ q => Res.ok (q.1, Ret.iter q.2.1 q.2.2)) cv (Conv.pure _)
    exact c0

theorem descending (w : Swo lt) {k h : Nat} (vs : List α) : ∀ {s : St α} {σ : Sp α} {l : List (Nat × α)}, Reach lt multi true s → Inv lt multi Root s σ → σ.tree .temp = none →
    σ.tree (.user k) = some (h, l) → (∀ x ∈ l, ∀ v ∈ vs, lt v x.2 = true) → (vs.Pairwise fun x y => lt y x = true) → Tr s h (dchain l) →
    ∃ s' σ' l' rs, Conv (fun f => run lt multi f s (vs.map (.insert k))) (s', rs) ∧ Reach lt multi true s' ∧ Inv lt multi Root s' σ' ∧ σ'.tree .temp = none ∧
      σ'.tree (.user k) = some (h, l') ∧ l'.map (·.2) = vs.reverse ++ l.map (·.2) ∧ Tr s' h (dchain l') := by
  induction vs with
  | nil => intro s σ l hr I ht hk _ _ hc; exact ⟨s, σ, l, [], Conv.pure _, hr, I, ht, hk, rfl, hc⟩
  | cons v vs ih =>
    intro s σ l hr I ht hk hb hp hc
    rw [List.pairwise_cons] at hp
    obtain ⟨s1, n, cv, hl, I1, i1⟩ := insert_min w I ht hk (fun x hx => hb x hx v (by simp)) hc
    obtain ⟨s2, σ2, l2, rs, cv2, hr2, I2, ht2, hk2, e, i2⟩ := ih (l := (n, v) :: l) (Conv.reach hr hl (.inl rfl) cv) I1 (by simp [upd, ht]) (by simp [upd]) (by
      intro x hx u hu
      rcases List.mem_cons.1 hx with rfl | hx
      · exact hp.1 u hu
      · exact hb x hx u (by simp [hu])) hp.2 i1
    exact ⟨s2, σ2, l2, _, Conv.run_cons cv cv2, hr2, I2, ht2, hk2, by rw [e]; simp, i2⟩

theorem descending_history (w : Swo lt) (multi : Bool) (vs : List α) (hd : vs.Pairwise fun x y => lt y x = true) :
    ∃ s σ h l rs, Conv (fun f => run lt multi f St.init (.make 0 :: vs.map (.insert 0))) (s, rs) ∧ Reach lt multi true s ∧ Inv lt multi Root s σ ∧ σ.tree .temp = none ∧
      σ.tree (.user 0) = some (h, l) ∧ l.map (·.2) = vs.reverse ∧ Tr s h (dchain l) := by
  have hl : Legal (St.init : St α) (.make 0) := fun h => h rfl
  obtain ⟨⟨s1, r1⟩, ⟨σ1, I1, E, ht1⟩, cv⟩ := (call (multi := multi) w keep_root Inv.init rfl hl (.inl rfl)).conv
  obtain ⟨rfl, h, e⟩ := E
  have hk1 : σ1.tree (.user 0) = some (h, []) := by rw [e, upd_same]
  obtain ⟨t, i, ht, _⟩ := I1.rep _ _ hk1
  have ht0 : t = .nil := by
    cases t with
    | nil => rfl
    | node l c a v r => simp [T.inl] at ht
  subst ht0
  obtain ⟨s2, σ2, l2, rs, cv2, hr2, I2, ht2, hk2, e3, i2⟩ := descending (k := 0) (h := h) (l := []) w vs (Conv.reach .init hl (.inl rfl) cv) I1 ht1 hk1 (by simp) hd i
  exact ⟨s2, σ2, h, l2, _, Conv.run_cons cv cv2, hr2, I2, ht2, hk2, by simpa using e3, i2⟩

theorem bal_spine {r : List (Nat × α)} : ∀ {n : Nat}, Bal (spine r) n → r.length ≤ 1 := by
  match r with
  | [] => intro n _; simp
  | [x] => intro n _; simp
  | x :: y :: r =>
    intro n h
    obtain ⟨m, rfl, h1, h2⟩ := h
    cases h1
    obtain ⟨m, h3, _⟩ := h2
    cases h3

theorem dchain_unbalanced {l : List (Nat × α)} (h : 3 ≤ l.length) : ¬ ∃ n, Bal (dchain l) n := by
  match l, h with
  | x :: y :: z :: r, _ =>
    rintro ⟨n, m, rfl, h1, h2⟩
    obtain ⟨_, _, h3, _⟩ := h1
    cases h3
    obtain ⟨m, h4, _⟩ := h2
    cases h4

theorem depth_spine (r : List (Nat × α)) : (spine r).depth = r.length := by
  induction r with
  | nil => rfl
  | cons x r ih => simp [spine, T.depth, ih]

theorem depth_dchain {l : List (Nat × α)} (h : 3 ≤ l.length) : (dchain l).depth = l.length - 1 := by
  match l, h with
  | x :: y :: z :: r, _ => simp only [dchain, T.depth, depth_spine, List.length_cons]; omega

/-! Erasing a black leaf without a sibling. -/

theorem erase_div (I : Inv lt multi Root s σ) {k : Slot} {h : Nat} {l : List (Nat × α)} (hk : σ.tree k = some (h, l)) {f : Fr α} {c : List (Fr α)} {a : Nat} {v : α}
    (i : Tr s h (plug (f :: c) (.node .nil .black a v .nil))) (hf : f.sib = .nil) : Div (fun n => erase n s k (some a)) := by
  have hinc := increment_ok (a := a) (v := v) i (by rw [inl_plug]; simp [T.inl]; rfl)
  have hget := I.get hk
  have unf : ∀ f, erase f s k (some a) = increment f s (some a) >>= fun next =>
      eraseRebalance f s (some a) h >>= fun s => destroyNode s (some a) >>= fun s => setCount s k (l.length - 1) >>= fun s => .ok (s, next) := by
    intro f
    unfold erase
    rw [hget]; rfl
  obtain ⟨yc, p, X, u, hres⟩ := eraseRebalance_ok i
  have hnone : delT yc p X = none := by
    have he : eraseFix (f :: c) (.nil : T α) = none := by rw [eraseFix, hf]; rfl
    cases u with
    | noLeft _ => exact he
    | noRight _ => exact he
    | both d yc y yv B hL _ _ => exact absurd rfl hL
  rcases hres with ⟨t', e, _⟩ | ⟨_, dv⟩
  · rw [hnone] at e; cases e
  · refine (Div.bind_right (h := fun f next => eraseRebalance f s (some a) h >>= fun s => destroyNode s (some a) >>= fun s => setCount s k (l.length - 1) >>= fun s => .ok (s, next))
      hinc ?_).congr unf
    exact dv.bind_left

theorem spine_last (r : List (Nat × α)) (p m : Nat × α) : ∃ c, spine (r ++ [p, m]) = plug (⟨false, .black, p.1, p.2, .nil⟩ :: c) (.node .nil .black m.1 m.2 .nil) := by
  induction r with
  | nil => exact ⟨[], rfl⟩
  | cons x r ih =>
    obtain ⟨c, e⟩ := ih
    refine ⟨c ++ [⟨false, .black, x.1, x.2, .nil⟩], ?_⟩
    rw [List.cons_append, spine, e, show ∀ (f g : Fr α) c, f :: (c ++ [g]) = (f :: c) ++ [g] from fun _ _ _ => rfl, plug_append]
    rfl

theorem dchain_last {l : List (Nat × α)} {m : Nat × α} (h : 3 ≤ l.length) :
    ∃ f c, dchain (l ++ [m]) = plug (f :: c) (.node .nil .black m.1 m.2 .nil) ∧ f.sib = .nil := by
  match l, h with
  | x :: y :: z :: r, _ =>
    obtain ⟨q, p, e⟩ : ∃ q p, z :: r = q ++ [p] := ⟨(z :: r).dropLast, (z :: r).getLast (by simp), (List.dropLast_concat_getLast (by simp)).symm⟩
    obtain ⟨c, hc⟩ := spine_last q p m
    refine ⟨⟨false, .black, p.1, p.2, .nil⟩, c ++ [⟨false, .black, y.1, y.2, .node .nil .red x.1 x.2 .nil⟩], ?_, rfl⟩
    have e2 : z :: r ++ [m] = q ++ [p, m] := by rw [e]; simp
    rw [List.cons_append, List.cons_append, dchain, e2, hc, show ∀ (f g : Fr α) c, f :: (c ++ [g]) = (f :: c) ++ [g] from fun _ _ _ => rfl, plug_append]
    rfl

end Verif.Rb
