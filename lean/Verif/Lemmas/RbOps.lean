import Verif.Lemmas.RbApi

/-! Searches, insertion, copying and erasing of ranges at the level of sequences. -/

set_option backward.isDefEq.respectTransparency false

namespace Verif.Rb
open Verif
open Verif.Box (Slot upd upd_same upd_ne)

variable {α : Type}

section
variable {lt : α → α → Bool} {multi : Bool} {P : T α → Prop} {s : St α} {σ : Sp α}

/-! Where a key belongs in an ordered sequence. -/

theorem split3 (w : Swo lt) (key : α) (l : List (Nat × α)) (hs : Sorted lt l) : ∃ A B C, l = A ++ B ++ C ∧
    (∀ x ∈ A, lt x.2 key = true) ∧ (∀ x ∈ B, lt x.2 key = false ∧ lt key x.2 = false) ∧ (∀ x ∈ C, lt key x.2 = true) := by
  induction l with
  | nil => exact ⟨[], [], [], rfl, by simp, by simp, by simp⟩
  | cons y l ih =>
    simp only [Sorted, List.pairwise_cons] at hs
    obtain ⟨A, B, C, rfl, hA, hB, hC⟩ := ih hs.2
    by_cases h1 : lt y.2 key = true
    · exact ⟨y :: A, B, C, by simp, by simp; exact ⟨h1, fun a b h => hA (a, b) h⟩, hB, hC⟩
    · have hA0 : A = [] := by
        cases A with
        | nil => rfl
        | cons a A =>
          exfalso
          rcases w.trans a.2 y.2 key (hA a (by simp)) with h2 | h2
          · rw [hs.1 a (by simp)] at h2; cases h2
          · exact h1 h2
      subst hA0
      by_cases h2 : lt key y.2 = true
      · have hB0 : B = [] := by
          cases B with
          | nil => rfl
          | cons x B =>
            exfalso
            rcases w.trans key x.2 y.2 h2 with h3 | h3
            · rw [(hB x (by simp)).2] at h3; cases h3
            · rw [hs.1 x (by simp)] at h3; cases h3
        subst hB0
        refine ⟨[], [], y :: C, by simp, by simp, by simp, ?_⟩
        intro x hx
        rcases List.mem_cons.1 hx with rfl | hx
        · exact h2
        · exact hC x hx
      · refine ⟨[], y :: B, C, by simp, by simp, ?_, hC⟩
        intro x hx
        rcases List.mem_cons.1 hx with rfl | hx
        · exact ⟨by simpa using h1, by simpa using h2⟩
        · exact hB x hx

theorem drop_lower (w : Swo lt) {key : α} {A B C : List (Nat × α)} (hA : ∀ x ∈ A, lt x.2 key = true) (hB : ∀ x ∈ B, lt x.2 key = false ∧ lt key x.2 = false)
    (hC : ∀ x ∈ C, lt key x.2 = true) : (A ++ B ++ C).dropWhile (fun x => lt x.2 key) = B ++ C := by
  rw [List.append_assoc, List.dropWhile_append_of_pos hA]
  cases B with
  | nil =>
    cases C with
    | nil => rfl
    | cons y C => exact List.dropWhile_cons_of_neg (by rw [w.asymm _ _ (hC y (by simp))]; simp)
  | cons y B => exact List.dropWhile_cons_of_neg (by rw [(hB y (by simp)).1]; simp)

theorem drop_upper (w : Swo lt) {key : α} {A B C : List (Nat × α)} (hA : ∀ x ∈ A, lt x.2 key = true) (hB : ∀ x ∈ B, lt x.2 key = false ∧ lt key x.2 = false)
    (hC : ∀ x ∈ C, lt key x.2 = true) : (A ++ B ++ C).dropWhile (fun x => !lt key x.2) = C := by
  rw [List.dropWhile_append_of_pos]
  · cases C with
    | nil => rfl
    | cons y C => exact List.dropWhile_cons_of_neg (by rw [hC y (by simp)]; simp)
  · intro x hx
    rcases List.mem_append.1 hx with hx | hx
    · rw [w.asymm _ _ (hA x hx)]; rfl
    · rw [(hB x hx).2]; rfl

/-- `lower_bound` and `upper_bound`. -/
theorem lowerBound_okG {lt' : α → α → Bool} {mu' : Bool} (w : Swo lt) (I : Inv lt' mu' P s σ) {k : Slot} {h : Nat} {l : List (Nat × α)} (hk : σ.tree k = some (h, l)) (ho : Sorted lt l) (key : α) :
    Conv (fun f => lowerBound lt f s k key) (some (beg h (l.dropWhile fun x => lt x.2 key))) := by
  obtain ⟨t, i, ht, _⟩ := I.rep k _ hk
  have i : Tr s h t := i
  have ht : t.inl = l := ht
  have := lowerLoop_ok w key t [] h i (by rw [ht]; exact ho)
  rw [ht] at this
  refine this.congr fun f => ?_
  have hi : In s _ s h _ _ t := i
  rw [lowerBound, I.get hk, Res.ok_bind]
  simp only
  rw [hi.root, Res.ok_bind]

theorem lowerBound_ok (w : Swo lt) (I : Inv lt multi P s σ) {k : Slot} {h : Nat} {l : List (Nat × α)} (hk : σ.tree k = some (h, l)) (key : α) :
    Conv (fun f => lowerBound lt f s k key) (some (beg h (l.dropWhile fun x => lt x.2 key))) :=
  lowerBound_okG w I hk (I.ord k _ hk).sorted key

theorem upperBound_okG {lt' : α → α → Bool} {mu' : Bool} (w : Swo lt) (I : Inv lt' mu' P s σ) {k : Slot} {h : Nat} {l : List (Nat × α)} (hk : σ.tree k = some (h, l)) (ho : Sorted lt l) (key : α) :
    Conv (fun f => upperBound lt f s k key) (some (beg h (l.dropWhile fun x => !lt key x.2))) := by
  obtain ⟨t, i, ht, _⟩ := I.rep k _ hk
  have i : Tr s h t := i
  have ht : t.inl = l := ht
  have := upperLoop_ok w key t [] h i (by rw [ht]; exact ho)
  rw [ht] at this
  refine this.congr fun f => ?_
  have hi : In s _ s h _ _ t := i
  rw [upperBound, I.get hk, Res.ok_bind]
  simp only
  rw [hi.root, Res.ok_bind]

theorem upperBound_ok (w : Swo lt) (I : Inv lt multi P s σ) {k : Slot} {h : Nat} {l : List (Nat × α)} (hk : σ.tree k = some (h, l)) (key : α) :
    Conv (fun f => upperBound lt f s k key) (some (beg h (l.dropWhile fun x => !lt key x.2))) :=
  upperBound_okG w I hk (I.ord k _ hk).sorted key

theorem Inv.keys (I : Inv lt multi P s σ) {k : Slot} {h : Nat} {l : List (Nat × α)} (hk : σ.tree k = some (h, l)) :
    (l.map (·.1)).Nodup ∧ h ∉ l.map (·.1) := by
  obtain ⟨t, i, ht, _⟩ := I.rep k _ hk
  have i : Tr s h t := i
  have ht : t.inl = l := ht
  rw [← ht]; exact In.keys i

theorem Inv.key (I : Inv lt multi P s σ) {k : Slot} {h : Nat} {xs ys : List (Nat × α)} {a : Nat} {v : α} (hk : σ.tree k = some (h, xs ++ (a, v) :: ys)) :
    getKey s (some a) = .ok v := by
  obtain ⟨t, i, ht, _⟩ := I.rep k _ hk
  exact key_ok i ht

theorem Inv.inc (I : Inv lt multi P s σ) {k : Slot} {h : Nat} {xs ys : List (Nat × α)} {a : Nat} {v : α} (hk : σ.tree k = some (h, xs ++ (a, v) :: ys)) :
    Conv (fun f => increment f s (some a)) (some (beg h ys)) := by
  obtain ⟨t, i, ht, _⟩ := I.rep k _ hk
  exact increment_ok i ht

theorem Inv.begin (I : Inv lt multi P s σ) {k : Slot} {h : Nat} {l : List (Nat × α)} (hk : σ.tree k = some (h, l)) :
    begin s k = .ok (some (beg h l)) := by
  obtain ⟨t, i, ht, _⟩ := I.rep k _ hk
  have i : In s _ s h _ _ t := i
  have ht : t.inl = l := ht
  rw [Rb.begin, I.get hk, Res.ok_bind]
  simp only
  rw [i.lm, ht]

theorem Inv.end (I : Inv lt multi P s σ) {k : Slot} {h : Nat} {l : List (Nat × α)} (hk : σ.tree k = some (h, l)) :
    end' s k = .ok (some h) := by
  rw [end', I.get hk]; rfl

theorem beg_ne {h : Nat} {xs : List (Nat × α)} {y : Nat × α} {ys : List (Nat × α)} (hk : h ∉ (xs ++ y :: ys).map (·.1)) : y.1 ≠ h := by
  rintro rfl; apply hk; simp

/-- `find`: the element, or the end. -/
theorem find_okG {lt' : α → α → Bool} {mu' : Bool} (w : Swo lt) (I : Inv lt' mu' P s σ) {k : Slot} {h : Nat} {A B C : List (Nat × α)} (hk : σ.tree k = some (h, A ++ B ++ C)) {key : α} (ho : Sorted lt (A ++ B ++ C))
    (hA : ∀ x ∈ A, lt x.2 key = true) (hB : ∀ x ∈ B, lt x.2 key = false ∧ lt key x.2 = false) (hC : ∀ x ∈ C, lt key x.2 = true) :
    Conv (fun f => find lt f s k key) (some (beg h B)) := by
  have hl := lowerBound_okG w I hk ho key
  rw [drop_lower w hA hB hC] at hl
  obtain ⟨t, i, ht, _⟩ := I.rep k _ hk
  have hi : In s _ s h _ _ t := i
  have hroot := hi.root
  have hkeys := I.keys hk
  refine (hl.bind (h := fun _ node => if node = some h then .ok (some h) else do
      let v ← getKey s node
      if lt key v then .ok (some h) else .ok node) (Conv.const ?_)).congr fun f => ?_
  · cases B with
    | nil =>
      cases C with
      | nil => simp [beg]
      | cons y C =>
        have hy : y.1 ≠ h := by
          rw [List.append_nil] at hkeys; exact beg_ne hkeys.2
        have hkey : getKey s (some y.1) = .ok y.2 := I.key (xs := A) (ys := C) (by rw [hk, List.append_nil])
        simp only [List.nil_append, beg, Option.some.injEq, if_neg hy, hkey, Res.ok_bind, hC y (by simp), if_true]
    | cons y B =>
      have e : A ++ y :: B ++ C = A ++ y :: (B ++ C) := by simp
      rw [e] at hkeys hk
      have hy : y.1 ≠ h := beg_ne hkeys.2
      have hkey : getKey s (some y.1) = .ok y.2 := I.key hk
      simp only [List.cons_append, beg, Option.some.injEq, if_neg hy, hkey, Res.ok_bind, (hB y (by simp)).2, Bool.false_eq_true, if_false]
  · rw [find, lowerBound, I.get hk, Res.ok_bind, Res.ok_bind]
    simp only
    rw [hroot, Res.ok_bind, Res.ok_bind]

theorem find_ok (w : Swo lt) (I : Inv lt multi P s σ) {k : Slot} {h : Nat} {A B C : List (Nat × α)} (hk : σ.tree k = some (h, A ++ B ++ C)) {key : α}
    (hA : ∀ x ∈ A, lt x.2 key = true) (hB : ∀ x ∈ B, lt x.2 key = false ∧ lt key x.2 = false) (hC : ∀ x ∈ C, lt key x.2 = true) :
    Conv (fun f => find lt f s k key) (some (beg h B)) :=
  find_okG w I hk (I.ord k _ hk).sorted hA hB hC

/-! Paths to empty places. -/

theorem plug_nil_nil {c : List (Fr α)} (e : plug c (.nil : T α) = .nil) : c = [] := by
  cases c with
  | nil => rfl
  | cons f c =>
    obtain ⟨fd, fc, fa, fv, fs⟩ := f
    exact absurd e (plug_ne_nil (c := c) (by cases fd <;> simp [Fr.fill]))

theorem path_unique (t : T α) : ∀ (c c' : List (Fr α)), plug c .nil = t → plug c' .nil = t → (cl c).length = (cl c').length → c = c' := by
  induction t with
  | nil => intro c c' e e' _; rw [plug_nil_nil e, plug_nil_nil e']
  | node L co b w R ihl ihr =>
    intro c c' e e' hlen
    have key : ∀ c : List (Fr α), plug c .nil = T.node L co b w R → ∃ c1 f, c = c1 ++ [f] ∧
        ((f = ⟨true, co, b, w, R⟩ ∧ plug c1 .nil = L ∧ (cl c).length = (cl c1).length ∧ (cl c1).length ≤ L.inl.length) ∨
         (f = ⟨false, co, b, w, L⟩ ∧ plug c1 .nil = R ∧ (cl c).length = L.inl.length + 1 + (cl c1).length)) := by
      clear e e' hlen
      intro c e
      rcases List.eq_nil_or_concat c with rfl | ⟨c1, f, rfl⟩
      · cases e
      · rw [List.concat_eq_append] at e ⊢
        refine ⟨c1, f, rfl, ?_⟩
        rw [plug_append] at e
        obtain ⟨fd, fc, fa, fv, fs⟩ := f
        cases fd
        · simp only [plug, Fr.fill, T.node.injEq] at e
          obtain ⟨rfl, rfl, rfl, rfl, e⟩ := e
          refine .inr ⟨rfl, e, ?_⟩
          rw [cl_append]; simp [cl]; omega
        · simp only [plug, Fr.fill, T.node.injEq] at e
          obtain ⟨e, rfl, rfl, rfl, rfl⟩ := e
          refine .inl ⟨rfl, e, ?_, ?_⟩
          · rw [cl_append]; simp [cl]
          · rw [← e, inl_plug]; simp
    obtain ⟨c1, f, rfl, h1⟩ := key c e
    obtain ⟨c2, g, rfl, h2⟩ := key c' e'
    rcases h1 with ⟨rfl, p1, l1, b1⟩ | ⟨rfl, p1, l1⟩ <;> rcases h2 with ⟨rfl, p2, l2, b2⟩ | ⟨rfl, p2, l2⟩
    · rw [ihl c1 c2 p1 p2 (by omega)]
    · omega
    · omega
    · rw [ihr c1 c2 p1 p2 (by omega)]

/-- The element before an empty place. -/
theorem place_before {c : List (Fr α)} {xs : List (Nat × α)} {x : Nat × α} (hx : cl c = xs ++ [x]) :
    ∃ d l co r, plug c (.nil : T α) = plug d (.node l co x.1 x.2 r) ∧
      ((onL c = false ∧ r = .nil ∧ ∀ h : Nat, cpar (some h) c = some x.1) ∨ (onL c = true ∧ r ≠ .nil ∧ ∀ h : Nat, cpar (some h) c = some (beg h (cr c)))) := by
  cases c with
  | nil => simp [cl] at hx
  | cons f c =>
    obtain ⟨fd, fc, fa, fv, fs⟩ := f
    cases fd
    · refine ⟨c, fs, fc, .nil, ?_, .inl ⟨rfl, rfl, ?_⟩⟩
      · simp only [cl, Bool.false_eq_true, if_false] at hx
        rw [← List.append_assoc] at hx
        have := List.append_inj' hx rfl
        simp only [List.cons.injEq, and_true] at this
        rw [← this.2]; rfl
      · intro h
        simp only [cl, Bool.false_eq_true, if_false] at hx
        rw [← List.append_assoc] at hx
        have := List.append_inj' hx rfl
        simp only [List.cons.injEq, and_true] at this
        rw [← this.2]; rfl
    · have e : (plug (⟨true, fc, fa, fv, fs⟩ :: c) (.nil : T α)).inl = xs ++ (x.1, x.2) :: cr (⟨true, fc, fa, fv, fs⟩ :: c) := by
        rw [inl_plug, hx]; simp [T.inl]
      obtain ⟨d, l, co, r, h1, h2, h3⟩ := focus _ e
      refine ⟨d, l, co, r, h1, .inr ⟨rfl, ?_, fun h => by simp [cpar, cr, beg]⟩⟩
      rintro rfl
      have h4 : plug (⟨false, co, x.1, x.2, l⟩ :: d) (.nil : T α) = plug (⟨true, fc, fa, fv, fs⟩ :: c) .nil := by rw [h1]; rfl
      have := path_unique _ _ _ h4 rfl (by rw [hx, ← h2]; simp [cl])
      cases this

theorem cr_right' {c d : List (Fr α)} {xs : List (Nat × α)} {x : Nat × α} {fc : Color} {fa : Nat} {fv : α} {fs : T α} {h : Nat} (hx : cl c = xs ++ [x])
    (hc : c = ⟨false, fc, fa, fv, fs⟩ :: d) : cpar (some h) c = some x.1 := by
  subst hc
  simp only [cl, Bool.false_eq_true, if_false] at hx
  rw [← List.append_assoc] at hx
  have := List.append_inj' hx rfl
  simp only [List.cons.injEq, and_true] at this
  rw [← this.2]; rfl

/-! Insertion. -/

/-- What an insertion does to the sequence, and what it returns. `n` is the address of the new node. -/
inductive Ins (lt : α → α → Bool) (multi : Bool) (s : St α) (h n : Nat) (l : List (Nat × α)) (v : α) : List (Nat × α) → Option Nat → Bool → Prop where
  | new (xs ys : List (Nat × α)) : l = xs ++ ys → (∀ x ∈ xs, lt v x.2 = false) → (∀ y ∈ ys, lt v y.2 = true) →
      (multi = false → ∀ x ∈ xs, lt x.2 v = true) → Ins lt multi s h n l v (xs ++ (n, v) :: ys) (some n) true
  | dup (xs : List (Nat × α)) (x : Nat × α) (ys : List (Nat × α)) (it : Option Nat) : multi = false → l = xs ++ x :: ys → lt x.2 v = false → lt v x.2 = false →
      ((right s (some x.1) = .ok none ∧ it = some x.1) ∨ (∃ b, right s (some x.1) = .ok (some b) ∧ it = some (beg h ys) ∧ ys ≠ [])) →
      Ins lt multi s h n l v l it false

theorem emplaceMulti_okG {lt' : α → α → Bool} {mu' : Bool} (w : Swo lt) (I : Inv lt' mu' P s σ) {k : Slot} {h : Nat} {l : List (Nat × α)} (hk : σ.tree k = some (h, l)) (hol : Ord lt multi l)
    (hno : ∀ l : List (Nat × α), Ord lt multi l → Ord lt' mu' l) (v : α)
    (hB : ∀ t, P t → t.red = false)
    (hins : ∀ c, Tr s h (plug c .nil) → P (plug c .nil) → (∀ x ∈ cl c, lt v x.2 = false) → (∀ y ∈ cr c, lt v y.2 = true) → (multi = false → ∀ x ∈ cl c, lt x.2 v = true) → P (insFix c (.node .nil .red σ.next v .nil)).blacken) (hm : multi = false → ∀ x ∈ l, lt x.2 v = true ∨ lt v x.2 = true) :
    ∃ s' xs ys, l = xs ++ ys ∧ (∀ x ∈ xs, lt v x.2 = false) ∧ (∀ y ∈ ys, lt v y.2 = true) ∧ (multi = false → ∀ x ∈ xs, lt x.2 v = true) ∧
      Ord lt multi (xs ++ (σ.next, v) :: ys) ∧ Inv lt' mu' P s' ⟨upd σ.tree k (some (h, xs ++ (σ.next, v) :: ys)), σ.next + 1⟩ ∧
      Conv (fun f => emplaceMulti lt f s k v) (s', some σ.next) ∧
      ∃ c, Tr s h (plug c .nil) ∧ cl c = xs ∧ cr c = ys ∧ Tr s' h (insFix c (.node .nil .red σ.next v .nil)).blacken := by
  obtain ⟨t, i, ht, hP⟩ := I.rep k _ hk
  have i : Tr s h t := i
  have ht : t.inl = l := ht
  obtain ⟨i1, hf, hnh⟩ := I.create hk ht i v
  have hs := hol.sorted
  obtain ⟨c, e, h1, h2, cv⟩ := posLoop_ok w v t [] i1 (by rw [show plug [] t = t from rfl, ht]; exact hs) (by simp [cl]) (by simp [cr])
  have e : plug c .nil = t := e
  have hl : l = cl c ++ cr c := by rw [← ht, ← e, inl_plug]; simp [T.inl]
  subst e
  have hx : multi = false → ∀ x ∈ cl c, lt x.2 v = true := by
    intro hmu x hx
    rcases hm hmu x (by rw [hl]; simp [hx]) with h3 | h3
    · exact h3
    · rw [h1 x hx] at h3; cases h3
  have ho : Ord lt multi (cl c ++ (σ.next, v) :: cr c) := Ord.ins w (by rw [← hl]; exact hol) h1 h2 hx
  obtain ⟨s', cv', I', i'⟩ := insertAt_ok I hk i ht (hB _ hP) (hins c i hP h1 h2 hx) (hno _ ho)
  refine ⟨s', cl c, cr c, hl, h1, h2, hx, ho, I', ?_, c, i, rfl, rfl, i'⟩
  refine (cv.bind (h := fun f q => insertNodeAt f (createNode s v).1 k q.1 (some σ.next) q.2) cv').congr fun f => ?_
  have hi1 : In (createNode s v).1 _ (createNode s v).1 h _ _ (plug c .nil) := i1
  have hg : getT (createNode s v).1 k = .ok (h, l.length) := I.get hk
  have hkey : getKey (createNode s v).1 (some σ.next) = .ok v := by
    simp only [getKey, rd, createNode, I.next, upd_same, Res.ok_bind]
  have hcn : (createNode s v).2 = some σ.next := by simp only [createNode, I.next]
  rw [emplaceMulti]
  simp only
  rw [hcn, hkey, Res.ok_bind, insertMultiPos, hg, Res.ok_bind]
  simp only
  rw [hi1.root]; rfl

theorem emplaceMulti_ok (w : Swo lt) (I : Inv lt multi P s σ) {k : Slot} {h : Nat} {l : List (Nat × α)} (hk : σ.tree k = some (h, l)) (v : α)
    (hB : ∀ t, P t → t.red = false)
    (hins : ∀ c, Tr s h (plug c .nil) → P (plug c .nil) → (∀ x ∈ cl c, lt v x.2 = false) → (∀ y ∈ cr c, lt v y.2 = true) → (multi = false → ∀ x ∈ cl c, lt x.2 v = true) → P (insFix c (.node .nil .red σ.next v .nil)).blacken) (hm : multi = false → ∀ x ∈ l, lt x.2 v = true ∨ lt v x.2 = true) :
    ∃ s' xs ys, l = xs ++ ys ∧ (∀ x ∈ xs, lt v x.2 = false) ∧ (∀ y ∈ ys, lt v y.2 = true) ∧ (multi = false → ∀ x ∈ xs, lt x.2 v = true) ∧
      Inv lt multi P s' ⟨upd σ.tree k (some (h, xs ++ (σ.next, v) :: ys)), σ.next + 1⟩ ∧
      Conv (fun f => emplaceMulti lt f s k v) (s', some σ.next) ∧
      ∃ c, Tr s h (plug c .nil) ∧ cl c = xs ∧ cr c = ys ∧ Tr s' h (insFix c (.node .nil .red σ.next v .nil)).blacken := by
  obtain ⟨s', xs, ys, h1, h2, h3, h4, _, h5⟩ := emplaceMulti_okG w I hk (I.ord k _ hk) (fun _ h => h) v hB hins hm
  exact ⟨s', xs, ys, h1, h2, h3, h4, h5⟩

theorem emplaceUnique_okG {lt' : α → α → Bool} {mu' : Bool} (w : Swo lt) (I : Inv lt' mu' P s σ) {k : Slot} {h : Nat} {l : List (Nat × α)} (hk : σ.tree k = some (h, l)) (hol : Ord lt false l)
    (hno : ∀ l : List (Nat × α), Ord lt false l → Ord lt' mu' l) (v : α)
    (hB : ∀ t, P t → t.red = false)
    (hins : ∀ c, Tr s h (plug c .nil) → P (plug c .nil) → (∀ x ∈ cl c, lt v x.2 = false) → (∀ y ∈ cr c, lt v y.2 = true) → (∀ x ∈ cl c, lt x.2 v = true) → P (insFix c (.node .nil .red σ.next v .nil)).blacken) :
    ∃ s' it new l', Ins lt false s h σ.next l v l' it new ∧ Ord lt false l' ∧ Inv lt' mu' P s' ⟨upd σ.tree k (some (h, l')), σ.next + 1⟩ ∧
      Conv (fun f => emplaceUnique lt f s k v) (s', it, new) ∧
      (new = true → ∃ c, Tr s h (plug c .nil) ∧ cl c ++ (σ.next, v) :: cr c = l' ∧ (∀ x ∈ cl c, lt v x.2 = false) ∧ (∀ y ∈ cr c, lt v y.2 = true) ∧
        Tr s' h (insFix c (.node .nil .red σ.next v .nil)).blacken) := by
  obtain ⟨t, i, ht, hP⟩ := I.rep k _ hk
  have i : Tr s h t := i
  have ht : t.inl = l := ht
  obtain ⟨i1, hf, hnh⟩ := I.create hk ht i v
  have hs := hol.sorted
  obtain ⟨c, e, h1, h2, cv⟩ := posLoop_ok w v t [] i1 (by rw [show plug [] t = t from rfl, ht]; exact hs) (by simp [cl]) (by simp [cr])
  have e : plug c .nil = t := e
  have hl : l = cl c ++ cr c := by rw [← ht, ← e, inl_plug]; simp [T.inl]
  subst e
  have hi1 : In (createNode s v).1 _ (createNode s v).1 h _ _ (plug c .nil) := i1
  have hg : getT (createNode s v).1 k = .ok (h, l.length) := I.get hk
  have hkey : getKey (createNode s v).1 (some σ.next) = .ok v := by
    simp only [getKey, rd, createNode, I.next, upd_same, Res.ok_bind]
  have hcn : (createNode s v).2 = some σ.next := by simp only [createNode, I.next]
  have hlm : (plug c (.nil : T α)).inl = cl c ++ cr c := by rw [inl_plug]; simp [T.inl]
  have hbeg : Rb.begin (createNode s v).1 k = .ok (some (beg h (cl c ++ cr c))) := by
    rw [Rb.begin, hg, Res.ok_bind]; simp only; rw [hi1.lm, hlm]
  -- the decision
  have hpos : Conv (fun f => insertUniquePos lt f (createNode s v).1 k v)
      ((cpar (some h) c, onL c), match (cl c).getLast? with | none => true | some x => lt x.2 v) := by
    refine (cv.bind (h := fun f q => if q.2 then do
        let b ← Rb.begin (createNode s v).1 k
        if q.1 = some h ∨ q.1 = b then .ok ((q.1, q.2), true)
        else do
          let it ← decrement f (createNode s v).1 q.1
          let v' ← getKey (createNode s v).1 it
          .ok ((q.1, q.2), lt v' v)
      else do
        let v' ← getKey (createNode s v).1 q.1
        .ok ((q.1, q.2), lt v' v)) ?_).congr fun f => ?_
    · cases hc : c with
      | nil =>
        subst hc
        simp only [cpar_nil, onL, if_true, hbeg, Res.ok_bind, true_or]
        exact Conv.pure _
      | cons g d =>
        rw [← hc]
        obtain ⟨fd, fc, fa, fv, fs⟩ := g
        cases hL : cl c with
        | nil =>
          -- the place before the first element
          cases fd
          · subst hc; simp [cl] at hL
          · have h3 : cpar (some h) c = some (beg h (cl c ++ cr c)) := by
              rw [hL, hc]; simp [cpar, cr, beg]
            have h4 : onL c = true := by rw [hc]; rfl
            simp only [h4, if_true, hbeg, Res.ok_bind, h3, or_true]
            exact Conv.pure _
        | cons z zs =>
          have hne : cl c ≠ [] := by rw [hL]; simp
          obtain ⟨xs, x, hx⟩ : ∃ xs x, cl c = xs ++ [x] := ⟨(cl c).dropLast, (cl c).getLast hne, (List.dropLast_concat_getLast hne).symm⟩
          rw [← hL]
          have hgl : (cl c).getLast? = some x := by rw [hx]; simp
          rw [hgl]
          have hkx : getKey (createNode s v).1 (some x.1) = .ok x.2 := by
            refine key_ok (xs := xs) (ys := cr c) i1 ?_
            rw [hlm, hx]; simp
          cases fd
          · have h3 : cpar (some h) c = some x.1 := by
              rw [cr_right' hx hc]
            have h4 : onL c = false := by rw [hc]; rfl
            simp only [h4, Bool.false_eq_true, if_false, h3, hkx, Res.ok_bind]
            exact Conv.pure _
          · have h4 : onL c = true := by rw [hc]; rfl
            have hcrc : cr c = (fa, fv) :: (fs.inl ++ cr d) := by rw [hc]; simp [cr]
            have h3 : cpar (some h) c = some fa := by rw [hc]; rfl
            have hkeys := In.keys i1
            rw [hlm] at hkeys
            have h5 : ¬ (some fa = some h ∨ some fa = some (beg h (cl c ++ cr c))) := by
              rw [beg_append hne]
              rintro (h6 | h6)
              · injection h6 with h6; exact hkeys.2 (by rw [hcrc]; simp [h6])
              · injection h6 with h6
                have h7 := mem_beg (h := h) hne
                rw [← h6] at h7
                have := hkeys.1
                rw [List.map_append, List.nodup_append] at this
                exact this.2.2 fa h7 fa (by rw [hcrc]; simp) rfl
            have hdec : Conv (fun f => decrement f (createNode s v).1 (some fa)) (some (lst h (cl c))) := by
              refine decrement_ok (xs := cl c) (ys := fs.inl ++ cr d) (v := fv) i1 (hB _ hP) ?_ hne
              rw [hlm, hcrc]
            have hlst : lst h (cl c) = x.1 := by rw [hx, lst_append_cons]
            rw [hlst] at hdec
            simp only [h4, if_true, hbeg, Res.ok_bind, h3, h5, if_false]
            refine hdec.bind (h := fun _ it => getKey (createNode s v).1 it >>= fun v' => .ok ((some fa, true), lt v' v)) (Conv.const ?_)
            rw [hkx]; rfl
    · rw [insertUniquePos, hg, Res.ok_bind]
      simp only
      rw [hi1.root, Res.ok_bind]
      refine bind_congr fun q => ?_
      obtain ⟨q1, q2⟩ := q
      cases q2 <;> rfl
  have unf : ∀ f, emplaceUnique lt f s k v = insertUniquePos lt f (createNode s v).1 k v >>= fun q =>
      if q.2 then insertNodeAt f (createNode s v).1 k q.1.1 (some σ.next) q.1.2 >>= fun p => .ok (p.1, p.2, q.2)
      else destroyNode (createNode s v).1 (some σ.next) >>= fun s => .ok (s, q.1.1, false) := by
    intro f
    rw [emplaceUnique]
    simp only
    rw [hcn, hkey, Res.ok_bind]
  by_cases hsucc : (match (cl c).getLast? with | none => true | some x => lt x.2 v) = true
  · -- a new element
    have hx : ∀ x ∈ cl c, lt x.2 v = true := by
      intro x hx
      have hne : cl c ≠ [] := List.ne_nil_of_mem hx
      obtain ⟨xs, z, hz⟩ : ∃ xs x, cl c = xs ++ [x] := ⟨(cl c).dropLast, (cl c).getLast hne, (List.dropLast_concat_getLast hne).symm⟩
      have hzv : lt z.2 v = true := by
        rw [hz] at hsucc; simpa using hsucc
      rw [hz] at hx
      rcases List.mem_append.1 hx with hx | hx
      · have := hol
        rw [hl, hz, List.append_assoc] at this
        have h3 := (List.pairwise_append.1 this).2.2 x hx z (by simp)
        rcases w.trans z.2 x.2 v hzv with h4 | h4
        · rw [h3.1] at h4; cases h4
        · exact h4
      · simp at hx; rw [hx]; exact hzv
    have ho : Ord lt false (cl c ++ (σ.next, v) :: cr c) := Ord.ins w (by rw [← hl]; exact hol) h1 h2 (fun _ => hx)
    obtain ⟨s', cv', I', i'⟩ := insertAt_ok I hk i ht (hB _ hP) (hins c i hP h1 h2 hx) (hno _ ho)
    refine ⟨s', some σ.next, true, _, .new (cl c) (cr c) hl h1 h2 (fun _ => hx), ho, I', ?_, fun _ => ⟨c, i, rfl, h1, h2, i'⟩⟩
    rw [hsucc] at hpos
    refine (hpos.bind (h := fun f q => if q.2 then insertNodeAt f (createNode s v).1 k q.1.1 (some σ.next) q.1.2 >>= fun p => .ok (p.1, p.2, q.2)
      else destroyNode (createNode s v).1 (some σ.next) >>= fun s => .ok (s, q.1.1, false)) ?_).congr unf
    simp only [if_true]
    exact cv'.bind (h := fun _ p => .ok (p.1, p.2, true)) (Conv.pure _)
  · -- an equal element exists
    have hne : cl c ≠ [] := by
      intro h0; rw [h0] at hsucc; exact hsucc rfl
    obtain ⟨xs, x, hx⟩ : ∃ xs x, cl c = xs ++ [x] := ⟨(cl c).dropLast, (cl c).getLast hne, (List.dropLast_concat_getLast hne).symm⟩
    have hxv : lt x.2 v = false := by
      rw [hx] at hsucc; simpa using hsucc
    have hfalse : (match (cl c).getLast? with | none => true | some x => lt x.2 v) = false := by simpa using hsucc
    have hdes : destroyNode (createNode s v).1 (some σ.next) =
        .ok { (createNode s v).1 with heap := upd (createNode s v).1.heap σ.next none, freed := σ.next :: s.freed } := by
      simp only [destroyNode, createNode, I.next, upd_same]
    have hll : l = xs ++ x :: cr c := by rw [hl, hx]; simp
    refine ⟨{ (createNode s v).1 with heap := upd (createNode s v).1.heap σ.next none, freed := σ.next :: s.freed }, cpar (some h) c, false, l,
      .dup xs x (cr c) _ rfl hll hxv (h1 x (by rw [hx]; simp)) ?_, hol, ?_, ?_, by simp⟩
    · obtain ⟨d, l', co, r, e1, e2⟩ := place_before hx
      have htr : Tr s h (plug d (.node l' co x.1 x.2 r)) := e1 ▸ i
      rw [In.right htr]
      rcases e2 with ⟨_, rfl, e3⟩ | ⟨h4, h5, e3⟩
      · exact .inl ⟨rfl, e3 h⟩
      · right
        cases r with
        | nil => exact absurd rfl h5
        | node l2 c2 a2 v2 r2 =>
          refine ⟨a2, rfl, e3 h, ?_⟩
          intro h6
          cases c with
          | nil => exact hne rfl
          | cons g c =>
            obtain ⟨gd, gc, ga, gv, gs⟩ := g
            cases gd
            · cases h4
            · simp [cr] at h6
    · have hn := I.next
      have hheap : upd (createNode s v).1.heap σ.next none = s.heap := by
        show upd (upd s.heap s.next _) σ.next none = s.heap
        rw [hn, Verif.Box.upd_upd]
        funext a
        by_cases ha : a = σ.next
        · rw [ha, upd_same, I.fresh_heap (Nat.le_refl _)]
        · rw [upd_ne _ _ ha]
      rw [hheap]
      have := I.update (k := k) (o' := some (h, l)) (n' := σ.next + 1)
        (s' := { (createNode s v).1 with heap := s.heap, freed := σ.next :: s.freed }) (Nat.le_succ _) (by show s.next + 1 = _; rw [hn]) ?_ ?_ ?_ ?_ ?_ ?_ ?_ ?_
      · exact this
      · show s.tree = _
        have hsl : s.tree k = Option.map (fun x => (x.1, x.2.length)) (some (h, l)) := by rw [I.slot k, hk]
        rw [← hsl, Verif.Box.upd_self]
      · intro y hy
        cases hy
        exact ⟨_, i.congr fun _ _ => rfl, ht, hP⟩
      · intro y hy; cases hy; exact hno _ hol
      · intro a ha; left; rw [hk]; exact ha
      · intro a _ _; rfl
      · intro a ha ho
        rcases ho with ho | ho
        · rw [hk] at ho; exact ho
        · exact absurd (I.fresh_heap ho) ha
      · show (σ.next :: s.freed).Nodup
        rw [List.nodup_cons]
        exact ⟨I.fresh_freed, I.nodup⟩
      · intro a
        show a ∈ σ.next :: s.freed ↔ _
        rw [List.mem_cons, hk]
        constructor
        · rintro (rfl | h3)
          · exact .inr ⟨.inr ⟨Nat.le_refl _, Nat.lt_succ_self _⟩, by rw [← hk]; exact I.fresh⟩
          · exact .inl h3
        · rintro (h3 | ⟨h3 | h3, h4⟩)
          · exact .inr h3
          · exact absurd h3 h4
          · left; omega
    · rw [hfalse] at hpos
      refine (hpos.bind (h := fun f q => if q.2 then insertNodeAt f (createNode s v).1 k q.1.1 (some σ.next) q.1.2 >>= fun p => .ok (p.1, p.2, q.2)
        else destroyNode (createNode s v).1 (some σ.next) >>= fun s => .ok (s, q.1.1, false)) (Conv.const ?_)).congr unf
      simp only [Bool.false_eq_true, if_false]
      rw [hdes]

theorem emplaceUnique_ok (w : Swo lt) (I : Inv lt false P s σ) {k : Slot} {h : Nat} {l : List (Nat × α)} (hk : σ.tree k = some (h, l)) (v : α)
    (hB : ∀ t, P t → t.red = false)
    (hins : ∀ c, Tr s h (plug c .nil) → P (plug c .nil) → (∀ x ∈ cl c, lt v x.2 = false) → (∀ y ∈ cr c, lt v y.2 = true) → (∀ x ∈ cl c, lt x.2 v = true) → P (insFix c (.node .nil .red σ.next v .nil)).blacken) :
    ∃ s' it new l', Ins lt false s h σ.next l v l' it new ∧ Inv lt false P s' ⟨upd σ.tree k (some (h, l')), σ.next + 1⟩ ∧
      Conv (fun f => emplaceUnique lt f s k v) (s', it, new) ∧
      (new = true → ∃ c, Tr s h (plug c .nil) ∧ cl c ++ (σ.next, v) :: cr c = l' ∧ (∀ x ∈ cl c, lt v x.2 = false) ∧ (∀ y ∈ cr c, lt v y.2 = true) ∧
        Tr s' h (insFix c (.node .nil .red σ.next v .nil)).blacken) := by
  obtain ⟨s', it, new, l', h1, _, h2⟩ := emplaceUnique_okG w I hk (I.ord k _ hk) (fun _ h => h) v hB hins
  exact ⟨s', it, new, l', h1, h2⟩

end

end Verif.Rb
