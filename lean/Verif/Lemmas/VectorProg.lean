import Verif.Spec.Vector
import Verif.Lemmas.Vector

/-! Constructors, and the invariant of client programs over vectors. -/

set_option backward.isDefEq.respectTransparency false

namespace Verif.Vector
open Verif Verif.OH

variable {α : Type}

theorem rep_null (z : Bool) (h : Heap α) : Rep z h Vec.null [] := ⟨rfl, Nat.le_refl _, rfl⟩

/-- Fresh storage of `n` slots. -/
theorem allocate_spec {z : Bool} {h : Heap α} (hF : Fresh h) (n : Nat) (hz : z = false → 0 < n) :
    Trans z h Vec.null (alloc h n).2 ⟨some h.next, 0, n⟩ [] where
  rep := Rep.mk' rfl rfl (Nat.zero_le _) hz ((alloc_own h n).congr (fun i _ => by simp))
  fresh := alloc_fresh hF n
  frame := fun b hb _ => alloc_other h n b (by rintro rfl; exact hb (hF _ (Nat.le_refl _)))
  start := Or.inr (fun b hb => by
    simp only [Option.some.injEq] at hb
    subst hb
    exact hF _ (Nat.le_refl _))
  noleak := fun b B hB => by
    by_cases e : b = h.next
    · subst e; exact Or.inl rfl
    · rw [alloc_other h n b e] at hB
      exact Or.inr (Or.inl ⟨hB, by simp [Vec.null]⟩)

theorem ctorFill_spec {z : Bool} {h : Heap α} (hF : Fresh h) (n : Nat) (hz : z = false → 0 < n) (x : α) :
    ∃ h' v', ctorFill h n x = .ok (h', v') ∧ Trans z h Vec.null h' v' (List.replicate n x) := by
  have t := allocate_spec (z := z) hF n hz
  have ho := alloc_own h n
  obtain ⟨h1, e1, o1, s1⟩ := forUp_inv
    (I := fun k h' => Own h' h.next n (fun i => if i < k then .obj (some x) else .raw) ∧
      Same h.next (alloc h n).2 h')
    (f := fun i h' => construct h' (some h.next) i (some x)) (alloc h n).2 n
    ⟨ho.congr (fun i _ => by simp), Same.refl _ _⟩ (by
      rintro k h2 hk ⟨o, s⟩
      obtain ⟨h3, e3, o3, s3⟩ := construct_own o (i := k) hk (by simp) (some x)
      refine ⟨h3, e3, o3.congr ?_, s.trans s3⟩
      intro i _
      by_cases c : i = k
      · simp [c]
      · rw [if_neg c]
        by_cases c2 : i < k
        · rw [if_pos c2, if_pos (by omega)]
        · rw [if_neg c2, if_neg (by omega)])
  refine ⟨h1, ⟨some h.next, n, n⟩, ?_, ?_⟩
  · simp only [ctorFill, allocate_eq, e1, Res.ok_bind]
  · refine t.finish rfl rfl s1 ho.isSome (by simp) (by simp) hz (o1.congr ?_)
    intro i _
    rw [List.getElem?_replicate]
    split <;> rfl

theorem pushAll_spec {z : Bool} (xs : List α) {h : Heap α} {v : Vec} {l : List α} (hF : Fresh h)
    (hr : Rep z h v l) (hroom : l.length + xs.length ≤ v.endS) :
    ∃ h' v', pushAll h v xs = .ok (h', v') ∧ Trans z h v h' v' (l ++ xs) ∧
      v'.start = v.start ∧ v'.endS = v.endS := by
  induction xs generalizing h v l with
  | nil => exact ⟨h, v, rfl, by simpa using Trans.refl hF hr, rfl, rfl⟩
  | cons x xs ih =>
    simp only [List.length_cons] at hroom
    obtain ⟨h1, v1, e1, t1, hs1, _⟩ := pushBack_spec hF hr (.ext x) x (fun _ _ _ => rfl)
    obtain ⟨a1, a2⟩ := hs1 (by omega)
    obtain ⟨h2, v2, e2, t2, b1, b2⟩ := ih t1.fresh t1.rep (by simp; omega)
    refine ⟨h2, v2, ?_, ?_, b1.trans a1, b2.trans a2⟩
    · simp only [pushAll, e1, Res.ok_bind, e2]
    · have := t1.then t2 b1
      simpa using this

theorem ctorList_spec {z : Bool} {h : Heap α} (hF : Fresh h) (xs : List α)
    (hz : z = false → 0 < xs.length) :
    ∃ h' v', ctorList h xs = .ok (h', v') ∧ Trans z h Vec.null h' v' xs := by
  have t := allocate_spec (z := z) hF xs.length hz
  obtain ⟨h1, v1, e1, t1, b1, _⟩ := pushAll_spec xs t.fresh t.rep (by simp)
  exact ⟨h1, v1, by simp only [ctorList, allocate_eq, e1], by simpa using t.then t1 b1⟩

theorem _root_.Verif.OH.Own.cong {h h' : Heap α} {b cap : Nat} {f : Nat → Slot α} (ho : Own h b cap f)
    (hb : h'.blocks b = h.blocks b) : Own h' b cap f := by
  obtain ⟨B, h1, h2⟩ := ho
  exact ⟨B, hb.trans h1, h2⟩

/-- The representation only depends on the vector's own block. -/
theorem Rep.other {z : Bool} {h h' : Heap α} {w : Vec} {l : List α} (hr : Rep z h w l)
    (hb : ∀ b, w.start = some b → h'.blocks b = h.blocks b) : Rep z h' w l := by
  obtain ⟨h1, h2, h3⟩ := hr
  refine ⟨h1, h2, ?_⟩
  cases hs : w.start with
  | none => rw [hs] at h3; exact h3
  | some b => rw [hs] at h3; exact ⟨h3.1, h3.2.cong (hb b hs)⟩

theorem Rep.alive {z : Bool} {h : Heap α} {w : Vec} {l : List α} (hr : Rep z h w l) {b : Nat}
    (hb : w.start = some b) : h.blocks b ≠ none := by
  have h3 := hr.2.2
  rw [hb] at h3
  exact h3.2.isSome

theorem ctorCopy_spec {z : Bool} {h : Heap α} {w : Vec} {l : List α} (hF : Fresh h)
    (hr : Rep z h w l) :
    ∃ h' v', ctorCopy h w = .ok (h', v') ∧ Trans z h Vec.null h' v' l := by
  have hsz : w.size = l.length := hr.1
  have hcap := hr.2.1
  by_cases h0 : l.length = 0
  · have : l = [] := List.length_eq_zero_iff.mp h0
    subst this
    exact ⟨h, Vec.null, by simp [ctorCopy, hsz], Trans.refl hF (rep_null z h)⟩
  · obtain ⟨c, hc, hoc⟩ := hr.some_of_pos (by omega)
    have hcn : c ≠ h.next := by rintro rfl; exact hr.alive hc (hF _ (Nat.le_refl _))
    have t := allocate_spec (z := z) hF l.length (fun _ => by omega)
    have ho := alloc_own h l.length
    obtain ⟨⟨h1, v1⟩, e1, hv1, o1, s1⟩ := forUp_inv
      (I := fun k (s : Heap α × Vec) => s.2 = ⟨some h.next, k, l.length⟩ ∧
        Own s.1 h.next l.length (fun i => if i < k then lv l[i]? else .raw) ∧
        Same h.next (alloc h l.length).2 s.1)
      (f := fun i (s : Heap α × Vec) => do
        let (h, v) := s
        let x ← read h w.start i
        let h ← construct h v.start v.finish x
        .ok (h, { v with finish := v.finish + 1 }))
      ((alloc h l.length).2, ⟨some h.next, 0, l.length⟩) l.length
      ⟨rfl, ho.congr (fun i _ => by simp), Same.refl _ _⟩ (by
        rintro k ⟨h2, v2⟩ hk ⟨hv, o, s⟩
        simp only at hv o s
        subst hv
        have hread : read h2 w.start k = .ok (some l[k]) := by
          rw [hc]
          refine read_own (hoc.cong ?_) (by omega) (by simp [hk])
          rw [s.2 c hcn, alloc_other h _ c hcn]
        obtain ⟨h3, e3, o3, s3⟩ := construct_own o (i := k) hk (by simp) (some l[k])
        refine ⟨(h3, ⟨some h.next, k + 1, l.length⟩), ?_, rfl, o3.congr ?_, s.trans s3⟩
        · simp only [hread, Res.ok_bind, e3]
        · intro i _
          by_cases c : i = k
          · subst c; simp [hk]
          · rw [if_neg c]
            by_cases c2 : i < k
            · rw [if_pos c2, if_pos (by omega)]
            · rw [if_neg c2, if_neg (by omega)])
    simp only at hv1 o1 s1
    subst hv1
    refine ⟨h1, ⟨some h.next, l.length, l.length⟩, ?_, ?_⟩
    · rw [ctorCopy, if_pos (by omega), hsz]
      simp only [allocate_eq]
      exact e1
    · refine t.finish rfl rfl s1 ho.isSome rfl (Nat.le_refl _) (fun _ => by show 0 < l.length; omega) (o1.congr ?_)
      intro i _
      split
      · rfl
      · rw [List.getElem?_eq_none (by omega)]

/-- Building a new vector elsewhere and then destroying the old one. -/
theorem Trans.replace {z : Bool} {h h1 : Heap α} {v v1 : Vec} {l l1 : List α}
    (hr : Rep z h v l) (t : Trans z h Vec.null h1 v1 l1) :
    ∃ h2, dtor h1 v = .ok h2 ∧ Trans z h v h2 v1 l1 := by
  have hne : ∀ b, v.start = some b → v1.start ≠ some b := by
    intro b hb hb1
    rcases t.start with e | e
    · rw [hb1] at e; cases e
    · exact hr.alive hb (e b hb1)
  have hfr : ∀ b, h.blocks b ≠ none → h1.blocks b = h.blocks b :=
    fun b hb => t.frame b hb (by simp [Vec.null])
  have hr1 : Rep z h1 v l := hr.other (fun b hb => hfr b (hr.alive hb))
  obtain ⟨h2, e, hn, hoth, hown⟩ := hr1.dtor
  refine ⟨h2, e, ?_⟩
  constructor
  · exact t.rep.other (fun b hb => hoth b (fun hv => hne b hv hb))
  · intro b hb
    rw [hn] at hb
    have := t.fresh b hb
    by_cases e : v.start = some b
    · rcases hown b e with e' | ⟨_, e', _⟩
      · exact e'
      · rw [e', this]
    · rw [hoth b e, this]
  · intro b hb hv
    rw [hoth b hv, hfr b hb]
  · right
    intro b hb
    rcases t.start with e | e
    · rw [hb] at e; cases e
    · exact e b hb
  · intro b B hB
    by_cases e : v.start = some b
    · rcases hown b e with e' | ⟨hz, e', h0⟩
      · rw [e'] at hB; cases hB
      · right; right
        refine ⟨hz, ?_⟩
        have h3 := hr1.2.2
        rw [e] at h3
        obtain ⟨B', hB', hc', _⟩ := h3.2
        rw [e', hB'] at hB
        cases hB
        omega
    · rw [hoth b e] at hB
      rcases t.noleak b B hB with a | ⟨a, _⟩ | a
      · exact Or.inl a
      · exact Or.inr (Or.inl ⟨a, e⟩)
      · exact Or.inr (Or.inr a)

/-! ### The program invariant -/

open Verif.Spec.Vector (Env)

/-- The state `s` stands for the environment `e`. -/
structure Inv (z : Bool) (s : St α) (e : Env α) : Prop where
  fresh : Fresh s.heap
  rep : ∀ x, match s.vars x, e x with
    | none, none => True
    | some v, some l => Rep z s.heap v l
    | _, _ => False
  disj : ∀ x y v w b, s.vars x = some v → s.vars y = some w → v.start = some b →
    w.start = some b → x = y
  noleak : ∀ b B, s.heap.blocks b = some B →
    (∃ x v, s.vars x = some v ∧ v.start = some b) ∨ (z = true ∧ B.cap = 0)

theorem Inv.init (z : Bool) : Inv z (St.init : St α) (fun _ => none) where
  fresh := fun _ _ => rfl
  rep := fun _ => trivial
  disj := fun x y v w b h => by cases h
  noleak := fun b B h => by cases h

theorem Inv.get {z : Bool} {s : St α} {e : Env α} (i : Inv z s e) {x : Nat} {l : List α}
    (hx : e x = some l) : ∃ v, s.vars x = some v ∧ Rep z s.heap v l := by
  have := i.rep x
  rw [hx] at this
  cases hv : s.vars x with
  | none => rw [hv] at this; exact this.elim
  | some v => rw [hv] at this; exact ⟨v, rfl, this⟩

theorem Inv.getNone {z : Bool} {s : St α} {e : Env α} (i : Inv z s e) {x : Nat}
    (hx : e x = none) : s.vars x = none := by
  have := i.rep x
  rw [hx] at this
  cases hv : s.vars x with
  | none => rfl
  | some v => rw [hv] at this; exact this.elim

theorem Inv.update {z : Bool} {s : St α} {e : Env α} (i : Inv z s e) {x : Nat} {v v' : Vec}
    {h' : Heap α} {l' : List α} (hx : s.vars x = some v ∨ (s.vars x = none ∧ v.start = none))
    (t : Trans z s.heap v h' v' l') :
    Inv z ⟨h', setVar s.vars x (some v')⟩ (Spec.Vector.set e x (some l')) := by
  have hdis : ∀ y w b, y ≠ x → s.vars y = some w → w.start = some b →
      s.heap.blocks b ≠ none ∧ v.start ≠ some b := by
    intro y w b hy hw hb
    have hr := i.rep y
    rw [hw] at hr
    constructor
    · cases he : e y with
      | none => rw [he] at hr; exact hr.elim
      | some l => rw [he] at hr; exact hr.alive hb
    · intro hv
      rcases hx with hx | ⟨_, hx⟩
      · exact hy (i.disj y x w v b hw hx hb hv)
      · rw [hx] at hv; cases hv
  have hnew : ∀ y w b, y ≠ x → s.vars y = some w → w.start = some b → v'.start ≠ some b := by
    intro y w b hy hw hb hv'
    obtain ⟨a1, a2⟩ := hdis y w b hy hw hb
    rcases t.start with e | e
    · exact a2 (e.symm.trans hv')
    · exact a1 (e b hv')
  constructor
  · exact t.fresh
  · intro y
    by_cases hy : y = x
    · simp only [setVar, Spec.Vector.set, hy, if_true]; exact t.rep
    · simp only [setVar, Spec.Vector.set, if_neg hy]
      have hr := i.rep y
      cases hw : s.vars y with
      | none =>
        rw [hw] at hr
        cases he : e y with
        | none => trivial
        | some l => rw [he] at hr; exact hr
      | some w =>
        rw [hw] at hr
        cases he : e y with
        | none => rw [he] at hr; exact hr
        | some l =>
          rw [he] at hr
          exact Rep.other hr (fun b hb => t.frame b (hdis y w b hy hw hb).1 (hdis y w b hy hw hb).2)
  · intro y1 y2 w1 w2 b h1 h2 hb1 hb2
    simp only [setVar] at h1 h2
    by_cases e1 : y1 = x <;> by_cases e2 : y2 = x
    · rw [e1, e2]
    · rw [if_pos e1] at h1; rw [if_neg e2] at h2; cases h1
      exact absurd hb1 (hnew y2 w2 b e2 h2 hb2)
    · rw [if_neg e1] at h1; rw [if_pos e2] at h2; cases h2
      exact absurd hb2 (hnew y1 w1 b e1 h1 hb1)
    · rw [if_neg e1] at h1; rw [if_neg e2] at h2
      exact i.disj y1 y2 w1 w2 b h1 h2 hb1 hb2
  · intro b B hB
    rcases t.noleak b B hB with a | ⟨a, a'⟩ | a
    · exact Or.inl ⟨x, v', by simp [setVar], a⟩
    · rcases i.noleak b B a with ⟨y, w, hw, hb⟩ | c
      · by_cases hy : y = x
        · subst hy
          rcases hx with hx | ⟨hx, _⟩
          · rw [hx] at hw; cases hw; exact absurd hb a'
          · rw [hx] at hw; cases hw
        · exact Or.inl ⟨y, w, by simp [setVar, hy, hw], hb⟩
      · exact Or.inr c
    · exact Or.inr a

/-- Destroying a vector; its name then stands for nothing or for an empty vector. -/
theorem Inv.drop {z : Bool} {s : St α} {e : Env α} (i : Inv z s e) {x : Nat} {v : Vec}
    {l : List α} (hx : s.vars x = some v) (hr : Rep z s.heap v l) :
    ∃ h', dtor s.heap v = .ok h' ∧ Inv z ⟨h', setVar s.vars x none⟩ (Spec.Vector.set e x none) := by
  obtain ⟨h', ed, hn, hoth, hown⟩ := hr.dtor
  refine ⟨h', ed, ?_⟩
  have hdis : ∀ y w b, y ≠ x → s.vars y = some w → w.start = some b → v.start ≠ some b := by
    intro y w b hy hw hb hv
    exact hy (i.disj y x w v b hw hx hb hv)
  constructor
  · intro b hb
    simp only [hn] at hb ⊢
    by_cases c : v.start = some b
    · rcases hown b c with a | ⟨_, a, _⟩
      · exact a
      · rw [a]; exact i.fresh b hb
    · rw [hoth b c]; exact i.fresh b hb
  · intro y
    by_cases hy : y = x
    · simp [setVar, Spec.Vector.set, hy]
    · simp only [setVar, Spec.Vector.set, if_neg hy]
      have hr := i.rep y
      cases hw : s.vars y with
      | none =>
        rw [hw] at hr
        cases he : e y with
        | none => trivial
        | some l => rw [he] at hr; exact hr
      | some w =>
        rw [hw] at hr
        cases he : e y with
        | none => rw [he] at hr; exact hr
        | some l =>
          rw [he] at hr
          exact Rep.other hr (fun b hb => hoth b (hdis y w b hy hw hb))
  · intro y1 y2 w1 w2 b h1 h2 hb1 hb2
    simp only [setVar] at h1 h2
    by_cases e1 : y1 = x
    · simp [e1] at h1
    · by_cases e2 : y2 = x
      · simp [e2] at h2
      · rw [if_neg e1] at h1; rw [if_neg e2] at h2
        exact i.disj y1 y2 w1 w2 b h1 h2 hb1 hb2
  · intro b B hB
    simp only at hB
    by_cases c : v.start = some b
    · rcases hown b c with a | ⟨hz, a, h0⟩
      · rw [a] at hB; cases hB
      · have h3 := hr.2.2
        rw [c] at h3
        obtain ⟨B', hB', hc', _⟩ := h3.2
        rw [a, hB'] at hB
        cases hB
        exact Or.inr ⟨hz, by omega⟩
    · rw [hoth b c] at hB
      rcases i.noleak b B hB with ⟨y, w, hw, hb⟩ | a
      · by_cases hy : y = x
        · subst hy; rw [hx] at hw; cases hw; exact absurd hb c
        · exact Or.inl ⟨y, w, by simp [setVar, hy, hw], hb⟩
      · exact Or.inr a

/-- Handing the storage of `y` over to the unused name `x`. -/
theorem Inv.move {z : Bool} {s : St α} {e : Env α} (i : Inv z s e) {x y : Nat} {w : Vec}
    {l : List α} (hxn : s.vars x = none) (hy : s.vars y = some w) (hr : Rep z s.heap w l) :
    Inv z { s with vars := setVar (setVar s.vars y (some Vec.null)) x (some w) }
      (Spec.Vector.set (Spec.Vector.set e y (some [])) x (some l)) := by
  have hxy : x ≠ y := by rintro rfl; rw [hxn] at hy; cases hy
  constructor
  · exact i.fresh
  · intro u
    by_cases h1 : u = x
    · simp only [setVar, Spec.Vector.set, h1, if_true]; exact hr
    · by_cases h2 : u = y
      · simp only [setVar, Spec.Vector.set, if_neg h1, if_pos h2]; exact rep_null z _
      · simp only [setVar, Spec.Vector.set, if_neg h1, if_neg h2]; exact i.rep u
  · have key : ∀ u w' b, (setVar (setVar s.vars y (some Vec.null)) x (some w)) u = some w' →
        w'.start = some b → s.vars (if u = x then y else u) = some w' ∧ u ≠ y := by
      intro u w' b hu hb
      simp only [setVar] at hu
      by_cases h1 : u = x
      · rw [if_pos h1] at hu ⊢; cases hu; exact ⟨hy, by rw [h1]; exact hxy⟩
      · rw [if_neg h1] at hu ⊢
        by_cases h2 : u = y
        · rw [if_pos h2] at hu; cases hu; cases hb
        · rw [if_neg h2] at hu; exact ⟨hu, h2⟩
    intro u1 u2 w1 w2 b h1 h2 hb1 hb2
    obtain ⟨a1, n1⟩ := key u1 w1 b h1 hb1
    obtain ⟨a2, n2⟩ := key u2 w2 b h2 hb2
    have := i.disj _ _ _ _ _ a1 a2 hb1 hb2
    by_cases c1 : u1 = x <;> by_cases c2 : u2 = x
    · rw [c1, c2]
    · rw [if_pos c1, if_neg c2] at this; exact absurd this.symm n2
    · rw [if_neg c1, if_pos c2] at this; exact absurd this n1
    · rwa [if_neg c1, if_neg c2] at this
  · intro b B hB
    rcases i.noleak b B hB with ⟨u, w', hu, hb⟩ | a
    · left
      by_cases h2 : u = y
      · subst h2
        rw [hy] at hu; cases hu
        exact ⟨x, w, by simp [setVar], hb⟩
      · have h1 : u ≠ x := by rintro rfl; rw [hxn] at hu; cases hu
        exact ⟨u, w', by simp [setVar, h1, h2, hu], hb⟩
    · exact Or.inr a

theorem Inv.swap {z : Bool} {s : St α} {e : Env α} (i : Inv z s e) {x y : Nat} {v w : Vec}
    {k l : List α} (hx : s.vars x = some v) (hy : s.vars y = some w) (hrv : Rep z s.heap v k)
    (hrw : Rep z s.heap w l) :
    Inv z { s with vars := setVar (setVar s.vars x (some w)) y (some v) }
      (Spec.Vector.set (Spec.Vector.set e x (some l)) y (some k)) := by
  have key : ∀ u, (setVar (setVar s.vars x (some w)) y (some v)) u =
      s.vars (if u = y then x else if u = x then y else u) := by
    intro u
    simp only [setVar]
    by_cases c1 : u = y
    · rw [if_pos c1, if_pos c1, hx]
    · rw [if_neg c1, if_neg c1]
      by_cases c2 : u = x
      · rw [if_pos c2, if_pos c2, hy]
      · rw [if_neg c2, if_neg c2]
  constructor
  · exact i.fresh
  · intro u
    by_cases h1 : u = y
    · simp only [setVar, Spec.Vector.set, h1, if_true]; exact hrv
    · by_cases h2 : u = x
      · simp only [setVar, Spec.Vector.set, if_neg h1, if_pos h2]; exact hrw
      · simp only [setVar, Spec.Vector.set, if_neg h1, if_neg h2]; exact i.rep u
  · intro u1 u2 w1 w2 b h1 h2 hb1 hb2
    simp only at h1 h2
    rw [key] at h1 h2
    have := i.disj _ _ _ _ _ h1 h2 hb1 hb2
    by_cases c1 : u1 = y <;> by_cases c2 : u2 = y <;> by_cases c3 : u1 = x <;> by_cases c4 : u2 = x <;>
      simp_all
  · intro b B hB
    rcases i.noleak b B hB with ⟨u, w', hu, hb⟩ | a
    · left
      refine ⟨if u = y then x else if u = x then y else u, w', ?_, hb⟩
      simp only
      rw [key, ← hu]
      congr 1
      by_cases c1 : u = y <;> by_cases c2 : u = x <;> simp_all
    · exact Or.inr a

theorem modify_eq {e e' : Env α} {x : Nat} {p : List α → Bool} {f : List α → List α}
    (h : Spec.Vector.modify e x p f = some e') :
    ∃ l, e x = some l ∧ p l = true ∧ e' = Spec.Vector.set e x (some (f l)) := by
  unfold Spec.Vector.modify at h
  split at h
  · rename_i l hl
    split at h
    · cases h; exact ⟨l, hl, by assumption, rfl⟩
    · cases h
  · cases h

theorem decl_eq {e e' : Env α} {x : Nat} {l : List α} (h : Spec.Vector.decl e x l = some e') :
    e x = none ∧ e' = Spec.Vector.set e x (some l) := by
  unfold Spec.Vector.decl at h
  split at h
  · rename_i hl; cases h; exact ⟨hl, rfl⟩
  · cases h

/-- Constructors that allocate an empty block. -/
def zeroCtor : Op α → Bool
  | .ctorFill _ n _ => n = 0
  | .ctorDefault _ n => n = 0
  | .ctorList _ vs => vs.length = 0
  | _ => false

theorem var_some {s : St α} {x : Nat} {v : Vec} (h : s.vars x = some v) : var s x = .ok v := by
  simp [var, h]

theorem fresh_none {s : St α} {x : Nat} (h : s.vars x = none) : Vector.fresh s x = .ok () := by
  simp [Vector.fresh, h]

theorem set_set (e : Env α) (x : Nat) (a b : Option (List α)) :
    Spec.Vector.set (Spec.Vector.set e x a) x b = Spec.Vector.set e x b := by
  funext y; simp only [Spec.Vector.set]; split <;> rfl

theorem setVar_setVar (f : Nat → Option Vec) (x : Nat) (a b : Option Vec) :
    setVar (setVar f x a) x b = setVar f x b := by
  funext y; simp only [setVar]; split <;> rfl

theorem step_ok (E : Elem α) {z : Bool} {s : St α} {e e' : Env α} (op : Op α) (i : Inv z s e)
    (hz : z = false → zeroCtor op = false)
    (hs : Spec.Vector.step E.dflt E.selfMoveOk e op = some e') :
    ∃ s', step E s op = .ok s' ∧ Inv z s' e' := by
  cases op with
  | ctor x =>
    obtain ⟨hn, rfl⟩ := decl_eq hs
    have hn := i.getNone hn
    exact ⟨_, by simp only [step, fresh_none hn, Res.ok_bind], i.update (v := Vec.null) (Or.inr ⟨hn, rfl⟩)
      (Trans.refl i.fresh (rep_null z _))⟩
  | ctorFill x n a =>
    obtain ⟨hn, rfl⟩ := decl_eq hs
    have hn := i.getNone hn
    obtain ⟨h', v', e1, t⟩ := ctorFill_spec (z := z) i.fresh n
      (fun c => by have := hz c; simp only [zeroCtor, decide_eq_false_iff_not] at this; omega) a
    exact ⟨_, by simp only [step, fresh_none hn, Res.ok_bind, upd1, e1],
      i.update (v := Vec.null) (Or.inr ⟨hn, rfl⟩) t⟩
  | ctorDefault x n =>
    obtain ⟨hn, rfl⟩ := decl_eq hs
    have hn := i.getNone hn
    obtain ⟨h', v', e1, t⟩ := ctorFill_spec (z := z) i.fresh n
      (fun c => by have := hz c; simp only [zeroCtor, decide_eq_false_iff_not] at this; omega) E.dflt
    exact ⟨_, by simp only [step, fresh_none hn, Res.ok_bind, upd1, e1],
      i.update (v := Vec.null) (Or.inr ⟨hn, rfl⟩) t⟩
  | ctorList x vs =>
    obtain ⟨hn, rfl⟩ := decl_eq hs
    have hn := i.getNone hn
    obtain ⟨h', v', e1, t⟩ := ctorList_spec (z := z) i.fresh vs
      (fun c => by have := hz c; simp only [zeroCtor, decide_eq_false_iff_not] at this; omega)
    exact ⟨_, by simp only [step, fresh_none hn, Res.ok_bind, upd1, e1],
      i.update (v := Vec.null) (Or.inr ⟨hn, rfl⟩) t⟩
  | ctorCopy x y =>
    simp only [Spec.Vector.step, Option.bind_eq_some_iff] at hs
    obtain ⟨l, hl, hs⟩ := hs
    obtain ⟨hn, rfl⟩ := decl_eq hs
    have hn := i.getNone hn
    obtain ⟨w, hw, hr⟩ := i.get hl
    obtain ⟨h', v', e1, t⟩ := ctorCopy_spec i.fresh hr
    exact ⟨_, by simp only [step, var_some hw, fresh_none hn, Res.ok_bind, upd1, e1],
      i.update (v := Vec.null) (Or.inr ⟨hn, rfl⟩) t⟩
  | ctorMove x y =>
    simp only [Spec.Vector.step, Option.bind_eq_some_iff, Option.map_eq_some_iff] at hs
    obtain ⟨l, hl, e1, hs, rfl⟩ := hs
    obtain ⟨hn, rfl⟩ := decl_eq hs
    have hxy : x ≠ y := by rintro rfl; rw [hn] at hl; cases hl
    have hn := i.getNone hn
    obtain ⟨w, hw, hr⟩ := i.get hl
    refine ⟨{ s with vars := setVar (setVar s.vars y (some Vec.null)) x (some w) },
      by simp only [step, var_some hw, fresh_none hn, Res.ok_bind], ?_⟩
    have := i.move hn hw hr
    have e2 : Spec.Vector.set (Spec.Vector.set e x (some l)) y (some []) =
        Spec.Vector.set (Spec.Vector.set e y (some [])) x (some l) := by
      funext u; simp only [Spec.Vector.set]
      by_cases c1 : u = y <;> by_cases c2 : u = x <;> simp_all
    rw [e2]; exact this
  | dtor x =>
    simp only [Spec.Vector.step, Option.map_eq_some_iff] at hs
    obtain ⟨l, hl, rfl⟩ := hs
    obtain ⟨v, hv, hr⟩ := i.get hl
    obtain ⟨h', e1, i'⟩ := i.drop hv hr
    exact ⟨_, by simp only [step, var_some hv, Res.ok_bind, e1], i'⟩
  | assignCopy x y =>
    simp only [Spec.Vector.step, Option.bind_eq_some_iff, Option.map_eq_some_iff] at hs
    obtain ⟨k, hk, l, hl, rfl⟩ := hs
    obtain ⟨v, hv, hrv⟩ := i.get hk
    obtain ⟨w, hw, hrw⟩ := i.get hl
    obtain ⟨h1, v1, e1, t1⟩ := ctorCopy_spec i.fresh hrw
    obtain ⟨h2, e2, t2⟩ := t1.replace hrv
    exact ⟨_, by simp only [step, var_some hv, var_some hw, Res.ok_bind, e1, e2], i.update (Or.inl hv) t2⟩
  | assignMove x y =>
    simp only [Spec.Vector.step, Option.bind_eq_some_iff, Option.map_eq_some_iff] at hs
    obtain ⟨k, hk, l, hl, rfl⟩ := hs
    obtain ⟨v, hv, hrv⟩ := i.get hk
    obtain ⟨w, hw, hrw⟩ := i.get hl
    by_cases hxy : x = y
    · subst hxy
      rw [hv] at hw; cases hw
      rw [hk] at hl; cases hl
      refine ⟨⟨s.heap, setVar s.vars x (some v)⟩, ?_, ?_⟩
      · have : dtor s.heap Vec.null = .ok s.heap := rfl
        simp only [step, var_some hv, Res.ok_bind]
        rw [show setVar s.vars x (some Vec.null) x = some Vec.null by simp [setVar]]
        simp only [this, Res.ok_bind, setVar_setVar]
      · rw [set_set]
        exact i.update (Or.inl hv) (Trans.refl i.fresh hrv)
    · obtain ⟨h', e1, i'⟩ := i.drop hv hrv
      have hw' : setVar s.vars x none y = some w := by
        simp only [setVar]; rw [if_neg (fun c => hxy c.symm)]; exact hw
      have hrw' : Rep z h' w l := by
        have := i'.rep y
        simp only [hw', Spec.Vector.set, if_neg (fun c : y = x => hxy c.symm), hl] at this
        exact this
      have i2 := i'.move (x := x) (by simp [setVar]) hw' hrw'
      refine ⟨⟨h', setVar (setVar s.vars y (some Vec.null)) x (some w)⟩, ?_, ?_⟩
      · simp only [step, var_some hw, Res.ok_bind]
        rw [show setVar s.vars y (some Vec.null) x = some v by simp [setVar, hxy, hv]]
        simp only [e1, Res.ok_bind]
      · have a1 : setVar (setVar (setVar s.vars x none) y (some Vec.null)) x (some w) =
            setVar (setVar s.vars y (some Vec.null)) x (some w) := by
          funext u; simp only [setVar]
          by_cases c1 : u = y <;> by_cases c2 : u = x <;> simp_all
        have a2 : Spec.Vector.set (Spec.Vector.set (Spec.Vector.set e x none) y (some [])) x (some l) =
            Spec.Vector.set (Spec.Vector.set e y (some [])) x (some l) := by
          funext u; simp only [Spec.Vector.set]
          by_cases c1 : u = y <;> by_cases c2 : u = x <;> simp_all
        simp only [a1, a2] at i2
        exact i2
  | swap x y =>
    simp only [Spec.Vector.step, Option.bind_eq_some_iff, Option.map_eq_some_iff] at hs
    obtain ⟨k, hk, l, hl, rfl⟩ := hs
    obtain ⟨v, hv, hrv⟩ := i.get hk
    obtain ⟨w, hw, hrw⟩ := i.get hl
    exact ⟨_, by simp only [step, var_some hv, var_some hw, Res.ok_bind], i.swap hv hw hrv hrw⟩
  | pushBack x a =>
    obtain ⟨l, hl, _, rfl⟩ := modify_eq hs
    obtain ⟨v, hv, hr⟩ := i.get hl
    obtain ⟨h', v', e1, t, _⟩ := pushBack_spec i.fresh hr (.ext a) a (fun _ _ _ => rfl)
    exact ⟨_, by simp only [step, var_some hv, Res.ok_bind, upd1, e1], i.update (Or.inl hv) t⟩
  | pushFront x a =>
    obtain ⟨l, hl, _, rfl⟩ := modify_eq hs
    obtain ⟨v, hv, hr⟩ := i.get hl
    obtain ⟨h', v', e1, t, _⟩ := insert_spec E i.fresh hr 0 (by omega) a
    exact ⟨_, by simp only [step, var_some hv, Res.ok_bind, upd1, pushFront_eq_insert, e1],
      i.update (Or.inl hv) t⟩
  | insert x j a =>
    obtain ⟨l, hl, hp, rfl⟩ := modify_eq hs
    simp only [decide_eq_true_eq] at hp
    obtain ⟨v, hv, hr⟩ := i.get hl
    obtain ⟨h', v', e1, t, _⟩ := insert_spec E i.fresh hr j hp a
    exact ⟨_, by simp only [step, var_some hv, Res.ok_bind, upd1, e1], i.update (Or.inl hv) t⟩
  | emplace x j a =>
    obtain ⟨l, hl, hp, rfl⟩ := modify_eq hs
    simp only [decide_eq_true_eq] at hp
    obtain ⟨v, hv, hr⟩ := i.get hl
    obtain ⟨h', v', e1, t, _⟩ := emplace_spec E i.fresh hr j hp a
    exact ⟨_, by simp only [step, var_some hv, Res.ok_bind, upd1, e1], i.update (Or.inl hv) t⟩
  | erase x j =>
    obtain ⟨l, hl, hp, rfl⟩ := modify_eq hs
    simp only [decide_eq_true_eq] at hp
    obtain ⟨v, hv, hr⟩ := i.get hl
    obtain ⟨h', v', e1, t, _⟩ := erase_spec E i.fresh hr hp
    exact ⟨_, by simp only [step, var_some hv, Res.ok_bind, e1], i.update (Or.inl hv) t⟩
  | eraseRange x j k =>
    obtain ⟨l, hl, hp, rfl⟩ := modify_eq hs
    simp only [decide_eq_true_eq] at hp
    obtain ⟨v, hv, hr⟩ := i.get hl
    obtain ⟨h', v', e1, t, _⟩ := eraseRange_spec E i.fresh hr hp.1 hp.2.1 hp.2.2
    exact ⟨_, by simp only [step, var_some hv, Res.ok_bind, e1], i.update (Or.inl hv) t⟩
  | popBack x =>
    obtain ⟨l, hl, hp, rfl⟩ := modify_eq hs
    simp only [decide_eq_true_eq] at hp
    obtain ⟨v, hv, hr⟩ := i.get hl
    obtain ⟨h', v', e1, t, _⟩ := popBack_spec E i.fresh hr hp
    exact ⟨_, by simp only [step, var_some hv, Res.ok_bind, upd1, e1], i.update (Or.inl hv) t⟩
  | popFront x =>
    obtain ⟨l, hl, hp, rfl⟩ := modify_eq hs
    simp only [decide_eq_true_eq] at hp
    obtain ⟨v, hv, hr⟩ := i.get hl
    obtain ⟨h', v', e1, t, _⟩ := popFront_spec E i.fresh hr hp
    exact ⟨_, by simp only [step, var_some hv, Res.ok_bind, upd1, e1], i.update (Or.inl hv) t⟩
  | resize x n =>
    obtain ⟨l, hl, _, rfl⟩ := modify_eq hs
    obtain ⟨v, hv, hr⟩ := i.get hl
    obtain ⟨h', v', e1, t, _⟩ := resize_spec E i.fresh hr n
    exact ⟨_, by simp only [step, var_some hv, Res.ok_bind, upd1, e1], i.update (Or.inl hv) t⟩
  | clear x =>
    obtain ⟨l, hl, _, rfl⟩ := modify_eq hs
    obtain ⟨v, hv, hr⟩ := i.get hl
    obtain ⟨h', v', e1, t, _⟩ := clear_spec i.fresh hr
    exact ⟨_, by simp only [step, var_some hv, Res.ok_bind, upd1, e1], i.update (Or.inl hv) t⟩
  | reserve x n =>
    obtain ⟨l, hl, _, rfl⟩ := modify_eq hs
    obtain ⟨v, hv, hr⟩ := i.get hl
    obtain ⟨h', v', e1, t, _⟩ := ensureCapacity_spec i.fresh hr n
    exact ⟨_, by simp only [step, var_some hv, Res.ok_bind, upd1, reserve, e1], i.update (Or.inl hv) t⟩
  | put x j a =>
    obtain ⟨l, hl, hp, rfl⟩ := modify_eq hs
    simp only [decide_eq_true_eq] at hp
    obtain ⟨v, hv, hr⟩ := i.get hl
    obtain ⟨h', e1, t⟩ := put_spec i.fresh hr hp a
    refine ⟨⟨h', s.vars⟩, by simp only [step, var_some hv, Res.ok_bind, e1], ?_⟩
    have := i.update (Or.inl hv) t
    have e2 : setVar s.vars x (some v) = s.vars := by
      funext u; simp only [setVar]; split
      · rename_i c; rw [c, hv]
      · rfl
    rwa [e2] at this

theorem run_ok (E : Elem α) {z : Bool} (ops : List (Op α)) {s : St α} {e e' : Env α} (i : Inv z s e)
    (hz : z = false → ∀ op ∈ ops, zeroCtor op = false)
    (hs : Spec.Vector.run E.dflt E.selfMoveOk e ops = some e') :
    ∃ s', run E s ops = .ok s' ∧ Inv z s' e' := by
  induction ops generalizing s e with
  | nil => cases hs; exact ⟨s, rfl, i⟩
  | cons op ops ih =>
    simp only [Spec.Vector.run, Option.bind_eq_some_iff] at hs
    obtain ⟨e1, h1, h2⟩ := hs
    obtain ⟨s1, a1, i1⟩ := step_ok E op i (fun c => hz c op (by simp)) h1
    obtain ⟨s2, a2, i2⟩ := ih i1 (fun c o ho => hz c o (by simp [ho])) h2
    exact ⟨s2, by simp only [run, a1, Res.ok_bind, a2], i2⟩

/-- Equality of two represented vectors. -/
theorem eqLoop_spec [DecidableEq α] {z : Bool} {h : Heap α} {v w : Vec} {k l : List α}
    (hv : Rep z h v k) (hw : Rep z h w l) (hlen : k.length = l.length) (n i : Nat)
    (hi : i + n = k.length) : eqLoop h v w n i = .ok (decide (k.drop i = l.drop i)) := by
  induction n generalizing i with
  | zero => simp [eqLoop, List.drop_eq_nil_of_le (show k.length ≤ i by omega), List.drop_eq_nil_of_le (show l.length ≤ i by omega)]
  | succ n ih =>
    have h1 := get_spec hv (i := i) (by omega)
    have h2 := get_spec hw (i := i) (by omega)
    simp only [Vector.get] at h1 h2
    simp only [eqLoop, h1, h2, Res.ok_bind]
    have d1 := List.drop_eq_getElem_cons (show i < k.length by omega)
    have d2 := List.drop_eq_getElem_cons (show i < l.length by omega)
    rw [d1, d2]
    by_cases c : k[i] = l[i]
    · rw [if_neg (by simpa using c), ih (i + 1) (by omega)]
      simp only [c, List.cons.injEq, true_and]
    · rw [if_pos c]; simp only [List.cons.injEq, c, false_and, decide_false]

theorem eq_spec [DecidableEq α] {z : Bool} {h : Heap α} {v w : Vec} {k l : List α}
    (hv : Rep z h v k) (hw : Rep z h w l) : Vector.eq h v w = .ok (decide (k = l)) := by
  have a : v.size = k.length := hv.1
  have b : w.size = l.length := hw.1
  unfold Vector.eq
  by_cases c : v.size = w.size
  · rw [if_neg (by simpa using c), eqLoop_spec hv hw (by omega) v.size 0 (by omega)]; simp
  · rw [if_pos c]
    have : k ≠ l := by rintro rfl; omega
    simp [this]

/-! ### Counting allocations -/

theorem forUp_keep {σ : Type} {f : Nat → σ → Res σ} (g : σ → Nat)
    (hf : ∀ i s s', f i s = .ok s' → g s' = g s) (n : Nat) {s s' : σ} (h : forUp n f s = .ok s') :
    g s' = g s := by
  induction n generalizing s' with
  | zero => cases h; rfl
  | succ n ih =>
    simp only [forUp, Res.bind_eq_ok] at h
    obtain ⟨s1, h1, h2⟩ := h
    rw [hf _ _ _ h2, ih h1]

theorem assign_next {h h' : Heap α} {p : Option Nat} {i : Nat} {v : Option α}
    (e : assign h p i v = .ok h') : h'.next = h.next := by
  unfold assign at e; split at e <;> cases e; rfl

theorem construct_next {h h' : Heap α} {p : Option Nat} {i : Nat} {v : Option α}
    (e : construct h p i v = .ok h') : h'.next = h.next := by
  unfold construct at e; split at e <;> cases e; rfl

theorem destroy_next {h h' : Heap α} {p : Option Nat} {i : Nat}
    (e : destroy h p i = .ok h') : h'.next = h.next := by
  unfold destroy at e; split at e <;> cases e; rfl

theorem dealloc_next {h h' : Heap α} {p : Option Nat}
    (e : dealloc h p = .ok h') : h'.next = h.next := by
  unfold dealloc at e
  split at e
  · cases e; rfl
  · split at e
    · cases e
    · split at e <;> cases e; rfl

theorem dtor_next {h h' : Heap α} {v : Vec} (e : dtor h v = .ok h') : h'.next = h.next := by
  simp only [dtor, Res.bind_eq_ok] at e
  obtain ⟨h1, e1, e2⟩ := e
  have a : h1.next = h.next := by
    split at e1
    · exact forUp_keep (fun h => h.next) (fun _ _ _ h => destroy_next h) _ e1
    · cases e1; rfl
  rw [← a]
  split at e2
  · exact dealloc_next e2
  · cases e2; rfl

theorem ensureCapacity_next {h h' : Heap α} {v v' : Vec} {n : Nat}
    (e : ensureCapacity h v n = .ok (h', v')) :
    h'.next = if v.endS ≥ n then h.next else h.next + 1 := by
  unfold ensureCapacity at e
  by_cases c : v.capacity ≥ n
  · rw [if_pos c] at e; cases e; rw [if_pos (show v.endS ≥ n from c)]
  · rw [if_neg c] at e
    rw [if_neg (show ¬ v.endS ≥ n from c)]
    simp only [Res.bind_eq_ok, Prod.exists] at e
    obtain ⟨h1, v1, e1, h2, e2, e3⟩ := e
    cases e3
    rw [dtor_next e2]
    unfold growLoop at e1
    have := forUp_keep (fun s : Heap α × Vec => s.1.next) (by
      rintro i ⟨ha, va⟩ ⟨hb, vb⟩ hh
      simp only [Res.bind_eq_ok] at hh
      obtain ⟨_, _, x, _, hc, h3, hd, h4, h5⟩ := hh
      cases h5
      exact (construct_next h4).trans (assign_next h3)) _ e1
    simp only at this
    rw [this]; rfl

theorem pushBack_next {h h' : Heap α} {v v' : Vec} {r : Ref α}
    (e : pushBack h v r = .ok (h', v')) :
    h'.next = if v.endS ≥ v.size + 1 then h.next else h.next + 1 := by
  simp only [pushBack, Res.bind_eq_ok, Prod.exists] at e
  obtain ⟨h1, v1, e1, x, _, h2, e2, e3⟩ := e
  cases e3
  rw [construct_next e2, ensureCapacity_next e1]

/-- Repeated `push_back`: `k = h'.next - h.next` is the number of reallocations. -/
theorem pushAll_grow {z : Bool} (xs : List α) {h : Heap α} {v : Vec} {l : List α} (hF : Fresh h)
    (hr : Rep z h v l) :
    ∃ h' v' k, pushAll h v xs = .ok (h', v') ∧ Rep z h' v' (l ++ xs) ∧ h'.next = h.next + k ∧
      2 ^ k * v.endS ≤ v'.endS ∧ (0 < k → v'.endS + 1 ≤ 2 * (l.length + xs.length)) ∧
      (0 < k → 2 ^ (k - 1) ≤ v'.endS) := by
  induction xs generalizing h v l with
  | nil => exact ⟨h, v, 0, rfl, by simpa using hr, rfl, by simp, by simp, by simp⟩
  | cons x xs ih =>
    obtain ⟨h1, v1, e1, t1, hsame, hgrow⟩ := pushBack_spec hF hr (.ext x) x (fun _ _ _ => rfl)
    have hnx := pushBack_next e1
    have hsz : v.size = l.length := hr.1
    have hcap := hr.2.1
    obtain ⟨h2, v2, k, e2, r2, n2, a1, a2, a3⟩ := ih t1.fresh t1.rep
    have hl : (l ++ [x]).length + xs.length = l.length + (x :: xs).length := by simp; omega
    rw [hl] at a2
    by_cases c : l.length + 1 ≤ v.endS
    · obtain ⟨_, b2⟩ := hsame c
      rw [if_pos (by omega)] at hnx
      refine ⟨h2, v2, k, by simp only [pushAll, e1, Res.ok_bind, e2], by simpa using r2, by omega,
        by rw [← b2]; exact a1, a2, a3⟩
    · obtain ⟨b1, _⟩ := hgrow (by omega)
      rw [if_neg (by omega)] at hnx
      refine ⟨h2, v2, k + 1, by simp only [pushAll, e1, Res.ok_bind, e2], by simpa using r2, by omega,
        ?_, ?_, ?_⟩
      · refine Nat.le_trans ?_ a1
        rw [Nat.pow_succ, Nat.mul_assoc]
        exact Nat.mul_le_mul_left _ (by omega)
      · intro _
        by_cases hk : 0 < k
        · exact a2 hk
        · have : k = 0 := by omega
          subst this
          have hsame2 : ∀ (ys : List α) {h : Heap α} {v : Vec} {l : List α} {h' v'}, Fresh h →
              Rep z h v l → pushAll h v ys = .ok (h', v') → h'.next = h.next → v'.endS = v.endS := by
            intro ys
            induction ys with
            | nil => intro h v l h' v' _ _ e _; cases e; rfl
            | cons y ys ihy =>
              intro h v l h' v' hF hr e hn
              obtain ⟨h1, v1, e1, t1, hsame, hgrow⟩ := pushBack_spec hF hr (.ext y) y (fun _ _ _ => rfl)
              have hnx := pushBack_next e1
              have hsz : v.size = l.length := hr.1
              simp only [pushAll, e1, Res.ok_bind] at e
              have mono : ∀ (ys : List α) {h : Heap α} {v : Vec} {h' v'},
                  pushAll h v ys = .ok (h', v') → h.next ≤ h'.next := by
                intro ys
                induction ys with
                | nil => intro h v h' v' e; cases e; exact Nat.le_refl _
                | cons y ys ihy =>
                  intro h v h' v' e
                  simp only [pushAll, Res.bind_eq_ok, Prod.exists] at e
                  obtain ⟨ha, va, ea, eb⟩ := e
                  have h5 := pushBack_next ea
                  have h6 := ihy eb
                  have h7 : h.next ≤ ha.next := by rw [h5]; split <;> omega
                  omega
              have := mono ys e
              by_cases c : l.length + 1 ≤ v.endS
              · rw [if_pos (by omega)] at hnx
                rw [ihy t1.fresh t1.rep e (by omega), (hsame c).2]
              · rw [if_neg (by omega)] at hnx; omega
          have := hsame2 xs t1.fresh t1.rep e2 (by omega)
          simp only [List.length_cons]
          omega
      · intro _
        simp only [Nat.add_sub_cancel]
        refine Nat.le_trans ?_ a1
        have : 1 ≤ v1.endS := by omega
        exact Nat.le_mul_of_pos_right _ this

end Verif.Vector
