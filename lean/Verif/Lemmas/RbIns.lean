import Verif.Lemmas.RbRot

/-! `rb_tree_insert_rebalance` on trees. -/

set_option backward.isDefEq.respectTransparency false

namespace Verif.Rb
open Verif
open Verif.Box (Slot upd upd_same upd_ne)

variable {α : Type}

/-- The rotations at the end of the loop; in the left case the colours stay as they are. -/
def insRot (f g : Fr α) (t : T α) : T α :=
  match g.d, f.d, t with
  | true, true, t => .node t .red f.a f.v (.node f.sib g.c g.a g.v g.sib)
  | true, false, .node tl _ n nv tr => .node (.node f.sib .red f.a f.v tl) .red n nv (.node tr g.c g.a g.v g.sib)
  | false, false, t => .node (.node g.sib .red g.a g.v f.sib) .black f.a f.v t
  | false, true, .node tl _ n nv tr => .node (.node g.sib .red g.a g.v tl) .black n nv (.node tr .red f.a f.v f.sib)
  | _, _, .nil => .nil

/-- The loop of `rb_tree_insert_rebalance`: the tree after it, for the node `t` at the end of a
path. -/
def insFix : List (Fr α) → T α → T α
  | [], t => t
  | [f], t => f.fill t
  | f :: g :: c, t =>
    match f.c with
    | .black => plug (f :: g :: c) t
    | .red =>
      if g.sib.red then insFix c (Fr.fill ⟨g.d, .red, g.a, g.v, g.sib.blacken⟩ (Fr.fill ⟨f.d, .black, f.a, f.v, f.sib⟩ t))
      else plug c (insRot f g t)

/-- The root is black if it is on the path. -/
def topBlack : List (Fr α) → Prop
  | [] => True
  | [f] => f.c = .black
  | _ :: g :: c => topBlack (g :: c)

theorem topBlack_tail {f : Fr α} {c : List (Fr α)} (h : topBlack (f :: c)) : topBlack c := by
  cases c with
  | nil => trivial
  | cons g c => exact h

section
variable {E : St α} {A : Nat → Prop} {h : Nat} {m M : Option Nat}

theorem In.blackenIf {s : St α} {c : List (Fr α)} {t : T α} (i : In E A s h m M (plug c t)) :
    ∃ s', blackenIf s t.ptr = .ok s' ∧ In E A s' h m M (plug c t.blacken) := by
  cases t with
  | nil => exact ⟨s, rfl, i⟩
  | node l co a v r => exact i.setColor .black

theorem insLoop_ok (k : Nat) : ∀ (c : List (Fr α)) (s : St α) (tl tr : T α) (tc : Color) (n : Nat) (nv : α), c.length < k →
    In E A s h m M (plug c (.node tl tc n nv tr)) → topBlack c →
    ∃ s', In E A s' h m M (insFix c (.node tl tc n nv tr)) ∧ Conv (fun f => insLoop f s (some n) h) s' := by
  induction k with
  | zero => intro c _ _ _ _ _ _ hk; omega
  | succ k ih =>
    intro c s tl tr tc n nv hk i hb
    match c, hk, i, hb with
    | [], _, i, _ =>
      refine ⟨s, i, (Conv.pure s).succ rfl fun f => ?_⟩
      unfold insLoop
      rw [i.root, Res.ok_bind, if_pos (i.isRoot.2 rfl)]
    | [f], _, i, hb =>
      refine ⟨s, i, (Conv.pure s).succ rfl fun fu => ?_⟩
      have hcol : Rb.color s (some f.a) = .ok f.c := by
        simp only [Rb.color, rd, (rep_plug.1 i.rep).2.1, Res.ok_bind]
      simp only [topBlack] at hb
      unfold insLoop
      rw [i.root, Res.ok_bind, if_neg (fun e => by simpa using i.isRoot.1 e), i.parent, Res.ok_bind, cpar_cons, hcol, Res.ok_bind, hb]
      rfl
    | ⟨fd, fc, fa, fv, fs⟩ :: ⟨gd, gc, ga, gv, gs⟩ :: c, hk, i, hb =>
      have hroot := mt i.isRoot.1 (by simp)
      have hb' : topBlack c := topBlack_tail (topBlack_tail hb)
      have ip : In E A s h m M (plug (⟨gd, gc, ga, gv, gs⟩ :: c) (Fr.fill ⟨fd, fc, fa, fv, fs⟩ (.node tl tc n nv tr))) := i
      have hpc : Rb.color s (some fa) = .ok fc := by
        cases fd <;> exact In.color (c := ⟨gd, gc, ga, gv, gs⟩ :: c) ip
      have hpl : isLchild s (some fa) = .ok gd := by
        cases fd <;> exact In.lchild (f := ⟨gd, gc, ga, gv, gs⟩) (c := c) ip
      have hpp : Rb.parent s (some fa) = .ok (some ga) := by
        cases fd <;> exact In.parent (c := ⟨gd, gc, ga, gv, gs⟩ :: c) ip
      have hnl : isLchild s (some n) = .ok fd := i.lchild
      have hnp : Rb.parent s (some n) = .ok (some fa) := i.parent
      cases fc with
      | black =>
        refine ⟨s, i, (Conv.pure s).succ rfl fun fu => ?_⟩
        unfold insLoop
        rw [i.root, Res.ok_bind, if_neg hroot, hnp, Res.ok_bind, hpc, Res.ok_bind]
        rfl
      | red =>
        by_cases hu : gs.red = true
        · -- the uncle is red
          obtain ⟨ul, ua, uv, ur, rfl⟩ : ∃ ul ua uv ur, gs = .node ul .red ua uv ur := by
            cases gs with
            | nil => cases hu
            | node ul uc ua uv ur =>
              cases uc
              · exact ⟨_, _, _, _, rfl⟩
              · cases hu
          simp only [insFix, hu, if_pos]
          have key : ∃ s1 s2 s3, Rb.setColor s (some fa) .black = .ok s1 ∧ Rb.setColor s1 (some ua) .black = .ok s2 ∧
              Rb.parent s2 (some n) = .ok (some fa) ∧ Rb.parent s2 (some fa) = .ok (some ga) ∧
              Rb.setColor s2 (some ga) .red = .ok s3 ∧
              In E A s3 h m M (plug c (Fr.fill ⟨gd, .red, ga, gv, .node ul .black ua uv ur⟩ (Fr.fill ⟨fd, .black, fa, fv, fs⟩ (.node tl tc n nv tr)))) := by
            obtain ⟨s1, e1, i1⟩ : ∃ s1, Rb.setColor s (some fa) .black = .ok s1 ∧ In E A s1 h m M
                (plug (⟨gd, gc, ga, gv, .node ul .red ua uv ur⟩ :: c) (Fr.fill ⟨fd, .black, fa, fv, fs⟩ (.node tl tc n nv tr))) := by
              cases fd <;> exact In.setColor (c := ⟨gd, gc, ga, gv, .node ul .red ua uv ur⟩ :: c) ip .black
            obtain ⟨s2, e2, i2⟩ : ∃ s2, Rb.setColor s1 (some ua) .black = .ok s2 ∧ In E A s2 h m M
                (plug (⟨gd, gc, ga, gv, .node ul .black ua uv ur⟩ :: c) (Fr.fill ⟨fd, .black, fa, fv, fs⟩ (.node tl tc n nv tr))) := by
              cases gd
              · exact In.setColor (c := ⟨true, gc, ga, gv, Fr.fill ⟨fd, .black, fa, fv, fs⟩ (.node tl tc n nv tr)⟩ :: c) i1 .black
              · exact In.setColor (c := ⟨false, gc, ga, gv, Fr.fill ⟨fd, .black, fa, fv, fs⟩ (.node tl tc n nv tr)⟩ :: c) i1 .black
            obtain ⟨s3, e3, i3⟩ : ∃ s3, Rb.setColor s2 (some ga) .red = .ok s3 ∧ In E A s3 h m M
                (plug c (Fr.fill ⟨gd, .red, ga, gv, .node ul .black ua uv ur⟩ (Fr.fill ⟨fd, .black, fa, fv, fs⟩ (.node tl tc n nv tr)))) := by
              cases gd <;> exact In.setColor (c := c) i2 .red
            refine ⟨s1, s2, s3, e1, e2, ?_, ?_, e3, i3⟩
            · exact In.parent (c := ⟨fd, .black, fa, fv, fs⟩ :: ⟨gd, gc, ga, gv, .node ul .black ua uv ur⟩ :: c) i2
            · cases fd <;> exact In.parent (c := ⟨gd, gc, ga, gv, .node ul .black ua uv ur⟩ :: c) i2
          obtain ⟨s1, s2, s3, e1, e2, p1, p2, e3, i3⟩ := key
          obtain ⟨s', i', cv⟩ : ∃ s', In E A s' h m M (insFix c (Fr.fill ⟨gd, .red, ga, gv, .node ul .black ua uv ur⟩ (Fr.fill ⟨fd, .black, fa, fv, fs⟩ (.node tl tc n nv tr)))) ∧
              Conv (fun f => insLoop f s3 (some ga) h) s' := by
            have hk' : c.length < k := by simp at hk; omega
            cases gd
            · exact ih c s3 _ _ _ _ _ hk' i3 hb'
            · exact ih c s3 _ _ _ _ _ hk' i3 hb'
          refine ⟨s', i', cv.succ rfl fun fu => ?_⟩
          conv => lhs; unfold insLoop
          rw [i.root, Res.ok_bind, if_neg hroot, hnp, Res.ok_bind, hpc, Res.ok_bind, hpl, Res.ok_bind, hpp]
          cases gd
          · have hul : Rb.left s (some ga) = .ok (some ua) := In.left (c := c) ip
            have hur : Rb.isRed s (some ua) = .ok true := In.isRed (c := ⟨true, gc, ga, gv, Fr.fill ⟨fd, .red, fa, fv, fs⟩ (.node tl tc n nv tr)⟩ :: c) (t := .node ul .red ua uv ur) ip
            simp [hul, hur, e1, e2, p1, p2, e3]
          · have hul : Rb.right s (some ga) = .ok (some ua) := In.right (c := c) ip
            have hur : Rb.isRed s (some ua) = .ok true := In.isRed (c := ⟨false, gc, ga, gv, Fr.fill ⟨fd, .red, fa, fv, fs⟩ (.node tl tc n nv tr)⟩ :: c) (t := .node ul .red ua uv ur) ip
            simp [hul, hur, e1, e2, p1, p2, e3]
        · -- the uncle is black
          simp only [insFix, hu, if_neg]
          cases gd
          · have hul : Rb.left s (some ga) = .ok gs.ptr := In.left (c := c) ip
            have hur : Rb.isRed s gs.ptr = .ok false := by
              rw [In.isRed (c := ⟨true, gc, ga, gv, Fr.fill ⟨fd, .red, fa, fv, fs⟩ (.node tl tc n nv tr)⟩ :: c) (t := gs) ip]; simp [hu]
            cases fd
            · obtain ⟨s1, e1, i1⟩ := In.setColor (c := ⟨false, gc, ga, gv, gs⟩ :: c) ip .black
              have p1 : Rb.parent s1 (some n) = .ok (some fa) := In.parent (c := ⟨false, .black, fa, fv, fs⟩ :: ⟨false, gc, ga, gv, gs⟩ :: c) i1
              have p2 : Rb.parent s1 (some fa) = .ok (some ga) := In.parent (c := ⟨false, gc, ga, gv, gs⟩ :: c) i1
              obtain ⟨s2, e2, i2⟩ := In.setColor (c := c) i1 .red
              have p3 : Rb.parent s2 (some n) = .ok (some fa) := In.parent (c := ⟨false, .black, fa, fv, fs⟩ :: ⟨false, .red, ga, gv, gs⟩ :: c) i2
              have p4 : Rb.parent s2 (some fa) = .ok (some ga) := In.parent (c := ⟨false, .red, ga, gv, gs⟩ :: c) i2
              obtain ⟨s3, e3, i3⟩ := In.rotL i2
              refine ⟨s3, i3, (Conv.pure s3).succ rfl fun fu => ?_⟩
              unfold insLoop
              rw [i.root, Res.ok_bind, if_neg hroot, hnp, Res.ok_bind, hpc, Res.ok_bind, hpl, Res.ok_bind, hpp]
              simp [hul, hur, hnl, hnp, e1, p1, p2, e2, p3, p4, e3]
            · obtain ⟨s0, e0, i0⟩ := In.rotR (c := ⟨false, gc, ga, gv, gs⟩ :: c) ip
              have p0 : Rb.parent s0 (some fa) = .ok (some n) := In.parent (c := ⟨false, tc, n, nv, tl⟩ :: ⟨false, gc, ga, gv, gs⟩ :: c) i0
              obtain ⟨s1, e1, i1⟩ := In.setColor (c := ⟨false, gc, ga, gv, gs⟩ :: c) i0 .black
              have p1 : Rb.parent s1 (some fa) = .ok (some n) := In.parent (c := ⟨false, .black, n, nv, tl⟩ :: ⟨false, gc, ga, gv, gs⟩ :: c) i1
              have p2 : Rb.parent s1 (some n) = .ok (some ga) := In.parent (c := ⟨false, gc, ga, gv, gs⟩ :: c) i1
              obtain ⟨s2, e2, i2⟩ := In.setColor (c := c) i1 .red
              have p3 : Rb.parent s2 (some fa) = .ok (some n) := In.parent (c := ⟨false, .black, n, nv, tl⟩ :: ⟨false, .red, ga, gv, gs⟩ :: c) i2
              have p4 : Rb.parent s2 (some n) = .ok (some ga) := In.parent (c := ⟨false, .red, ga, gv, gs⟩ :: c) i2
              obtain ⟨s3, e3, i3⟩ := In.rotL i2
              refine ⟨s3, i3, (Conv.pure s3).succ rfl fun fu => ?_⟩
              unfold insLoop
              rw [i.root, Res.ok_bind, if_neg hroot, hnp, Res.ok_bind, hpc, Res.ok_bind, hpl, Res.ok_bind, hpp]
              simp [hul, hur, hnl, hnp, e0, p0, e1, p1, p2, e2, p3, p4, e3]
          · have hul : Rb.right s (some ga) = .ok gs.ptr := In.right (c := c) ip
            have hur : Rb.isRed s gs.ptr = .ok false := by
              rw [In.isRed (c := ⟨false, gc, ga, gv, Fr.fill ⟨fd, .red, fa, fv, fs⟩ (.node tl tc n nv tr)⟩ :: c) (t := gs) ip]; simp [hu]
            cases fd
            · obtain ⟨s0, e0, i0⟩ := In.rotL (c := ⟨true, gc, ga, gv, gs⟩ :: c) ip
              have p0 : Rb.parent s0 (some fa) = .ok (some n) := In.parent (c := ⟨true, tc, n, nv, tr⟩ :: ⟨true, gc, ga, gv, gs⟩ :: c) i0
              obtain ⟨s1, e1, i1⟩ := In.setColor (c := ⟨true, gc, ga, gv, gs⟩ :: c) i0 .black
              have p1 : Rb.parent s1 (some fa) = .ok (some n) := In.parent (c := ⟨true, .black, n, nv, tr⟩ :: ⟨true, gc, ga, gv, gs⟩ :: c) i1
              obtain ⟨s2, e2, i2⟩ := In.setColor (c := ⟨true, gc, ga, gv, gs⟩ :: c) i1 .red
              have p3 : Rb.parent s2 (some fa) = .ok (some n) := In.parent (c := ⟨true, .red, n, nv, tr⟩ :: ⟨true, gc, ga, gv, gs⟩ :: c) i2
              have p4 : Rb.parent s2 (some n) = .ok (some ga) := In.parent (c := ⟨true, gc, ga, gv, gs⟩ :: c) i2
              obtain ⟨s3, e3, i3⟩ := In.rotR (c := c) i2
              refine ⟨s3, i3, (Conv.pure s3).succ rfl fun fu => ?_⟩
              unfold insLoop
              rw [i.root, Res.ok_bind, if_neg hroot, hnp, Res.ok_bind, hpc, Res.ok_bind, hpl, Res.ok_bind, hpp]
              simp [hul, hur, hnl, hnp, e0, p0, e1, p1, e2, p3, p4, e3]
            · obtain ⟨s1, e1, i1⟩ := In.setColor (c := ⟨true, gc, ga, gv, gs⟩ :: c) ip .black
              have p1 : Rb.parent s1 (some n) = .ok (some fa) := In.parent (c := ⟨true, .black, fa, fv, fs⟩ :: ⟨true, gc, ga, gv, gs⟩ :: c) i1
              obtain ⟨s2, e2, i2⟩ := In.setColor (c := ⟨true, gc, ga, gv, gs⟩ :: c) i1 .red
              have p3 : Rb.parent s2 (some n) = .ok (some fa) := In.parent (c := ⟨true, .red, fa, fv, fs⟩ :: ⟨true, gc, ga, gv, gs⟩ :: c) i2
              have p4 : Rb.parent s2 (some fa) = .ok (some ga) := In.parent (c := ⟨true, gc, ga, gv, gs⟩ :: c) i2
              obtain ⟨s3, e3, i3⟩ := In.rotR (c := c) i2
              refine ⟨s3, i3, (Conv.pure s3).succ rfl fun fu => ?_⟩
              unfold insLoop
              rw [i.root, Res.ok_bind, if_neg hroot, hnp, Res.ok_bind, hpc, Res.ok_bind, hpl, Res.ok_bind, hpp]
              simp [hul, hur, hnl, hnp, e1, p1, e2, p3, p4, e3]

theorem insFix_inl : ∀ (c : List (Fr α)) (t : T α), t ≠ .nil → (insFix c t).inl = cl c ++ t.inl ++ cr c
  | [], t, _ => by simp [insFix, cl, cr]
  | [f], t, _ => by rw [insFix]; exact inl_plug [f] t
  | ⟨fd, fc, fa, fv, fs⟩ :: ⟨gd, gc, ga, gv, gs⟩ :: c, t, ht => by
    cases fc with
    | black => exact inl_plug _ t
    | red =>
      simp only [insFix]
      split
      · rw [insFix_inl c _ (by cases gd <;> simp [Fr.fill])]
        cases fd <;> cases gd <;> simp [Fr.fill, T.inl, cl, cr]
      · rw [inl_plug]
        cases t with
        | nil => cases ht rfl
        | node tl tc n nv tr => cases fd <;> cases gd <;> simp [insRot, T.inl, cl, cr]

theorem plug_ne_nil {c : List (Fr α)} {t : T α} (ht : t ≠ .nil) : plug c t ≠ .nil := by
  induction c generalizing t with
  | nil => exact ht
  | cons f c ih => refine ih ?_; cases f with | mk d => cases d <;> simp [Fr.fill]

theorem insRot_ne_nil {f g : Fr α} {t : T α} (ht : t ≠ .nil) : insRot f g t ≠ .nil := by
  cases t with
  | nil => cases ht rfl
  | node tl tc n nv tr => cases f with | mk fd => cases g with | mk gd => cases fd <;> cases gd <;> simp [insRot]

theorem insFix_ne_nil : ∀ (c : List (Fr α)) (t : T α), t ≠ .nil → insFix c t ≠ .nil
  | [], _, ht => ht
  | [f], _, ht => plug_ne_nil (c := [f]) ht
  | f :: g :: c, t, ht => by
    simp only [insFix]
    split
    · exact plug_ne_nil (c := f :: g :: c) ht
    · split
      · refine insFix_ne_nil c _ ?_
        cases g with | mk gd => cases gd <;> simp [Fr.fill]
      · exact plug_ne_nil (insRot_ne_nil ht)

/-- `rb_tree_insert_rebalance`. -/
theorem insertRebalance_ok {s : St α} {c : List (Fr α)} {tl tr : T α} {tc : Color} {n : Nat} {nv : α}
    (i : In E A s h m M (plug c (.node tl tc n nv tr))) (hb : topBlack c) :
    ∃ s', In E A s' h m M (insFix c (.node tl .red n nv tr)).blacken ∧ Conv (fun f => insertRebalance f s (some n) h) s' := by
  obtain ⟨s1, e1, i1⟩ := i.setColor .red
  obtain ⟨s2, i2, cv⟩ := insLoop_ok (c.length + 1) c s1 _ _ _ _ _ (by omega) i1 hb
  obtain ⟨s3, e3, i3⟩ := In.blackenIf (c := []) i2
  refine ⟨s3, i3, ?_⟩
  refine (cv.bind (h := fun _ s => do let root ← parent s (some h); setColor s root .black) (Conv.const ?_)).congr fun f => ?_
  · rw [i2.root, Res.ok_bind]
    have hne := insFix_ne_nil c (.node tl .red n nv tr) (by simp)
    cases hT : insFix c (.node tl .red n nv tr) with
    | nil => exact absurd hT hne
    | node => rw [hT] at e3; exact e3
  · simp only [insertRebalance, e1, Res.ok_bind]

end

end Verif.Rb
