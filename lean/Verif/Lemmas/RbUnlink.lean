import Verif.Lemmas.RbErase

/-! The first part of `rb_tree_erase_rebalance`: taking a node out of the tree. -/

set_option backward.isDefEq.respectTransparency false

namespace Verif.Rb
open Verif
open Verif.Box (Slot upd upd_same upd_ne)

variable {α : Type}

/-- The first and the last position of a sequence whose end is `h`. -/
def beg (h : Nat) : List (Nat × α) → Nat
  | [] => h
  | x :: _ => x.1

def lst (h : Nat) (l : List (Nat × α)) : Nat :=
  match l.getLast? with
  | none => h
  | some x => x.1

@[simp] theorem lst_append_cons (h : Nat) (l : List (Nat × α)) (x : Nat × α) : lst h (l ++ [x]) = x.1 := by simp [lst]
@[simp] theorem lst_nil (h : Nat) : lst h ([] : List (Nat × α)) = h := rfl

theorem beg_append {h : Nat} {l l' : List (Nat × α)} (hl : l ≠ []) : beg h (l ++ l') = beg h l := by
  cases l with
  | nil => cases hl rfl
  | cons x l => rfl

theorem lst_append {h : Nat} {l l' : List (Nat × α)} (hl : l' ≠ []) : lst h (l ++ l') = lst h l' := by
  unfold lst
  rw [List.getLast?_append]
  cases hq : l'.getLast? with
  | none => simp at hq; exact absurd hq hl
  | some x => simp

theorem T.inl_ne_nil {t : T α} (ht : t ≠ .nil) : t.inl ≠ [] := by
  cases t with
  | nil => cases ht rfl
  | node => simp [T.inl]

section
variable {E : St α} {A : Nat → Prop} {h : Nat} {m M : Option Nat}

theorem treeMin_ok {s : St α} (t : T α) : ∀ (c : List (Fr α)), t ≠ .nil → In E A s h m M (plug c t) →
    Conv (fun f => treeMin f s t.ptr) (some (beg h t.inl)) := by
  induction t with
  | nil => intro c ht; cases ht rfl
  | node l co a v r ihl _ =>
    intro c _ i
    cases hl : l with
    | nil =>
      subst hl
      refine (Conv.pure _).succ rfl fun f => ?_
      show treeMin (f + 1) s (some a) = _
      rw [treeMin, i.left]; rfl
    | node l2 c2 a2 v2 r2 =>
      have hne : l ≠ .nil := by rw [hl]; simp
      have := ihl (⟨true, co, a, v, r⟩ :: c) hne i
      rw [← hl, T.inl, beg_append (T.inl_ne_nil hne)]
      refine this.succ rfl fun f => ?_
      show treeMin (f + 1) s (some a) = _
      conv => lhs; rw [treeMin, i.left, Res.ok_bind, hl]
      rw [hl]; rfl

theorem treeMax_ok {s : St α} (t : T α) : ∀ (c : List (Fr α)), t ≠ .nil → In E A s h m M (plug c t) →
    Conv (fun f => treeMax f s t.ptr) (some (lst h t.inl)) := by
  induction t with
  | nil => intro c ht; cases ht rfl
  | node l co a v r _ ihr =>
    intro c _ i
    cases hr : r with
    | nil =>
      subst hr
      refine (Conv.pure _).succ rfl fun f => ?_
      show treeMax (f + 1) s (some a) = _
      rw [treeMax, i.right]
      simp [T.ptr, T.inl]
    | node l2 c2 a2 v2 r2 =>
      have hne : r ≠ .nil := by rw [hr]; simp
      have := ihr (⟨false, co, a, v, l⟩ :: c) hne i
      have e : lst h (T.node l co a v r).inl = lst h r.inl := by
        rw [T.inl, ← List.singleton_append, ← List.append_assoc, lst_append (T.inl_ne_nil hne)]
      rw [← hr, e]
      refine this.succ rfl fun f => ?_
      show treeMax (f + 1) s (some a) = _
      conv => lhs; rw [treeMax, i.right, Res.ok_bind, hr]
      rw [hr]; rfl

/-- Assigning the leftmost and rightmost pointers. -/
theorem In.setL {s : St α} {t : T α} (i : In E A s h m M t) (m' : Option Nat) :
    ∃ s', setLeft s (some h) m' = .ok s' ∧ In E A s' h m' M t ∧ ∀ a, a ≠ h → s'.heap a = s.heap a := by
  refine ⟨{ s with heap := upd s.heap h (some ⟨.red, m', M, t.ptr, none⟩) }, ?_, ⟨upd_same _ _ _, ?_, i.nodup, i.nh, i.ah, i.at', ?_, ?_⟩, ?_⟩
  · simp only [setLeft, wr, i.hdr]
  · refine T.rep_congr i.rep fun a ha => upd_ne _ _ fun e => i.nh (e ▸ ha)
  · intro a ha
    exact (upd_ne _ _ fun e => ha (by rw [e]; exact i.ah)).trans (i.off a ha)
  · rw [i.same]
  · intro a ha; exact upd_ne _ _ ha

theorem In.setR {s : St α} {t : T α} (i : In E A s h m M t) (M' : Option Nat) :
    ∃ s', setRight s (some h) M' = .ok s' ∧ In E A s' h m M' t ∧ ∀ a, a ≠ h → s'.heap a = s.heap a := by
  refine ⟨{ s with heap := upd s.heap h (some ⟨.red, m, M', t.ptr, none⟩) }, ?_, ⟨upd_same _ _ _, ?_, i.nodup, i.nh, i.ah, i.at', ?_, ?_⟩, ?_⟩
  · simp only [setRight, wr, i.hdr]
  · refine T.rep_congr i.rep fun a ha => upd_ne _ _ fun e => i.nh (e ▸ ha)
  · intro a ha
    exact (upd_ne _ _ fun e => ha (by rw [e]; exact i.ah)).trans (i.off a ha)
  · rw [i.same]
  · intro a ha; exact upd_ne _ _ ha

/-- Start a new comparison. -/
theorem In.reset {s : St α} {t : T α} (i : In E A s h m M t) : In s (fun a => a = h ∨ a ∈ t.addrs) s h m M t :=
  ⟨i.hdr, i.rep, i.nodup, i.nh, .inl rfl, fun _ ha => .inr ha, fun _ _ => rfl, rfl⟩

theorem In.trans {s s' : St α} {t t' : T α} {m' M' : Option Nat} {B : Nat → Prop} (i : In E A s h m M t) (j : In s B s' h m' M' t')
    (hB : ∀ a, B a → A a) : In E A s' h m' M' t' := by
  refine ⟨j.hdr, j.rep, j.nodup, j.nh, i.ah, fun a ha => hB a (j.at' a ha), fun a ha => ?_, ?_⟩
  · rw [j.off a (fun hb => ha (hB a hb)), i.off a ha]
  · rw [j.same, i.same]

/-- A node with two children: its successor takes its place. -/
theorem unlink2 {s : St α} {c d : List (Fr α)} {L B : T α} {zc yc : Color} {z y : Nat} {zv yv : α} (hL : L ≠ .nil) (hd : ∀ f ∈ d, f.d = true)
    (i : In E A s h m M (plug c (.node L zc z zv (plug d (.node .nil yc y yv B))))) :
    ∃ s', In E A s' h m M (plug (d ++ ⟨false, zc, y, yv, L⟩ :: c) B) ∧ (∃ p q r, s'.heap z = some ⟨yc, p, q, r, some zv⟩) ∧
      Conv (fun f => eraseUnlink f s (some z) h) (s', B.ptr, cpar (some h) (d ++ ⟨false, zc, y, yv, L⟩ :: c), some z) := by
  have hRne : plug d (.node .nil yc y yv B) ≠ .nil := plug_ne_nil (by simp)
  have hmin : beg h (plug d (.node .nil yc y yv B)).inl = y := by
    have : cl d = [] := by
      clear i hRne
      induction d with
      | nil => rfl
      | cons f d ih => simp [cl, ih (fun g hg => hd g (by simp [hg])), hd f (by simp)]
    rw [inl_plug, this]; rfl
  have ir : In E A s h m M (plug (⟨false, zc, z, zv, L⟩ :: c) (plug d (.node .nil yc y yv B))) := i
  have hnext := treeMin_ok _ _ hRne ir
  rw [hmin] at hnext
  have iy : In E A s h m M (plug (d ++ ⟨false, zc, z, zv, L⟩ :: c) (.node .nil yc y yv B)) := by rw [plug_append]; exact i
  have zl : Rb.left s (some z) = .ok L.ptr := i.left
  have zr : Rb.right s (some z) = .ok (plug d (.node .nil yc y yv B)).ptr := i.right
  have yl : Rb.left s (some y) = .ok none := iy.left
  have yr : Rb.right s (some y) = .ok B.ptr := iy.right
  have hLp : L.ptr ≠ none := fun e => hL (T.ptr_none.1 e)
  have hRp : (plug d (.node .nil yc y yv B)).ptr ≠ none := fun e => hRne (T.ptr_none.1 e)
  obtain ⟨la, hla⟩ := Option.ne_none_iff_exists'.1 hLp
  obtain ⟨ra, hra⟩ := Option.ne_none_iff_exists'.1 hRp
  -- addresses
  have hdj := i.disj
  have iA : ∀ b, b = h ∨ b ∈ caddrs c ∨ b ∈ L.addrs ∨ b = z ∨ b ∈ caddrs d ∨ b = y ∨ b ∈ B.addrs → A b := by
    intro b hb
    rcases hb with rfl | hb
    · exact i.ah
    · refine i.at' b ?_
      simp only [mem_addrs_plug, T.addrs, List.mem_append, List.mem_cons]; grind
  have hnd := nodup_plug.1 i.nodup
  simp only [T.addrs, List.nodup_append, List.nodup_cons, List.mem_append, List.mem_cons, mem_addrs_plug, nodup_plug] at hdj
  have hyz : some y ≠ some z := by
    intro e; injection e with e; subst e
    exact hdj.2.1.2.1.1 (by simp)
  obtain ⟨⟨hz, hLr, hR⟩, hc⟩ := rep_plug.1 i.rep
  have hdr := i.hdr
  rw [plug_ptr] at hdr
  simp only [T.ptr_node] at hdr hc
  obtain ⟨⟨hy, _, hB⟩, hdd⟩ := rep_plug.1 hR
  simp only [T.ptr_node, T.ptr_nil] at hy hdd
  -- z->left->parent = y
  obtain ⟨H1, e1, L1, o1⟩ := repar_ok (s := s) (q := some y) hLr (by grind)
  have e1' : setParent s L.ptr (some y) = .ok { s with heap := H1 } := by rw [hla] at e1 ⊢; exact e1
  -- y->left = z->left
  have y1 : H1 y = some ⟨yc, none, B.ptr, cpar (some z) d, some yv⟩ := by rw [o1 y (by grind), hy]
  have z1 : H1 z = some ⟨zc, L.ptr, (plug d (.node .nil yc y yv B)).ptr, cpar (some h) c, some zv⟩ := by rw [o1 z (by grind), hz]
  have zl1 : Rb.left { s with heap := H1 } (some z) = .ok L.ptr := by simp only [Rb.left, rd, z1, Res.ok_bind]
  let H2 := upd H1 y (some ⟨yc, L.ptr, B.ptr, cpar (some z) d, some yv⟩)
  have e2 : setLeft { s with heap := H1 } (some y) L.ptr = .ok { s with heap := H2 } := by simp only [setLeft, wr, y1, H2]
  have k2 : ∀ b, b ≠ y → H2 b = H1 b := fun b hb => upd_ne _ _ hb
  have z2 : H2 z = some ⟨zc, L.ptr, (plug d (.node .nil yc y yv B)).ptr, cpar (some h) c, some zv⟩ := by rw [k2 z (by grind), z1]
  have y2 : H2 y = some ⟨yc, L.ptr, B.ptr, cpar (some z) d, some yv⟩ := upd_same _ _ _
  have zr2 : Rb.right { s with heap := H2 } (some z) = .ok (plug d (.node .nil yc y yv B)).ptr := by simp only [Rb.right, rd, z2, Res.ok_bind]
  -- the subtree without y
  have mid : ∃ H5, (plug d B).rep H5 (some y) ∧ H5 z = H2 z ∧ H5 y = some ⟨yc, L.ptr, (plug d B).ptr, cpar (some z) d, some yv⟩ ∧
      (∀ b, b ≠ y → b ∉ caddrs d → b ∉ B.addrs → H5 b = H2 b) ∧
      (if some y ≠ (plug d (.node .nil yc y yv B)).ptr then do
        let xp ← Rb.parent { s with heap := H2 } (some y)
        let s ← setParentIf { s with heap := H2 } B.ptr xp
        let yp ← Rb.parent s (some y)
        let s ← setLeft s yp B.ptr
        let zr ← Rb.right s (some z)
        let s ← setRight s (some y) zr
        let zr ← Rb.right s (some z)
        let s ← setParent s zr (some y)
        .ok (s, xp)
      else .ok ({ s with heap := H2 }, some y) : Res (St α × Option Nat)) = .ok ({ s with heap := H5 }, cpar (some y) d) := by
    cases d with
    | nil =>
      refine ⟨H2, ?_, rfl, y2, fun _ _ _ _ => rfl, ?_⟩
      · refine T.rep_congr hB fun b hb => ?_
        have hb : b ∈ B.addrs := hb
        rw [k2 b (by grind), o1 b (by grind)]
      · rw [if_neg (by simp [plug, T.ptr_node])]; rfl
    | cons f d' =>
      obtain ⟨fd, fc, fa, fv, fs⟩ := f
      have : fd = true := hd ⟨fd, fc, fa, fv, fs⟩ (by simp)
      subst this
      have hyr : some y ≠ (plug (⟨true, fc, fa, fv, fs⟩ :: d') (.node .nil yc y yv B)).ptr := by
        intro e
        rw [plug_ptr] at e
        have := cptr_mem (by simp) e.symm
        grind
      rw [if_pos hyr]
      obtain ⟨hf, hfs, hd'⟩ := hdd
      simp only [if_true] at hf
      simp only [caddrs, List.mem_cons, List.mem_append, List.nodup_cons, List.nodup_append] at hdj
      have yp2 : Rb.parent { s with heap := H2 } (some y) = .ok (some fa) := by simp only [Rb.parent, rd, y2, Res.ok_bind, cpar_cons]
      obtain ⟨H3, e3, B3, o3⟩ := repar_ok (s := { s with heap := H2 }) (t := B) (par := some y) (q := some fa)
        (T.rep_congr hB fun b hb => by show H2 b = _; rw [k2 b (by grind), o1 b (by grind)]) (by grind)
      have y3 : H3 y = some ⟨yc, L.ptr, B.ptr, some fa, some yv⟩ := by rw [o3 y (by grind)]; exact y2
      have yp3 : Rb.parent { s with heap := H3 } (some y) = .ok (some fa) := by simp only [Rb.parent, rd, y3, Res.ok_bind]
      have f3 : H3 fa = some ⟨fc, some y, fs.ptr, cpar (some z) d', some fv⟩ := by
        rw [o3 fa (by grind)]; show H2 fa = _; rw [k2 fa (by grind), o1 fa (by grind), hf]
      let H4 := upd H3 fa (some ⟨fc, B.ptr, fs.ptr, cpar (some z) d', some fv⟩)
      have e4 : setLeft { s with heap := H3 } (some fa) B.ptr = .ok { s with heap := H4 } := by simp only [setLeft, wr, f3, H4]
      have k4 : ∀ b, b ≠ fa → b ∉ B.addrs → H4 b = H2 b := fun b h1 h2 => (upd_ne _ _ h1).trans (o3 b h2)
      have z4 : H4 z = some ⟨zc, L.ptr, (plug (⟨true, fc, fa, fv, fs⟩ :: d') (.node .nil yc y yv B)).ptr, cpar (some h) c, some zv⟩ := by
        rw [k4 z (by grind) (by grind), z2]
      have zr4 : Rb.right { s with heap := H4 } (some z) = .ok (plug (⟨true, fc, fa, fv, fs⟩ :: d') (.node .nil yc y yv B)).ptr := by
        simp only [Rb.right, rd, z4, Res.ok_bind]
      have y4 : H4 y = some ⟨yc, L.ptr, B.ptr, some fa, some yv⟩ := by rw [k4 y (by grind) (by grind)]; exact y2
      have hpp : (plug (⟨true, fc, fa, fv, fs⟩ :: d') (.node .nil yc y yv B)).ptr = (plug (⟨true, fc, fa, fv, fs⟩ :: d') B).ptr := by
        rw [plug_ptr, plug_ptr]; rfl
      let H5 := upd H4 y (some ⟨yc, L.ptr, (plug (⟨true, fc, fa, fv, fs⟩ :: d') B).ptr, some fa, some yv⟩)
      have e5 : setRight { s with heap := H4 } (some y) (plug (⟨true, fc, fa, fv, fs⟩ :: d') B).ptr = .ok { s with heap := H5 } := by
        simp only [setRight, wr, y4, H5]
      have k5 : ∀ b, b ≠ y → H5 b = H4 b := fun b hb => upd_ne _ _ hb
      have z5 : H5 z = H2 z := by rw [k5 z (by grind), k4 z (by grind) (by grind)]
      have zr5 : Rb.right { s with heap := H5 } (some z) = .ok (plug (⟨true, fc, fa, fv, fs⟩ :: d') B).ptr := by
        simp only [Rb.right, rd, z5, z2, Res.ok_bind, hpp]
      have rep5 : (plug (⟨true, fc, fa, fv, fs⟩ :: d') B).rep H5 (some z) := by
        rw [rep_plug]
        refine ⟨T.rep_congr B3 fun b hb => ?_, ?_, T.rep_congr hfs fun b hb => ?_, crep_congr hd' fun b hb => ?_⟩
        · rw [k5 b (by grind)]; exact upd_ne _ _ (by grind)
        · rw [k5 fa (by grind)]; exact upd_same _ _ _
        · rw [k5 b (by grind), k4 b (by grind) (by grind), k2 b (by grind), o1 b (by grind)]
        · rw [k5 b (by grind), k4 b (by grind) (by grind), k2 b (by grind), o1 b (by grind)]
      obtain ⟨H6, e6, R6, o6⟩ := repar_ok (s := { s with heap := H5 }) (q := some y) rep5 (by
        rw [nodup_plug]
        simp only [caddrs, List.nodup_append, List.nodup_cons, List.mem_cons, List.mem_append]
        grind)
      have hq : (plug (⟨true, fc, fa, fv, fs⟩ :: d') B).ptr = some ra := hpp ▸ hra
      have e6' : setParent { s with heap := H5 } (plug (⟨true, fc, fa, fv, fs⟩ :: d') B).ptr (some y) = .ok { s with heap := H6 } := by
        rw [hq] at e6 ⊢; exact e6
      have o6' : ∀ b, b ∉ caddrs (⟨true, fc, fa, fv, fs⟩ :: d') → b ∉ B.addrs → H6 b = H5 b := by
        intro b h1 h2
        refine o6 b fun hb => ?_
        rw [mem_addrs_plug] at hb
        rcases hb with hb | hb
        · exact h1 hb
        · exact h2 hb
      refine ⟨H6, R6, ?_, ?_, ?_, ?_⟩
      · rw [o6' z (by simp only [caddrs, List.mem_cons, List.mem_append]; grind) (by grind), z5]
      · rw [o6' y (by simp only [caddrs, List.mem_cons, List.mem_append]; grind) (by grind)]; exact upd_same _ _ _
      · intro b h1 h2 h3
        rw [o6' b h2 h3, k5 b h1, k4 b (fun e => h2 (by simp [caddrs, e])) h3]
      · rw [yp2, Res.ok_bind, e3, Res.ok_bind, yp3, Res.ok_bind, e4, Res.ok_bind, zr4, Res.ok_bind, hpp, e5, Res.ok_bind, zr5, Res.ok_bind, e6']
        rfl
  obtain ⟨H5, R5, z5, y5, o5, emid⟩ := mid
  -- link from above
  have z5' : H5 z = some ⟨zc, L.ptr, (plug d (.node .nil yc y yv B)).ptr, cpar (some h) c, some zv⟩ := z5.trans z2
  obtain ⟨H6, e6, h6, c6, o6⟩ := relink_ok (s := { s with heap := H5 }) (h := h) (n := z) (m := m) (M := M) (q := some y) (c := c)
    (by show H5 h = _; rw [o5 h (by grind) (by grind) (by grind), k2 h (by grind), o1 h (by grind), hdr]) z5' rfl
    (crep_congr hc fun b hb => by show H5 b = _; rw [o5 b (by grind) (by grind) (by grind), k2 b (by grind), o1 b (by grind)]) (by grind) hdj.1 (by grind)
  have k6 : ∀ b, b ∉ caddrs c → b ≠ h → H6 b = H5 b := by
    intro b h1 h2
    refine o6 b fun e => ?_
    rcases cpar_mem e with h3 | h3
    · exact h2 h3
    · exact h1 h3
  have z6 : H6 z = some ⟨zc, L.ptr, (plug d (.node .nil yc y yv B)).ptr, cpar (some h) c, some zv⟩ := by rw [k6 z (by grind) (by grind), z5']
  have y6 : H6 y = some ⟨yc, L.ptr, (plug d B).ptr, cpar (some z) d, some yv⟩ := by rw [k6 y (by grind) (by grind), y5]
  have zp6 : Rb.parent { s with heap := H6 } (some z) = .ok (cpar (some h) c) := by simp only [Rb.parent, rd, z6, Res.ok_bind]
  let H7 := upd H6 y (some ⟨yc, L.ptr, (plug d B).ptr, cpar (some h) c, some yv⟩)
  have e7 : setParent { s with heap := H6 } (some y) (cpar (some h) c) = .ok { s with heap := H7 } := by simp only [setParent, wr, y6, H7]
  have z7 : H7 z = some ⟨zc, L.ptr, (plug d (.node .nil yc y yv B)).ptr, cpar (some h) c, some zv⟩ := by
    rw [← z6]; exact upd_ne _ _ (by grind)
  have y7 : H7 y = some ⟨yc, L.ptr, (plug d B).ptr, cpar (some h) c, some yv⟩ := upd_same _ _ _
  have yc7 : Rb.color { s with heap := H7 } (some y) = .ok yc := by simp only [Rb.color, rd, y7, Res.ok_bind]
  have zc7 : Rb.color { s with heap := H7 } (some z) = .ok zc := by simp only [Rb.color, rd, z7, Res.ok_bind]
  let H8 := upd H7 y (some ⟨zc, L.ptr, (plug d B).ptr, cpar (some h) c, some yv⟩)
  have e8 : setColor { s with heap := H7 } (some y) zc = .ok { s with heap := H8 } := by simp only [setColor, wr, y7, H8]
  have z8 : H8 z = some ⟨zc, L.ptr, (plug d (.node .nil yc y yv B)).ptr, cpar (some h) c, some zv⟩ := by
    rw [← z7]; exact upd_ne _ _ (by grind)
  let H9 := upd H8 z (some ⟨yc, L.ptr, (plug d (.node .nil yc y yv B)).ptr, cpar (some h) c, some zv⟩)
  have e9 : setColor { s with heap := H8 } (some z) yc = .ok { s with heap := H9 } := by simp only [setColor, wr, z8, H9]
  have k9 : ∀ b, b ≠ y → b ≠ z → H9 b = H6 b := by
    intro b h1 h2
    show upd (upd (upd _ _ _) _ _) _ _ b = _
    rw [upd_ne _ _ h2, upd_ne _ _ h1, upd_ne _ _ h1]
  have k9' : ∀ b, b ≠ y → b ≠ z → b ∉ caddrs c → b ≠ h → b ∉ caddrs d → b ∉ B.addrs → b ∉ L.addrs → H9 b = s.heap b := by
    intro b h1 h2 h3 h4 h5 h6 h7
    rw [k9 b h1 h2, k6 b h3 h4, o5 b h1 h5 h6, k2 b h1, o1 b h7]
  have hxp : cpar (some h) (d ++ ⟨false, zc, y, yv, L⟩ :: c) = cpar (some y) d := by
    cases d <;> rfl
  refine ⟨{ s with heap := H9 }, ?_, ⟨_, _, _, upd_same _ _ _⟩, ?_⟩
  · rw [plug_append]
    show In E A _ h m M (plug c (.node L zc y yv (plug d B)))
    refine ⟨?_, ?_, ?_, ?_, i.ah, ?_, ?_, ?_⟩
    · rw [plug_ptr]
      show H9 h = _
      rw [k9 h (by grind) (by grind), h6]; rfl
    · rw [rep_plug]
      refine ⟨⟨?_, ?_, ?_⟩, ?_⟩
      · show upd (upd _ _ _) _ _ y = _
        rw [upd_ne _ _ (by grind), upd_same]
      · refine T.rep_congr L1 fun b hb => ?_
        show H9 b = _
        rw [k9 b (by grind) (by grind), k6 b (by grind) (by grind), o5 b (by grind) (by grind) (by grind), k2 b (by grind)]
      · refine T.rep_congr R5 fun b hb => ?_
        show H9 b = _
        rw [mem_addrs_plug] at hb
        rw [k9 b (by grind) (by grind), k6 b (by grind) (by grind)]
      · refine crep_congr c6 fun b hb => ?_
        show H9 b = _
        rw [k9 b (by grind) (by grind)]
    · rw [nodup_plug]
      simp only [T.addrs, List.nodup_append, List.nodup_cons, List.mem_append, List.mem_cons, mem_addrs_plug, nodup_plug]
      grind
    · simp only [T.addrs, List.mem_append, List.mem_cons, mem_addrs_plug]
      grind
    · intro b hb
      simp only [T.addrs, List.mem_append, List.mem_cons, mem_addrs_plug] at hb
      exact iA b (by grind)
    · intro b hb
      show H9 b = _
      rw [k9' b (by grind) (by grind) (by grind) (by grind) (by grind) (by grind) (by grind)]
      exact i.off b hb
    · rw [i.same]
  · rw [hxp]
    have hnx : Conv (fun f => treeNext f s (some z)) (some y) := by
      refine hnext.congr fun f => ?_
      simp only [treeNext, zr, Res.ok_bind, hra]
    refine (hnx.bind (h := fun _ _ => Res.ok ({ s with heap := H9 }, B.ptr, cpar (some y) d, some z)) (Conv.pure _)).congr fun f => ?_
    unfold eraseUnlink
    rw [zl, zr]
    simp only [Res.ok_bind]
    rw [if_neg (by simp [hLp, hRp])]
    rcases hnx.2 f with e | e
    · have e : treeNext f s (some z) = _ := e
      rw [e]; rfl
    · have e : treeNext f s (some z) = _ := e
      rw [e]
      simp only [Res.ok_bind, yl, yr, ne_eq, not_true, if_false, if_pos hyz, zl, e1', zl1, e2, zr2]
      simp only [ne_eq] at emid
      rw [emid]
      simp only [Res.ok_bind, e6, zp6, e7, yc7, zc7, e8, e9]

end

end Verif.Rb
