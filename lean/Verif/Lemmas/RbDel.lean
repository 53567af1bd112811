import Verif.Lemmas.RbUnlink

/-! `rb_tree_erase_rebalance` on trees. -/

set_option backward.isDefEq.respectTransparency false

namespace Verif.Rb
open Verif
open Verif.Box (Slot upd upd_same upd_ne)

variable {α : Type}

section
variable {E : St α} {A : Nat → Prop} {h : Nat} {m M : Option Nat}

/-- A node with at most one child is replaced by it. -/
theorem splice {s : St α} {c : List (Fr α)} {L R X : T α} {zc : Color} {z : Nat} {zv : α} (hX : (L = .nil ∧ X = R) ∨ (R = .nil ∧ X = L))
    (i : In E A s h m M (plug c (.node L zc z zv R))) :
    ∃ s1 s2, setParentIf s X.ptr (cpar (some h) c) = .ok s1 ∧ relink s1 (some z) X.ptr h = .ok s2 ∧ In E A s2 h m M (plug c X) ∧
      s2.heap z = some ⟨zc, L.ptr, R.ptr, cpar (some h) c, some zv⟩ := by
  have hd := i.disj
  have hrep := rep_plug.1 i.rep
  have hdr := i.hdr
  rw [plug_ptr, T.ptr_node] at hdr
  have iA : ∀ b, b = h ∨ b ∈ caddrs c ∨ b ∈ L.addrs ∨ b = z ∨ b ∈ R.addrs → A b := by
    intro b hb
    rcases hb with rfl | hb
    · exact i.ah
    · refine i.at' b ?_
      simp only [mem_addrs_plug, T.addrs, List.mem_append, List.mem_cons]; grind
  simp only [T.addrs, List.nodup_append, List.nodup_cons, List.mem_append, List.mem_cons] at hd
  obtain ⟨⟨hz, hL, hR⟩, hc⟩ := hrep
  rw [T.ptr_node] at hc
  have hXr : X.rep s.heap (some z) := by rcases hX with ⟨_, rfl⟩ | ⟨_, rfl⟩ <;> assumption
  have hXa : ∀ b ∈ X.addrs, b ∈ L.addrs ∨ b ∈ R.addrs := by
    intro b hb; rcases hX with ⟨_, rfl⟩ | ⟨_, rfl⟩
    · exact .inr hb
    · exact .inl hb
  have hXn : X.addrs.Nodup := by rcases hX with ⟨_, rfl⟩ | ⟨_, rfl⟩ <;> grind
  obtain ⟨H1, e1, X1, o1⟩ := repar_ok (s := s) (q := cpar (some h) c) hXr hXn
  have z1 : H1 z = some ⟨zc, L.ptr, R.ptr, cpar (some h) c, some zv⟩ := by rw [o1 z (by grind), hz]
  obtain ⟨H2, e2, h2, c2, o2⟩ := relink_ok (s := { s with heap := H1 }) (h := h) (n := z) (m := m) (M := M) (q := X.ptr) (c := c)
    (by show H1 h = _; rw [o1 h (by grind), hdr]) z1 rfl (crep_congr hc fun b hb => o1 b (by grind)) (by grind) hd.1 (by grind)
  have k2 : ∀ b, b ∉ caddrs c → b ≠ h → H2 b = H1 b := by
    intro b h1 h2
    refine o2 b fun e => ?_
    rcases cpar_mem e with h3 | h3
    · exact h2 h3
    · exact h1 h3
  refine ⟨_, _, e1, e2, ⟨?_, ?_, ?_, ?_, i.ah, ?_, ?_, ?_⟩, ?_⟩
  · rw [plug_ptr]; exact h2
  · rw [rep_plug]
    exact ⟨T.rep_congr X1 fun b hb => k2 b (by grind) (by grind), c2⟩
  · rw [nodup_plug, List.nodup_append]
    refine ⟨hd.1, hXn, ?_⟩
    grind
  · rw [mem_addrs_plug]; grind
  · intro b hb
    rw [mem_addrs_plug] at hb
    exact iA b (by grind)
  · intro b hb
    show H2 b = _
    rw [k2 b (by grind) (by grind), o1 b (by grind)]
    exact i.off b hb
  · rw [i.same]
  · show H2 z = _
    rw [k2 z (by grind) (by grind), z1]

theorem cl_left {c : List (Fr α)} (hc : cl c = []) (h : Nat) : cpar (some h) c = some (beg h (cr c)) := by
  cases c with
  | nil => rfl
  | cons f c =>
    obtain ⟨fd, fc, fa, fv, fs⟩ := f
    cases fd
    · simp [cl] at hc
    · simp [cpar, cr, beg]

theorem cr_right {c : List (Fr α)} (hc : cr c = []) (h : Nat) : cpar (some h) c = some (lst h (cl c)) := by
  cases c with
  | nil => rfl
  | cons f c =>
    obtain ⟨fd, fc, fa, fv, fs⟩ := f
    cases fd
    · simp only [cpar_cons, cl, Bool.false_eq_true, if_false]
      rw [← List.append_assoc, lst_append_cons]
    · simp [cr] at hc

theorem In.keys {s : St α} {t : T α} (i : In E A s h m M t) : (t.inl.map (·.1)).Nodup ∧ h ∉ t.inl.map (·.1) := by
  rw [← T.addrs_eq]; exact ⟨i.nodup, i.nh⟩

theorem unlink1 {s : St α} {c : List (Fr α)} {L R X : T α} {zc : Color} {z : Nat} {zv : α} (hX : (L = .nil ∧ X = R) ∨ (R = .nil ∧ X = L))
    (i : In E A s h (some (beg h (plug c (.node L zc z zv R)).inl)) (some (lst h (plug c (.node L zc z zv R)).inl)) (plug c (.node L zc z zv R))) :
    ∃ s', In E A s' h (some (beg h (plug c X).inl)) (some (lst h (plug c X).inl)) (plug c X) ∧ (∃ p q r, s'.heap z = some ⟨zc, p, q, r, some zv⟩) ∧
      Conv (fun f => eraseUnlink f s (some z) h) (s', X.ptr, cpar (some h) c, some z) := by
  have hlist : (plug c X).inl = cl c ++ X.inl ++ cr c := inl_plug _ _
  have hlist0 : (plug c (.node L zc z zv R)).inl = cl c ++ (L.inl ++ (z, zv) :: R.inl) ++ cr c := inl_plug _ _
  have hkeys := i.keys
  have hzh : z ≠ h := fun e => i.nh (by rw [mem_addrs_plug]; simp [T.addrs, e])
  obtain ⟨s1, s2, e1, e2, i2, z2⟩ := splice hX i
  have zl := i.left
  have zr := i.right
  have zp := i.parent
  have hx : (if L.ptr ≠ none then L.ptr else R.ptr) = X.ptr := by
    rcases hX with ⟨rfl, rfl⟩ | ⟨rfl, rfl⟩
    · simp [T.ptr_nil]
    · by_cases h : X.ptr = none
      · simp [h, T.ptr_nil]
      · simp [h]
  have hnil : L.ptr = none ∨ R.ptr = none := by
    rcases hX with ⟨rfl, _⟩ | ⟨rfl, _⟩
    · exact .inl rfl
    · exact .inr rfl
  -- leftmost
  obtain ⟨s3, i3, z3, cv3⟩ : ∃ s3, In E A s3 h (some (beg h (plug c X).inl)) (some (lst h (plug c (.node L zc z zv R)).inl)) (plug c X) ∧
      s3.heap z = s2.heap z ∧ Conv (fun f => fixMin f s2 X.ptr (cpar (some h) c) (some z) h) s3 := by
    have lm2 := i2.lm
    by_cases hz : some (beg h (plug c (.node L zc z zv R)).inl) = some z
    · have hcl : cl c = [] ∧ L.inl = [] := by
        rw [hlist0] at hkeys hz
        injection hz with hz
        cases hcc : cl c with
        | nil =>
          refine ⟨rfl, ?_⟩
          rw [hcc] at hkeys hz
          cases hl : L.inl with
          | nil => rfl
          | cons x l =>
            rw [hl] at hz hkeys
            simp only [List.nil_append, List.cons_append, beg] at hz
            exact absurd hkeys.1 (by simp [hz])
        | cons x l =>
          rw [hcc] at hz hkeys
          simp only [List.cons_append, beg] at hz
          exact absurd hkeys.1 (by simp [hz])
      obtain ⟨s3, e3, i3, o3⟩ := i2.setL (some (beg h (plug c X).inl))
      refine ⟨s3, i3, o3 z hzh, ?_⟩
      simp only [fixMin, lm2, Res.ok_bind, if_pos hz]
      refine Conv.bind (a := some (beg h (plug c X).inl)) ?_ (Conv.const e3)
      rw [hlist, hcl.1]
      cases hXx : X with
      | nil =>
        rw [cl_left hcl.1]
        exact Conv.pure _
      | node l2 c2 a2 v2 r2 =>
        have hne : X ≠ .nil := by rw [hXx]; simp
        have := treeMin_ok X c hne i2
        rw [← hXx, List.nil_append, beg_append (T.inl_ne_nil hne)]
        refine this.congr fun f => ?_
        rw [hXx]; rfl
    · have hb : beg h (plug c (.node L zc z zv R)).inl = beg h (plug c X).inl := by
        rw [hlist, hlist0] at *
        cases hcc : cl c with
        | nil =>
          rw [hcc] at hz
          cases hl : L.inl with
          | nil => rw [hl] at hz; simp [beg] at hz
          | cons x l =>
            have : X = L := by
              rcases hX with ⟨rfl, _⟩ | ⟨_, rfl⟩
              · cases hl
              · rfl
            rw [this, hl]; rfl
        | cons x l => rfl
      refine ⟨s2, by rw [← hb]; exact i2, rfl, ?_⟩
      simp only [fixMin, lm2, Res.ok_bind, if_neg hz]
      exact Conv.pure _
  -- rightmost
  obtain ⟨s4, i4, z4, cv4⟩ : ∃ s4, In E A s4 h (some (beg h (plug c X).inl)) (some (lst h (plug c X).inl)) (plug c X) ∧
      s4.heap z = s3.heap z ∧ Conv (fun f => fixMax f s3 X.ptr (cpar (some h) c) (some z) h) s4 := by
    have rm3 := i3.rm
    by_cases hz : some (lst h (plug c (.node L zc z zv R)).inl) = some z
    · have hcl : cr c = [] ∧ R.inl = [] := by
        rw [hlist0] at hkeys hz
        injection hz with hz
        have hdisj : ∀ x ∈ R.inl ++ cr c, x.1 ≠ z := by
          intro x hx e
          have := hkeys.1
          simp only [List.map_append, List.map_cons, List.append_assoc, List.cons_append, List.nodup_append, List.nodup_cons] at this
          have h3 := this.2.1.2.1.1
          apply h3
          rw [← List.map_append]
          exact e ▸ List.mem_map_of_mem hx
        have hlast : ∀ (l : List (Nat × α)), l ≠ [] → ∃ x ∈ l, lst h l = x.1 := by
          intro l hl
          refine ⟨l.getLast hl, List.getLast_mem hl, ?_⟩
          simp [lst, List.getLast?_eq_some_getLast hl]
        have e0 : cl c ++ (L.inl ++ (z, zv) :: R.inl) ++ cr c = (cl c ++ L.inl ++ [(z, zv)]) ++ (R.inl ++ cr c) := by simp
        by_cases hne : R.inl ++ cr c = []
        · simp at hne; exact ⟨hne.2, hne.1⟩
        · rw [e0, lst_append hne] at hz
          obtain ⟨x, hx, ex⟩ := hlast _ hne
          exact absurd (ex ▸ hz) (hdisj x hx)
      obtain ⟨s4, e4, i4, o4⟩ := i3.setR (some (lst h (plug c X).inl))
      refine ⟨s4, i4, o4 z hzh, ?_⟩
      simp only [fixMax, rm3, Res.ok_bind, if_pos hz]
      refine Conv.bind (a := some (lst h (plug c X).inl)) ?_ (Conv.const e4)
      rw [hlist, hcl.1, List.append_nil]
      cases hXx : X with
      | nil =>
        rw [cr_right hcl.1]
        simp only [T.inl, List.append_nil]
        exact Conv.pure _
      | node l2 c2 a2 v2 r2 =>
        have hne : X ≠ .nil := by rw [hXx]; simp
        have := treeMax_ok X c hne i3
        rw [← hXx, lst_append (T.inl_ne_nil hne)]
        refine this.congr fun f => ?_
        rw [hXx]; rfl
    · have hb : lst h (plug c (.node L zc z zv R)).inl = lst h (plug c X).inl := by
        rw [hlist, hlist0] at *
        by_cases hcc : cr c = []
        · rw [hcc, List.append_nil] at hz ⊢
          by_cases hr : R.inl = []
          · rw [hr, ← List.append_assoc] at hz
            rw [lst_append_cons] at hz; simp at hz
          · have : X = R := by
              rcases hX with ⟨_, rfl⟩ | ⟨rfl, _⟩
              · rfl
              · exact absurd rfl hr
            rw [this, List.append_nil, lst_append hr, ← List.singleton_append, ← List.append_assoc, ← List.append_assoc, lst_append hr]
        · rw [lst_append hcc, lst_append hcc]
      refine ⟨s3, by rw [← hb]; exact i3, rfl, ?_⟩
      simp only [fixMax, rm3, Res.ok_bind, if_neg hz]
      exact Conv.pure _
  refine ⟨s4, i4, ⟨_, _, _, by rw [z4, z3, z2]⟩, ?_⟩
  refine (Conv.bind (h := fun f s3 => fixMax f s3 X.ptr (cpar (some h) c) (some z) h >>= fun s => .ok (s, X.ptr, cpar (some h) c, some z)) cv3
    (Conv.bind cv4 (Conv.pure _))).congr fun f => ?_
  unfold eraseUnlink
  rw [zl, zr]
  simp only [Res.ok_bind]
  rw [if_pos hnil]
  simp only [Res.ok_bind, zl, zr, zp, hx, ne_eq, not_true, if_false, e1, e2]

/-- How a node with subtrees `L` and `R` at the end of path `c` is taken out: `yc` is the colour
of the node that leaves its place, `X` at the end of `p` the subtree that moves up. -/
inductive Unl (c : List (Fr α)) (L : T α) (zc : Color) (R : T α) : Color → List (Fr α) → T α → Prop where
  | noLeft : L = .nil → Unl c L zc R zc c R
  | noRight : R = .nil → Unl c L zc R zc c L
  | both (d : List (Fr α)) (yc : Color) (y : Nat) (yv : α) (B : T α) : L ≠ .nil → (∀ f ∈ d, f.d = true) → R = plug d (.node .nil yc y yv B) →
      Unl c L zc R yc (d ++ ⟨false, zc, y, yv, L⟩ :: c) B

/-- What is left of the tree; `none` if the rebalancing loop does not end. -/
def delT (yc : Color) (p : List (Fr α)) (X : T α) : Option (T α) :=
  match yc with
  | .red => some (plug p X)
  | .black => eraseFix p X

theorem leftSpine (t : T α) (ht : t ≠ .nil) : ∃ d yc y yv B, (∀ f ∈ d, f.d = true) ∧ t = plug d (.node .nil yc y yv B) := by
  induction t with
  | nil => cases ht rfl
  | node l c a v r ihl _ =>
    by_cases hl : l = .nil
    · subst hl
      exact ⟨[], c, a, v, r, by simp, rfl⟩
    · obtain ⟨d, yc, y, yv, B, hd, rfl⟩ := ihl hl
      refine ⟨d ++ [⟨true, c, a, v, r⟩], yc, y, yv, B, ?_, ?_⟩
      · intro f hf
        simp only [List.mem_append, List.mem_singleton] at hf
        rcases hf with hf | rfl
        · exact hd f hf
        · rfl
      · rw [plug_append]; rfl

theorem cl_allLeft {d : List (Fr α)} (hd : ∀ f ∈ d, f.d = true) : cl d = [] := by
  induction d with
  | nil => rfl
  | cons f d ih => simp [cl, ih (fun g hg => hd g (by simp [hg])), hd f (by simp)]

theorem cl_append (c d : List (Fr α)) : cl (c ++ d) = cl d ++ cl c := by
  induction c with
  | nil => simp [cl]
  | cons f c ih => simp [cl, ih]

theorem cr_append (c d : List (Fr α)) : cr (c ++ d) = cr c ++ cr d := by
  induction c with
  | nil => simp [cr]
  | cons f c ih => simp [cr, ih]

theorem Unl.inl {c p : List (Fr α)} {L R X : T α} {zc yc : Color} (u : Unl c L zc R yc p X) : (plug p X).inl = cl c ++ L.inl ++ R.inl ++ cr c := by
  cases u with
  | noLeft h => subst h; rw [inl_plug]; simp [T.inl]
  | noRight h => subst h; rw [inl_plug]; simp [T.inl]
  | both d y yv _ B hL hd hR =>
    rw [hR, inl_plug, inl_plug, cl_append, cr_append, cl_allLeft hd]
    simp [cl, cr, T.inl]

theorem broL_inl (X : T α) (xc : Color) (xa : Nat) (xv : α) (bl : T α) (ba : Nat) (bv : α) (br : T α) :
    (broL X xc xa xv bl ba bv br).1.inl = X.inl ++ (xa, xv) :: (bl.inl ++ (ba, bv) :: br.inl) := by
  unfold broL
  split
  · simp [T.inl]
  · split
    · cases bl with
      | nil => simp_all [T.red]
      | node => simp [T.inl]
    · simp [T.inl]

theorem broR_inl (X : T α) (xc : Color) (xa : Nat) (xv : α) (bl : T α) (ba : Nat) (bv : α) (br : T α) :
    (broR X xc xa xv bl ba bv br).1.inl = bl.inl ++ (ba, bv) :: (br.inl ++ (xa, xv) :: X.inl) := by
  unfold broR
  split
  · simp [T.inl]
  · split
    · cases br with
      | nil => simp_all [T.red]
      | node => simp [T.inl]
    · simp [T.inl]

theorem inl_if_blacken {b : Bool} {t : T α} : (if b = true then t else t.blacken).inl = t.inl := by
  cases b <;> simp

theorem eraseFix_inl : ∀ (c : List (Fr α)) (t t' : T α), eraseFix c t = some t' → t'.inl = cl c ++ t.inl ++ cr c
  | [], t, t', e => by simp only [eraseFix, Option.some.injEq] at e; rw [← e]; simp [cl, cr]
  | ⟨fd, fc, fa, fv, fs⟩ :: c, t, t', e => by
    simp only [eraseFix] at e
    split at e
    · injection e with e; rw [← e, inl_plug]; simp
    · cases fs with
      | nil => cases e
      | node bl bc b bv br =>
        cases bc with
        | black =>
          simp only at e
          cases fd
          · simp only [Bool.false_eq_true, if_false] at e
            split at e
            · injection e with e
              rw [← e, inl_plug, broR_inl]; simp [cl, cr, T.inl]
            · rw [eraseFix_inl c _ _ e, broR_inl]; simp [cl, cr, T.inl]
          · simp only [if_true] at e
            split at e
            · injection e with e
              rw [← e, inl_plug, broL_inl]; simp [cl, cr, T.inl]
            · rw [eraseFix_inl c _ _ e, broL_inl]; simp [cl, cr, T.inl]
        | red =>
          simp only at e
          cases fd
          · simp only [Bool.false_eq_true, if_false] at e
            cases br with
            | nil => injection e with e; rw [← e, inl_plug]; simp [cl, cr, T.inl]
            | node brl brc b' bv' brr =>
              injection e with e
              rw [← e, inl_plug]; simp [cl, cr, T.inl, inl_if_blacken, broR_inl]
          · simp only [if_true] at e
            cases bl with
            | nil => injection e with e; rw [← e, inl_plug]; simp [cl, cr, T.inl]
            | node brl brc b' bv' brr =>
              injection e with e
              rw [← e, inl_plug]; simp [cl, cr, T.inl, inl_if_blacken, broL_inl]

theorem delT_inl {yc : Color} {p : List (Fr α)} {X t' : T α} (e : delT yc p X = some t') : t'.inl = cl p ++ X.inl ++ cr p := by
  cases yc with
  | red => injection e with e; rw [← e, inl_plug]
  | black => exact eraseFix_inl _ _ _ e

/-- `rb_tree_erase_rebalance`: either the node is taken out, or the loop does not end. -/
theorem eraseRebalance_ok {s : St α} {c : List (Fr α)} {L R : T α} {zc : Color} {z : Nat} {zv : α}
    (i : In E A s h (some (beg h (plug c (.node L zc z zv R)).inl)) (some (lst h (plug c (.node L zc z zv R)).inl)) (plug c (.node L zc z zv R))) :
    ∃ yc p X, Unl c L zc R yc p X ∧
      ((∃ t', delT yc p X = some t' ∧ ∃ s', In E A s' h (some (beg h t'.inl)) (some (lst h t'.inl)) t' ∧
        (∃ r, s'.heap z = some r ∧ r.val = some zv) ∧ Conv (fun f => eraseRebalance f s (some z) h) s') ∨
      (delT yc p X = none ∧ Div (fun f => eraseRebalance f s (some z) h))) := by
  obtain ⟨yc, p, X, u, s1, i1, ⟨zp, zq, zr, hz⟩, cv⟩ : ∃ yc p X, Unl c L zc R yc p X ∧ ∃ s1, In E A s1 h (some (beg h (plug p X).inl)) (some (lst h (plug p X).inl)) (plug p X) ∧
      (∃ p q r, s1.heap z = some ⟨yc, p, q, r, some zv⟩) ∧
      Conv (fun f => eraseUnlink f s (some z) h) (s1, X.ptr, cpar (some h) p, some z) := by
    by_cases hL : L = .nil
    · obtain ⟨s1, i1, hz, cv⟩ := unlink1 (X := R) (.inl ⟨hL, rfl⟩) i
      exact ⟨zc, c, R, .noLeft hL, s1, i1, hz, cv⟩
    · by_cases hR : R = .nil
      · obtain ⟨s1, i1, hz, cv⟩ := unlink1 (X := L) (.inr ⟨hR, rfl⟩) i
        exact ⟨zc, c, L, .noRight hR, s1, i1, hz, cv⟩
      · obtain ⟨d, yc, y, yv, B, hd, rfl⟩ := leftSpine R hR
        obtain ⟨s1, i1, hz, cv⟩ := unlink2 hL hd i
        have u : Unl c L zc (plug d (.node .nil yc y yv B)) yc (d ++ ⟨false, zc, y, yv, L⟩ :: c) B := .both d yc y yv B hL hd rfl
        refine ⟨yc, _, B, u, s1, ?_, hz, cv⟩
        have e1 : beg h (plug (d ++ ⟨false, zc, y, yv, L⟩ :: c) B).inl = beg h (plug c (.node L zc z zv (plug d (.node .nil yc y yv B)))).inl := by
          rw [u.inl, inl_plug (c := c), T.inl]
          simp only [List.append_assoc]
          cases hc : cl c with
          | nil => simp only [List.nil_append]; rw [beg_append (T.inl_ne_nil hL), beg_append (T.inl_ne_nil hL)]
          | cons x l => rfl
        have e2 : lst h (plug (d ++ ⟨false, zc, y, yv, L⟩ :: c) B).inl = lst h (plug c (.node L zc z zv (plug d (.node .nil yc y yv B)))).inl := by
          have hne := T.inl_ne_nil (t := plug d (.node .nil yc y yv B)) hR
          rw [u.inl, inl_plug (c := c), T.inl]
          have e3 : cl c ++ (L.inl ++ (z, zv) :: (plug d (.node .nil yc y yv B)).inl) ++ cr c = (cl c ++ L.inl ++ [(z, zv)]) ++ ((plug d (.node .nil yc y yv B)).inl ++ cr c) := by simp
          have hne2 : (plug d (.node .nil yc y yv B)).inl ++ cr c ≠ [] := by
            intro e; exact hne (List.append_eq_nil_iff.1 e).1
          rw [e3, lst_append (l := cl c ++ L.inl ++ [(z, zv)]) hne2, List.append_assoc (cl c ++ L.inl), lst_append hne2]
        rw [e1, e2]; exact i1
  refine ⟨yc, p, X, u, ?_⟩
  have hzp : z ∉ (plug p X).addrs := by
    intro hm
    have h1 : (plug p X).addrs = (cl c ++ L.inl ++ R.inl ++ cr c).map (·.1) := by rw [T.addrs_eq, u.inl]
    have h2 := i.nodup
    rw [T.addrs_eq, inl_plug, T.inl] at h2
    rw [h1] at hm
    simp only [List.map_append, List.map_cons, List.mem_append, List.nodup_append, List.nodup_cons, List.mem_cons] at hm h2
    grind
  have hzh : z ≠ h := fun e => i.nh (by rw [mem_addrs_plug]; simp [T.addrs, e])
  have hyr : Rb.isRed s1 (some z) = .ok (yc == .red) := by simp [isRed, color, rd, hz]
  have unf : ∀ f, eraseRebalance f s (some z) h = (eraseUnlink f s (some z) h >>= fun q =>
      (isRed q.1 q.2.2.2 >>= fun yr => if yr then .ok q.1 else eraseTail f q.1 q.2.1 q.2.2.1 h)) := by
    intro f
    unfold eraseRebalance eraseTail
    rfl
  cases yc with
  | red =>
    refine .inl ⟨plug p X, rfl, s1, i1, ⟨_, hz, rfl⟩, ?_⟩
    refine (cv.bind (h := fun f q => isRed q.1 q.2.2.2 >>= fun yr => if yr then .ok q.1 else eraseTail f q.1 q.2.1 q.2.2.1 h) ?_).congr unf
    simp only [hyr, Res.ok_bind]
    exact Conv.pure s1
  | black =>
    have tl : ∀ f, (isRed s1 (some z) >>= fun yr => if yr then Res.ok s1 else eraseTail f s1 X.ptr (cpar (some h) p) h) = eraseTail f s1 X.ptr (cpar (some h) p) h := by
      intro f; rw [hyr, Res.ok_bind]; rfl
    rcases eraseTail_ok p s1 X i1.reset with ⟨t', e', s', i', cv'⟩ | ⟨e', dv⟩
    · have hb : t'.inl = (plug p X).inl := by rw [eraseFix_inl _ _ _ e', inl_plug]
      refine .inl ⟨t', e', s', ?_, ⟨_, (i'.off z (by rintro (h1 | h1); exact hzh h1; exact hzp h1)).trans hz, rfl⟩, ?_⟩
      · have : ∀ a, (a = h ∨ a ∈ (plug p X).addrs) → A a := by
          rintro a (rfl | ha)
          · exact i.ah
          · exact i1.at' a ha
        rw [hb]; exact i1.trans i' this
      · exact (cv.bind (h := fun f q => isRed q.1 q.2.2.2 >>= fun yr => if yr then .ok q.1 else eraseTail f q.1 q.2.1 q.2.2.1 h) (cv'.congr tl)).congr unf
    · refine .inr ⟨e', ?_⟩
      exact (Div.bind_right (h := fun f q => isRed q.1 q.2.2.2 >>= fun yr => if yr then .ok q.1 else eraseTail f q.1 q.2.1 q.2.2.1 h) cv (dv.congr tl)).congr unf

end

end Verif.Rb
