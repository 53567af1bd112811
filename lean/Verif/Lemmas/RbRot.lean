import Verif.Lemmas.RbRep

/-! Rotations. -/

set_option backward.isDefEq.respectTransparency false

namespace Verif.Rb
open Verif
open Verif.Box (Slot upd upd_same upd_ne)

variable {α : Type}

/-- Replacing the subtree at the end of a path. -/
theorem relink_ok {s : St α} {h n : Nat} {m M q : Option Nat} {c : List (Fr α)} {r : Rec α}
    (hh : s.heap h = some ⟨.red, m, M, cptr c (some n), none⟩) (hn : s.heap n = some r) (hp : r.parent = cpar (some h) c)
    (hc : crep s.heap (some h) c (some n)) (hd : n ∉ caddrs c) (nd : (caddrs c).Nodup) (nh : h ∉ caddrs c) :
    ∃ H', relink s (some n) q h = .ok { s with heap := H' } ∧ H' h = some ⟨.red, m, M, cptr c q, none⟩ ∧
      crep H' (some h) c q ∧ ∀ a, some a ≠ cpar (some h) c → H' a = s.heap a := by
  cases c with
  | nil =>
    refine ⟨upd s.heap h (some ⟨.red, m, M, q, none⟩), ?_, upd_same _ _ _, trivial, ?_⟩
    · simp [relink, parent, rd, hh, cptr, setParent, wr]
    · intro a ha
      exact upd_ne _ _ (fun e => ha (by rw [e]; rfl))
  | cons f c =>
    have hroot : some n ≠ cptr c (some f.a) := by
      intro e
      exact hd (cptr_mem (c := f :: c) (p := none) (by simp) (by rw [cptr]; exact e.symm))
    have hrd : rd s (some f.a) = .ok ⟨f.c, if f.d then some n else f.sib.ptr, if f.d then f.sib.ptr else some n, cpar (some h) c, some f.v⟩ := by
      simp only [rd, hc.1]
    simp only [caddrs, List.mem_cons, List.mem_append, List.nodup_cons, List.nodup_append] at hd nd nh
    have hsib : some n ≠ f.sib.ptr := fun e => hd (.inr (.inl (T.ptr_mem e.symm)))
    refine ⟨upd s.heap f.a (some ⟨f.c, if f.d then q else f.sib.ptr, if f.d then f.sib.ptr else q, cpar (some h) c, some f.v⟩), ?_, ?_, ?_, ?_⟩
    · unfold relink
      simp only [parent, isLchild, left, rd, hh, hn, Res.ok_bind, cptr, if_neg hroot, hp, cpar_cons, hc.1]
      cases hfd : f.d
      · simp [setRight, wr, hc.1, hfd, hsib]
      · simp [setLeft, wr, hc.1, hfd]
    · have : h ≠ f.a := fun e => nh (.inl e)
      show upd _ _ _ h = _
      rw [upd_ne _ _ this, hh]; rfl
    · refine ⟨upd_same _ _ _, T.rep_congr hc.2.1 ?_, crep_congr hc.2.2 ?_⟩ <;> intro b hb <;> apply upd_ne <;> grind
    · intro b hb
      exact upd_ne _ _ (fun e => hb (by rw [e]; rfl))

/-- Giving a subtree a new parent. -/
theorem repar_ok {s : St α} {par q : Option Nat} {t : T α} (ht : t.rep s.heap par) (nd : t.addrs.Nodup) :
    ∃ H', setParentIf s t.ptr q = .ok { s with heap := H' } ∧ t.rep H' q ∧ ∀ a, a ∉ t.addrs → H' a = s.heap a := by
  cases t with
  | nil => exact ⟨s.heap, rfl, trivial, fun _ _ => rfl⟩
  | node l co a v r =>
    simp only [T.addrs, List.nodup_append, List.nodup_cons, List.mem_cons] at nd
    refine ⟨upd s.heap a (some ⟨co, l.ptr, r.ptr, q, some v⟩), ?_, ⟨upd_same _ _ _, ?_, ?_⟩, ?_⟩
    · simp only [T.ptr_node, setParentIf, setParent, wr, ht.1]
    · refine T.rep_congr ht.2.1 fun b hb => upd_ne _ _ ?_; grind
    · refine T.rep_congr ht.2.2 fun b hb => upd_ne _ _ ?_; grind
    · intro b hb
      refine upd_ne _ _ fun e => hb ?_
      simp [T.addrs, e]

section
variable {E : St α} {A : Nat → Prop} {s : St α} {h : Nat} {m M : Option Nat} {c : List (Fr α)}

theorem cpar_mem {c : List (Fr α)} {h a : Nat} (e : some a = cpar (some h) c) : a = h ∨ a ∈ caddrs c := by
  cases c with
  | nil => simp [cpar] at e; exact .inl e
  | cons f c => simp [cpar] at e; exact .inr (by simp [caddrs, e])

theorem cpar_some (h : Nat) (c : List (Fr α)) : ∃ p, cpar (some h) c = some p := by
  cases c <;> exact ⟨_, rfl⟩

theorem In.rotL {X B R : T α} {cn cr n r : _} {nv rv : α} (i : In E A s h m M (plug c (.node X cn n nv (.node B cr r rv R)))) :
    ∃ s', rotateLeft s (some n) h = .ok s' ∧ In E A s' h m M (plug c (.node (.node X cn n nv B) cr r rv R)) := by
  have hd := i.disj
  have hrep := rep_plug.1 i.rep
  have hdr := i.hdr
  rw [plug_ptr] at hdr
  have eA : ∀ b, b ∈ (plug c (.node X cn n nv (.node B cr r rv R))).addrs ↔ b ∈ (plug c (.node (.node X cn n nv B) cr r rv R)).addrs := by
    intro b; simp only [mem_addrs_plug, T.addrs, List.mem_append, List.mem_cons]; grind
  have iA : ∀ b, b = h ∨ b ∈ caddrs c ∨ b ∈ X.addrs ∨ b = n ∨ b ∈ B.addrs ∨ b = r ∨ b ∈ R.addrs → A b := by
    intro b hb
    rcases hb with rfl | hb
    · exact i.ah
    · refine i.at' b ?_
      simp only [mem_addrs_plug, T.addrs, List.mem_append, List.mem_cons]; grind
  simp only [T.addrs, List.nodup_append, List.nodup_cons, List.mem_append, List.mem_cons] at hd
  obtain ⟨⟨hn, hX, hr, hB, hR⟩, hc⟩ := hrep
  simp only [T.ptr_node] at hn hr hc hdr
  -- node->right = right->left
  let s1 : St α := { s with heap := upd s.heap n (some ⟨cn, X.ptr, B.ptr, cpar (some h) c, some nv⟩) }
  have e1 : setRight s (some n) B.ptr = .ok s1 := by simp only [setRight, wr, hn, s1]
  have r1 : s1.heap r = some ⟨cr, B.ptr, R.ptr, some n, some rv⟩ := by
    show upd _ _ _ r = _
    rw [upd_ne _ _ (by grind), hr]
  have n1 : s1.heap n = some ⟨cn, X.ptr, B.ptr, cpar (some h) c, some nv⟩ := upd_same _ _ _
  have o1 : ∀ b, b ≠ n → s1.heap b = s.heap b := fun b hb => upd_ne _ _ hb
  -- right->left->parent = node
  obtain ⟨H2, e2, B2, o2⟩ := repar_ok (s := s1) (q := some n) (par := some r) (t := B) (T.rep_congr hB fun b hb => o1 b (by grind)) (by grind)
  have r2 : H2 r = some ⟨cr, B.ptr, R.ptr, some n, some rv⟩ := by rw [o2 r (by grind), r1]
  have n2 : H2 n = some ⟨cn, X.ptr, B.ptr, cpar (some h) c, some nv⟩ := by rw [o2 n (by grind), n1]
  -- right->parent = node->parent
  let s3 : St α := { s with heap := upd H2 r (some ⟨cr, B.ptr, R.ptr, cpar (some h) c, some rv⟩) }
  have e3 : setParent { s1 with heap := H2 } (some r) (cpar (some h) c) = .ok s3 := by simp only [setParent, wr, r2, s1, s3]
  have n3 : s3.heap n = some ⟨cn, X.ptr, B.ptr, cpar (some h) c, some nv⟩ := by
    show upd _ _ _ n = _
    rw [upd_ne _ _ (by grind), n2]
  have r3 : s3.heap r = some ⟨cr, B.ptr, R.ptr, cpar (some h) c, some rv⟩ := upd_same _ _ _
  have o3 : ∀ b, b ≠ n → b ≠ r → b ∉ B.addrs → s3.heap b = s.heap b := by
    intro b h1 h2 h3
    show upd _ _ _ b = _
    rw [upd_ne _ _ h2, o2 b h3, o1 b h1]
  -- link from above
  obtain ⟨H4, e4, h4, c4, o4⟩ := relink_ok (s := s3) (h := h) (n := n) (m := m) (M := M) (q := some r) (c := c)
    (by rw [o3 h (by grind) (by grind) (by grind), hdr]) n3 rfl (crep_congr hc fun b hb => o3 b (by grind) (by grind) (by grind)) (by grind) hd.1 (by grind)
  have k4 : ∀ b, b ∉ caddrs c → b ≠ h → H4 b = s3.heap b := by
    intro b h1 h2
    refine o4 b fun e => ?_
    rcases cpar_mem e with h3 | h3
    · exact h2 h3
    · exact h1 h3
  let H5 := upd H4 r (some ⟨cr, some n, R.ptr, cpar (some h) c, some rv⟩)
  have e5 : setLeft { s3 with heap := H4 } (some r) (some n) = .ok { s with heap := H5 } := by
    have r4 := (k4 r (by grind) (by grind)).trans r3
    simp only [setLeft, wr, r4, s3, H5]
  let H6 := upd H5 n (some ⟨cn, X.ptr, B.ptr, some r, some nv⟩)
  have n5 : H5 n = some ⟨cn, X.ptr, B.ptr, cpar (some h) c, some nv⟩ := by
    show upd _ _ _ n = _
    rw [upd_ne _ _ (by grind), k4 n (by grind) (by grind), n3]
  have e6 : setParent { s with heap := H5 } (some n) (some r) = .ok { s with heap := H6 } := by
    simp only [setParent, wr, n5, H6]
  have k6 : ∀ b, b ≠ n → b ≠ r → H6 b = H4 b := by
    intro b h1 h2
    show upd (upd _ _ _) _ _ b = _
    rw [upd_ne _ _ h1, upd_ne _ _ h2]
  have q1 : Rb.rd s (some n) = .ok ⟨cn, X.ptr, some r, cpar (some h) c, some nv⟩ := by simp only [Rb.rd, hn]
  have q2 : Rb.rd s (some r) = .ok ⟨cr, B.ptr, R.ptr, some n, some rv⟩ := by simp only [Rb.rd, hr]
  have q3 : Rb.rd s1 (some r) = .ok ⟨cr, B.ptr, R.ptr, some n, some rv⟩ := by simp only [Rb.rd, r1]
  have q4 : Rb.rd { s1 with heap := H2 } (some n) = .ok ⟨cn, X.ptr, B.ptr, cpar (some h) c, some nv⟩ := by simp only [Rb.rd, n2]
  refine ⟨{ s with heap := H6 }, ?_, ?_⟩
  · unfold rotateLeft
    simp only [Rb.right, Rb.left, Rb.parent, q1, q2, Res.ok_bind, e1, q3]
    rw [e2, Res.ok_bind, q4, Res.ok_bind, Res.ok_bind, e3, Res.ok_bind, e4, Res.ok_bind, e5, Res.ok_bind, e6]
  · refine ⟨?_, ?_, ?_, ?_, i.ah, ?_, ?_, ?_⟩
    · rw [plug_ptr]
      show H6 h = _
      rw [k6 h (by grind) (by grind), h4]; rfl
    · rw [rep_plug]
      refine ⟨⟨?_, ⟨?_, ?_, ?_⟩, ?_⟩, ?_⟩
      · show upd (upd _ _ _) _ _ r = _
        rw [upd_ne _ _ (by grind), upd_same]; rfl
      · exact upd_same _ _ _
      · refine T.rep_congr hX fun b hb => ?_
        show H6 b = _
        rw [k6 b (by grind) (by grind), k4 b (by grind) (by grind), o3 b (by grind) (by grind) (by grind)]
      · refine T.rep_congr B2 fun b hb => ?_
        show H6 b = _
        rw [k6 b (by grind) (by grind), k4 b (by grind) (by grind)]
        show upd _ _ _ b = _
        rw [upd_ne _ _ (by grind)]
      · refine T.rep_congr hR fun b hb => ?_
        show H6 b = _
        rw [k6 b (by grind) (by grind), k4 b (by grind) (by grind), o3 b (by grind) (by grind) (by grind)]
      · refine crep_congr c4 fun b hb => ?_
        show H6 b = _
        rw [k6 b (by grind) (by grind)]
    · rw [nodup_plug]
      have := nodup_plug.1 i.nodup
      simp only [T.addrs, List.nodup_append, List.nodup_cons, List.mem_append, List.mem_cons] at this ⊢
      grind
    · rw [← eA]; exact i.nh
    · intro b hb; exact i.at' b ((eA b).2 hb)
    · intro b hb
      show H6 b = _
      rw [k6 b (by grind) (by grind), k4 b (by grind) (by grind), o3 b (by grind) (by grind) (by grind)]
      exact i.off b hb
    · rw [i.same]

theorem In.rotR {L B X : T α} {cn cl n l : _} {nv lv : α} (i : In E A s h m M (plug c (.node (.node L cl l lv B) cn n nv X))) :
    ∃ s', rotateRight s (some n) h = .ok s' ∧ In E A s' h m M (plug c (.node L cl l lv (.node B cn n nv X))) := by
  have hd := i.disj
  have hrep := rep_plug.1 i.rep
  have hdr := i.hdr
  rw [plug_ptr] at hdr
  have eA : ∀ b, b ∈ (plug c (.node (.node L cl l lv B) cn n nv X)).addrs ↔ b ∈ (plug c (.node L cl l lv (.node B cn n nv X))).addrs := by
    intro b; simp only [mem_addrs_plug, T.addrs, List.mem_append, List.mem_cons]; grind
  have iA : ∀ b, b = h ∨ b ∈ caddrs c ∨ b ∈ X.addrs ∨ b = n ∨ b ∈ B.addrs ∨ b = l ∨ b ∈ L.addrs → A b := by
    intro b hb
    rcases hb with rfl | hb
    · exact i.ah
    · refine i.at' b ?_
      simp only [mem_addrs_plug, T.addrs, List.mem_append, List.mem_cons]; grind
  simp only [T.addrs, List.nodup_append, List.nodup_cons, List.mem_append, List.mem_cons] at hd
  obtain ⟨⟨hn, ⟨hl, hL, hB⟩, hX⟩, hc⟩ := hrep
  simp only [T.ptr_node] at hn hl hc hdr
  let s1 : St α := { s with heap := upd s.heap n (some ⟨cn, B.ptr, X.ptr, cpar (some h) c, some nv⟩) }
  have e1 : setLeft s (some n) B.ptr = .ok s1 := by simp only [setLeft, wr, hn, s1]
  have r1 : s1.heap l = some ⟨cl, L.ptr, B.ptr, some n, some lv⟩ := by
    show upd _ _ _ l = _
    rw [upd_ne _ _ (by grind), hl]
  have n1 : s1.heap n = some ⟨cn, B.ptr, X.ptr, cpar (some h) c, some nv⟩ := upd_same _ _ _
  have o1 : ∀ b, b ≠ n → s1.heap b = s.heap b := fun b hb => upd_ne _ _ hb
  obtain ⟨H2, e2, B2, o2⟩ := repar_ok (s := s1) (q := some n) (par := some l) (t := B) (T.rep_congr hB fun b hb => o1 b (by grind)) (by grind)
  have r2 : H2 l = some ⟨cl, L.ptr, B.ptr, some n, some lv⟩ := by rw [o2 l (by grind), r1]
  have n2 : H2 n = some ⟨cn, B.ptr, X.ptr, cpar (some h) c, some nv⟩ := by rw [o2 n (by grind), n1]
  let s3 : St α := { s with heap := upd H2 l (some ⟨cl, L.ptr, B.ptr, cpar (some h) c, some lv⟩) }
  have e3 : setParent { s1 with heap := H2 } (some l) (cpar (some h) c) = .ok s3 := by simp only [setParent, wr, r2, s1, s3]
  have n3 : s3.heap n = some ⟨cn, B.ptr, X.ptr, cpar (some h) c, some nv⟩ := by
    show upd _ _ _ n = _
    rw [upd_ne _ _ (by grind), n2]
  have r3 : s3.heap l = some ⟨cl, L.ptr, B.ptr, cpar (some h) c, some lv⟩ := upd_same _ _ _
  have o3 : ∀ b, b ≠ n → b ≠ l → b ∉ B.addrs → s3.heap b = s.heap b := by
    intro b h1 h2 h3
    show upd _ _ _ b = _
    rw [upd_ne _ _ h2, o2 b h3, o1 b h1]
  obtain ⟨H4, e4, h4, c4, o4⟩ := relink_ok (s := s3) (h := h) (n := n) (m := m) (M := M) (q := some l) (c := c)
    (by rw [o3 h (by grind) (by grind) (by grind), hdr]) n3 rfl (crep_congr hc fun b hb => o3 b (by grind) (by grind) (by grind)) (by grind) hd.1 (by grind)
  have k4 : ∀ b, b ∉ caddrs c → b ≠ h → H4 b = s3.heap b := by
    intro b h1 h2
    refine o4 b fun e => ?_
    rcases cpar_mem e with h3 | h3
    · exact h2 h3
    · exact h1 h3
  let H5 := upd H4 n (some ⟨cn, B.ptr, X.ptr, some l, some nv⟩)
  have e5 : setParent { s3 with heap := H4 } (some n) (some l) = .ok { s with heap := H5 } := by
    have n4 := (k4 n (by grind) (by grind)).trans n3
    simp only [setParent, wr, n4, s3, H5]
  let H6 := upd H5 l (some ⟨cl, L.ptr, some n, cpar (some h) c, some lv⟩)
  have n5 : H5 l = some ⟨cl, L.ptr, B.ptr, cpar (some h) c, some lv⟩ := by
    show upd _ _ _ l = _
    rw [upd_ne _ _ (by grind), k4 l (by grind) (by grind), r3]
  have e6 : setRight { s with heap := H5 } (some l) (some n) = .ok { s with heap := H6 } := by
    simp only [setRight, wr, n5, H6]
  have k6 : ∀ b, b ≠ n → b ≠ l → H6 b = H4 b := by
    intro b h1 h2
    show upd (upd _ _ _) _ _ b = _
    rw [upd_ne _ _ h2, upd_ne _ _ h1]
  have q1 : Rb.rd s (some n) = .ok ⟨cn, some l, X.ptr, cpar (some h) c, some nv⟩ := by simp only [Rb.rd, hn]
  have q2 : Rb.rd s (some l) = .ok ⟨cl, L.ptr, B.ptr, some n, some lv⟩ := by simp only [Rb.rd, hl]
  have q3 : Rb.rd s1 (some l) = .ok ⟨cl, L.ptr, B.ptr, some n, some lv⟩ := by simp only [Rb.rd, r1]
  have q4 : Rb.rd { s1 with heap := H2 } (some n) = .ok ⟨cn, B.ptr, X.ptr, cpar (some h) c, some nv⟩ := by simp only [Rb.rd, n2]
  refine ⟨{ s with heap := H6 }, ?_, ?_⟩
  · unfold rotateRight
    simp only [Rb.right, Rb.left, Rb.parent, q1, q2, Res.ok_bind, e1, q3]
    rw [e2, Res.ok_bind, q4, Res.ok_bind, Res.ok_bind, e3, Res.ok_bind, e4, Res.ok_bind, e5, Res.ok_bind, e6]
  · refine ⟨?_, ?_, ?_, ?_, i.ah, ?_, ?_, ?_⟩
    · rw [plug_ptr]
      show H6 h = _
      rw [k6 h (by grind) (by grind), h4]; rfl
    · rw [rep_plug]
      refine ⟨⟨?_, ?_, ⟨?_, ?_, ?_⟩⟩, ?_⟩
      · exact upd_same _ _ _
      · refine T.rep_congr hL fun b hb => ?_
        show H6 b = _
        rw [k6 b (by grind) (by grind), k4 b (by grind) (by grind), o3 b (by grind) (by grind) (by grind)]
      · show upd (upd _ _ _) _ _ n = _
        rw [upd_ne _ _ (by grind), upd_same]
      · refine T.rep_congr B2 fun b hb => ?_
        show H6 b = _
        rw [k6 b (by grind) (by grind), k4 b (by grind) (by grind)]
        show upd _ _ _ b = _
        rw [upd_ne _ _ (by grind)]
      · refine T.rep_congr hX fun b hb => ?_
        show H6 b = _
        rw [k6 b (by grind) (by grind), k4 b (by grind) (by grind), o3 b (by grind) (by grind) (by grind)]
      · refine crep_congr c4 fun b hb => ?_
        show H6 b = _
        rw [k6 b (by grind) (by grind)]
    · rw [nodup_plug]
      have := nodup_plug.1 i.nodup
      simp only [T.addrs, List.nodup_append, List.nodup_cons, List.mem_append, List.mem_cons] at this ⊢
      grind
    · rw [← eA]; exact i.nh
    · intro b hb; exact i.at' b ((eA b).2 hb)
    · intro b hb
      show H6 b = _
      rw [k6 b (by grind) (by grind), k4 b (by grind) (by grind), o3 b (by grind) (by grind) (by grind)]
      exact i.off b hb
    · rw [i.same]

end

end Verif.Rb
