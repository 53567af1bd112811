import Verif.Lemmas.EListRep

/-! The operations of `list` on the represented contents. -/

set_option backward.isDefEq.respectTransparency false

namespace Verif.EList
open Verif Verif.Box

variable {α : Type}

/-- `list_size_` is right. -/
def Sized (s : St α) (L : Slot → Option (Con α)) : Prop := ∀ l xs, L l = some xs → s.size l = xs.length

/-- Everything is in order. -/
structure Full (s : St α) (L : Slot → Option (Con α)) : Prop where
  rep : Rep s L []
  sized : Sized s L

theorem rep_setSize {s : St α} {L : Slot → Option (Con α)} {lo : List Nat} (h : Rep s L lo) (l : Slot) (n : Nat) : Rep (setSize s l n) L lo :=
  ⟨fun l xs hl => ⟨(h.ring l xs hl).1, (h.ring l xs hl).2, (h.ring l xs hl).3, (h.ring l xs hl).4⟩, h.2, h.3, h.4, h.5, h.6, h.7, h.8, h.9, h.10⟩

theorem sized_set {s s' : St α} {L : Slot → Option (Con α)} (h : Sized s L) (hs : s'.size = s.size) (l : Slot) (xs : Con α) (n : Nat)
    (hn : n = xs.length) : Sized (setSize s' l n) (upd L l (some xs)) := by
  intro r ys hr
  simp only [setSize, hs]
  by_cases e : r = l
  · subst e; rw [upd_same] at hr ⊢; cases hr; exact hn
  · rw [upd_ne _ _ e] at hr ⊢; exact h r ys hr

theorem ring_posOf_prv {s : St α} {l : Slot} {xs ys : Con α} (h : Ring s l (xs ++ ys)) : s.prv (posOf l ys) = some (lst (.sent l) (nodes xs)) := by
  have := h.seg
  rw [nodes_append] at this
  cases ys with
  | nil => simp at this; exact (seg_last this).2
  | cons y ys => rw [nodes_cons, seg_append] at this; exact (seg_last this.1).2

theorem ring_lst_nxt {s : St α} {l : Slot} {xs ys : Con α} (h : Ring s l (xs ++ ys)) : s.nxt (lst (.sent l) (nodes xs)) = some (posOf l ys) := by
  have := h.seg
  rw [nodes_append] at this
  cases ys with
  | nil => simp at this; exact (seg_last this).1
  | cons y ys => rw [nodes_cons, seg_append] at this; exact (seg_last this.1).1

theorem ring_next {s : St α} {l : Slot} {xs ys : Con α} {n : Nat} {v : α} (h : Ring s l (xs ++ (n, v) :: ys)) :
    s.nxt (.node n) = some (posOf l ys) := by
  have := h.seg
  rw [nodes_append, nodes_cons, seg_append] at this
  exact (seg_first this.2).1

theorem nodup_mid {xs ys : Con α} {p : Nat × α} (h : (ids (xs ++ p :: ys)).Nodup) : p.1 ∉ ids xs ∧ p.1 ∉ ids ys ∧ (ids (xs ++ ys)).Nodup := by
  rw [ids_append, ids_cons, List.nodup_append] at h
  obtain ⟨h1, h2, h3⟩ := h
  have h2' := List.nodup_cons.1 h2
  refine ⟨fun hm => h3 _ hm _ (by simp) rfl, h2'.1, ?_⟩
  rw [ids_append, List.nodup_append]
  exact ⟨h1, h2'.2, fun a ha b hb => h3 a ha b (by simp [hb])⟩

theorem lst_in {l : Slot} (xs : Con α) : lst (.sent l) (nodes xs) = .sent l ∨ lst (.sent l) (nodes xs) ∈ nodes xs := List.mem_cons.1 (lst_mem _ _)
theorem posOf_in {l : Slot} (xs : Con α) : posOf l xs = .sent l ∨ posOf l xs ∈ nodes xs :=
  (List.mem_append.1 (hd_mem (nodes xs) (.sent l))).elim .inr (fun h => .inl (List.mem_singleton.1 h))

/-- `link_prv` of a new node at a position. -/
theorem rep_linkPrv {s : St α} {L : Slot → Option (Con α)} {lo : List Nat} {n : Nat} {v : α} (h : Rep s L (n :: lo)) {l : Slot} {xs ys : Con α}
    (hl : L l = some (xs ++ ys)) (hv : s.val (.node n) = some v) :
    ∃ n' p', linkPrv s (posOf l ys) (.node n) = .ok (relink s n' p') ∧ Rep (relink s n' p') (upd L l (some (xs ++ (n, v) :: ys))) lo := by
  have R := h.ring l _ hl
  have hp := ring_posOf_prv R
  have hnl : s.live (.node n) = true := (h.nodes n).2 (.inr (by simp))
  have hni : n ∉ ids (xs ++ ys) := fun hm => h.lodisj l _ n hl hm (by simp)
  rw [ids_append, List.mem_append, not_or] at hni
  have hlst : lst (.sent l) (nodes xs) ≠ .node n := by
    rcases lst_in (l := l) xs with e | e
    · rw [e]; simp
    · intro e'; rw [e'] at e; exact hni.1 (node_mem.1 e)
  have hpos : posOf l ys ≠ .node n := by
    rcases posOf_in (l := l) ys with e | e
    · rw [e]; simp
    · intro e'; rw [e'] at e; exact hni.2 (node_mem.1 e)
  have hnd := R.nodup
  refine ⟨_, _, linkPrv_some (hd_live R rfl) hnl (lst_live R rfl) hp, ?_⟩
  refine rep_relink h hl ?_ ?_ ?_ ?_
  · intro a h1 h2 h3
    rw [nodes_append, List.mem_append, not_or] at h2
    have ha1 : a ≠ .node n := h3 n (by simp)
    have ha2 : a ≠ lst (.sent l) (nodes xs) := by
      rintro rfl; rcases lst_in (l := l) xs with e | e
      · exact h1 e
      · exact h2.1 e
    have ha3 : a ≠ posOf l ys := by
      rintro rfl; rcases posOf_in (l := l) ys with e | e
      · exact h1 e
      · exact h2.2 e
    rw [upd_ne _ _ ha1, upd_ne _ _ ha2, upd_ne _ _ ha3, upd_ne _ _ ha1]
    exact ⟨rfl, rfl⟩
  · have hseg := R.seg
    rw [nodes_append] at hseg
    rw [ids_append, List.nodup_append] at hnd
    cases ys with
    | nil =>
      rw [nodes_nil, List.append_nil] at hseg
      rw [nodes_append, nodes_cons, nodes_nil]
      exact seg_snoc hseg (by simp) (nodes_nodup.2 hnd.1) (by simp) (by simp) (by simp) (by simpa using hni.1)
    | cons y ys =>
      rw [nodes_cons, seg_append] at hseg
      have hy : y.1 ∉ ids xs := fun hm => hnd.2.2 _ hm _ (by simp) rfl
      have hyy := List.nodup_cons.1 hnd.2.1
      simp only [ids_cons, List.mem_cons, not_or] at hni
      rw [nodes_append, nodes_cons, nodes_cons]
      have : nodes xs ++ Addr.node n :: Addr.node y.1 :: nodes ys = (nodes xs ++ [Addr.node n]) ++ Addr.node y.1 :: nodes ys := by simp
      rw [this, seg_append]
      refine ⟨seg_snoc hseg.1 (by simp) (nodes_nodup.2 hnd.1) (by simpa using hy) (by simp) (by simpa using hni.2.1) (by simpa using hni.1), ?_⟩
      refine seg_frame hseg.2 ?_ ?_
      · intro z hz
        have hz1 : z ≠ .node n := by
          rintro rfl
          rcases List.mem_cons.1 hz with e | e
          · cases e; exact hni.2.1 rfl
          · exact hni.2.2 (node_mem.1 e)
        have hz2 : z ≠ lst (.sent l) (nodes xs) := by
          rintro rfl
          rcases lst_in (l := l) xs with e | e
          · rw [e] at hz; simp at hz
          · obtain ⟨k, ek, hk⟩ := mem_nodes.1 e
            rw [ek] at hz
            rcases List.mem_cons.1 hz with e' | e'
            · cases e'; exact hy hk
            · exact hnd.2.2 k hk k (by simp [node_mem.1 e']) rfl
        rw [upd_ne _ _ hz1, upd_ne _ _ hz2]
      · intro z hz
        have hz1 : z ≠ .node n := by
          rintro rfl
          rcases List.mem_append.1 hz with e | e
          · exact hni.2.2 (node_mem.1 e)
          · have := List.mem_singleton.1 e; cases this
        have hz2 : z ≠ posOf l (y :: ys) := by
          rintro rfl
          rcases List.mem_append.1 hz with e | e
          · exact hyy.1 (node_mem.1 e)
          · have := List.mem_singleton.1 e; cases this
        rw [upd_ne _ _ hz2, upd_ne _ _ hz1]
  · simp only [ids_append, ids_cons, List.append_assoc, List.cons_append]
    refine List.Perm.append_left _ ?_
    exact (List.perm_middle (l₁ := ids ys)).symm
  · intro q hq
    rcases List.mem_append.1 hq with e | e
    · exact (R.alive q (by simp [e])).2
    · rcases List.mem_cons.1 e with rfl | e
      · exact hv
      · exact (R.alive q (by simp [e])).2

/-- `link_next` of a new node at the sentinel. -/
theorem rep_linkNext {s : St α} {L : Slot → Option (Con α)} {lo : List Nat} {n : Nat} {v : α} (h : Rep s L (n :: lo)) {l : Slot} {xs : Con α}
    (hl : L l = some xs) (hv : s.val (.node n) = some v) :
    ∃ n' p', linkNext s (.sent l) (.node n) = .ok (relink s n' p') ∧ Rep (relink s n' p') (upd L l (some ((n, v) :: xs))) lo := by
  have R := h.ring l _ hl
  have hnl : s.live (.node n) = true := (h.nodes n).2 (.inr (by simp))
  have hni : n ∉ ids xs := fun hm => h.lodisj l _ n hl hm (by simp)
  refine ⟨_, _, linkNext_some R.sent hnl (hd_live R (List.nil_append xs).symm) (seg_first R.seg).1, ?_⟩
  refine rep_relink h hl ?_ ?_ ?_ ?_
  · intro a h1 h2 h3
    have ha1 : a ≠ .node n := h3 n (by simp)
    have ha3 : a ≠ hd (nodes xs) (.sent l) := by
      rintro rfl; rcases posOf_in (l := l) xs with e | e
      · exact h1 e
      · exact h2 e
    rw [upd_ne _ _ h1, upd_ne _ _ ha1, upd_ne _ _ ha1, upd_ne _ _ ha3]
    exact ⟨rfl, rfl⟩
  · exact seg_cons R.seg (by simp) (nodes_nodup.2 R.nodup) (by simp) (by simp) (by simp) (by simpa using hni)
  · simp only [ids_cons, List.cons_append]
    exact (List.perm_middle).symm
  · intro q hq
    rcases List.mem_cons.1 hq with rfl | e
    · exact hv
    · exact (R.alive q e).2

/-- Taking nodes out of the middle, whatever happens to their own links. -/
theorem rep_cut {s : St α} {L : Slot → Option (Con α)} {lo : List Nat} (h : Rep s L lo) {l : Slot} {xs ms ys : Con α}
    (hl : L l = some (xs ++ (ms ++ ys))) {n' p' : Addr → Option Addr}
    (hn : ∀ a, a ∉ nodes ms → a ≠ lst (.sent l) (nodes xs) → n' a = s.nxt a) (hn2 : n' (lst (.sent l) (nodes xs)) = some (posOf l ys))
    (hp : ∀ a, a ∉ nodes ms → a ≠ posOf l ys → p' a = s.prv a) (hp2 : p' (posOf l ys) = some (lst (.sent l) (nodes xs))) :
    Rep (relink s n' p') (upd L l (some (xs ++ ys))) (ids ms ++ lo) := by
  have R := h.ring l _ hl
  have hnd := R.nodup
  simp only [ids_append] at hnd
  rw [List.nodup_append, List.nodup_append] at hnd
  obtain ⟨d1, ⟨d2, d3, d4⟩, d5⟩ := hnd
  have dxy : (nodes (xs ++ ys)).Nodup := by
    rw [nodes_nodup, ids_append, List.nodup_append]
    exact ⟨d1, d3, fun a ha b hb => d5 a ha b (by simp [hb])⟩
  have dm : ∀ k, k ∈ ids ms → k ∉ ids xs ∧ k ∉ ids ys := by
    intro k hk
    exact ⟨fun hx => d5 k hx k (by simp [hk]) rfl, fun hy => d4 k hk k hy rfl⟩
  refine rep_relink h hl ?_ ?_ ?_ ?_
  · intro a h1 h2 _
    simp only [nodes_append, List.mem_append, not_or] at h2
    refine ⟨hn a h2.2.1 ?_, hp a h2.2.1 ?_⟩
    · rintro rfl; rcases lst_in (l := l) xs with e | e
      · exact h1 e
      · exact h2.1 e
    · rintro rfl; rcases posOf_in (l := l) ys with e | e
      · exact h1 e
      · exact h2.2.2 e
  · have hseg := R.seg
    rw [nodes_append, nodes_append] at hseg
    rw [nodes_append] at dxy ⊢
    refine seg_cut hseg dxy (by simp) (by simp) n' p' ?_ hn2 ?_ hp2
    · intro z hz hne
      refine hn z ?_ hne
      intro hm
      obtain ⟨k, rfl, hk⟩ := mem_nodes.1 hm
      simp only [List.cons_append, List.mem_cons, List.mem_append, node_mem] at hz
      rcases hz with e | e | e
      · cases e
      · exact (dm k hk).1 e
      · exact (dm k hk).2 e
    · intro z hz hne
      refine hp z ?_ hne
      intro hm
      obtain ⟨k, rfl, hk⟩ := mem_nodes.1 hm
      simp only [List.mem_append, node_mem, List.mem_singleton] at hz
      rcases hz with (e | e) | e
      · exact (dm k hk).1 e
      · exact (dm k hk).2 e
      · cases e
  · simp only [ids_append, List.append_assoc]
    refine List.Perm.append_left _ ?_
    rw [← List.append_assoc, ← List.append_assoc]
    exact List.Perm.append_right _ List.perm_append_comm
  · intro q hq
    refine (R.alive q ?_).2
    rcases List.mem_append.1 hq with e | e <;> simp [e]

/-- `unlink` of an element. -/
theorem rep_unlink {s : St α} {L : Slot → Option (Con α)} {lo : List Nat} {n : Nat} {v : α} (h : Rep s L lo) {l : Slot} {xs ys : Con α}
    (hl : L l = some (xs ++ (n, v) :: ys)) :
    ∃ n' p', unlink s (.node n) = .ok (relink s n' p') ∧ Rep (relink s n' p') (upd L l (some (xs ++ ys))) (n :: lo) := by
  have R := h.ring l _ hl
  have hnd := nodup_mid R.nodup
  have hlst : lst (.sent l) (nodes xs) ≠ .node n := by
    rcases lst_in (l := l) xs with e | e
    · rw [e]; simp
    · intro e'; rw [e'] at e; exact hnd.1 (node_mem.1 e)
  have hpos : posOf l ys ≠ .node n := by
    rcases posOf_in (l := l) ys with e | e
    · rw [e]; simp
    · intro e'; rw [e'] at e; exact hnd.2.1 (node_mem.1 e)
  refine ⟨_, _, unlink_ok (ring_live R (.inr (by simp))) (lst_live R rfl) (hd_live R (show xs ++ (n, v) :: ys = (xs ++ [(n, v)]) ++ ys by simp))
    (ring_next R) (ring_posOf_prv (ys := (n, v) :: ys) R) (Ne.symm hpos), ?_⟩
  refine rep_cut (ms := [(n, v)]) h (by simpa using hl) ?_ ?_ ?_ ?_
  · intro a h1 h2
    have : a ≠ .node n := by rintro rfl; simp at h1
    rw [upd_ne _ _ this, upd_ne _ _ h2]
  · rw [upd_ne _ _ hlst, upd_same]; rfl
  · intro a h1 h2
    have : a ≠ .node n := by rintro rfl; simp at h1
    rw [upd_ne _ _ this]; exact upd_ne _ _ h2
  · show upd _ _ _ (posOf l ys) = _
    rw [upd_ne _ _ hpos]; exact upd_same _ _ _

theorem relink_relink (t : St α) (n p n' p' : Addr → Option Addr) : relink (relink t n p) n' p' = relink t n' p' := rfl

/-! The member functions. -/

theorem getSize_ok {s : St α} {L : Slot → Option (Con α)} (h : Full s L) {l : Slot} {xs : Con α} (hl : L l = some xs) :
    getSize s l = .ok xs.length := by
  simp [getSize, (h.rep.ring l xs hl).sent, h.sized l xs hl]

theorem insert_full {s : St α} {L : Slot → Option (Con α)} (h : Full s L) {l : Slot} {xs ys : Con α} (hl : L l = some (xs ++ ys)) (v : α) :
    ∃ s', insert s l (posOf l ys) v = .ok (s', .node s.next) ∧ Full s' (upd L l (some (xs ++ (s.next, v) :: ys))) ∧ s'.next = s.next + 1 := by
  obtain ⟨r1, r2, _⟩ := rep_create h.rep v
  obtain ⟨n', p', e, r⟩ := rep_linkPrv r1 hl r2
  refine ⟨_, ?_, ⟨rep_setSize r l ((xs ++ ys).length + 1), sized_set h.sized rfl l _ _ (by simp; omega)⟩, rfl⟩
  simp only [insert, getSize_ok h hl, Res.ok_bind]
  rw [show createNode s v = (.node s.next, (createNode s v).2) from rfl]
  simp only [e, Res.ok_bind]

theorem emplaceBack_full {s : St α} {L : Slot → Option (Con α)} (h : Full s L) {l : Slot} {xs : Con α} (hl : L l = some xs) (v : α) :
    ∃ s', emplaceBack s l v = .ok s' ∧ Full s' (upd L l (some (xs ++ [(s.next, v)]))) ∧ s'.next = s.next + 1 := by
  obtain ⟨s', e, f, hn⟩ := insert_full (ys := []) h (by simpa using hl) v
  refine ⟨s', ?_, f, hn⟩
  have : insert s l (posOf l ([] : Con α)) v = (do let s' ← emplaceBack s l v; .ok (s', Addr.node s.next)) := by
    simp only [insert, emplaceBack, posOf_nil]
    cases getSize s l with
    | ok k =>
      simp only [Res.ok_bind]
      cases linkPrv (createNode s v).2 (.sent l) (createNode s v).1 <;> rfl
    | _ => rfl
  rw [this] at e
  obtain ⟨t, ht, e2⟩ := Res.bind_eq_ok.1 e
  cases e2; exact ht

theorem emplaceFront_full {s : St α} {L : Slot → Option (Con α)} (h : Full s L) {l : Slot} {xs : Con α} (hl : L l = some xs) (v : α) :
    ∃ s', emplaceFront s l v = .ok s' ∧ Full s' (upd L l (some ((s.next, v) :: xs))) ∧ s'.next = s.next + 1 := by
  obtain ⟨r1, r2, _⟩ := rep_create h.rep v
  obtain ⟨n', p', e, r⟩ := rep_linkNext r1 hl r2
  refine ⟨_, ?_, ⟨rep_setSize r l (xs.length + 1), sized_set h.sized rfl l _ _ (by simp)⟩, rfl⟩
  simp only [emplaceFront, getSize_ok h hl, Res.ok_bind]
  rw [show createNode s v = (.node s.next, (createNode s v).2) from rfl]
  simp only [e, Res.ok_bind]

theorem kill_ok {s : St α} {L : Slot → Option (Con α)} {lo : List Nat} {n : Nat} (h : Rep s L (n :: lo)) :
    destroyNode s (.node n) = .ok (killAll s [n]) := destroyNode_ok ((h.nodes n).2 (.inr (by simp)))

theorem erase_full (lax : Bool) {s : St α} {L : Slot → Option (Con α)} (h : Full s L) {l : Slot} {xs ys : Con α} {n : Nat} {v : α}
    (hl : L l = some (xs ++ (n, v) :: ys)) :
    ∃ s', erase lax s l (.node n) = .ok (s', posOf l ys) ∧ Full s' (upd L l (some (xs ++ ys))) ∧ s'.next = s.next := by
  have R := h.rep.ring l _ hl
  obtain ⟨n', p', e, r⟩ := rep_unlink h.rep hl
  have r2 := rep_setSize r l ((xs ++ (n, v) :: ys).length - 1)
  refine ⟨killAll (setSize (relink s n' p') l ((xs ++ (n, v) :: ys).length - 1)) [n], ?_, ⟨rep_kill [n] r2, ?_⟩, rfl⟩
  · simp only [erase, getSize_ok h hl, Res.ok_bind, getNext_ok (ring_live R (.inr (by simp))) (ring_next R), e, kill_ok r2, nonNull]
  · have := sized_set (s' := killAll (relink s n' p') [n]) h.sized rfl l (xs ++ ys) ((xs ++ (n, v) :: ys).length - 1) (by simp)
    exact this

theorem popFront_full (lax : Bool) {s : St α} {L : Slot → Option (Con α)} (h : Full s L) {l : Slot} {xs : Con α} (hl : L l = some xs) :
    ∃ s', popFront lax s l = .ok s' ∧ Full s' (upd L l (some xs.tail)) ∧ s'.next = s.next := by
  cases xs with
  | nil =>
    refine ⟨s, by simp [popFront, getSize_ok h hl], ?_, rfl⟩
    have : upd L l (some ([] : Con α)) = L := by rw [← hl]; exact upd_self _ _
    rw [List.tail_nil, this]; exact h
  | cons p ys =>
    have R := h.rep.ring l _ hl
    obtain ⟨n', p', e, r⟩ := rep_unlink (xs := []) h.rep hl
    refine ⟨setSize (killAll (relink s n' p') [p.1]) l ((p :: ys).length - 1), ?_, ⟨rep_setSize (rep_kill [p.1] r) _ _, ?_⟩, rfl⟩
    · simp only [popFront, getSize_ok h hl, Res.ok_bind, getNext_ok R.sent (seg_first R.seg).1, nonNull]
      rw [if_neg (by simp)]
      simp only [nodes_cons, hd_cons, e, kill_ok r, Res.ok_bind]
    · exact sized_set (s' := killAll (relink s n' p') [p.1]) h.sized rfl l ys ((p :: ys).length - 1) (by simp)

theorem popBack_full (lax : Bool) {s : St α} {L : Slot → Option (Con α)} (h : Full s L) {l : Slot} {xs : Con α} (hl : L l = some xs) :
    ∃ s', popBack lax s l = .ok s' ∧ Full s' (upd L l (some xs.dropLast)) ∧ s'.next = s.next := by
  rcases List.eq_nil_or_concat xs with rfl | ⟨ys, p, rfl⟩
  · refine ⟨s, by simp [popBack, getSize_ok h hl], ?_, rfl⟩
    have : upd L l (some ([] : Con α)) = L := by rw [← hl]; exact upd_self _ _
    rw [List.dropLast_nil, this]; exact h
  · rw [List.concat_eq_append] at hl ⊢
    have R := h.rep.ring l _ hl
    obtain ⟨n', p', e, r⟩ := rep_unlink (ys := []) h.rep hl
    have hlast : s.prv (.sent l) = some (.node p.1) := by
      have := ring_posOf_prv (ys := []) (xs := ys ++ [p]) (by simpa using R)
      rw [posOf_nil] at this; rw [this]
      simp [lst, nodes]
    refine ⟨setSize (killAll (relink s n' p') [p.1]) l ((ys ++ [p]).length - 1), ?_, ⟨rep_setSize (rep_kill [p.1] ?_) _ _, ?_⟩, rfl⟩
    · simp only [popBack, getSize_ok h hl, Res.ok_bind, getPrv_ok R.sent hlast, nonNull]
      rw [if_neg (by simp)]
      simp only [e, kill_ok r, Res.ok_bind]
    · simpa using r
    · exact sized_set (s' := killAll (relink s n' p') [p.1]) h.sized rfl l _ ((ys ++ [p]).length - 1) (by simp)

/-! Deleting many nodes. -/

/-- From each of `xs` the `next_` link leads to the next, from the last to `b`. -/
def Fwd (n : Addr → Option Addr) : List Addr → Option Addr → Prop
  | [], _ => True
  | x :: xs, b => n x = xs.head?.or b ∧ Fwd n xs b

theorem seg_fwd {n p : Addr → Option Addr} {a b : Addr} {xs : List Addr} (h : Seg n p a xs b) : Fwd n xs (some b) := by
  induction xs generalizing a with
  | nil => trivial
  | cons x xs ih =>
    refine ⟨?_, ih h.2.2⟩
    rw [(seg_first h.2.2).1]
    cases xs <;> rfl

theorem fwd_append {n : Addr → Option Addr} {b : Option Addr} {xs ys : List Addr} (h : Fwd n (xs ++ ys) b) : Fwd n xs (ys.head?.or b) ∧ Fwd n ys b := by
  induction xs with
  | nil => exact ⟨trivial, h⟩
  | cons x xs ih =>
    obtain ⟨h1, h2⟩ := ih h.2
    refine ⟨⟨?_, h1⟩, h2⟩
    rw [h.1]
    cases xs <;> simp

theorem fwd_frame {n n' : Addr → Option Addr} {b : Option Addr} {xs : List Addr} (h : Fwd n xs b) (hn : ∀ x ∈ xs, n' x = n x) : Fwd n' xs b := by
  induction xs with
  | nil => trivial
  | cons x xs ih => exact ⟨by rw [hn x (by simp)]; exact h.1, ih h.2 fun y hy => hn y (by simp [hy])⟩

theorem fwd_end {n n' : Addr → Option Addr} {b c : Option Addr} {x : Addr} {xs : List Addr} (h : Fwd n (x :: xs) b) (hnd : (x :: xs).Nodup)
    (hn : ∀ y ∈ x :: xs, y ≠ lst x xs → n' y = n y) (hl : n' (lst x xs) = c) : Fwd n' (x :: xs) c := by
  induction xs generalizing x with
  | nil => exact ⟨by simpa using hl, trivial⟩
  | cons y ys ih =>
    have hx := List.nodup_cons.1 hnd
    rw [lst_cons] at hl hn
    refine ⟨?_, ih h.2 hx.2 (fun z hz hne => hn z (List.mem_cons_of_mem _ hz) hne) hl⟩
    rw [hn x (by simp) ?_, h.1]; rfl
    intro e
    have := lst_mem y ys
    rw [← e] at this; exact hx.1 this

theorem eraseLoop_ok (lax : Bool) (last : Addr) (ms : Con α) (s : St α) (k fuel : Nat) (hf : ms.length < fuel) (hfwd : Fwd s.nxt (nodes ms) (some last))
    (hl : ∀ m ∈ ids ms, s.live (.node m) = true) (hnd : (ids ms).Nodup) (hlast : last ∉ nodes ms) :
    eraseLoop lax fuel s (some (hd (nodes ms) last)) last k = .ok (killAll s (ids ms), k + ms.length) := by
  induction ms generalizing s k fuel with
  | nil =>
    obtain ⟨f, rfl⟩ : ∃ f, fuel = f + 1 := ⟨fuel - 1, by simp at hf; omega⟩
    simp [eraseLoop, killAll]
  | cons m ms ih =>
    obtain ⟨f, rfl⟩ : ∃ f, fuel = f + 1 := ⟨fuel - 1, by omega⟩
    simp only [nodes_cons, List.mem_cons, not_or] at hlast
    simp only [ids_cons] at hnd hl
    have hm := List.nodup_cons.1 hnd
    have hnx : s.nxt (.node m.1) = some (hd (nodes ms) last) := by
      rw [hfwd.1]; cases ms <;> rfl
    simp only [nodes_cons, hd_cons, eraseLoop, Option.some.injEq, if_neg (Ne.symm hlast.1), nonNull, Res.ok_bind,
      getNext_ok (hl m.1 (by simp)) hnx, destroyNode_ok (hl m.1 (by simp))]
    rw [ih { s with live := upd s.live (.node m.1) false, freed := m.1 :: s.freed } _ _ (by simp at hf; omega) hfwd.2 ?_ hm.2 hlast.2]
    · simp only [ids_cons, killAll, List.length_cons]; congr 2; omega
    · intro k hk
      have : k ≠ m.1 := by rintro rfl; exact hm.1 hk
      show upd s.live _ _ _ = true
      rw [upd_ne _ _ (by simpa using this)]; exact hl k (by simp [hk])

theorem clearLoop_ok (ms : Con α) (s : St α) (fuel : Nat) (hf : ms.length < fuel) (hfwd : Fwd s.nxt (nodes ms) none)
    (hl : ∀ m ∈ ids ms, s.live (.node m) = true) (hnd : (ids ms).Nodup) :
    clearLoop true fuel s (nodes ms).head? = .ok (killAll s (ids ms)) := by
  induction ms generalizing s fuel with
  | nil =>
    obtain ⟨f, rfl⟩ : ∃ f, fuel = f + 1 := ⟨fuel - 1, by simp at hf; omega⟩
    simp [clearLoop, killAll]
  | cons m ms ih =>
    obtain ⟨f, rfl⟩ : ∃ f, fuel = f + 1 := ⟨fuel - 1, by omega⟩
    simp only [ids_cons] at hnd hl
    have hm := List.nodup_cons.1 hnd
    have hnx : getNext true s (.node m.1) = .ok (nodes ms).head? := by
      simp only [getNext, rdNext_ok (hl m.1 (by simp)), Res.ok_bind, hfwd.1]
      cases ms <;> simp
    simp only [nodes_cons, List.head?_cons, clearLoop, hnx, Res.ok_bind, destroyNode_ok (hl m.1 (by simp))]
    rw [ih { s with live := upd s.live (.node m.1) false, freed := m.1 :: s.freed } _ (by simp at hf; omega) hfwd.2 ?_ hm.2]
    · rfl
    · intro k hk
      have : k ≠ m.1 := by rintro rfl; exact hm.1 hk
      show upd s.live _ _ _ = true
      rw [upd_ne _ _ (by simpa using this)]; exact hl k (by simp [hk])

theorem eraseRange_full (lax : Bool) {s : St α} {L : Slot → Option (Con α)} (h : Full s L) {l : Slot} {xs ms ys : Con α}
    (hl : L l = some (xs ++ (ms ++ ys))) :
    ∃ s', (∀ fuel, ms.length < fuel → eraseRange lax fuel s l (posOf l (ms ++ ys)) (posOf l ys) = .ok (s', posOf l ys)) ∧
      Full s' (upd L l (some (xs ++ ys))) ∧ s'.next = s.next := by
  have R := h.rep.ring l _ hl
  have hnd := R.nodup
  simp only [ids_append] at hnd
  rw [List.nodup_append, List.nodup_append] at hnd
  obtain ⟨d1, ⟨d2, d3, d4⟩, d5⟩ := hnd
  have hprv := ring_posOf_prv R
  have hnxt := ring_lst_nxt R
  have hla : s.live (lst (.sent l) (nodes xs)) = true := lst_live R rfl
  have hlf : s.live (posOf l (ms ++ ys)) = true := hd_live R rfl
  have hll : s.live (posOf l ys) = true := hd_live R (show xs ++ (ms ++ ys) = (xs ++ ms) ++ ys by simp)
  have hlast : posOf l ys ∉ nodes ms := by
    intro hm
    rcases posOf_in (l := l) ys with e | e
    · rw [e] at hm; exact sent_mem hm
    · obtain ⟨k, ek, hk⟩ := mem_nodes.1 e
      rw [ek] at hm; exact d4 k (node_mem.1 hm) k hk rfl
  have hfirst : lst (.sent l) (nodes xs) ∉ nodes ms := by
    intro hm
    rcases lst_in (l := l) xs with e | e
    · rw [e] at hm; exact sent_mem hm
    · obtain ⟨k, ek, hk⟩ := mem_nodes.1 e
      rw [ek] at hm; exact d5 k hk k (by simp [node_mem.1 hm]) rfl
  have hlm : ∀ m ∈ ids ms, s.live (.node m) = true := fun m hm => ring_live R (.inr (by simp [hm]))
  -- the states
  let n1 := upd s.nxt (lst (.sent l) (nodes xs)) none
  let p1 := upd s.prv (posOf l (ms ++ ys)) none
  let n2 := upd n1 (lst (.sent l) (nodes xs)) (some (posOf l ys))
  let p2 := upd p1 (posOf l ys) (some (lst (.sent l) (nodes xs)))
  have hfwd : Fwd n1 (nodes ms) (some (posOf l ys)) := by
    have h1 := seg_fwd R.seg
    rw [nodes_append, nodes_append] at h1
    have h2 := (fwd_append (fwd_append h1).2).1
    have e : (nodes ys).head?.or (some (.sent l)) = some (posOf l ys) := by cases ys <;> rfl
    rw [e] at h2
    refine fwd_frame h2 ?_
    intro x hx
    refine upd_ne _ _ ?_
    rintro rfl; exact hfirst hx
  have hdel : posOf l (ms ++ ys) = hd (nodes ms) (posOf l ys) := by cases ms <;> rfl
  have hkl : ∀ a, a ∉ nodes ms → (killAll s (ids ms)).live a = s.live a := by
    intro a ha
    refine killAll_live s _ a ?_
    rintro k hk rfl; exact ha (node_mem.2 hk)
  have hcut : Rep (relink s n2 p2) (upd L l (some (xs ++ ys))) (ids ms ++ []) := by
    refine rep_cut h.rep hl ?_ (upd_same _ _ _) ?_ (upd_same _ _ _)
    · intro a _ h2
      show upd _ _ _ _ = _
      rw [upd_ne _ _ h2]; exact upd_ne _ _ h2
    · intro a h1 h2
      show upd _ _ _ _ = _
      rw [upd_ne _ _ h2]
      refine upd_ne _ _ ?_
      rw [hdel]
      rintro rfl
      cases ms with
      | nil => exact h2 rfl
      | cons m ms => simp at h1
  have hk := rep_kill (ids ms) hcut
  refine ⟨setSize (relink (killAll s (ids ms)) n2 p2) l ((xs ++ (ms ++ ys)).length - ms.length), ?_,
    ⟨rep_setSize (by rw [← killAll_relink]; exact hk) _ _, ?_⟩, (killAll_fields s (ids ms)).2.2.2.1⟩
  · intro fuel hf
    simp only [eraseRange, getSize_ok h hl, Res.ok_bind, getPrv_ok hlf hprv, nonNull, unlinkNext_some hla hlf hnxt]
    have := eraseLoop_ok lax (posOf l ys) ms (relink s n1 p1) 0 fuel hf hfwd hlm d2 hlast
    rw [← hdel] at this
    rw [this]
    simp only [Res.ok_bind, killAll_relink, Nat.zero_add]
    rw [linkNext_none (by show (killAll s (ids ms)).live _ = true; rw [hkl _ hfirst]; exact hla)
      (by show (killAll s (ids ms)).live _ = true; rw [hkl _ hlast]; exact hll) (by show n1 _ = none; exact upd_same _ _ _)]
    rfl
  · exact sized_set (s' := relink (killAll s (ids ms)) n2 p2) h.sized (killAll_fields s (ids ms)).2.2.2.2 l _ _ (by simp; omega)

theorem clear_full {s : St α} {L : Slot → Option (Con α)} (h : Full s L) {l : Slot} {xs : Con α} (hl : L l = some xs) :
    ∃ s', (∀ fuel, xs.length < fuel → clear true fuel s l = .ok s') ∧ Full s' (upd L l (some [])) ∧ s'.next = s.next := by
  cases xs with
  | nil =>
    refine ⟨s, fun fuel _ => by simp [clear, getSize_ok h hl], ?_, rfl⟩
    have : upd L l (some ([] : Con α)) = L := by rw [← hl]; exact upd_self _ _
    rw [this]; exact h
  | cons p xs =>
    have R := h.rep.ring l _ hl
    have hseg := R.seg
    have hlst := seg_last hseg
    have hfst := seg_first hseg
    rw [nodes_cons, lst_cons] at hlst
    simp only [nodes_cons, hd_cons] at hfst
    have hin : lst (Addr.node p.1) (nodes xs) ∈ nodes (p :: xs) := lst_mem _ _
    have hne : lst (Addr.node p.1) (nodes xs) ≠ .sent l := by intro e; rw [e] at hin; exact sent_mem hin
    let n2 := upd (upd (upd s.nxt (lst (Addr.node p.1) (nodes xs)) none) (.sent l) none) (.sent l) (some (.sent l))
    let p2 := upd (upd (upd s.prv (.sent l) none) (.node p.1) none) (.sent l) (some (.sent l))
    have hfwd : Fwd n2 (nodes (p :: xs)) none := by
      rw [nodes_cons]
      refine fwd_end (by rw [← nodes_cons]; exact seg_fwd hseg) (by rw [← nodes_cons]; exact nodes_nodup.2 R.nodup) ?_ ?_
      · intro y hy hyl
        rw [← nodes_cons] at hy
        have : y ≠ .sent l := by rintro rfl; exact sent_mem hy
        show upd _ _ _ _ = _
        rw [upd_ne _ _ this, upd_ne _ _ this, upd_ne _ _ hyl]
      · show upd _ _ _ _ = _
        rw [upd_ne _ _ hne, upd_ne _ _ hne]; exact upd_same _ _ _
    have hcut : Rep (relink s n2 p2) (upd L l (some ([] ++ []))) (ids (p :: xs) ++ []) := by
      refine rep_cut (xs := []) (ys := []) h.rep (by simpa using hl) ?_ (upd_same _ _ _) ?_ (upd_same _ _ _)
      · intro a h1 h2
        replace h2 : a ≠ .sent l := h2
        show upd _ _ _ _ = _
        rw [upd_ne _ _ h2, upd_ne _ _ h2, upd_ne _ _ (by rintro rfl; exact h1 hin)]
      · intro a h1 h2
        replace h2 : a ≠ .sent l := h2
        show upd _ _ _ _ = _
        rw [upd_ne _ _ h2, upd_ne _ _ (by rintro rfl; simp at h1), upd_ne _ _ h2]
    have hk := rep_kill _ hcut
    have hlm : ∀ m ∈ ids (p :: xs), s.live (.node m) = true := fun m hm => ring_live R (.inr (by rw [node_mem]; exact hm))
    refine ⟨setSize (killAll (relink s n2 p2) (ids (p :: xs))) l 0, ?_, ⟨rep_setSize hk _ _, ?_⟩, (killAll_fields _ _).2.2.2.1⟩
    · intro fuel hf
      simp only [clear, getSize_ok h hl, Res.ok_bind]
      rw [if_neg (by simp)]
      simp only [getNext_ok R.sent hfst.1, getPrv_ok R.sent hlst.2, Res.ok_bind, unlinkPrv_some R.sent (ring_live R (.inr hin)) hlst.2]
      have hs : ∀ n' p', (relink s n' p').live (.sent l) = true := fun _ _ => R.sent
      have hp : ∀ n' p', (relink s n' p').live (.node p.1) = true := fun _ _ => ring_live R (.inr (by simp))
      rw [unlinkNext_some (q := .node p.1) (hs _ _) (hp _ _) (by
        show upd _ _ _ _ = _
        rw [upd_ne _ _ (Ne.symm hne)]; exact hfst.1)]
      simp only [Res.ok_bind, relink_relink]
      rw [linkNext_none (hs _ _) (hs _ _) (by simp [relink, upd])]
      simp only [Res.ok_bind, relink_relink]
      rw [linkPrv_some (q := .sent l) (hs _ _) (hs _ _) (hs _ _) (by simp [relink, upd])]
      simp only [Res.ok_bind, relink_relink]
      have := clearLoop_ok (p :: xs) (relink s n2 p2) fuel hf hfwd hlm R.nodup
      simp only [relink] at this ⊢
      simp only [upd_upd]
      simp only [n2, p2, upd_upd] at this
      rw [show (nodes (p :: xs)).head? = some (.node p.1) from rfl] at this
      simp only [n2, p2, upd_upd, this, Res.ok_bind]
    · exact sized_set (s' := killAll (relink s n2 p2) (ids (p :: xs))) h.sized (killAll_fields _ _).2.2.2.2 l _ _ rfl

theorem ctor_full {s : St α} {L : Slot → Option (Con α)} (h : Full s L) {l : Slot} (hl : L l = none) :
    ∃ s', ctor s l = .ok s' ∧ Full s' (upd L l (some [])) ∧ s'.next = s.next := by
  have hd := h.rep.dead l hl
  refine ⟨{ s with nxt := upd (upd s.nxt (.sent l) none) (.sent l) (some (.sent l)),
                   prv := upd (upd s.prv (.sent l) none) (.sent l) (some (.sent l)),
                   live := upd s.live (.sent l) true, size := upd s.size l 0 }, ?_, ?_, ?_⟩
  · simp only [ctor, hd, Bool.false_eq_true, if_false]
    rw [linkNext_none (upd_same _ _ _) (upd_same _ _ _) (upd_same _ _ _)]
    rfl
  · have key : ∀ r ys, upd L l (some []) r = some ys → (r = l ∧ ys = []) ∨ (r ≠ l ∧ L r = some ys) := by
      intro r ys hr
      by_cases e : r = l
      · subst e; rw [upd_same] at hr; cases hr; exact .inl ⟨rfl, rfl⟩
      · rw [upd_ne _ _ e] at hr; exact .inr ⟨e, hr⟩
    have ex : ∀ n, (∃ r ys, upd L l (some []) r = some ys ∧ n ∈ ids ys) ↔ (∃ r ys, L r = some ys ∧ n ∈ ids ys) := by
      intro n
      constructor
      · rintro ⟨r, ys, hr, hn⟩
        rcases key r ys hr with ⟨_, rfl⟩ | ⟨_, hr⟩
        · simp at hn
        · exact ⟨r, ys, hr, hn⟩
      · rintro ⟨r, ys, hr, hn⟩
        have : r ≠ l := by rintro rfl; rw [hl] at hr; cases hr
        exact ⟨r, ys, by rw [upd_ne _ _ this]; exact hr, hn⟩
    refine ⟨⟨?_, ?_, ?_, h.rep.lonodup, ?_, ?_, ?_, ?_, h.rep.fnodup, h.rep.sentval⟩, ?_⟩
    · intro r ys hr
      rcases key r ys hr with ⟨rfl, rfl⟩ | ⟨e, hr⟩
      · exact ⟨upd_same _ _ _, ⟨upd_same _ _ _, upd_same _ _ _⟩, (by simp), (by simp)⟩
      · have R := h.rep.ring r ys hr
        have hne : ∀ a : Addr, a = .sent r ∨ a ∈ nodes ys → a ≠ .sent l := by
          rintro a (rfl | ha) e'
          · cases e'; exact e rfl
          · subst e'; exact sent_mem ha
        refine ⟨?_, seg_frame R.seg ?_ ?_, ?_, R.nodup⟩
        · show upd s.live _ _ _ = true
          rw [upd_ne _ _ (by simpa using e)]; exact R.sent
        · intro a ha
          have := hne a (List.mem_cons.1 ha)
          show upd _ _ _ _ = _
          rw [upd_ne _ _ this, upd_ne _ _ this]
        · intro a ha
          have := hne a ((List.mem_append.1 ha).elim .inr fun h => .inl (List.mem_singleton.1 h))
          show upd _ _ _ _ = _
          rw [upd_ne _ _ this, upd_ne _ _ this]
        · intro q hq
          refine ⟨?_, (R.alive q hq).2⟩
          show upd s.live (.sent l) true (.node q.1) = true
          rw [upd_ne _ _ (by simp)]; exact (R.alive q hq).1
    · intro r hr
      have : r ≠ l := by rintro rfl; rw [upd_same] at hr; cases hr
      rw [upd_ne _ _ this] at hr
      show upd s.live _ _ _ = false
      rw [upd_ne _ _ (by simpa using this)]; exact h.rep.dead r hr
    · intro r r' ys zs n hr hr' h1 h2
      rcases key r ys hr with ⟨_, rfl⟩ | ⟨e, hr⟩
      · simp at h1
      · rcases key r' zs hr' with ⟨_, rfl⟩ | ⟨e, hr'⟩
        · simp at h2
        · exact h.rep.disj r r' ys zs n hr hr' h1 h2
    · intro r ys n _ _ hn; cases hn
    · intro n
      show upd s.live (.sent l) true (.node n) = true ↔ _
      rw [upd_ne _ _ (by simp), ex]; exact h.rep.nodes n
    · intro n hn
      have hn' : upd s.live (.sent l) true (.node n) = true := hn
      rw [upd_ne _ _ (by simp)] at hn'
      exact h.rep.bound n hn'
    · intro n
      show n ∈ s.freed ↔ n < s.next ∧ upd s.live (.sent l) true (.node n) = false
      rw [upd_ne _ _ (by simp)]; exact h.rep.freed n
    · intro r ys hr
      rcases key r ys hr with ⟨rfl, rfl⟩ | ⟨e, hr⟩
      · exact upd_same _ _ _
      · show upd _ _ _ _ = _
        rw [upd_ne _ _ e]; exact h.sized r ys hr
  · rfl

theorem kill_sent_full {s : St α} {L : Slot → Option (Con α)} (h : Full s L) {l : Slot} (hl : L l = some []) :
    Full { s with live := upd s.live (.sent l) false } (upd L l none) := by
  have key : ∀ r ys, upd L l none r = some ys → r ≠ l ∧ L r = some ys := by
    intro r ys hr
    have : r ≠ l := by rintro rfl; rw [upd_same] at hr; cases hr
    rw [upd_ne _ _ this] at hr; exact ⟨this, hr⟩
  have ex : ∀ n, (∃ r ys, upd L l none r = some ys ∧ n ∈ ids ys) ↔ (∃ r ys, L r = some ys ∧ n ∈ ids ys) := by
    intro n
    constructor
    · rintro ⟨r, ys, hr, hn⟩; exact ⟨r, ys, (key r ys hr).2, hn⟩
    · rintro ⟨r, ys, hr, hn⟩
      have : r ≠ l := by rintro rfl; rw [hl] at hr; cases hr; simp at hn
      exact ⟨r, ys, by rw [upd_ne _ _ this]; exact hr, hn⟩
  refine ⟨⟨?_, ?_, ?_, h.rep.lonodup, ?_, ?_, ?_, ?_, h.rep.fnodup, h.rep.sentval⟩, ?_⟩
  · intro r ys hr
    obtain ⟨e, hr⟩ := key r ys hr
    have R := h.rep.ring r ys hr
    refine ⟨?_, R.seg, ?_, R.nodup⟩
    · show upd s.live _ _ _ = true
      rw [upd_ne _ _ (by simpa using e)]; exact R.sent
    · intro q hq
      refine ⟨?_, (R.alive q hq).2⟩
      show upd s.live (.sent l) false (.node q.1) = true
      rw [upd_ne _ _ (by simp)]; exact (R.alive q hq).1
  · intro r hr
    show upd s.live _ _ _ = false
    by_cases e : r = l
    · subst e; exact upd_same _ _ _
    · rw [upd_ne _ _ (by simpa using e)]
      rw [upd_ne _ _ e] at hr; exact h.rep.dead r hr
  · intro r r' ys zs n hr hr'
    exact h.rep.disj r r' ys zs n (key r ys hr).2 (key r' zs hr').2
  · intro r ys n _ _ hn; cases hn
  · intro n
    show upd s.live (.sent l) false (.node n) = true ↔ _
    rw [upd_ne _ _ (by simp), ex]; exact h.rep.nodes n
  · intro n hn
    have hn' : upd s.live (.sent l) false (.node n) = true := hn
    rw [upd_ne _ _ (by simp)] at hn'
    exact h.rep.bound n hn'
  · intro n
    show n ∈ s.freed ↔ n < s.next ∧ upd s.live (.sent l) false (.node n) = false
    rw [upd_ne _ _ (by simp)]; exact h.rep.freed n
  · intro r ys hr
    exact h.sized r ys (key r ys hr).2

theorem dtor_full {s : St α} {L : Slot → Option (Con α)} (h : Full s L) {l : Slot} {xs : Con α} (hl : L l = some xs) :
    ∃ s', (∀ fuel, xs.length < fuel → dtor true fuel s l = .ok s') ∧ Full s' (upd L l none) ∧ s'.next = s.next := by
  obtain ⟨s1, e, f, hn⟩ := clear_full h hl
  refine ⟨{ s1 with live := upd s1.live (.sent l) false }, ?_, ?_, hn⟩
  · intro fuel hf
    simp only [dtor, e fuel hf, Res.ok_bind]
  · have := kill_sent_full f (upd_same _ _ _)
    rw [upd_upd] at this; exact this

end Verif.EList
