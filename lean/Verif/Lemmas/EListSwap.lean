import Verif.Lemmas.EListOps

/-! `swap` of two lists. -/

set_option backward.isDefEq.respectTransparency false

namespace Verif.EList
open Verif Verif.Box

variable {α : Type}

/-- The links after `unlink_next` and `unlink_prv` of a sentinel. -/
def detN (l : Slot) (xs : Con α) (n : Addr → Option Addr) : Addr → Option Addr := upd (upd n (.sent l) none) (lst (.sent l) (nodes xs)) none
def detP (l : Slot) (xs : Con α) (p : Addr → Option Addr) : Addr → Option Addr := upd (upd p (hd (nodes xs) (.sent l)) none) (.sent l) none
/-- The links after `link_next` and `link_prv` of a sentinel with the ends of a chain. -/
def attN (l : Slot) (xs : Con α) (n : Addr → Option Addr) : Addr → Option Addr :=
  upd (upd n (.sent l) (some (hd (nodes xs) (.sent l)))) (lst (.sent l) (nodes xs)) (some (.sent l))
def attP (l : Slot) (xs : Con α) (p : Addr → Option Addr) : Addr → Option Addr :=
  upd (upd p (hd (nodes xs) (.sent l)) (some (.sent l))) (.sent l) (some (lst (.sent l) (nodes xs)))

theorem relink_nxt (s : St α) (n p : Addr → Option Addr) : (relink s n p).nxt = n := rfl
theorem relink_prv (s : St α) (n p : Addr → Option Addr) : (relink s n p).prv = p := rfl

theorem lst_ne {l : Slot} {xs : Con α} {a : Addr} (h1 : a ≠ .sent l) (h2 : a ∉ nodes xs) : a ≠ lst (.sent l) (nodes xs) := by
  rintro rfl; exact (lst_in (l := l) xs).elim h1 h2
theorem hd_ne {l : Slot} {xs : Con α} {a : Addr} (h1 : a ≠ .sent l) (h2 : a ∉ nodes xs) : a ≠ hd (nodes xs) (.sent l) := by
  rintro rfl; exact (posOf_in (l := l) xs).elim h1 h2

theorem detN_ne {l : Slot} {xs : Con α} {n : Addr → Option Addr} {a : Addr} (h1 : a ≠ .sent l) (h2 : a ∉ nodes xs) : detN l xs n a = n a := by
  rw [detN, upd_ne _ _ (lst_ne h1 h2), upd_ne _ _ h1]
theorem detP_ne {l : Slot} {xs : Con α} {n : Addr → Option Addr} {a : Addr} (h1 : a ≠ .sent l) (h2 : a ∉ nodes xs) : detP l xs n a = n a := by
  rw [detP, upd_ne _ _ h1, upd_ne _ _ (hd_ne h1 h2)]
theorem attN_ne {l : Slot} {xs : Con α} {n : Addr → Option Addr} {a : Addr} (h1 : a ≠ .sent l) (h2 : a ∉ nodes xs) : attN l xs n a = n a := by
  rw [attN, upd_ne _ _ (lst_ne h1 h2), upd_ne _ _ h1]
theorem attP_ne {l : Slot} {xs : Con α} {n : Addr → Option Addr} {a : Addr} (h1 : a ≠ .sent l) (h2 : a ∉ nodes xs) : attP l xs n a = n a := by
  rw [attP, upd_ne _ _ h1, upd_ne _ _ (hd_ne h1 h2)]

theorem detach_ok {s : St α} {l : Slot} {xs : Con α} (hs : s.live (.sent l) = true) (hx : ∀ a ∈ nodes xs, s.live a = true)
    (h1 : s.nxt (.sent l) = some (hd (nodes xs) (.sent l))) (h2 : s.prv (.sent l) = some (lst (.sent l) (nodes xs))) :
    (do let s ← unlinkNext s (.sent l); unlinkPrv s (.sent l)) = .ok (relink s (detN l xs s.nxt) (detP l xs s.prv)) := by
  have hs' : ∀ n p, (relink s n p).live (.sent l) = true := fun _ _ => hs
  have hx' : ∀ n p, ∀ a ∈ nodes xs, (relink s n p).live a = true := fun _ _ => hx
  cases xs with
  | nil =>
    rw [unlinkNext_some hs hs h1]
    simp only [Res.ok_bind, nodes_nil, hd_nil]
    rw [unlinkPrv_none (hs' _ _) (by simp [relink, upd])]
    simp [relink, detN, detP, upd_upd]
  | cons p xs =>
    have hin : lst (Addr.node p.1) (nodes xs) ∈ nodes (p :: xs) := lst_mem _ _
    rw [unlinkNext_some hs (hx (.node p.1) (by simp)) h1]
    simp only [Res.ok_bind]
    rw [unlinkPrv_some (q := lst (Addr.node p.1) (nodes xs)) (hs' _ _) (hx' _ _ _ hin) ?_]
    · simp [relink, detN, detP]
    · simp only [relink, nodes_cons, hd_cons]
      rw [upd_ne _ _ (by simp), h2]; simp

theorem attach_ok {s : St α} {l : Slot} {xs : Con α} (hs : s.live (.sent l) = true) (hx : ∀ a ∈ nodes xs, s.live a = true)
    (h1 : s.nxt (.sent l) = none) (h2 : s.prv (.sent l) = none) :
    (if xs.length ≠ 0 then do
      let s ← linkNext s (.sent l) (hd (nodes xs) (.sent l))
      linkPrv s (.sent l) (lst (.sent l) (nodes xs))
    else linkNext s (.sent l) (.sent l)) = .ok (relink s (attN l xs s.nxt) (attP l xs s.prv)) := by
  have hs' : ∀ n p, (relink s n p).live (.sent l) = true := fun _ _ => hs
  have hx' : ∀ n p, ∀ a ∈ nodes xs, (relink s n p).live a = true := fun _ _ => hx
  cases xs with
  | nil =>
    rw [if_neg (by simp), linkNext_none hs hs h1]
    simp [relink, attN, attP, upd_upd]
  | cons p xs =>
    have hin : lst (Addr.node p.1) (nodes xs) ∈ nodes (p :: xs) := lst_mem _ _
    rw [if_pos (by simp)]
    simp only [nodes_cons, hd_cons, lst_cons]
    rw [linkNext_none hs (hx (.node p.1) (by simp)) h1]
    simp only [Res.ok_bind]
    rw [linkPrv_none (hs' _ _) (hx' _ _ _ hin) (by simp [relink, upd, h2])]
    simp [relink, attN, attP]

theorem inner_frame' {n p n' p' : Addr → Option Addr} {xs : List Addr} (h : Inner n p xs)
    (hn : ∀ y ∈ xs, n' y = n y) (hp : ∀ y ∈ xs, p' y = p y) : Inner n' p' xs := by
  induction xs with
  | nil => trivial
  | cons x xs ih =>
    cases xs with
    | nil => trivial
    | cons y ys =>
      exact ⟨by rw [hn x (by simp)]; exact h.1, by rw [hp y (by simp)]; exact h.2.1, ih h.2.2 (fun z hz => hn z (by simp [hz])) (fun z hz => hp z (by simp [hz]))⟩

theorem inner_det {n p : Addr → Option Addr} {l : Slot} {xs : Con α} (h : Seg n p (.sent l) (nodes xs) (.sent l)) (hnd : (ids xs).Nodup) :
    Inner (detN l xs n) (detP l xs p) (nodes xs) := by
  cases xs with
  | nil => trivial
  | cons q xs =>
    have hi := (seg_inner.1 (by rw [nodes_cons] at h; exact h)).2.2.1
    rw [nodes_cons]
    refine inner_frame hi (by rw [← nodes_cons]; exact nodes_nodup.2 hnd) ?_ ?_
    · intro y hy hne
      rw [← nodes_cons] at hy
      rw [detN, nodes_cons, lst_cons, upd_ne _ _ hne, upd_ne _ _ (by rintro rfl; exact sent_mem hy)]
    · intro y hy hne
      rw [← nodes_cons] at hy
      rw [detP, nodes_cons, hd_cons, upd_ne _ _ (by rintro rfl; exact sent_mem hy), upd_ne _ _ hne]

theorem seg_att {n p : Addr → Option Addr} (l : Slot) {xs : Con α} (h : Inner n p (nodes xs)) (hnd : (ids xs).Nodup) :
    Seg (attN l xs n) (attP l xs p) (.sent l) (nodes xs) (.sent l) := by
  cases xs with
  | nil => simp [Seg, attN, attP, upd]
  | cons q xs =>
    have hin : lst (Addr.node q.1) (nodes xs) ∈ nodes (q :: xs) := lst_mem _ _
    have hne : lst (Addr.node q.1) (nodes xs) ≠ .sent l := by intro e; rw [e] at hin; exact sent_mem hin
    rw [nodes_cons] at h
    rw [nodes_cons, seg_inner]
    refine ⟨?_, ?_, inner_frame h (by rw [← nodes_cons]; exact nodes_nodup.2 hnd) ?_ ?_, ?_, ?_⟩
    · simp only [attN, nodes_cons, lst_cons, hd_cons]; rw [upd_ne _ _ (Ne.symm hne), upd_same]
    · simp only [attP, nodes_cons, lst_cons, hd_cons]; rw [upd_ne _ _ (by simp), upd_same]
    · intro y hy hne'
      rw [← nodes_cons] at hy
      rw [attN, nodes_cons, lst_cons, upd_ne _ _ hne', upd_ne _ _ (by rintro rfl; exact sent_mem hy)]
    · intro y hy hne'
      rw [← nodes_cons] at hy
      rw [attP, nodes_cons, hd_cons, upd_ne _ _ (by rintro rfl; exact sent_mem hy), upd_ne _ _ hne']
    · simp only [attN, nodes_cons, lst_cons]; rw [upd_same]
    · simp only [attP, nodes_cons, lst_cons]; rw [upd_same]

/-- The links after a swap. -/
def swN (l r : Slot) (xs ys : Con α) (n : Addr → Option Addr) := attN r xs (attN l ys (detN l xs (detN r ys n)))
def swP (l r : Slot) (xs ys : Con α) (p : Addr → Option Addr) := attP r xs (attP l ys (detP l xs (detP r ys p)))

theorem swap_ok (lax : Bool) {s : St α} {L : Slot → Option (Con α)} (h : Full s L) {l r : Slot} {xs ys : Con α} (hlr : l ≠ r)
    (hl : L l = some xs) (hr : L r = some ys) :
    swap lax s l r = .ok (setSize (setSize (relink s (swN l r xs ys s.nxt) (swP l r xs ys s.prv)) l ys.length) r xs.length) := by
  have Rl := h.rep.ring l _ hl
  have Rr := h.rep.ring r _ hr
  have hsl : (Addr.sent l) ≠ .sent r := by simpa using hlr
  have hsr : (Addr.sent r) ≠ .sent l := Ne.symm hsl
  have hlx : ∀ n p, ∀ a ∈ nodes xs, (relink s n p).live a = true := fun n p a ha => ring_live Rl (.inr ha)
  have hly : ∀ n p, ∀ a ∈ nodes ys, (relink s n p).live a = true := fun n p a ha => ring_live Rr (.inr ha)
  have hl0 : ∀ n p, (relink s n p).live (.sent l) = true := fun _ _ => Rl.sent
  have hr0 : ∀ n p, (relink s n p).live (.sent r) = true := fun _ _ => Rr.sent
  have hgl : ∀ n p, getSize (relink s n p) l = .ok xs.length := fun n p => by simpa [getSize, relink] using getSize_ok h hl
  have hgr : ∀ n p, getSize (relink s n p) r = .ok ys.length := fun n p => by simpa [getSize, relink] using getSize_ok h hr
  have f1 := seg_first Rl.seg
  have f2 := seg_last Rl.seg
  have g1 := seg_first Rr.seg
  have g2 := seg_last Rr.seg
  have D1 := detach_ok (xs := ys) Rr.sent (fun a ha => ring_live Rr (.inr ha)) g1.1 g2.2
  obtain ⟨t1, ht1, D1⟩ := Res.bind_eq_ok.1 D1
  have D2 := detach_ok (s := relink s (detN r ys s.nxt) (detP r ys s.prv)) (xs := xs) (hl0 _ _) (hlx _ _)
    (by show detN _ _ _ _ = _; rw [detN_ne hsl sent_mem]; exact f1.1) (by show detP _ _ _ _ = _; rw [detP_ne hsl sent_mem]; exact f2.2)
  obtain ⟨t2, ht2, D2⟩ := Res.bind_eq_ok.1 D2
  simp only [relink_relink] at D2
  have dn : ∀ (q : Slot) (zs : Con α) (n : Addr → Option Addr), detN q zs n (.sent q) = none := by
    intro q zs n
    simp only [detN, upd]; split <;> simp
  have dp : ∀ (q : Slot) (zs : Con α) (n : Addr → Option Addr), detP q zs n (.sent q) = none := by
    intro q zs n
    simp only [detP, upd_same]
  have A1 := attach_ok (s := relink s (detN l xs (detN r ys s.nxt)) (detP l xs (detP r ys s.prv))) (l := l) (xs := ys) (hl0 _ _) (hly _ _)
    (dn _ _ _) (dp _ _ _)
  have A2 := attach_ok (s := relink s (attN l ys (detN l xs (detN r ys s.nxt))) (attP l ys (detP l xs (detP r ys s.prv)))) (l := r) (xs := xs)
    (hr0 _ _) (hlx _ _)
    (by show attN _ _ _ _ = _; rw [attN_ne hsr sent_mem, detN_ne hsr sent_mem]; exact dn _ _ _)
    (by show attP _ _ _ _ = _; rw [attP_ne hsr sent_mem, detP_ne hsr sent_mem]; exact dp _ _ _)
  simp only [relink_relink] at A1 A2
  simp only [swap, getNext_ok Rr.sent g1.1, getPrv_ok Rr.sent g2.2, getNext_ok Rl.sent f1.1, getPrv_ok Rl.sent f2.2, Res.ok_bind, ht1, D1, ht2, D2,
    hgr, nonNull]
  have B1 : (if ys.length ≠ 0 then do
      let s ← linkNext (relink s (detN l xs (detN r ys s.nxt)) (detP l xs (detP r ys s.prv))) (.sent l) (hd (nodes ys) (.sent r))
      linkPrv s (.sent l) (lst (.sent r) (nodes ys))
    else linkNext (relink s (detN l xs (detN r ys s.nxt)) (detP l xs (detP r ys s.prv))) (.sent l) (.sent l)) =
      .ok (relink s (attN l ys (detN l xs (detN r ys s.nxt))) (attP l ys (detP l xs (detP r ys s.prv)))) := by
    refine Eq.trans ?_ A1
    cases ys <;> simp
  have B2 : (if xs.length ≠ 0 then do
      let s ← linkNext (relink s (attN l ys (detN l xs (detN r ys s.nxt))) (attP l ys (detP l xs (detP r ys s.prv)))) (.sent r) (hd (nodes xs) (.sent l))
      linkPrv s (.sent r) (lst (.sent l) (nodes xs))
    else linkNext (relink s (attN l ys (detN l xs (detN r ys s.nxt))) (attP l ys (detP l xs (detP r ys s.prv)))) (.sent r) (.sent r)) =
      .ok (relink s (swN l r xs ys s.nxt) (swP l r xs ys s.prv)) := by
    show _ = Res.ok (relink s (attN _ _ _) (attP _ _ _))
    refine Eq.trans ?_ A2
    cases xs <;> simp
  simp only [relink_nxt, relink_prv, B1, Res.ok_bind, hgl]
  simp only [B2, Res.ok_bind]

theorem swap_rep {s : St α} {L : Slot → Option (Con α)} {lo : List Nat} (h : Rep s L lo) {l r : Slot} {xs ys : Con α} (hlr : l ≠ r)
    (hl : L l = some xs) (hr : L r = some ys) :
    Rep (relink s (swN l r xs ys s.nxt) (swP l r xs ys s.prv)) (upd (upd L l (some ys)) r (some xs)) lo := by
  have Rl := h.ring l _ hl
  have Rr := h.ring r _ hr
  have hsl : (Addr.sent l) ≠ .sent r := by simpa using hlr
  have hsr : (Addr.sent r) ≠ .sent l := Ne.symm hsl
  have dxy : ∀ a ∈ nodes xs, a ∉ nodes ys := by
    intro a ha hb
    obtain ⟨k, rfl, hk⟩ := mem_nodes.1 ha
    exact hlr (h.disj l r xs ys k hl hr hk (node_mem.1 hb))
  have ns : ∀ (q : Slot) (zs : Con α) (a : Addr), a ∈ nodes zs → a ≠ .sent q := by
    rintro q zs a ha rfl; exact sent_mem ha
  have key : ∀ q zs, upd (upd L l (some ys)) r (some xs) q = some zs → (q = r ∧ zs = xs) ∨ (q = l ∧ zs = ys) ∨ (q ≠ l ∧ q ≠ r ∧ L q = some zs) := by
    intro q zs hq
    by_cases e : q = r
    · subst e; rw [upd_same] at hq; cases hq; exact .inl ⟨rfl, rfl⟩
    · rw [upd_ne _ _ e] at hq
      by_cases e' : q = l
      · subst e'; rw [upd_same] at hq; cases hq; exact .inr (.inl ⟨rfl, rfl⟩)
      · rw [upd_ne _ _ e'] at hq; exact .inr (.inr ⟨e', e, hq⟩)
  -- the two chains
  have i1 : Inner (detN r ys s.nxt) (detP r ys s.prv) (nodes ys) := inner_det Rr.seg Rr.nodup
  have i2 : Seg (detN r ys s.nxt) (detP r ys s.prv) (.sent l) (nodes xs) (.sent l) := by
    refine seg_frame Rl.seg ?_ ?_
    · intro a ha
      rcases List.mem_cons.1 ha with rfl | ha
      · exact detN_ne hsl sent_mem
      · exact detN_ne (ns _ _ _ ha) (dxy a ha)
    · intro a ha
      rcases List.mem_append.1 ha with ha | ha
      · exact detP_ne (ns _ _ _ ha) (dxy a ha)
      · rw [List.mem_singleton.1 ha]; exact detP_ne hsl sent_mem
  have dyx : ∀ a ∈ nodes ys, a ∉ nodes xs := fun a ha hb => dxy a hb ha
  have i3 := inner_det i2 Rl.nodup
  have i4 : Inner (detN l xs (detN r ys s.nxt)) (detP l xs (detP r ys s.prv)) (nodes ys) :=
    inner_frame' i1 (fun a ha => detN_ne (ns _ _ _ ha) (dyx a ha)) (fun a ha => detP_ne (ns _ _ _ ha) (dyx a ha))
  have i5 := seg_att l i4 Rr.nodup
  have i6 : Inner (attN l ys (detN l xs (detN r ys s.nxt))) (attP l ys (detP l xs (detP r ys s.prv))) (nodes xs) :=
    inner_frame' i3 (fun a ha => attN_ne (ns _ _ _ ha) (dxy a ha)) (fun a ha => attP_ne (ns _ _ _ ha) (dxy a ha))
  have i7 := seg_att r i6 Rl.nodup
  have i8 : Seg (swN l r xs ys s.nxt) (swP l r xs ys s.prv) (.sent l) (nodes ys) (.sent l) := by
    refine seg_frame i5 ?_ ?_
    · intro a ha
      rcases List.mem_cons.1 ha with rfl | ha
      · exact attN_ne hsl sent_mem
      · exact attN_ne (ns _ _ _ ha) (dyx a ha)
    · intro a ha
      rcases List.mem_append.1 ha with ha | ha
      · exact attP_ne (ns _ _ _ ha) (dyx a ha)
      · rw [List.mem_singleton.1 ha]; exact attP_ne hsl sent_mem
  refine rep_relinkG h ?_ ?_ ?_ h.lonodup ?_ ?_
  · intro q
    by_cases e : q = r
    · subst e; simp [upd, hr]
    · rw [upd_ne _ _ e]
      by_cases e' : q = l
      · subst e'; simp [upd, hl]
      · rw [upd_ne _ _ e']
  · intro q zs hq
    rcases key q zs hq with ⟨rfl, rfl⟩ | ⟨rfl, rfl⟩ | ⟨e1, e2, hq⟩
    · exact ⟨i7, fun q hq => (Rl.alive q hq).2, Rl.nodup⟩
    · exact ⟨i8, fun q hq => (Rr.alive q hq).2, Rr.nodup⟩
    · have R := h.ring q zs hq
      have dz : ∀ a, a = .sent q ∨ a ∈ nodes zs → a ≠ .sent l ∧ a ≠ .sent r ∧ a ∉ nodes xs ∧ a ∉ nodes ys := by
        rintro a (rfl | ha)
        · exact ⟨by simpa using e1, by simpa using e2, sent_mem, sent_mem⟩
        · refine ⟨ns _ _ _ ha, ns _ _ _ ha, ?_, ?_⟩
          · intro hb
            obtain ⟨k, rfl, hk⟩ := mem_nodes.1 ha
            exact e1 (h.disj q l zs xs k hq hl hk (node_mem.1 hb))
          · intro hb
            obtain ⟨k, rfl, hk⟩ := mem_nodes.1 ha
            exact e2 (h.disj q r zs ys k hq hr hk (node_mem.1 hb))
      refine ⟨seg_frame R.seg ?_ ?_, fun q hq => (R.alive q hq).2, R.nodup⟩
      · intro a ha
        obtain ⟨h1, h2, h3, h4⟩ := dz a (List.mem_cons.1 ha)
        rw [swN, attN_ne h2 h3, attN_ne h1 h4, detN_ne h1 h3, detN_ne h2 h4]
      · intro a ha
        obtain ⟨h1, h2, h3, h4⟩ := dz a ((List.mem_append.1 ha).elim .inr fun h => .inl (List.mem_singleton.1 h))
        rw [swP, attP_ne h2 h3, attP_ne h1 h4, detP_ne h1 h3, detP_ne h2 h4]
  · intro q q' zs ws k hq hq' hk hk'
    rcases key q zs hq with ⟨rfl, rfl⟩ | ⟨rfl, rfl⟩ | ⟨e1, e2, hq⟩ <;> rcases key q' ws hq' with ⟨rfl, rfl⟩ | ⟨rfl, rfl⟩ | ⟨e1', e2', hq'⟩
    · rfl
    · exact absurd (h.disj _ _ _ _ k hl hr hk hk') hlr
    · exact absurd (h.disj _ _ _ _ k hl hq' hk hk').symm e1'
    · exact absurd (h.disj _ _ _ _ k hr hl hk hk').symm hlr
    · rfl
    · exact absurd (h.disj _ _ _ _ k hr hq' hk hk').symm e2'
    · exact absurd (h.disj _ _ _ _ k ‹L q = some zs› hl hk hk') e1
    · exact absurd (h.disj _ _ _ _ k ‹L q = some zs› hr hk hk') e2
    · exact h.disj _ _ _ _ k hq hq' hk hk'
  · intro q zs k hq hk
    rcases key q zs hq with ⟨rfl, rfl⟩ | ⟨rfl, rfl⟩ | ⟨e1, e2, hq⟩
    · exact h.lodisj _ _ k hl hk
    · exact h.lodisj _ _ k hr hk
    · exact h.lodisj _ _ k hq hk
  · intro k
    refine or_congr ?_ Iff.rfl
    constructor
    · rintro ⟨q, zs, hq, hk⟩
      rcases key q zs hq with ⟨rfl, rfl⟩ | ⟨rfl, rfl⟩ | ⟨e1, e2, hq⟩
      · exact ⟨_, _, hl, hk⟩
      · exact ⟨_, _, hr, hk⟩
      · exact ⟨_, _, hq, hk⟩
    · rintro ⟨q, zs, hq, hk⟩
      by_cases e : q = l
      · subst e; rw [hl] at hq; cases hq; exact ⟨r, _, upd_same _ _ _, hk⟩
      · by_cases e' : q = r
        · subst e'; rw [hr] at hq; cases hq; exact ⟨l, _, by rw [upd_ne _ _ hlr]; exact upd_same _ _ _, hk⟩
        · exact ⟨q, zs, by rw [upd_ne _ _ e', upd_ne _ _ e]; exact hq, hk⟩

theorem swap_full (lax : Bool) {s : St α} {L : Slot → Option (Con α)} (h : Full s L) {l r : Slot} {xs ys : Con α} (hlr : l ≠ r)
    (hl : L l = some xs) (hr : L r = some ys) :
    ∃ s', swap lax s l r = .ok s' ∧ Full s' (upd (upd L l (some ys)) r (some xs)) ∧ s'.next = s.next := by
  refine ⟨_, swap_ok lax h hlr hl hr, ⟨rep_setSize (rep_setSize (swap_rep h.rep hlr hl hr) _ _) _ _, ?_⟩, rfl⟩
  have := sized_set (s' := relink s (swN l r xs ys s.nxt) (swP l r xs ys s.prv)) h.sized rfl l ys _ rfl
  exact sized_set this rfl r xs _ rfl

theorem swap_self_full (lax : Bool) {s : St α} {L : Slot → Option (Con α)} (h : Full s L) {l : Slot} (hl : L l = some []) :
    ∃ s', swap lax s l l = .ok s' ∧ Full s' L ∧ s'.next = s.next := by
  have R := h.rep.ring l _ hl
  have hs := R.sent
  have h1 : s.nxt (.sent l) = some (.sent l) := R.seg.1
  have h2 : s.prv (.sent l) = some (.sent l) := R.seg.2
  have hz : s.size l = 0 := h.sized l _ hl
  have L0 : upd L l (some ([] : Con α)) = L := by rw [← hl]; exact upd_self _ _
  let n' := upd (upd s.nxt (.sent l) none) (.sent l) (some (.sent l))
  let p' := upd (upd s.prv (.sent l) none) (.sent l) (some (.sent l))
  refine ⟨setSize (setSize (relink s n' p') l 0) l 0, ?_, ⟨rep_setSize (rep_setSize ?_ _ _) _ _, ?_⟩, rfl⟩
  · simp [swap, getNext, getPrv, rdNext, rdPrv, wrNext, wrPrv, unlinkNext, unlinkPrv, linkNext, getSize, hs, h1, h2, hz, relink, n', p', upd_upd, upd_same]
  · rw [← L0]
    refine rep_relink h.rep hl ?_ ⟨upd_same _ _ _, upd_same _ _ _⟩ (List.Perm.refl _) (by simp)
    intro a ha _ _
    exact ⟨by show upd _ _ _ _ = _; rw [upd_ne _ _ ha, upd_ne _ _ ha], by show upd _ _ _ _ = _; rw [upd_ne _ _ ha, upd_ne _ _ ha]⟩
  · have := sized_set (s' := relink s n' p') h.sized rfl l [] 0 rfl
    have := sized_set this rfl l [] 0 rfl
    rw [upd_upd, L0] at this; exact this

end Verif.EList
