import Verif.Lemmas.EListSpec

/-! Where `list` goes wrong, and which elements a call can produce. -/

set_option backward.isDefEq.respectTransparency false

namespace Verif.EList
open Verif Verif.Box

variable {α : Type}

/-- Node `n` with value `v` is in one of the lists. -/
def In (σ : Spec α) (n : Nat) (v : α) : Prop := ∃ l xs, σ.lists l = some xs ∧ (n, v) ∈ xs

theorem mem_number {k : Nat} {vs : List α} {n : Nat} {v : α} (h : (n, v) ∈ number k vs) : k ≤ n := by
  induction vs generalizing k with
  | nil => cases h
  | cons w vs ih =>
    rcases List.mem_cons.1 h with e | e
    · cases e; exact Nat.le_refl _
    · have := ih e; omega

theorem in_upd {M : Nat → Option (Con α)} {l : Nat} {x : Option (Con α)} {n : Nat} {v : α} {k : Nat}
    (h : In (⟨upd M l x, k⟩ : Spec α) n v) (P : Prop) (h1 : ∀ xs, x = some xs → (n, v) ∈ xs → P) (h2 : ∀ m xs, m ≠ l → M m = some xs → (n, v) ∈ xs → P) : P := by
  obtain ⟨m, xs, hm, hx⟩ := h
  by_cases e : m = l
  · subst e; simp only [upd_same] at hm; exact h1 xs hm hx
  · simp only [upd_ne _ _ e] at hm; exact h2 m xs e hm hx

/-- Every element after a call was there before, is new, or was written. -/
theorem step_elems {lax : Bool} {σ σ' : Spec α} {o : Op α} {r : Option Addr} (hs : Spec.step lax σ o = some (σ', r)) {n : Nat} {v : α}
    (h : In σ' n v) : In σ n v ∨ σ.next ≤ n ∨ ∃ l, o = .write l (.node n) v := by
  cases o with
  | ctor l =>
    simp only [Spec.step] at hs
    split at hs <;> cases hs
    refine in_upd h _ ?_ fun m xs _ h1 h2 => .inl ⟨m, xs, h1, h2⟩
    intro xs e hx; cases e; cases hx
  | init l vs =>
    simp only [Spec.step] at hs
    split at hs <;> cases hs
    refine in_upd h _ ?_ fun m xs _ h1 h2 => .inl ⟨m, xs, h1, h2⟩
    intro xs e hx; cases e; exact .inr (.inl (mem_number hx))
  | copy l r =>
    simp only [Spec.step] at hs
    split at hs <;> cases hs
    refine in_upd h _ ?_ fun m xs _ h1 h2 => .inl ⟨m, xs, h1, h2⟩
    intro xs e hx; cases e; exact .inr (.inl (mem_number hx))
  | move l r =>
    simp only [Spec.step] at hs
    split at hs <;> cases hs
    rename_i ys hl hr
    refine in_upd h _ ?_ ?_
    · intro xs e hx; cases e; exact .inl ⟨r, _, hr, hx⟩
    · intro m xs _ h1 h2
      exact in_upd (k := 0) ⟨m, xs, h1, h2⟩ _ (fun zs e hz => by cases e; cases hz) fun m xs _ h1 h2 => .inl ⟨m, xs, h1, h2⟩
  | dtor l =>
    simp only [Spec.step] at hs
    split at hs <;> try contradiction
    split at hs <;> cases hs
    refine in_upd h _ ?_ fun m xs _ h1 h2 => .inl ⟨m, xs, h1, h2⟩
    intro xs e; cases e
  | asgCopy l r =>
    simp only [Spec.step] at hs
    split at hs <;> try contradiction
    split at hs <;> cases hs
    refine in_upd h _ ?_ fun m xs _ h1 h2 => .inl ⟨m, xs, h1, h2⟩
    intro xs e hx; cases e; exact .inr (.inl (mem_number hx))
  | asgMove l r =>
    simp only [Spec.step] at hs
    split at hs <;> try contradiction
    rename_i xs ys hl hr
    split at hs
    · cases hs; exact .inl h
    · split at hs <;> cases hs
      refine in_upd h _ ?_ ?_
      · intro xs e hx; cases e; exact .inl ⟨r, _, hr, hx⟩
      · intro m xs _ h1 h2
        exact in_upd (k := 0) ⟨m, xs, h1, h2⟩ _ (fun zs e hz => by cases e; cases hz) fun m xs _ h1 h2 => .inl ⟨m, xs, h1, h2⟩
  | pushBack l v =>
    simp only [Spec.step] at hs
    split at hs <;> cases hs
    rename_i xs hl
    refine in_upd h _ ?_ fun m xs _ h1 h2 => .inl ⟨m, xs, h1, h2⟩
    intro zs e hx; cases e
    rcases List.mem_append.1 hx with hx | hx
    · exact .inl ⟨l, xs, hl, hx⟩
    · have := List.mem_singleton.1 hx; cases this; exact .inr (.inl (Nat.le_refl _))
  | pushFront l v =>
    simp only [Spec.step] at hs
    split at hs <;> cases hs
    rename_i xs hl
    refine in_upd h _ ?_ fun m xs _ h1 h2 => .inl ⟨m, xs, h1, h2⟩
    intro zs e hx; cases e
    rcases List.mem_cons.1 hx with hx | hx
    · cases hx; exact .inr (.inl (Nat.le_refl _))
    · exact .inl ⟨l, xs, hl, hx⟩
  | insert l pos v =>
    simp only [Spec.step] at hs
    split at hs <;> cases hs
    rename_i xs ys hl
    obtain ⟨zs, hl', hsp⟩ := Option.bind_eq_some_iff.1 hl
    obtain ⟨rfl, rfl⟩ := splitPos_eq hsp
    refine in_upd h _ ?_ fun m xs _ h1 h2 => .inl ⟨m, xs, h1, h2⟩
    intro zs e hx; cases e
    rcases List.mem_append.1 hx with hx | hx
    · exact .inl ⟨l, _, hl', List.mem_append_left _ hx⟩
    · rcases List.mem_cons.1 hx with hx | hx
      · cases hx; exact .inr (.inl (Nat.le_refl _))
      · exact .inl ⟨l, _, hl', List.mem_append_right _ hx⟩
  | erase l pos =>
    simp only [Spec.step] at hs
    split at hs <;> cases hs
    rename_i xs p ys hl
    obtain ⟨zs, hl', hsp⟩ := Option.bind_eq_some_iff.1 hl
    obtain ⟨rfl, rfl⟩ := splitPos_eq hsp
    refine in_upd h _ ?_ fun m xs _ h1 h2 => .inl ⟨m, xs, h1, h2⟩
    intro zs e hx; cases e
    refine .inl ⟨l, _, hl', ?_⟩
    rcases List.mem_append.1 hx with hx | hx <;> simp [hx]
  | eraseRange l first last =>
    simp only [Spec.step] at hs
    split at hs <;> try contradiction
    rename_i xs rest hl
    split at hs <;> cases hs
    rename_i ms ys hl2
    obtain ⟨zs, hl', hsp⟩ := Option.bind_eq_some_iff.1 hl
    obtain ⟨rfl, rfl⟩ := splitPos_eq hsp
    obtain ⟨rfl, rfl⟩ := splitPos_eq hl2
    refine in_upd h _ ?_ fun m xs _ h1 h2 => .inl ⟨m, xs, h1, h2⟩
    intro zs e hx; cases e
    refine .inl ⟨l, _, hl', ?_⟩
    rcases List.mem_append.1 hx with hx | hx <;> simp [hx]
  | popBack l =>
    simp only [Spec.step] at hs
    split at hs <;> cases hs
    rename_i xs hl
    refine in_upd h _ ?_ fun m xs _ h1 h2 => .inl ⟨m, xs, h1, h2⟩
    intro zs e hx; cases e
    exact .inl ⟨l, _, hl, (List.dropLast_sublist _).subset hx⟩
  | popFront l =>
    simp only [Spec.step] at hs
    split at hs <;> cases hs
    rename_i xs hl
    refine in_upd h _ ?_ fun m xs _ h1 h2 => .inl ⟨m, xs, h1, h2⟩
    intro zs e hx; cases e
    exact .inl ⟨l, _, hl, List.mem_of_mem_tail hx⟩
  | clear l =>
    simp only [Spec.step] at hs
    split at hs <;> try contradiction
    split at hs <;> cases hs
    refine in_upd h _ ?_ fun m xs _ h1 h2 => .inl ⟨m, xs, h1, h2⟩
    intro xs e hx; cases e; cases hx
  | swap l r =>
    simp only [Spec.step] at hs
    split at hs <;> try contradiction
    rename_i xs ys hl hr
    split at hs
    · split at hs <;> cases hs
      exact .inl h
    · cases hs
      refine in_upd h _ ?_ ?_
      · intro xs e hx; cases e; exact .inl ⟨l, _, hl, hx⟩
      · intro m zs _ h1 h2
        refine in_upd (k := 0) ⟨m, zs, h1, h2⟩ _ (fun zs e hz => ?_) fun m xs _ h1 h2 => .inl ⟨m, xs, h1, h2⟩
        cases e; exact .inl ⟨r, _, hr, hz⟩
  | write l it w =>
    simp only [Spec.step] at hs
    split at hs <;> cases hs
    rename_i xs n' w' ys hl
    obtain ⟨zs, hl', hsp⟩ := Option.bind_eq_some_iff.1 hl
    obtain ⟨rfl, rfl⟩ := splitPos_eq hsp
    refine in_upd h _ ?_ fun m xs _ h1 h2 => .inl ⟨m, xs, h1, h2⟩
    intro zs e hx; cases e
    rcases List.mem_append.1 hx with hx | hx
    · exact .inl ⟨l, _, hl', List.mem_append_left _ hx⟩
    · rcases List.mem_cons.1 hx with hx | hx
      · cases hx; exact .inr (.inr ⟨l, rfl⟩)
      · exact .inl ⟨l, _, hl', by simp [hx]⟩

theorem deref_iff {s : St α} {σ : Spec α} (h : Ok s σ) {it : Addr} {v : α} : deref s it = .ok v ↔ ∃ n, it = .node n ∧ In σ n v := by
  constructor
  · intro hd
    simp only [deref] at hd
    split at hd <;> try contradiction
    rename_i hlive
    split at hd <;> cases hd
    rename_i hval
    cases it with
    | sent l => rw [h.full.rep.sentval] at hval; cases hval
    | node n =>
      refine ⟨n, rfl, ?_⟩
      rcases (h.full.rep.nodes n).1 hlive with ⟨l, xs, hl, hn⟩ | hn
      · cases l with
        | temp => cases hl
        | user l =>
          simp only [ids, List.mem_map] at hn
          obtain ⟨p, hp, rfl⟩ := hn
          have := ((h.full.rep.ring _ _ hl).alive p hp).2
          rw [hval] at this; cases this
          exact ⟨l, xs, hl, hp⟩
      · cases hn
  · rintro ⟨n, rfl, l, xs, hl, hx⟩
    exact deref_ok (h.full.rep.ring (.user l) xs hl) hx

theorem live_in {s : St α} {σ : Spec α} (h : Ok s σ) {n : Nat} (hn : n < s.next) (hf : n ∉ s.freed) : ∃ v, In σ n v := by
  have hl : s.live (.node n) = true := by
    cases e : s.live (.node n) with
    | true => rfl
    | false => exact absurd ((h.full.rep.freed n).2 ⟨hn, e⟩) hf
  rcases (h.full.rep.nodes n).1 hl with ⟨l, xs, hl', hn⟩ | hn
  · cases l with
    | temp => cases hl'
    | user l =>
      simp only [ids, List.mem_map] at hn
      obtain ⟨p, hp, rfl⟩ := hn
      exact ⟨p.2, l, xs, hl', hp⟩
  · cases hn

theorem in_lt {s : St α} {σ : Spec α} (h : Ok s σ) {n : Nat} {v : α} (hi : In σ n v) : n < σ.next := by
  obtain ⟨l, xs, hl, hx⟩ := hi
  have := ((h.full.rep.ring (.user l) xs hl).alive _ hx).1
  have := h.full.rep.bound _ this
  rw [h.next] at this; exact this

/-! `clear` under the rules of the standard. -/

theorem clear_prefix {s : St α} {L : Slot → Option (Con α)} (h : Full s L) {l : Slot} {p : Nat × α} {xs : Con α} (hl : L l = some (p :: xs)) :
    ∃ n2 p2, Fwd n2 (nodes (p :: xs)) none ∧
      ∀ lax fuel, clear lax fuel s l = (do let s ← clearLoop lax fuel (relink s n2 p2) (some (.node p.1)); .ok (setSize s l 0)) := by
  have R := h.rep.ring l _ hl
  have hseg := R.seg
  have hlst := seg_last hseg
  have hfst := seg_first hseg
  rw [nodes_cons, lst_cons] at hlst
  simp only [nodes_cons, hd_cons] at hfst
  have hin : lst (Addr.node p.1) (nodes xs) ∈ nodes (p :: xs) := lst_mem _ _
  have hne : lst (Addr.node p.1) (nodes xs) ≠ .sent l := by intro e; rw [e] at hin; exact sent_mem hin
  refine ⟨upd (upd s.nxt (lst (Addr.node p.1) (nodes xs)) none) (.sent l) (some (.sent l)),
    upd (upd (upd s.prv (.sent l) none) (.node p.1) none) (.sent l) (some (.sent l)), ?_, ?_⟩
  · rw [nodes_cons]
    refine fwd_end (by rw [← nodes_cons]; exact seg_fwd hseg) (by rw [← nodes_cons]; exact nodes_nodup.2 R.nodup) ?_ ?_
    · intro y hy hyl
      rw [← nodes_cons] at hy
      have : y ≠ .sent l := by rintro rfl; exact sent_mem hy
      rw [upd_ne _ _ this, upd_ne _ _ hyl]
    · rw [upd_ne _ _ hne]; exact upd_same _ _ _
  · intro lax fuel
    simp only [clear, getSize_ok h hl, Res.ok_bind]
    rw [if_neg (by simp)]
    simp only [getNext_ok R.sent hfst.1, getPrv_ok R.sent hlst.2, Res.ok_bind, unlinkPrv_some R.sent (ring_live R (.inr hin)) hlst.2]
    have hs : ∀ n' p', (relink s n' p').live (.sent l) = true := fun _ _ => R.sent
    have hp : ∀ n' p', (relink s n' p').live (.node p.1) = true := fun _ _ => ring_live R (.inr (by simp))
    rw [unlinkNext_some (q := .node p.1) (hs _ _) (hp _ _) (by
      show upd _ _ _ _ = _
      rw [upd_ne _ _ (Ne.symm hne)]; exact hfst.1)]
    simp only [Res.ok_bind, relink_relink]
    rw [linkNext_none (hs _ _) (hs _ _) (by simp [relink, upd])]
    simp only [Res.ok_bind, relink_relink]
    rw [linkPrv_some (q := .sent l) (hs _ _) (hs _ _) (hs _ _) (by simp [relink, upd])]
    simp only [Res.ok_bind, relink_relink, relink_nxt, relink_prv, upd_upd]

theorem clearLoop_ub (ms : Con α) (s : St α) (fuel : Nat) (hf : ms.length ≤ fuel) (hm : ms ≠ []) (hfwd : Fwd s.nxt (nodes ms) none)
    (hl : ∀ m ∈ ids ms, s.live (.node m) = true) (hnd : (ids ms).Nodup) :
    clearLoop false fuel s (nodes ms).head? = .ub := by
  induction ms generalizing s fuel with
  | nil => exact absurd rfl hm
  | cons m ms ih =>
    obtain ⟨f, rfl⟩ : ∃ f, fuel = f + 1 := ⟨fuel - 1, by simp at hf; omega⟩
    simp only [ids_cons] at hnd hl
    have hm := List.nodup_cons.1 hnd
    cases ms with
    | nil =>
      have h1 : s.nxt (.node m.1) = none := hfwd.1
      simp [clearLoop, getNext, rdNext, hl m.1 (by simp), h1]
    | cons m' ms =>
      simp only [nodes_cons, List.head?_cons, clearLoop, getNext_ok (hl m.1 (by simp)) hfwd.1, Res.ok_bind, destroyNode_ok (hl m.1 (by simp))]
      refine ih { s with live := upd s.live (.node m.1) false, freed := m.1 :: s.freed } f (by simp at hf ⊢; omega) (by simp) hfwd.2 ?_ hm.2
      intro k hk
      have : k ≠ m.1 := by rintro rfl; exact hm.1 hk
      show upd s.live _ _ _ = true
      rw [upd_ne _ _ (by simpa using this)]; exact hl k (List.mem_cons_of_mem _ hk)

theorem clear_ub {s : St α} {L : Slot → Option (Con α)} (h : Full s L) {l : Slot} {xs : Con α} (hl : L l = some xs) (hx : xs ≠ []) {fuel : Nat}
    (hf : xs.length ≤ fuel) : clear false fuel s l = .ub := by
  cases xs with
  | nil => exact absurd rfl hx
  | cons p xs =>
    obtain ⟨n2, p2, hfwd, e⟩ := clear_prefix h hl
    have R := h.rep.ring l _ hl
    rw [e]
    have := clearLoop_ub (p :: xs) (relink s n2 p2) fuel hf hx hfwd (fun m hm => ring_live R (.inr (node_mem.2 hm))) R.nodup
    rw [show (nodes (p :: xs)).head? = some (.node p.1) from rfl] at this
    rw [this]; rfl

/-! `swap` of a list with itself. -/

theorem unlinkNext_none {s : St α} {a : Addr} (ha : s.live a = true) (h : s.nxt a = none) :
    unlinkNext s a = .ok (relink s (upd s.nxt a none) s.prv) := by
  simp [unlinkNext, rdNext, wrNext, ha, h, relink]

theorem swap_self_ok (lax : Bool) {s : St α} {L : Slot → Option (Con α)} (h : Full s L) {l : Slot} {p : Nat × α} {xs : Con α}
    (hl : L l = some (p :: xs)) :
    ∃ n' p', swap lax s l l = .ok (setSize (relink s n' p') l (xs.length + 1)) ∧ n' (.sent l) = some (.node p.1) ∧
      p' (.sent l) = some (lst (.node p.1) (nodes xs)) ∧
      (xs ≠ [] → n' (.node p.1) = some (.node p.1)) ∧
      (xs = [] → n' (.node p.1) = some (.sent l) ∧ p' (.node p.1) = some (.node p.1)) := by
  have R := h.rep.ring l _ hl
  have hs : ∀ n p, (relink s n p).live (.sent l) = true := fun _ _ => R.sent
  have hx : ∀ n q, ∀ a ∈ nodes (p :: xs), (relink s n q).live a = true := fun _ _ a ha => ring_live R (.inr ha)
  have hg : ∀ n q, getSize (relink s n q) l = .ok (xs.length + 1) := fun n q => by simpa [getSize, relink] using getSize_ok h hl
  have hin : lst (Addr.node p.1) (nodes xs) ∈ nodes (p :: xs) := lst_mem _ _
  have hne : lst (Addr.node p.1) (nodes xs) ≠ .sent l := by intro e; rw [e] at hin; exact sent_mem hin
  have f1 := (seg_first R.seg).1
  have f2 := (seg_last R.seg).2
  have D1 := detach_ok (xs := p :: xs) R.sent (fun a ha => ring_live R (.inr ha)) f1 f2
  obtain ⟨t1, ht1, D1⟩ := Res.bind_eq_ok.1 D1
  let n1 := detN l (p :: xs) s.nxt
  let p1 := detP l (p :: xs) s.prv
  have e1 : n1 (.sent l) = none := by simp only [n1, detN, upd]; split <;> simp
  have e2 : p1 (.sent l) = none := by simp only [p1, detP, upd_same]
  have A := attach_ok (s := relink s (upd n1 (.sent l) none) (upd p1 (.sent l) none)) (l := l) (xs := p :: xs) (hs _ _) (hx _ _)
    (upd_same _ _ _) (upd_same _ _ _)
  rw [if_pos (by simp)] at A
  let n3 := attN l (p :: xs) (upd n1 (.sent l) none)
  let p3 := attP l (p :: xs) (upd p1 (.sent l) none)
  have a1 : n3 (.sent l) = some (.node p.1) := by
    simp only [n3, attN, nodes_cons, lst_cons, hd_cons]; rw [upd_ne _ _ (Ne.symm hne)]; exact upd_same _ _ _
  have a2 : p3 (.sent l) = some (lst (Addr.node p.1) (nodes xs)) := by simp only [p3, attP, nodes_cons, lst_cons]; exact upd_same _ _ _
  have hnp : (relink s n3 p3).live (.node p.1) = true := hx _ _ _ (by simp)
  let n4 := upd (upd n3 (.node p.1) (some (.node p.1))) (.sent l) (some (.node p.1))
  let p4 := upd (upd p3 (.node p.1) (some (.node p.1))) (.node p.1) (some (.sent l))
  have b2 : p4 (.sent l) = some (lst (Addr.node p.1) (nodes xs)) := by
    show upd _ _ _ _ = _
    rw [upd_ne _ _ (by simp), upd_ne _ _ (by simp)]; exact a2
  let q := lst (Addr.node p.1) (nodes xs)
  refine ⟨upd (upd n4 q (some q)) q (some (.sent l)), upd (upd p4 q (some q)) (.sent l) (some q), ?_, ?_, ?_, ?_, ?_⟩
  · simp only [swap, getNext_ok R.sent f1, getPrv_ok R.sent f2, Res.ok_bind, ht1, D1]
    rw [unlinkNext_none (hs n1 p1) e1]
    simp only [Res.ok_bind, relink_relink, relink_nxt, relink_prv]
    rw [unlinkPrv_none (hs (upd n1 (.sent l) none) p1) e2]
    simp only [Res.ok_bind, relink_relink, relink_nxt, relink_prv, hg]
    rw [if_pos (by omega)]
    simp only [nonNull, Res.ok_bind]
    simp only [A, Res.ok_bind, relink_relink, relink_nxt, relink_prv, hg]
    rw [if_pos (by omega)]
    simp only [nodes_cons, hd_cons, lst_cons]
    show (do
      let s ← (do
        let s ← linkNext (relink s n3 p3) (.sent l) (.node p.1)
        linkPrv s (.sent l) (lst (Addr.node p.1) (nodes xs)))
      Res.ok (setSize (setSize s l (xs.length + 1)) l (xs.length + 1))) = _
    rw [linkNext_some (hs _ _) hnp hnp a1]
    simp only [Res.ok_bind, relink_relink, relink_nxt, relink_prv]
    show (do
      let s ← linkPrv (relink s n4 p4) (.sent l) (lst (Addr.node p.1) (nodes xs))
      Res.ok (setSize (setSize s l (xs.length + 1)) l (xs.length + 1))) = _
    rw [linkPrv_some (hs n4 p4) (hx _ _ _ hin) (hx _ _ _ hin) b2]
    simp only [Res.ok_bind, relink_relink, relink_nxt, relink_prv, setSize, upd_upd]
    rfl
  · rw [upd_ne _ _ (Ne.symm hne), upd_ne _ _ (Ne.symm hne)]; exact upd_same _ _ _
  · exact upd_same _ _ _
  · intro hxs
    have : Addr.node p.1 ≠ q := by
      intro e
      have h1 : q ∈ nodes xs := by
        cases xs with
        | nil => exact absurd rfl hxs
        | cons y ys => show lst _ _ ∈ _; rw [nodes_cons, lst_cons]; exact lst_mem _ _
      rw [← e, node_mem] at h1
      exact (List.nodup_cons.1 R.nodup).1 h1
    rw [upd_ne _ _ this, upd_ne _ _ this]
    show upd _ _ _ _ = _
    rw [upd_ne _ _ (by simp)]; exact upd_same _ _ _
  · intro hxs
    have e : q = .node p.1 := by show lst _ _ = _; rw [hxs]; rfl
    rw [e]
    exact ⟨upd_same _ _ _, by rw [upd_ne _ _ (by simp)]; exact upd_same _ _ _⟩

theorem forward_stuck (lax : Bool) {s : St α} {l : Slot} {a : Addr} {v : α} (hl : s.live a = true) (hv : s.val a = some v) (hn : s.nxt a = some a)
    (hne : a ≠ .sent l) (fuel : Nat) : forwardFrom lax l fuel s a = .oof := by
  induction fuel with
  | zero => rfl
  | succ f ih =>
    simp only [forwardFrom, if_neg hne, deref, hl, hv, incr, getNext_ok hl hn, nonNull, if_true, Res.ok_bind, ih]
    rfl

end Verif.EList
