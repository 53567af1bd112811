import Verif.Lemmas.EList

/-! The nodes of all lists: which list holds which nodes, and nodes in no list. -/

set_option backward.isDefEq.respectTransparency false

namespace Verif.EList
open Verif Verif.Box

variable {α : Type}

/-- The elements of a list: node and value. -/
abbrev Con (α : Type) := List (Nat × α)

/-- The numbers of the nodes. -/
def ids (xs : Con α) : List Nat := xs.map (·.1)
/-- The addresses of the nodes. -/
def nodes (xs : Con α) : List Addr := xs.map fun p => .node p.1

@[simp] theorem ids_nil : ids ([] : Con α) = [] := rfl
@[simp] theorem ids_cons (p : Nat × α) (xs : Con α) : ids (p :: xs) = p.1 :: ids xs := rfl
@[simp] theorem ids_append (xs ys : Con α) : ids (xs ++ ys) = ids xs ++ ids ys := List.map_append
@[simp] theorem nodes_nil : nodes ([] : Con α) = [] := rfl
@[simp] theorem nodes_cons (p : Nat × α) (xs : Con α) : nodes (p :: xs) = .node p.1 :: nodes xs := rfl
@[simp] theorem nodes_append (xs ys : Con α) : nodes (xs ++ ys) = nodes xs ++ nodes ys := List.map_append

theorem mem_nodes {xs : Con α} {a : Addr} : a ∈ nodes xs ↔ ∃ n, a = .node n ∧ n ∈ ids xs := by
  simp only [nodes, ids, List.mem_map]
  constructor
  · rintro ⟨p, h, rfl⟩; exact ⟨p.1, rfl, p, h, rfl⟩
  · rintro ⟨n, rfl, p, h, rfl⟩; exact ⟨p, h, rfl⟩

@[simp] theorem node_mem {xs : Con α} {n : Nat} : Addr.node n ∈ nodes xs ↔ n ∈ ids xs := by
  rw [mem_nodes]
  constructor
  · rintro ⟨m, h, hm⟩; cases h; exact hm
  · intro h; exact ⟨n, rfl, h⟩

@[simp] theorem sent_mem {xs : Con α} {l : Slot} : ¬ Addr.sent l ∈ nodes xs := by
  rw [mem_nodes]; rintro ⟨m, h, _⟩; cases h

theorem nodes_nodup {xs : Con α} : (nodes xs).Nodup ↔ (ids xs).Nodup := by
  induction xs with
  | nil => simp
  | cons p xs ih => simp [ih]

/-- A list object with elements `xs`. -/
structure Ring (s : St α) (l : Slot) (xs : Con α) : Prop where
  sent : s.live (.sent l) = true
  seg : Seg s.nxt s.prv (.sent l) (nodes xs) (.sent l)
  alive : ∀ p ∈ xs, s.live (.node p.1) = true ∧ s.val (.node p.1) = some p.2
  nodup : (ids xs).Nodup

/-- The list objects are those in `L`, with the elements given; the nodes `lo` exist but are
in no list. -/
structure Rep (s : St α) (L : Slot → Option (Con α)) (lo : List Nat) : Prop where
  ring : ∀ l xs, L l = some xs → Ring s l xs
  dead : ∀ l, L l = none → s.live (.sent l) = false
  disj : ∀ l r xs ys n, L l = some xs → L r = some ys → n ∈ ids xs → n ∈ ids ys → l = r
  lonodup : lo.Nodup
  lodisj : ∀ l xs n, L l = some xs → n ∈ ids xs → n ∉ lo
  nodes : ∀ n, s.live (.node n) = true ↔ (∃ l xs, L l = some xs ∧ n ∈ ids xs) ∨ n ∈ lo
  bound : ∀ n, s.live (.node n) = true → n < s.next
  freed : ∀ n, n ∈ s.freed ↔ n < s.next ∧ s.live (.node n) = false
  fnodup : s.freed.Nodup
  sentval : ∀ l, s.val (.sent l) = none

theorem rep_init : Rep (St.init : St α) (fun _ => none) [] := by
  constructor <;> simp [St.init]

theorem ring_live {s : St α} {l : Slot} {xs : Con α} (h : Ring s l xs) {a : Addr} (ha : a = .sent l ∨ a ∈ nodes xs) : s.live a = true := by
  rcases ha with rfl | ha
  · exact h.sent
  · obtain ⟨n, rfl, hn⟩ := mem_nodes.1 ha
    simp only [ids, List.mem_map] at hn
    obtain ⟨p, hp, rfl⟩ := hn
    exact (h.alive p hp).1

theorem lst_live {s : St α} {l : Slot} {xs : Con α} (h : Ring s l xs) {ys zs : Con α} (e : xs = ys ++ zs) :
    s.live (lst (.sent l) (nodes ys)) = true := by
  rcases List.mem_cons.1 (lst_mem (.sent l) (nodes ys)) with h1 | h1
  · exact ring_live h (.inl h1)
  · exact ring_live h (.inr (by rw [e, nodes_append]; exact List.mem_append_left _ h1))

theorem hd_live {s : St α} {l : Slot} {xs : Con α} (h : Ring s l xs) {ys zs : Con α} (e : xs = ys ++ zs) :
    s.live (hd (nodes zs) (.sent l)) = true := by
  rcases List.mem_append.1 (hd_mem (nodes zs) (.sent l)) with h1 | h1
  · exact ring_live h (.inr (by rw [e, nodes_append]; exact List.mem_append_right _ h1))
  · exact ring_live h (.inl (List.mem_singleton.1 h1))

/-- Changing links. -/
theorem rep_relinkG {s : St α} {L L' : Slot → Option (Con α)} {lo lo' : List Nat} (h : Rep s L lo) {n' p' : Addr → Option Addr}
    (hdead : ∀ r, L' r = none ↔ L r = none)
    (hring : ∀ r ys, L' r = some ys → Seg n' p' (.sent r) (nodes ys) (.sent r) ∧ (∀ q ∈ ys, s.val (.node q.1) = some q.2) ∧ (ids ys).Nodup)
    (hdisj : ∀ l r xs ys n, L' l = some xs → L' r = some ys → n ∈ ids xs → n ∈ ids ys → l = r)
    (hlo : lo'.Nodup) (hlod : ∀ l xs n, L' l = some xs → n ∈ ids xs → n ∉ lo')
    (hnodes : ∀ n, ((∃ l xs, L' l = some xs ∧ n ∈ ids xs) ∨ n ∈ lo') ↔ ((∃ l xs, L l = some xs ∧ n ∈ ids xs) ∨ n ∈ lo)) :
    Rep (relink s n' p') L' lo' := by
  refine ⟨?_, fun l hl => h.dead l ((hdead l).1 hl), hdisj, hlo, hlod, fun n => (h.nodes n).trans (hnodes n).symm, h.bound, h.freed, h.fnodup,
    h.sentval⟩
  intro r ys hr
  obtain ⟨h1, h2, h3⟩ := hring r ys hr
  refine ⟨?_, h1, ?_, h3⟩
  · cases hL : L r with
    | none => rw [(hdead r).2 hL] at hr; cases hr
    | some xs => exact (h.ring r xs hL).sent
  · intro q hq
    refine ⟨(h.nodes q.1).2 ((hnodes q.1).1 (.inl ⟨r, ys, hr, ?_⟩)), h2 q hq⟩
    simp only [ids, List.mem_map]; exact ⟨q, hq, rfl⟩

/-- Changing links of one list, exchanging nodes with those in no list. -/
theorem rep_relink {s : St α} {L : Slot → Option (Con α)} {lo lo' : List Nat} (h : Rep s L lo) {l : Slot} {xs xs' : Con α}
    (hl : L l = some xs) {n' p' : Addr → Option Addr}
    (hn : ∀ a, a ≠ .sent l → a ∉ nodes xs → (∀ m ∈ lo, a ≠ .node m) → n' a = s.nxt a ∧ p' a = s.prv a)
    (hseg : Seg n' p' (.sent l) (nodes xs') (.sent l)) (hperm : (ids xs' ++ lo').Perm (ids xs ++ lo))
    (hval : ∀ q ∈ xs', s.val (.node q.1) = some q.2) : Rep (relink s n' p') (upd L l (some xs')) lo' := by
  have hnd0 : (ids xs ++ lo).Nodup := by
    rw [List.nodup_append]
    refine ⟨(h.ring l xs hl).nodup, h.lonodup, ?_⟩
    rintro a ha b hb rfl
    exact h.lodisj l xs a hl ha hb
  have hnd := (hperm.nodup_iff).2 hnd0
  rw [List.nodup_append] at hnd
  have hmem : ∀ n, (n ∈ ids xs' ∨ n ∈ lo') ↔ (n ∈ ids xs ∨ n ∈ lo) := by
    intro n
    have := hperm.mem_iff (a := n)
    simpa using this
  have hother : ∀ r ys n, r ≠ l → L r = some ys → n ∈ ids ys → n ∉ ids xs ∧ n ∉ lo := by
    intro r ys n hr hL hn
    exact ⟨fun hx => hr (h.disj r l ys xs n hL hl hn hx), h.lodisj r ys n hL hn⟩
  refine rep_relinkG h ?_ ?_ ?_ hnd.2.1 ?_ ?_
  · intro r
    by_cases e : r = l
    · subst e; simp [upd, hl]
    · rw [upd_ne _ _ e]
  · intro r ys hr
    by_cases e : r = l
    · subst e; rw [upd_same] at hr; cases hr
      exact ⟨hseg, hval, hnd.1⟩
    · rw [upd_ne _ _ e] at hr
      have R := h.ring r ys hr
      refine ⟨seg_frame R.seg ?_ ?_, fun q hq => (R.alive q hq).2, R.nodup⟩
      · intro a ha
        refine (hn a ?_ ?_ ?_).1
        · rintro rfl; rcases List.mem_cons.1 ha with e' | e'
          · cases e'; exact e rfl
          · exact sent_mem e'
        · intro hx
          rcases List.mem_cons.1 ha with e' | e'
          · subst e'; exact sent_mem hx
          · obtain ⟨n, rfl, hn'⟩ := mem_nodes.1 e'
            exact (hother r ys n e hr hn').1 (node_mem.1 hx)
        · rintro m hm rfl
          rcases List.mem_cons.1 ha with e' | e'
          · cases e'
          · exact (hother r ys m e hr (node_mem.1 e')).2 hm
      · intro a ha
        refine (hn a ?_ ?_ ?_).2
        · rintro rfl; rcases List.mem_append.1 ha with e' | e'
          · exact sent_mem e'
          · have := List.mem_singleton.1 e'; cases this; exact e rfl
        · intro hx
          rcases List.mem_append.1 ha with e' | e'
          · obtain ⟨n, rfl, hn'⟩ := mem_nodes.1 e'
            exact (hother r ys n e hr hn').1 (node_mem.1 hx)
          · have := List.mem_singleton.1 e'; subst this; exact sent_mem hx
        · rintro m hm rfl
          rcases List.mem_append.1 ha with e' | e'
          · exact (hother r ys m e hr (node_mem.1 e')).2 hm
          · have := List.mem_singleton.1 e'; cases this
  · intro r r' ys zs n hr hr' hn1 hn2
    by_cases e : r = l
    · by_cases e' : r' = l
      · rw [e, e']
      · subst e; rw [upd_same] at hr; cases hr
        rw [upd_ne _ _ e'] at hr'
        have := hother r' zs n e' hr' hn2
        exact absurd ((hmem n).1 (.inl hn1)) (fun h => h.elim this.1 this.2)
    · rw [upd_ne _ _ e] at hr
      by_cases e' : r' = l
      · subst e'; rw [upd_same] at hr'; cases hr'
        have := hother r ys n e hr hn1
        exact absurd ((hmem n).1 (.inl hn2)) (fun h => h.elim this.1 this.2)
      · rw [upd_ne _ _ e'] at hr'
        exact h.disj r r' ys zs n hr hr' hn1 hn2
  · intro r ys n hr hn1 hn2
    by_cases e : r = l
    · subst e; rw [upd_same] at hr; cases hr
      exact hnd.2.2 n hn1 n hn2 rfl
    · rw [upd_ne _ _ e] at hr
      have := hother r ys n e hr hn1
      exact absurd ((hmem n).1 (.inr hn2)) (fun h => h.elim this.1 this.2)
  · intro n
    constructor
    · rintro (⟨r, ys, hr, hn1⟩ | hn1)
      · by_cases e : r = l
        · subst e; rw [upd_same] at hr; cases hr
          rcases (hmem n).1 (.inl hn1) with h1 | h1
          · exact .inl ⟨r, xs, hl, h1⟩
          · exact .inr h1
        · rw [upd_ne _ _ e] at hr; exact .inl ⟨r, ys, hr, hn1⟩
      · rcases (hmem n).1 (.inr hn1) with h1 | h1
        · exact .inl ⟨l, xs, hl, h1⟩
        · exact .inr h1
    · rintro (⟨r, ys, hr, hn1⟩ | hn1)
      · by_cases e : r = l
        · subst e; rw [hl] at hr; cases hr
          rcases (hmem n).2 (.inl hn1) with h1 | h1
          · exact .inl ⟨r, xs', upd_same _ _ _, h1⟩
          · exact .inr h1
        · exact .inl ⟨r, ys, by rw [upd_ne _ _ e]; exact hr, hn1⟩
      · rcases (hmem n).2 (.inr hn1) with h1 | h1
        · exact .inl ⟨l, xs', upd_same _ _ _, h1⟩
        · exact .inr h1

/-- Allocation of a node. -/
theorem rep_create {s : St α} {L : Slot → Option (Con α)} {lo : List Nat} (h : Rep s L lo) (v : α) :
    Rep (createNode s v).2 L (s.next :: lo) ∧ (createNode s v).2.val (.node s.next) = some v ∧ s.next ∉ lo := by
  have hfresh : s.live (.node s.next) = false := by
    cases hb : s.live (.node s.next) with
    | false => rfl
    | true => exact absurd (h.bound _ hb) (Nat.lt_irrefl _)
  have hni : ∀ l xs, L l = some xs → s.next ∉ ids xs := by
    intro l xs hl hm
    have := (h.nodes s.next).2 (.inl ⟨l, xs, hl, hm⟩)
    rw [hfresh] at this; cases this
  have hnl : s.next ∉ lo := by
    intro hm
    have := (h.nodes s.next).2 (.inr hm)
    rw [hfresh] at this; cases this
  refine ⟨⟨?_, ?_, h.disj, List.nodup_cons.2 ⟨hnl, h.lonodup⟩, ?_, ?_, ?_, ?_, h.fnodup, ?_⟩, by simp [createNode, upd], hnl⟩
  · intro l xs hl
    have R := h.ring l xs hl
    have hne : ∀ a ∈ Addr.sent l :: (nodes xs ++ [.sent l]), a ≠ .node s.next := by
      rintro a ha rfl
      simp at ha
      exact hni l xs hl ha
    refine ⟨by simpa [createNode, upd] using R.sent, seg_frame R.seg ?_ ?_, ?_, R.nodup⟩
    · intro a ha
      exact upd_ne _ _ (hne a (by simp at ha ⊢; rcases ha with h | h <;> simp [h]))
    · intro a ha
      exact upd_ne _ _ (hne a (by simp at ha ⊢; rcases ha with h | h <;> simp [h]))
    · intro q hq
      have : q.1 ≠ s.next := by
        intro e
        exact hni l xs hl (by rw [← e]; simp only [ids, List.mem_map]; exact ⟨q, hq, rfl⟩)
      simpa [createNode, upd, this] using R.alive q hq
  · intro l hl
    simpa [createNode, upd] using h.dead l hl
  · intro l xs n hl hn hm
    rcases List.mem_cons.1 hm with rfl | hm
    · exact hni l xs hl hn
    · exact h.lodisj l xs n hl hn hm
  · intro n
    by_cases e : n = s.next
    · subst e; simp [createNode, upd]
    · simp only [createNode, upd, Addr.node.injEq, if_neg e, List.mem_cons, e, false_or]
      exact h.nodes n
  · intro n hn
    show n < s.next + 1
    by_cases e : n = s.next
    · omega
    · have := h.bound n (by simpa [createNode, upd, e] using hn); omega
  · intro n
    show n ∈ s.freed ↔ n < s.next + 1 ∧ upd s.live (.node s.next) true (.node n) = false
    by_cases e : n = s.next
    · subst e
      simp only [upd_same, h.freed]
      simp
    · rw [upd_ne _ _ (by simpa using e), h.freed]
      constructor
      · rintro ⟨h1, h2⟩; exact ⟨by omega, h2⟩
      · rintro ⟨h1, h2⟩; exact ⟨by omega, h2⟩
  · intro l; simpa [createNode, upd] using h.sentval l

/-- Deletion of nodes in no list. -/
def killAll (s : St α) : List Nat → St α
  | [] => s
  | n :: ns => killAll { s with live := upd s.live (.node n) false, freed := n :: s.freed } ns

theorem rep_kill1 {s : St α} {L : Slot → Option (Con α)} {lo : List Nat} {n : Nat} (h : Rep s L (n :: lo)) :
    Rep { s with live := upd s.live (.node n) false, freed := n :: s.freed } L lo := by
  have hlo := List.nodup_cons.1 h.lonodup
  have hlive : s.live (.node n) = true := (h.nodes n).2 (.inr (by simp))
  have hni : ∀ l xs, L l = some xs → n ∉ ids xs := fun l xs hl hm => h.lodisj l xs n hl hm (by simp)
  refine ⟨?_, ?_, h.disj, hlo.2, ?_, ?_, ?_, ?_, ?_, h.sentval⟩
  · intro l xs hl
    have R := h.ring l xs hl
    refine ⟨by simpa [upd] using R.sent, R.seg, ?_, R.nodup⟩
    intro q hq
    have : q.1 ≠ n := by
      intro e
      exact hni l xs hl (by rw [← e]; simp only [ids, List.mem_map]; exact ⟨q, hq, rfl⟩)
    simpa [upd, this] using R.alive q hq
  · intro l hl; simpa [upd] using h.dead l hl
  · intro l xs m hl hm hm2; exact h.lodisj l xs m hl hm (by simp [hm2])
  · intro m
    by_cases e : m = n
    · subst e
      simp only [upd_same, Bool.false_eq_true, false_iff, not_or]
      exact ⟨by rintro ⟨l, xs, hl, hm⟩; exact hni l xs hl hm, hlo.1⟩
    · simp only [upd, Addr.node.injEq, if_neg e]
      have := h.nodes m
      simpa [e] using this
  · intro m hm
    have e : m ≠ n := by rintro rfl; simp [upd] at hm
    exact h.bound m (by simpa [upd, e] using hm)
  · intro m
    by_cases e : m = n
    · subst e; simp [upd, h.bound m hlive]
    · simp only [List.mem_cons, e, false_or, upd, Addr.node.injEq, if_false]
      exact h.freed m
  · refine List.nodup_cons.2 ⟨?_, h.fnodup⟩
    intro hm
    rw [((h.freed n).1 hm).2] at hlive; cases hlive

theorem rep_kill {L : Slot → Option (Con α)} {lo : List Nat} (ns : List Nat) {s : St α} (h : Rep s L (ns ++ lo)) : Rep (killAll s ns) L lo := by
  induction ns generalizing s with
  | nil => exact h
  | cons n ns ih => exact ih (rep_kill1 h)

theorem killAll_relink (s : St α) (n p : Addr → Option Addr) (ns : List Nat) : killAll (relink s n p) ns = relink (killAll s ns) n p := by
  induction ns generalizing s with
  | nil => rfl
  | cons m ns ih => exact ih { s with live := upd s.live (.node m) false, freed := m :: s.freed }

theorem killAll_fields (s : St α) (ns : List Nat) : (killAll s ns).nxt = s.nxt ∧ (killAll s ns).prv = s.prv ∧ (killAll s ns).val = s.val ∧
    (killAll s ns).next = s.next ∧ (killAll s ns).size = s.size := by
  induction ns generalizing s with
  | nil => exact ⟨rfl, rfl, rfl, rfl, rfl⟩
  | cons m ns ih => exact ih _

theorem killAll_live (s : St α) (ns : List Nat) (a : Addr) (h : ∀ n ∈ ns, a ≠ .node n) : (killAll s ns).live a = s.live a := by
  induction ns generalizing s with
  | nil => rfl
  | cons m ns ih =>
    simp only [killAll]
    rw [ih _ (fun n hn => h n (by simp [hn]))]
    exact upd_ne _ _ (h m (by simp))

theorem destroyNode_ok {s : St α} {n : Nat} (h : s.live (.node n) = true) :
    destroyNode s (.node n) = .ok { s with live := upd s.live (.node n) false, freed := n :: s.freed } := by
  simp [destroyNode, h]

/-- The position of the first of `ys` in a list that ends with `ys`. -/
def posOf (l : Slot) (ys : Con α) : Addr := hd (nodes ys) (.sent l)

@[simp] theorem posOf_nil (l : Slot) : posOf l ([] : Con α) = .sent l := rfl
@[simp] theorem posOf_cons (l : Slot) (p : Nat × α) (ys : Con α) : posOf l (p :: ys) = .node p.1 := rfl

end Verif.EList
