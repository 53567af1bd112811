import Verif.Model.RbTree
import Verif.Lemmas.Box
import Verif.Lemmas.Conv

/-! Trees as a data type, what it means that a heap holds one, and the elementary steps. -/

set_option backward.isDefEq.respectTransparency false

namespace Verif.Rb
open Verif
open Verif.Box (Slot upd upd_same upd_ne)

variable {α : Type}

/-- A tree with colours, node addresses and values. -/
inductive T (α : Type) where
  | nil
  | node (l : T α) (c : Color) (a : Nat) (v : α) (r : T α)

/-- One step of a path from the root: the node passed, the side the path takes (`d`: left) and
the subtree on the other side. -/
structure Fr (α : Type) where
  d : Bool
  c : Color
  a : Nat
  v : α
  sib : T α

namespace T

def ptr : T α → Option Nat
  | nil => none
  | node _ _ a _ _ => some a

def addrs : T α → List Nat
  | nil => []
  | node l _ a _ r => l.addrs ++ a :: r.addrs

/-- The elements in order, with their addresses. -/
def inl : T α → List (Nat × α)
  | nil => []
  | node l _ a v r => l.inl ++ (a, v) :: r.inl

def red : T α → Bool
  | node _ .red _ _ _ => true
  | _ => false

def blacken : T α → T α
  | nil => nil
  | node l _ a v r => node l .black a v r

/-- The heap holds the tree, its root has parent `par`. -/
def rep (H : Nat → Option (Rec α)) : Option Nat → T α → Prop
  | _, nil => True
  | par, node l c a v r => H a = some ⟨c, l.ptr, r.ptr, par, some v⟩ ∧ l.rep H (some a) ∧ r.rep H (some a)

theorem ptr_node (l : T α) (c : Color) (a : Nat) (v : α) (r : T α) : (node l c a v r).ptr = some a := rfl
theorem ptr_nil : (nil : T α).ptr = none := rfl

theorem addrs_eq (t : T α) : t.addrs = t.inl.map (·.1) := by
  induction t with
  | nil => rfl
  | node l c a v r ihl ihr => simp [addrs, inl, ihl, ihr]

theorem ptr_mem {t : T α} {a : Nat} (h : t.ptr = some a) : a ∈ t.addrs := by
  cases t with
  | nil => cases h
  | node l c b v r => cases h; simp [addrs]

theorem ptr_none {t : T α} : t.ptr = none ↔ t = nil := by
  cases t <;> simp [ptr]

theorem rep_congr {H H' : Nat → Option (Rec α)} {t : T α} : ∀ {par}, t.rep H par → (∀ a ∈ t.addrs, H' a = H a) → t.rep H' par := by
  induction t with
  | nil => intros; trivial
  | node l c a v r ihl ihr =>
    intro par h e
    refine ⟨?_, ihl h.2.1 ?_, ihr h.2.2 ?_⟩
    · rw [e a (by simp [addrs])]; exact h.1
    · intro b hb; exact e b (by simp [addrs, hb])
    · intro b hb; exact e b (by simp [addrs, hb])

theorem rep_alive {H : Nat → Option (Rec α)} {t : T α} : ∀ {par}, t.rep H par → ∀ a ∈ t.addrs, ∃ r, H a = some r ∧ r.val ≠ none := by
  induction t with
  | nil => intro par _ a h; cases h
  | node l c a v r ihl ihr =>
    intro par h b hb
    simp only [addrs, List.mem_append, List.mem_cons] at hb
    rcases hb with hb | rfl | hb
    · exact ihl h.2.1 b hb
    · exact ⟨_, h.1, by simp⟩
    · exact ihr h.2.2 b hb

@[simp] theorem ptr_blacken (t : T α) : t.blacken.ptr = t.ptr := by cases t <;> rfl
@[simp] theorem inl_blacken (t : T α) : t.blacken.inl = t.inl := by cases t <;> rfl
@[simp] theorem addrs_blacken (t : T α) : t.blacken.addrs = t.addrs := by cases t <;> rfl

end T

/-- The node of a step with the subtree below. -/
def Fr.fill (f : Fr α) (t : T α) : T α :=
  match f.d with
  | true => .node t f.c f.a f.v f.sib
  | false => .node f.sib f.c f.a f.v t

/-- The tree with `t` at the end of a path (innermost step first). -/
def plug : List (Fr α) → T α → T α
  | [], t => t
  | f :: c, t => plug c (f.fill t)

/-- The parent of the subtree at the end of a path. -/
def cpar (par : Option Nat) : List (Fr α) → Option Nat
  | [] => par
  | f :: _ => some f.a

theorem cpar_nil (par : Option Nat) : cpar par ([] : List (Fr α)) = par := rfl
theorem cpar_cons (par : Option Nat) (f : Fr α) (c : List (Fr α)) : cpar par (f :: c) = some f.a := rfl

/-- The root of a tree with `p` at the end of the path. -/
def cptr : List (Fr α) → Option Nat → Option Nat
  | [], p => p
  | f :: c, _ => cptr c (some f.a)

def caddrs : List (Fr α) → List Nat
  | [] => []
  | f :: c => f.a :: (f.sib.addrs ++ caddrs c)

/-- Elements before and after a subtree at the end of a path. -/
def cl : List (Fr α) → List (Nat × α)
  | [] => []
  | f :: c => cl c ++ (if f.d then [] else f.sib.inl ++ [(f.a, f.v)])

def cr : List (Fr α) → List (Nat × α)
  | [] => []
  | f :: c => (if f.d then (f.a, f.v) :: f.sib.inl else []) ++ cr c

def crep (H : Nat → Option (Rec α)) (par : Option Nat) : List (Fr α) → Option Nat → Prop
  | [], _ => True
  | f :: c, p => H f.a = some ⟨f.c, if f.d then p else f.sib.ptr, if f.d then f.sib.ptr else p, cpar par c, some f.v⟩ ∧
      f.sib.rep H (some f.a) ∧ crep H par c (some f.a)

theorem Fr.fill_ptr (f : Fr α) (t : T α) : (f.fill t).ptr = some f.a := by
  unfold Fr.fill; split <;> rfl

theorem plug_ptr (c : List (Fr α)) (t : T α) : (plug c t).ptr = cptr c t.ptr := by
  induction c generalizing t with
  | nil => rfl
  | cons f c ih => rw [plug, ih, Fr.fill_ptr]; rfl

theorem rep_plug {H : Nat → Option (Rec α)} {par : Option Nat} {c : List (Fr α)} {t : T α} :
    (plug c t).rep H par ↔ t.rep H (cpar par c) ∧ crep H par c t.ptr := by
  induction c generalizing t with
  | nil => simp [plug, cpar, crep]
  | cons f c ih =>
    rw [plug, ih, Fr.fill_ptr]
    unfold Fr.fill
    split <;> rename_i h <;> simp [T.rep, cpar, crep, h] <;> grind

theorem inl_plug (c : List (Fr α)) (t : T α) : (plug c t).inl = cl c ++ t.inl ++ cr c := by
  induction c generalizing t with
  | nil => simp [plug, cl, cr]
  | cons f c ih =>
    rw [plug, ih]
    unfold Fr.fill
    split <;> rename_i h <;> simp [T.inl, cl, cr, h]

theorem mem_addrs_plug {c : List (Fr α)} {t : T α} {a : Nat} : a ∈ (plug c t).addrs ↔ a ∈ caddrs c ∨ a ∈ t.addrs := by
  induction c generalizing t with
  | nil => simp [plug, caddrs]
  | cons f c ih =>
    rw [plug, ih]
    unfold Fr.fill
    split <;> simp [T.addrs, caddrs] <;> grind

theorem nodup_plug {c : List (Fr α)} {t : T α} : (plug c t).addrs.Nodup ↔ (caddrs c ++ t.addrs).Nodup := by
  induction c generalizing t with
  | nil => simp [plug, caddrs]
  | cons f c ih =>
    rw [plug, ih]
    unfold Fr.fill
    split <;> simp [T.addrs, caddrs, List.nodup_append] <;> grind

theorem plug_append (c d : List (Fr α)) (t : T α) : plug (c ++ d) t = plug d (plug c t) := by
  induction c generalizing t with
  | nil => rfl
  | cons f c ih => exact ih _

theorem crep_congr {H H' : Nat → Option (Rec α)} {par : Option Nat} {c : List (Fr α)} : ∀ {p}, crep H par c p →
    (∀ a ∈ caddrs c, H' a = H a) → crep H' par c p := by
  induction c with
  | nil => intros; trivial
  | cons f c ih =>
    intro p h e
    refine ⟨?_, T.rep_congr h.2.1 ?_, ih h.2.2 ?_⟩
    · rw [e _ (by simp [caddrs])]; exact h.1
    · intro a ha; exact e a (by simp [caddrs, ha])
    · intro a ha; exact e a (by simp [caddrs, ha])

theorem cptr_mem {c : List (Fr α)} {p : Option Nat} {a : Nat} (hc : c ≠ []) (h : cptr c p = some a) : a ∈ caddrs c := by
  induction c generalizing p with
  | nil => cases hc rfl
  | cons f c ih =>
    by_cases hn : c = []
    · subst hn; simp only [cptr] at h; cases h; simp [caddrs]
    · simp only [cptr] at h; have := ih hn h; simp [caddrs, this]

/-- State `s` holds the tree `t` under the header `h` with leftmost `m` and rightmost `M`; apart
from the nodes in `A` it agrees with `E`. -/
structure In (E : St α) (A : Nat → Prop) (s : St α) (h : Nat) (m M : Option Nat) (t : T α) : Prop where
  hdr : s.heap h = some ⟨.red, m, M, t.ptr, none⟩
  rep : t.rep s.heap (some h)
  nodup : t.addrs.Nodup
  nh : h ∉ t.addrs
  ah : A h
  at' : ∀ a ∈ t.addrs, A a
  off : ∀ a, ¬ A a → s.heap a = E.heap a
  same : s = { E with heap := s.heap }

section basic
variable {E : St α} {A : Nat → Prop} {s : St α} {h : Nat} {m M : Option Nat} {c : List (Fr α)} {l r : T α} {co : Color} {a : Nat} {v : α} {t : T α}

theorem In.rdH (i : In E A s h m M t) : rd s (some h) = .ok ⟨.red, m, M, t.ptr, none⟩ := by
  simp only [rd, i.hdr]

theorem In.root (i : In E A s h m M t) : parent s (some h) = .ok t.ptr := by simp [parent, i.rdH]
theorem In.lm (i : In E A s h m M t) : left s (some h) = .ok m := by simp [left, i.rdH]
theorem In.rm (i : In E A s h m M t) : right s (some h) = .ok M := by simp [right, i.rdH]

theorem In.cell (i : In E A s h m M (plug c (.node l co a v r))) :
    s.heap a = some ⟨co, l.ptr, r.ptr, cpar (some h) c, some v⟩ := (rep_plug.1 i.rep).1.1

theorem In.rd (i : In E A s h m M (plug c (.node l co a v r))) :
    rd s (some a) = .ok ⟨co, l.ptr, r.ptr, cpar (some h) c, some v⟩ := by simp only [Rb.rd, i.cell]

theorem In.left (i : In E A s h m M (plug c (.node l co a v r))) : left s (some a) = .ok l.ptr := by
  simp [Rb.left, i.rd]
theorem In.right (i : In E A s h m M (plug c (.node l co a v r))) : right s (some a) = .ok r.ptr := by
  simp [Rb.right, i.rd]
theorem In.parent (i : In E A s h m M (plug c (.node l co a v r))) : parent s (some a) = .ok (cpar (some h) c) := by
  simp [Rb.parent, i.rd]
theorem In.color (i : In E A s h m M (plug c (.node l co a v r))) : color s (some a) = .ok co := by
  simp [Rb.color, i.rd]
theorem In.key (i : In E A s h m M (plug c (.node l co a v r))) : getKey s (some a) = .ok v := by
  simp [getKey, i.rd]

theorem In.isRed (i : In E A s h m M (plug c t)) : isRed s t.ptr = .ok t.red := by
  cases t with
  | nil => rfl
  | node l co a v r =>
    show Rb.isRed s (some a) = _
    simp only [Rb.isRed, i.color, Res.ok_bind]
    cases co <;> rfl

theorem In.disj (i : In E A s h m M (plug c t)) :
    (caddrs c).Nodup ∧ t.addrs.Nodup ∧ (∀ a ∈ caddrs c, ∀ b ∈ t.addrs, a ≠ b) ∧ h ∉ caddrs c ∧ h ∉ t.addrs := by
  have h1 := nodup_plug.1 i.nodup
  rw [List.nodup_append] at h1
  have h2 := i.nh
  rw [mem_addrs_plug] at h2
  refine ⟨h1.1, h1.2.1, h1.2.2, fun x => h2 (.inl x), fun x => h2 (.inr x)⟩

/-- The root test for the node at the end of a path. -/
theorem In.isRoot (i : In E A s h m M (plug c (.node l co a v r))) : (some a = (plug c (.node l co a v r)).ptr) ↔ c = [] := by
  rw [plug_ptr]
  constructor
  · intro e
    by_cases hc : c = []
    · exact hc
    · exact absurd rfl (i.disj.2.2.1 a (cptr_mem hc e.symm) a (by simp [T.addrs]))
  · rintro rfl; rfl

theorem In.lchild {f : Fr α} (i : In E A s h m M (plug (f :: c) (.node l co a v r))) : isLchild s (some a) = .ok f.d := by
  unfold isLchild
  rw [i.parent]
  simp only [cpar, Res.ok_bind]
  cases hd : f.d
  · have i' : In E A s h m M (plug c (.node f.sib f.c f.a f.v (.node l co a v r))) := by
      have := i; simp only [plug, Fr.fill, hd] at this; exact this
    rw [i'.left, Res.ok_bind]
    have : some a ≠ f.sib.ptr := by
      intro e
      have := i.disj.2.2.1 a (by simp [caddrs, T.ptr_mem e.symm]) a (by simp [T.addrs])
      exact this rfl
    simp [this]
  · have i' : In E A s h m M (plug c (.node (.node l co a v r) f.c f.a f.v f.sib)) := by
      have := i; simp only [plug, Fr.fill, hd] at this; exact this
    rw [i'.left, Res.ok_bind]
    simp [T.ptr]

/-- Assigning colours. -/
theorem In.setColor (i : In E A s h m M (plug c (.node l co a v r))) (co' : Color) :
    ∃ s', setColor s (some a) co' = .ok s' ∧ In E A s' h m M (plug c (.node l co' a v r)) := by
  refine ⟨{ s with heap := upd s.heap a (some ⟨co', l.ptr, r.ptr, cpar (some h) c, some v⟩) }, ?_, ?_⟩
  · simp only [Rb.setColor, wr, i.cell]
  · have hd := i.disj
    have hm : ∀ b, b ∈ (plug c (.node l co a v r)).addrs ↔ b ∈ (plug c (.node l co' a v r)).addrs := by
      intro b; rw [mem_addrs_plug, mem_addrs_plug]; simp [T.addrs]
    have hrep := rep_plug.1 i.rep
    refine ⟨?_, ?_, ?_, ?_, i.ah, ?_, ?_, ?_⟩
    · have : h ≠ a := fun e => hd.2.2.2.2 (by simp [T.addrs, e])
      show upd _ _ _ h = _
      rw [upd_ne _ _ this, i.hdr, plug_ptr, plug_ptr]; rfl
    · rw [rep_plug]
      simp only [T.addrs, List.nodup_append, List.nodup_cons, List.mem_append, List.mem_cons] at hd
      refine ⟨⟨upd_same _ _ _, T.rep_congr hrep.1.2.1 ?_, T.rep_congr hrep.1.2.2 ?_⟩, crep_congr hrep.2 ?_⟩ <;> intro b hb <;> apply upd_ne <;> grind
    · rw [nodup_plug]; have := nodup_plug.1 i.nodup; simpa [T.addrs] using this
    · rw [← hm]; exact i.nh
    · intro b hb; exact i.at' b ((hm b).2 hb)
    · intro b hb
      have : b ≠ a := fun e => hb (e ▸ i.at' a (by rw [mem_addrs_plug]; simp [T.addrs]))
      show upd _ _ _ b = _
      rw [upd_ne _ _ this]; exact i.off b hb
    · rw [i.same]

end basic

end Verif.Rb
