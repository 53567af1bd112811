import Verif.Lemmas.RbIter

/-! Inserting a new node, and deleting all nodes. -/

set_option backward.isDefEq.respectTransparency false

namespace Verif.Rb
open Verif
open Verif.Box (Slot upd upd_same upd_ne)

variable {α : Type}

theorem wr_ok {s : St α} {a : Nat} {r : Rec α} {f : Rec α → Rec α} (e : s.heap a = some r) :
    wr s (some a) f = .ok { s with heap := upd s.heap a (some (f r)) } := by
  simp only [wr, e]

theorem topBlack_of {c : List (Fr α)} : ∀ {t : T α}, (plug c t).red = false → topBlack c := by
  match c with
  | [] => intros; trivial
  | [f] =>
    intro t h
    obtain ⟨fd, fc, fa, fv, fs⟩ := f
    cases fc
    · cases fd <;> simp [plug, Fr.fill, T.red] at h
    · rfl
  | f :: g :: c => intro t h; exact topBlack_of (c := g :: c) (t := f.fill t) h

theorem mem_beg {h : Nat} {l : List (Nat × α)} (hl : l ≠ []) : beg h l ∈ l.map (·.1) := by
  cases l with
  | nil => cases hl rfl
  | cons x l => simp [beg]

theorem mem_lst {h : Nat} {l : List (Nat × α)} (hl : l ≠ []) : lst h l ∈ l.map (·.1) := by
  simp only [lst, List.getLast?_eq_some_getLast hl]
  exact List.mem_map_of_mem (List.getLast_mem hl)

/-- The part of `insert_node_at` before the rebalancing. -/
def attach (s : St α) (h : Nat) (node ins : Option Nat) (onLeft : Bool) : Res (St α) := do
  let s ← setParent s ins node
  if node = some h then do
    let s ← setParent s (some h) ins
    let s ← setLeft s (some h) ins
    setRight s (some h) ins
  else if onLeft then do
    let s ← setLeft s node ins
    let m ← left s (some h)
    if m = node then setLeft s (some h) ins else .ok s
  else do
    let s ← setRight s node ins
    let m ← right s (some h)
    if m = node then setRight s (some h) ins else .ok s

theorem insertNodeAt_eq (fuel : Nat) (s : St α) (k : Slot) (node ins : Option Nat) (onLeft : Bool) :
    insertNodeAt fuel s k node ins onLeft = (getT s k >>= fun x => attach s x.1 node ins onLeft >>= fun s =>
      insertRebalance fuel s ins x.1 >>= fun s => setCount s k (x.2 + 1) >>= fun s => .ok (s, ins)) := by
  unfold insertNodeAt attach
  simp only [bind_assoc]

/-- What is known after the new node has been linked in. -/
theorem attach_ok {s : St α} {h : Nat} {c : List (Fr α)} {n : Nat} {v : α} {p : Option Nat} (i : Tr s h (plug c .nil))
    (hn : s.heap n = some ⟨.red, none, none, p, some v⟩) (hf : n ∉ (plug c (.nil : T α)).addrs) (hnh : n ≠ h) :
    ∃ s', attach s h (cpar (some h) c) (some n) (onL c) = .ok s' ∧
      In s (fun a => a = h ∨ a = n ∨ a ∈ (plug c (.nil : T α)).addrs) s' h (some (beg h (cl c ++ (n, v) :: cr c))) (some (lst h (cl c ++ (n, v) :: cr c)))
        (plug c (.node .nil .red n v .nil)) := by
  have i0 : In s _ s h _ _ (plug c .nil) := i
  have hl0 : (plug c (.nil : T α)).inl = cl c ++ cr c := by rw [inl_plug]; simp [T.inl]
  have hdr : s.heap h = some ⟨.red, some (beg h (plug c (.nil : T α)).inl), some (lst h (plug c (.nil : T α)).inl), (plug c (.nil : T α)).ptr, none⟩ := i0.hdr
  have hk := In.keys i
  obtain ⟨s1, e1, h1⟩ : ∃ s1, setParent s (some n) (cpar (some h) c) = .ok s1 ∧
      s1 = { s with heap := upd s.heap n (some ⟨.red, none, none, cpar (some h) c, some v⟩) } := by
    refine ⟨_, ?_, rfl⟩
    simp only [setParent, wr, hn]
  unfold attach
  rw [e1, Res.ok_bind]
  cases c with
  | nil =>
    rw [cpar_nil, if_pos rfl]
    have hd1 : s1.heap h = some ⟨.red, some h, some h, none, none⟩ := by
      rw [h1]; show upd _ _ _ h = _; rw [upd_ne _ _ hnh.symm, hdr]; rfl
    refine ⟨{ s with heap := upd s1.heap h (some ⟨.red, some n, some n, some n, none⟩) }, ?_, ?_, ?_, ?_, ?_, ?_, ?_, ?_, ?_⟩
    · rw [show setParent s1 (some h) (some n) = .ok { s1 with heap := upd s1.heap h (some ⟨.red, some h, some h, some n, none⟩) } from by
        simp only [setParent, wr, hd1]]
      simp only [setLeft, setRight, wr, Res.ok_bind, upd_same, Verif.Box.upd_upd]
      rw [h1]
    · simp [cl, cr, beg, lst, plug, T.ptr, upd_same]
    · refine ⟨?_, trivial, trivial⟩
      show upd s1.heap h _ n = _
      rw [upd_ne _ _ hnh, h1]; exact upd_same _ _ _
    · simp [plug, T.addrs]
    · simp [plug, T.addrs]; exact hnh.symm
    · exact .inl rfl
    · intro a ha; simp [plug, T.addrs] at ha; exact .inr (.inl ha)
    · intro a ha
      show upd s1.heap h _ a = _
      rw [upd_ne _ _ (fun e => ha (.inl e)), h1]
      exact upd_ne _ _ (fun e => ha (.inr (.inl e)))
    · rfl
  | cons f c =>
    obtain ⟨fd, fc, fa, fv, fs⟩ := f
    have hd := i0.disj
    have hcr := (rep_plug.1 i0.rep).2
    have hfa : fa ≠ h := fun e => hd.2.2.2.1 (by simp [caddrs, e])
    have hfn : fa ≠ n := fun e => hf (by rw [mem_addrs_plug]; simp [caddrs, e])
    have hne : cl (⟨fd, fc, fa, fv, fs⟩ :: c) ++ cr (⟨fd, fc, fa, fv, fs⟩ :: c) ≠ [] := by cases fd <;> simp [cl, cr]
    rw [cpar_cons, if_neg (fun e => hfa (Option.some.inj e))]
    have hf1 : s1.heap fa = s.heap fa := by rw [h1]; exact upd_ne _ _ hfn
    have hptr : (plug (⟨fd, fc, fa, fv, fs⟩ :: c) (.nil : T α)).ptr = (plug (⟨fd, fc, fa, fv, fs⟩ :: c) (.node .nil .red n v .nil)).ptr := by
      rw [plug_ptr, plug_ptr]; rfl
    have hfin : ∀ (m M : Option Nat) (H : Nat → Option (Rec α)), H h = some ⟨.red, m, M, (plug (⟨fd, fc, fa, fv, fs⟩ :: c) (.nil : T α)).ptr, none⟩ →
        H n = some ⟨.red, none, none, some fa, some v⟩ →
        H fa = some ⟨fc, if fd then some n else fs.ptr, if fd then fs.ptr else some n, cpar (some h) c, some fv⟩ →
        (∀ a, a ≠ h → a ≠ n → a ≠ fa → H a = s.heap a) →
        In s (fun a => a = h ∨ a = n ∨ a ∈ (plug (⟨fd, fc, fa, fv, fs⟩ :: c) (.nil : T α)).addrs) { s with heap := H } h m M
          (plug (⟨fd, fc, fa, fv, fs⟩ :: c) (.node .nil .red n v .nil)) := by
      intro m M H g1 g2 g3 g4
      have hn' : n ∉ caddrs (⟨fd, fc, fa, fv, fs⟩ :: c) := fun hm => hf (by rw [mem_addrs_plug]; exact .inl hm)
      simp only [caddrs, List.nodup_cons, List.nodup_append, List.mem_append, List.mem_cons] at hd hn'
      refine ⟨?_, ?_, ?_, ?_, .inl rfl, ?_, ?_, rfl⟩
      · rw [← hptr]; exact g1
      · rw [rep_plug]
        refine ⟨⟨g2, trivial, trivial⟩, g3, T.rep_congr hcr.2.1 fun a ha => g4 a ?_ ?_ ?_, crep_congr hcr.2.2 fun a ha => g4 a ?_ ?_ ?_⟩ <;> grind
      · rw [nodup_plug]
        simp only [caddrs, List.nodup_cons, List.nodup_append, List.mem_append, List.mem_cons, T.addrs]
        grind
      · rw [mem_addrs_plug]
        simp only [caddrs, List.mem_append, List.mem_cons, T.addrs]
        grind
      · intro a ha
        rw [mem_addrs_plug] at ha
        show _ ∨ _ ∨ a ∈ (plug _ _).addrs
        rw [mem_addrs_plug]
        simp only [T.addrs] at ha ⊢
        grind
      · intro a ha
        rw [mem_addrs_plug] at ha
        refine g4 a (fun e => ha (.inl e)) (fun e => ha (.inr (.inl e))) (fun e => ha (.inr (.inr (.inl ?_))))
        simp [caddrs, e]
    have hhn : s1.heap h = s.heap h := by rw [h1]; exact upd_ne _ _ hnh.symm
    have hnn : s1.heap n = some ⟨.red, none, none, some fa, some v⟩ := by rw [h1]; exact upd_same _ _ _
    have hoo : ∀ a, a ≠ n → s1.heap a = s.heap a := by intro a ha; rw [h1]; exact upd_ne _ _ ha
    have hss : s1 = { s with heap := s1.heap } := by rw [h1]
    cases fd
    · have hcell : s1.heap fa = some ⟨fc, fs.ptr, none, cpar (some h) c, some fv⟩ := by rw [hf1]; exact hcr.1
      simp only [onL, Bool.false_eq_true, if_false]
      have e2 : setRight s1 (some fa) (some n) = .ok { s1 with heap := upd s1.heap fa (some ⟨fc, fs.ptr, some n, cpar (some h) c, some fv⟩) } := by
        simp only [setRight, wr, hcell]
      have e3 : Rb.right { s1 with heap := upd s1.heap fa (some ⟨fc, fs.ptr, some n, cpar (some h) c, some fv⟩) } (some h) =
          .ok (some (lst h (plug (⟨false, fc, fa, fv, fs⟩ :: c) (.nil : T α)).inl)) := by
        simp only [Rb.right, rd, upd_ne _ _ hfa.symm, hhn, hdr, Res.ok_bind]
      rw [e2, Res.ok_bind, e3, Res.ok_bind]
      have hcl : cl (⟨false, fc, fa, fv, fs⟩ :: c) ≠ [] := by simp [cl]
      have hlcl : lst h (cl (⟨false, fc, fa, fv, fs⟩ :: c)) = fa := by
        simp only [cl, Bool.false_eq_true, if_false]; rw [← List.append_assoc, lst_append_cons]
      have hb : beg h (cl (⟨false, fc, fa, fv, fs⟩ :: c) ++ (n, v) :: cr (⟨false, fc, fa, fv, fs⟩ :: c)) =
          beg h (plug (⟨false, fc, fa, fv, fs⟩ :: c) (.nil : T α)).inl := by
        rw [hl0, beg_append hcl, beg_append hcl]
      by_cases hM : lst h (plug (⟨false, fc, fa, fv, fs⟩ :: c) (.nil : T α)).inl = fa
      · have hcr0 : cr (⟨false, fc, fa, fv, fs⟩ :: c) = [] := by
          by_cases h0 : cr (⟨false, fc, fa, fv, fs⟩ :: c) = []
          · exact h0
          · rw [hl0, lst_append h0] at hM
            have h2 := mem_lst (h := h) h0
            rw [hM] at h2
            have h3 := hk.1
            rw [hl0, List.map_append, List.nodup_append] at h3
            exact absurd rfl (h3.2.2 fa (by simp [cl]) fa h2)
        rw [if_pos (by rw [hM])]
        refine ⟨{ s with heap := upd (upd s1.heap fa (some ⟨fc, fs.ptr, some n, cpar (some h) c, some fv⟩)) h (some ⟨.red, some (beg h (plug (⟨false, fc, fa, fv, fs⟩ :: c) (.nil : T α)).inl), some n, (plug (⟨false, fc, fa, fv, fs⟩ :: c) (.nil : T α)).ptr, none⟩) }, ?_, ?_⟩
        · simp only [setRight, wr, upd_ne _ _ hfa.symm, hhn, hdr]
          rw [hss]
        · rw [hb, hcr0, lst_append_cons]
          refine hfin _ _ _ (upd_same _ _ _) ?_ ?_ ?_
          · rw [upd_ne _ _ hnh, upd_ne _ _ hfn.symm, hnn]
          · rw [upd_ne _ _ hfa, upd_same]; rfl
          · intro a g1 g2 g3
            rw [upd_ne _ _ g1, upd_ne _ _ g3, hoo a g2]
      · have hcr0 : cr (⟨false, fc, fa, fv, fs⟩ :: c) ≠ [] := by
          intro h0; rw [hl0, h0, List.append_nil] at hM; exact hM hlcl
        rw [if_neg (fun e => hM (Option.some.inj e))]
        refine ⟨{ s with heap := upd s1.heap fa (some ⟨fc, fs.ptr, some n, cpar (some h) c, some fv⟩) }, by rw [hss], ?_⟩
        have hM2 : lst h (cl (⟨false, fc, fa, fv, fs⟩ :: c) ++ (n, v) :: cr (⟨false, fc, fa, fv, fs⟩ :: c)) =
            lst h (plug (⟨false, fc, fa, fv, fs⟩ :: c) (.nil : T α)).inl := by
          rw [hl0, ← List.singleton_append (x := (n, v)), ← List.append_assoc, lst_append hcr0, lst_append hcr0]
        rw [hb, hM2]
        refine hfin _ _ _ ?_ ?_ ?_ ?_
        · rw [upd_ne _ _ hfa.symm, hhn, hdr]
        · rw [upd_ne _ _ hfn.symm, hnn]
        · rw [upd_same]; rfl
        · intro a g1 g2 g3
          rw [upd_ne _ _ g3, hoo a g2]
    · have hcell : s1.heap fa = some ⟨fc, none, fs.ptr, cpar (some h) c, some fv⟩ := by rw [hf1]; exact hcr.1
      simp only [onL, if_true]
      have e2 : setLeft s1 (some fa) (some n) = .ok { s1 with heap := upd s1.heap fa (some ⟨fc, some n, fs.ptr, cpar (some h) c, some fv⟩) } := by
        simp only [setLeft, wr, hcell]
      have e3 : Rb.left { s1 with heap := upd s1.heap fa (some ⟨fc, some n, fs.ptr, cpar (some h) c, some fv⟩) } (some h) =
          .ok (some (beg h (plug (⟨true, fc, fa, fv, fs⟩ :: c) (.nil : T α)).inl)) := by
        simp only [Rb.left, rd, upd_ne _ _ hfa.symm, hhn, hdr, Res.ok_bind]
      rw [e2, Res.ok_bind, e3, Res.ok_bind]
      have hcr : cr (⟨true, fc, fa, fv, fs⟩ :: c) ≠ [] := by simp [cr]
      have hbcr : beg h (cr (⟨true, fc, fa, fv, fs⟩ :: c)) = fa := by simp [cr, beg]
      have hb : lst h (cl (⟨true, fc, fa, fv, fs⟩ :: c) ++ (n, v) :: cr (⟨true, fc, fa, fv, fs⟩ :: c)) =
          lst h (plug (⟨true, fc, fa, fv, fs⟩ :: c) (.nil : T α)).inl := by
        rw [hl0, ← List.singleton_append (x := (n, v)), ← List.append_assoc, lst_append hcr, lst_append hcr]
      by_cases hM : beg h (plug (⟨true, fc, fa, fv, fs⟩ :: c) (.nil : T α)).inl = fa
      · have hcl0 : cl (⟨true, fc, fa, fv, fs⟩ :: c) = [] := by
          by_cases h0 : cl (⟨true, fc, fa, fv, fs⟩ :: c) = []
          · exact h0
          · rw [hl0, beg_append h0] at hM
            have h2 := mem_beg (h := h) h0
            rw [hM] at h2
            have h3 := hk.1
            rw [hl0, List.map_append, List.nodup_append] at h3
            exact absurd rfl (h3.2.2 fa h2 fa (by simp [cr]))
        rw [if_pos (by rw [hM])]
        refine ⟨{ s with heap := upd (upd s1.heap fa (some ⟨fc, some n, fs.ptr, cpar (some h) c, some fv⟩)) h (some ⟨.red, some n, some (lst h (plug (⟨true, fc, fa, fv, fs⟩ :: c) (.nil : T α)).inl), (plug (⟨true, fc, fa, fv, fs⟩ :: c) (.nil : T α)).ptr, none⟩) }, ?_, ?_⟩
        · simp only [setLeft, wr, upd_ne _ _ hfa.symm, hhn, hdr]
          rw [hss]
        · rw [hb, hcl0]
          refine hfin _ _ _ (upd_same _ _ _) ?_ ?_ ?_
          · rw [upd_ne _ _ hnh, upd_ne _ _ hfn.symm, hnn]
          · rw [upd_ne _ _ hfa, upd_same]; rfl
          · intro a g1 g2 g3
            rw [upd_ne _ _ g1, upd_ne _ _ g3, hoo a g2]
      · have hcl0 : cl (⟨true, fc, fa, fv, fs⟩ :: c) ≠ [] := by
          intro h0; rw [hl0, h0, List.nil_append] at hM; exact hM hbcr
        rw [if_neg (fun e => hM (Option.some.inj e))]
        refine ⟨{ s with heap := upd s1.heap fa (some ⟨fc, some n, fs.ptr, cpar (some h) c, some fv⟩) }, by rw [hss], ?_⟩
        have hM2 : beg h (cl (⟨true, fc, fa, fv, fs⟩ :: c) ++ (n, v) :: cr (⟨true, fc, fa, fv, fs⟩ :: c)) =
            beg h (plug (⟨true, fc, fa, fv, fs⟩ :: c) (.nil : T α)).inl := by
          rw [hl0, beg_append hcl0, beg_append hcl0]
        rw [hb, hM2]
        refine hfin _ _ _ ?_ ?_ ?_ ?_
        · rw [upd_ne _ _ hfa.symm, hhn, hdr]
        · rw [upd_ne _ _ hfn.symm, hnn]
        · rw [upd_same]; rfl
        · intro a g1 g2 g3
          rw [upd_ne _ _ g3, hoo a g2]

/-- `erase_since` deletes exactly the nodes of a tree, each once. -/
theorem eraseSince_ok (t : T α) : ∀ (s : St α) (par : Option Nat), t.rep s.heap par → t.addrs.Nodup →
    ∃ s' l, Conv (fun f => eraseSince f s t.ptr) s' ∧ s' = { s with heap := s'.heap, freed := l ++ s.freed } ∧ l.Perm t.addrs ∧
      (∀ a ∈ t.addrs, s'.heap a = none) ∧ (∀ a, a ∉ t.addrs → s'.heap a = s.heap a) := by
  induction t with
  | nil =>
    intro s par _ _
    refine ⟨s, [], (Conv.pure s).succ rfl fun f => ?_, rfl, .refl _, ?_, fun _ _ => rfl⟩
    · rfl
    · intro a ha; cases ha
  | node l co a v r ihl ihr =>
    intro s par hr hn
    obtain ⟨hc, hl, hr⟩ := hr
    simp only [T.addrs, List.nodup_append, List.nodup_cons, List.mem_cons] at hn
    obtain ⟨s1, l1, cv1, e1, p1, d1, o1⟩ := ihr s (some a) hr hn.2.1.2
    have hc1 : s1.heap a = some ⟨co, l.ptr, r.ptr, par, some v⟩ := by rw [o1 a hn.2.1.1]; exact hc
    have hl2 : l.rep (upd s1.heap a none) (some a) := by
      refine T.rep_congr hl fun b hb => ?_
      have hba : b ≠ a := fun e => hn.2.2 b hb a (by simp) e
      rw [upd_ne _ _ hba, o1 b (fun hb2 => hn.2.2 b hb b (by simp [hb2]) rfl)]
    obtain ⟨s3, l3, cv3, e3, p3, d3, o3⟩ := ihl { s1 with heap := upd s1.heap a none, freed := a :: s1.freed } (some a) hl2 hn.1
    refine ⟨s3, l3 ++ a :: l1, ?_, ?_, ?_, ?_, ?_⟩
    · refine (cv1.bind (h := fun f s1 => Rb.left s1 (some a) >>= fun l => destroyNode s1 (some a) >>= fun s => eraseSince f s l)
        (b := s3) (cv3.congr fun f => ?_)).succ rfl fun f => ?_
      · simp only [Rb.left, rd, hc1, Res.ok_bind, destroyNode]
      · show eraseSince (f + 1) s (some a) = _
        rw [eraseSince]
        simp only [Rb.right, rd, hc, Res.ok_bind]
    · rw [e3, e1]; simp
    · simp only [T.addrs]
      exact p3.append (.cons a p1)
    · intro b hb
      simp only [T.addrs, List.mem_append, List.mem_cons] at hb
      by_cases hbl : b ∈ l.addrs
      · exact d3 b hbl
      · rw [o3 b hbl]
        show upd s1.heap a none b = none
        by_cases hba : b = a
        · rw [hba, upd_same]
        · rw [upd_ne _ _ hba]; exact d1 b (by grind)
    · intro b hb
      simp only [T.addrs, List.mem_append, List.mem_cons, not_or] at hb
      rw [o3 b hb.1]
      show upd s1.heap a none b = _
      rw [upd_ne _ _ hb.2.1, o1 b hb.2.2]

end Verif.Rb
