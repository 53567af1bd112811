import Verif.Model.Format

/-! Write-safety of the formatting functions: every write is inside the buffer. -/

namespace Verif.Format
open Verif

theorem memcpy_ptr {m m' : Mem} {d s n p : Nat} (h : StringMem.memcpy m d s n = .ok (p, m')) :
    p = d ∨ p = d + n := by
  unfold StringMem.memcpy at h
  split at h
  · cases h; exact Or.inl rfl
  · split at h
    · cases h; exact Or.inr rfl
    · split at h
      · simp only [Res.bind_eq_ok] at h
        obtain ⟨m1, _, m2, _, h3⟩ := h
        cases h3
        right; omega
      · simp only [Res.bind_eq_ok] at h
        obtain ⟨m1, _, h3⟩ := h
        cases h3
        exact Or.inr rfl

theorem copyByte_frame {m m' : Mem} {d s : Nat} (h : StringMem.copyByte m d s = .ok m') :
    ∀ a, a ≠ d → m' a = m a := by
  intro a ha
  simp only [StringMem.copyByte, Res.bind_eq_ok] at h
  obtain ⟨b, _, h⟩ := h
  unfold Mem.store at h
  split at h
  · cases h; simp [Mem.upd, ha]
  · cases h

theorem copyWord_frame {m m' : Mem} {d s : Nat} (h : StringMem.copyWord m d s = .ok m') :
    ∀ a, ¬ (d ≤ a ∧ a < d + 8) → m' a = m a := by
  intro a ha
  unfold StringMem.copyWord at h
  split at h
  · cases h; simp only [if_neg ha]
  · cases h

/-- memcpy never changes memory outside its destination, even when the ranges
overlap. -/
theorem memcpy_frame {m m' : Mem} {d s n p : Nat} (h : StringMem.memcpy m d s n = .ok (p, m')) :
    ∀ a, ¬ (d ≤ a ∧ a < d + n) → m' a = m a := by
  intro a ha
  unfold StringMem.memcpy at h
  split at h
  · cases h; rfl
  · split at h
    · cases h; rfl
    · split at h
      · simp only [Res.bind_eq_ok] at h
        obtain ⟨m1, h1, m2, h2, h3⟩ := h
        cases h3
        have e1 : m1 a = m a := by
          refine forUp_inv_ok (fun _ x => x a = m a) _ m (n / 8) rfl ?_ m1 h1
          intro i x x' hi hx hxx
          rw [copyWord_frame hxx a (by omega)]; exact hx
        refine Eq.trans ?_ e1
        refine forUp_inv_ok (fun _ x => x a = m1 a) _ m1 (n - n / 8 * 8) rfl ?_ _ h2
        intro i x x' hi hx hxx
        rw [copyByte_frame hxx a (by omega)]; exact hx
      · simp only [Res.bind_eq_ok] at h
        obtain ⟨m1, h1, h3⟩ := h
        cases h3
        refine forUp_inv_ok (fun _ x => x a = m a) _ m n rfl ?_ _ h1
        intro i x x' hi hx hxx
        rw [copyByte_frame hxx a (by omega)]; exact hx

variable {lo last : Nat}

/-- Inside the buffer. -/
def In (lo last : Nat) (a : Nat) : Prop := lo ≤ a ∧ a < last

theorem padLoop_safe (zero : UInt8) (rem : Nat) : ∀ buf, lo ≤ buf → buf ≤ last →
    FM.Safe (In lo last) (padLoop last zero rem buf) (fun b => buf ≤ b ∧ b ≤ last) := by
  induction rem with
  | zero => intro buf h1 h2; exact FM.Safe.pure ⟨Nat.le_refl _, h2⟩
  | succ rem ih =>
    intro buf h1 h2
    unfold padLoop
    split
    · rename_i h
      refine FM.Safe.bind (FM.Safe.put ⟨h1, h⟩) (fun _ _ => ?_)
      exact (ih (buf + 1) (by omega) (by omega)).mono (fun b hb => ⟨by omega, hb.2⟩)
    · exact FM.Safe.pure ⟨Nat.le_refl _, h2⟩

theorem putList_safe (l : List UInt8) : ∀ buf, lo ≤ buf → buf + l.length ≤ last →
    FM.Safe (In lo last) (putList l buf) (fun b => buf ≤ b ∧ b ≤ last) := by
  induction l with
  | nil => intro buf h1 h2; exact FM.Safe.pure ⟨Nat.le_refl _, by simpa using h2⟩
  | cons c cs ih =>
    intro buf h1 h2
    simp only [List.length_cons] at h2
    unfold putList
    refine FM.Safe.bind (FM.Safe.put ⟨h1, by omega⟩) (fun _ _ => ?_)
    exact (ih (buf + 1) (by omega) (by omega)).mono (fun b hb => ⟨by omega, hb.2⟩)

theorem sprintfNum_safe (v : BitVec 64) (zero : UInt8) (hex width buf : Nat)
    (h1 : lo ≤ buf) (h2 : buf ≤ last) :
    FM.Safe (In lo last) (sprintfNum buf last v zero hex width)
      (fun b => buf ≤ b ∧ b ≤ last) := by
  unfold sprintfNum
  refine FM.Safe.bind (Q := fun _ => True) (FM.Safe.lift (fun _ _ => trivial)) (fun ds _ => ?_)
  refine FM.Safe.bind (padLoop_safe zero _ buf h1 h2) (fun b hb => ?_)
  split
  · split
    · exact FM.Safe.ub
    · split
      · exact FM.Safe.pure hb
      · refine (putList_safe _ b (by omega) ?_).mono (fun c hc => ⟨by omega, hc.2⟩)
        simp only [List.length_take]; omega
  · split
    · exact FM.Safe.pure hb
    · exact (putList_safe _ b (by omega) (by omega)).mono (fun c hc => ⟨by omega, hc.2⟩)

theorem strLoop_safe (n : Nat) : ∀ p buf, lo ≤ buf → buf + n ≤ last →
    FM.Safe (In lo last) (strLoop n p buf) (fun b => buf ≤ b ∧ b ≤ last) := by
  induction n with
  | zero =>
    intro p buf h1 h2
    unfold strLoop
    exact FM.Safe.bind FM.Safe.get (fun _ _ => FM.Safe.pure ⟨Nat.le_refl _, h2⟩)
  | succ n ih =>
    intro p buf h1 h2
    unfold strLoop
    refine FM.Safe.bind FM.Safe.get (fun c _ => ?_)
    split
    · exact FM.Safe.pure ⟨Nat.le_refl _, by omega⟩
    · refine FM.Safe.bind (FM.Safe.put ⟨h1, by omega⟩) (fun _ _ => ?_)
      exact (ih (p + 1) (buf + 1) (by omega) (by omega)).mono (fun b hb => ⟨by omega, hb.2⟩)

theorem memcpyF_safe (p n buf : Nat) (h1 : lo ≤ buf) (h2 : buf + n ≤ last) :
    FM.Safe (In lo last) (memcpyF buf p n) (fun b => buf ≤ b ∧ b ≤ last) := by
  intro s hs
  have hlog : ∀ a ∈ (if buf = 0 ∨ p = 0 ∨ buf = p then [] else (List.range' buf n)) ++ s.log,
      In lo last a := by
    intro a ha
    rw [List.mem_append] at ha
    rcases ha with ha | ha
    · split at ha
      · simp at ha
      · simp only [List.mem_range'_1] at ha; exact ⟨by omega, by omega⟩
    · exact hs a ha
  unfold memcpyF
  dsimp only
  split
  · rename_i q m hq
    refine ⟨hlog, ?_, ?_⟩
    · intro v hv
      have := memcpy_ptr hq
      cases hv
      omega
    · intro a ha
      exact memcpy_frame hq a (fun h => ha ⟨by omega, by omega⟩)
  · exact ⟨hlog, (by intro v hv; cases hv), fun _ _ => rfl⟩
  · exact ⟨hlog, (by intro v hv; cases hv), fun _ _ => rfl⟩

theorem convF_safe (fl : Flags) (f : Dbl) (buf : Nat) (h1 : lo ≤ buf) (h2 : buf < last) :
    FM.Safe (In lo last) (convF buf last fl f) (fun b => buf ≤ b ∧ b ≤ last) := by
  unfold convF
  refine FM.Safe.bind (Q := fun b => buf ≤ b ∧ b ≤ last) ?_ (fun b hb => ?_)
  · split
    · exact FM.Safe.bind (FM.Safe.put ⟨h1, h2⟩) (fun _ _ => FM.Safe.pure ⟨by omega, by omega⟩)
    · exact FM.Safe.pure ⟨by omega, by omega⟩
  · split
    · exact FM.Safe.ub
    · split
      · exact (sprintfNum_safe _ _ _ _ b (by omega) hb.2).mono (fun c hc => ⟨by omega, hc.2⟩)
      · dsimp only
        split
        · exact FM.Safe.ub
        · refine FM.Safe.bind (sprintfNum_safe _ _ _ _ b (by omega) hb.2) (fun c hc => ?_)
          refine FM.Safe.bind (Q := fun e => buf ≤ e ∧ e ≤ last) ?_ (fun e he => ?_)
          · split
            · rename_i h
              exact FM.Safe.bind (FM.Safe.put ⟨by omega, h⟩)
                (fun _ _ => FM.Safe.pure ⟨by omega, by omega⟩)
            · exact FM.Safe.pure ⟨by omega, by omega⟩
          · exact (sprintfNum_safe _ _ _ _ e (by omega) he.2).mono (fun c hc => ⟨by omega, hc.2⟩)

theorem convInt_safe (fl : Flags) (v : BitVec 64) (zero : UInt8) (hex width buf : Nat)
    (h1 : lo ≤ buf) (h2 : buf < last) :
    FM.Safe (In lo last) (convInt buf last fl v zero hex width) (fun b => buf ≤ b ∧ b ≤ last) := by
  unfold convInt
  split
  · split
    · refine FM.Safe.bind (FM.Safe.put ⟨h1, h2⟩) (fun _ _ => ?_)
      split
      · exact FM.Safe.ub
      · exact (sprintfNum_safe _ _ _ _ (buf + 1) (by omega) (by omega)).mono
          (fun c hc => ⟨by omega, hc.2⟩)
    · exact sprintfNum_safe _ _ _ _ buf h1 (by omega)
  · exact sprintfNum_safe _ _ _ _ buf h1 (by omega)

theorem convert_safe (fl : Flags) (c : UInt8) (args : List Arg) (buf : Nat)
    (h1 : lo ≤ buf) (h2 : buf < last) :
    FM.Safe (In lo last) (convert buf last fl c args)
      (fun r => buf ≤ r.1 ∧ r.1 ≤ last) := by
  have hpure : ∀ (b : Nat) (a : List Arg), (buf ≤ b ∧ b ≤ last) →
      FM.Safe (In lo last) (pure (b, a) : FM (Nat × List Arg))
        (fun r => buf ≤ r.1 ∧ r.1 ≤ last) := fun b a h => FM.Safe.pure h
  have hlift : ∀ {α : Type} (r : Res α), FM.Safe (In lo last) (FM.lift r) (fun _ => True) :=
    fun r => FM.Safe.lift (fun _ _ => trivial)
  have hint : ∀ (r : Res (BitVec 32 × List Arg)) (g : BitVec 32 → BitVec 64) (w : Nat),
      FM.Safe (In lo last) (FM.lift r >>= fun x =>
        convInt buf last fl (g x.1) fl.zero fl.hex w >>= fun b => pure (b, x.2))
        (fun r => buf ≤ r.1 ∧ r.1 ≤ last) := fun r g w =>
    FM.Safe.bind (hlift r) (fun x _ =>
      FM.Safe.bind (convInt_safe _ _ _ _ _ buf h1 h2) (fun b hb => hpure b x.2 hb))
  have hint64 : ∀ (r : Res (BitVec 64 × List Arg)) (g : BitVec 64 → BitVec 64) (w : Nat),
      FM.Safe (In lo last) (FM.lift r >>= fun x =>
        convInt buf last fl (g x.1) fl.zero fl.hex w >>= fun b => pure (b, x.2))
        (fun r => buf ≤ r.1 ∧ r.1 ≤ last) := fun r g w =>
    FM.Safe.bind (hlift r) (fun x _ =>
      FM.Safe.bind (convInt_safe _ _ _ _ _ buf h1 h2) (fun b hb => hpure b x.2 hb))
  unfold convert
  split
  · refine FM.Safe.bind (hlift _) (fun x _ => ?_)
    obtain ⟨p, a⟩ := x
    dsimp only
    split
    · refine FM.Safe.bind (Q := fun b => buf ≤ b ∧ b ≤ last) ?_ (fun b hb => hpure b a hb)
      split
      · exact FM.Safe.ub
      · exact strLoop_safe _ _ _ h1 (by omega)
    · refine FM.Safe.bind (memcpyF_safe _ _ buf h1 ?_) (fun b hb => hpure b a hb)
      split <;> omega
  · split
    · split
      · exact hint _ (fun v => v.signExtend 64) _
      · exact hint64 _ (fun v => v) _
    · split
      · exact hint _ (fun v => if fl.sign then v.signExtend 64 else v.setWidth 64) _
      · split
        · exact hint _ (fun v => if fl.sign then v.signExtend 64 else v.setWidth 64) _
        · split
          · exact hint64 _ (fun v => v) _
          · split
            · refine FM.Safe.bind (hlift _) (fun x _ => ?_)
              exact FM.Safe.bind (convF_safe _ _ buf h1 h2) (fun b hb => hpure b x.2 hb)
            · split
              · refine FM.Safe.bind (hlift _) (fun x _ => ?_)
                exact FM.Safe.bind (convInt_safe _ _ _ _ _ buf h1 h2) (fun b hb => hpure b x.2 hb)
              · split
                · refine FM.Safe.bind (hlift _) (fun x _ => ?_)
                  exact FM.Safe.bind (FM.Safe.put ⟨h1, h2⟩)
                    (fun _ _ => hpure _ _ ⟨by omega, by omega⟩)
                · split
                  · exact FM.Safe.bind (FM.Safe.put ⟨h1, h2⟩)
                      (fun _ _ => hpure _ _ ⟨by omega, by omega⟩)
                  · exact FM.Safe.bind (FM.Safe.put ⟨h1, h2⟩)
                      (fun _ _ => hpure _ _ ⟨by omega, by omega⟩)

theorem directive_safe (fmt : List UInt8) (args : List Arg) (buf : Nat)
    (h1 : lo ≤ buf) (h2 : buf < last) :
    FM.Safe (In lo last) (directive buf last fmt args)
      (fun r => buf ≤ r.1 ∧ r.1 ≤ last) := by
  have hlift : ∀ {α : Type} (r : Res α), FM.Safe (In lo last) (FM.lift r) (fun _ => True) :=
    fun r => FM.Safe.lift (fun _ _ => trivial)
  unfold directive
  refine FM.Safe.bind (hlift _) (fun c _ => ?_)
  refine FM.Safe.bind (hlift _) (fun x _ => ?_)
  refine FM.Safe.bind (hlift _) (fun y _ => ?_)
  refine FM.Safe.bind (hlift _) (fun c _ => ?_)
  exact FM.Safe.bind (convert_safe _ _ _ buf h1 h2) (fun z hz => FM.Safe.pure hz)

theorem vslLoop_safe (fuel : Nat) : ∀ (fmt : List UInt8) (args : List Arg) (buf : Nat),
    lo ≤ buf → buf ≤ last →
    FM.Safe (In lo last) (vslLoop last fuel buf fmt args) (fun b => buf ≤ b ∧ b ≤ last) := by
  induction fuel with
  | zero => intros; exact FM.Safe.oof
  | succ fuel ih =>
    intro fmt args buf h1 h2
    unfold vslLoop
    refine FM.Safe.bind (Q := fun _ => True) (FM.Safe.lift (fun _ _ => trivial)) (fun c _ => ?_)
    split
    · rename_i hc
      split
      · refine FM.Safe.bind (directive_safe _ _ buf h1 hc.2) (fun x hx => ?_)
        exact (ih _ _ x.1 (by omega) hx.2).mono (fun b hb => ⟨by omega, hb.2⟩)
      · refine FM.Safe.bind (FM.Safe.put ⟨h1, hc.2⟩) (fun _ _ => ?_)
        exact (ih _ _ (buf + 1) (by omega) (by omega)).mono (fun b hb => ⟨by omega, hb.2⟩)
    · exact FM.Safe.pure ⟨Nat.le_refl _, h2⟩

theorem vslprintf_safe (fmt : List UInt8) (args : List Arg) (buf : Nat) (h : buf ≤ last) :
    FM.Safe (In buf last) (vslprintf buf last fmt args) (fun b => buf ≤ b ∧ b ≤ last) := by
  unfold vslprintf
  refine FM.Safe.bind (vslLoop_safe _ _ _ buf (Nat.le_refl _) h) (fun b hb => ?_)
  split
  · rename_i hlt
    exact FM.Safe.bind (FM.Safe.put ⟨hb.1, hlt⟩) (fun _ _ => FM.Safe.pure ⟨by omega, by omega⟩)
  · exact FM.Safe.pure hb

end Verif.Format
