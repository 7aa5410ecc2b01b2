import Verif.Proofs.Threaded
namespace SV.Threaded

/-- The slot holds hash `x.2` of session `x.1`. -/
def HoldsHash (H : Heap) (s : Slot) (x : UInt32 × Bytes) : Prop :=
  s.id = x.1 ∧ ∃ p, s.ptr = some p ∧ H.cell p = x.2

/-- The slot holds the outcome `x.2` of a signing operation for session `x.1`. -/
def HoldsSig (H : Heap) (s : Slot) (x : UInt32 × Option Bytes) : Prop :=
  s.id = x.1 ∧ match x.2 with
    | none => s.err = true
    | some sg => s.err = false ∧ ∃ p, s.ptr = some p ∧ s.size ≤ (H.cell p).length ∧
        (H.cell p).take s.size = sg

/-- The shared data holds the hashes `iq` waiting to be signed and the outcomes `oq` waiting to be
fetched.  `P` is what is known about the size of hashes. -/
structure TInv (P : Nat → Prop) (t : TData) (iq : List (UInt32 × Bytes))
    (oq : List (UInt32 × Option Bytes)) : Prop where
  lin : t.inn.length = 60
  lout : t.out.length = 60
  iidx : t.inIdx = iq.length
  oidx : t.outIdx = oq.length
  ptrs : ((t.inn ++ t.out).filterMap Slot.ptr).Nodup
  min : ∀ s ∈ t.inn, ∀ p, s.ptr = some p → p < t.heap.brk ∧ (t.heap.cell p).length = s.size ∧ P s.size
  mout : ∀ s ∈ t.out, ∀ p, s.ptr = some p → p < t.heap.brk ∧ (t.heap.cell p).length = t.maxSig
  vin : View (HoldsHash t.heap) t.inn iq
  vout : View (HoldsSig t.heap) t.out oq
  sd : iq ≠ [] → t.sdHash.isSome
  sdP : t.sdHash.isSome → P t.sdHashSize

theorem filterMap_zero (n : Nat) : (List.replicate n Slot.zero).filterMap Slot.ptr = [] := by
  induction n with
  | zero => rfl
  | succ n ih => simp [List.replicate_succ, ih, Slot.zero]

theorem view_zero {α : Type} (V : Slot → α → Prop) (n : Nat) :
    View V (List.replicate n Slot.zero) [] :=
  ⟨[], _, rfl, rfl, by simp, by intro s hs; rw [(List.mem_replicate.1 hs).2]; rfl⟩

theorem TInv_init (P : Nat → Prop) (m : Nat) : TInv P (TData.init m) [] [] := by
  refine ⟨by simp [TData.init, maxBuffer], by simp [TData.init, maxBuffer], rfl, rfl, ?_, ?_, ?_,
    view_zero _ _, view_zero _ _, by simp, by simp [TData.init]⟩
  · simp [TData.init, List.filterMap_append, filterMap_zero]
  · intro s hs p hp
    simp [TData.init, List.mem_replicate] at hs
    obtain ⟨-, rfl⟩ := hs
    simp [Slot.zero] at hp
  · intro s hs p hp
    simp [TData.init, List.mem_replicate] at hs
    obtain ⟨-, rfl⟩ := hs
    simp [Slot.zero] at hp

theorem freeBuffers_inv {P : Nat → Prop} {t : TData} (h1 : t.inn.length = 60)
    (h2 : t.out.length = 60) (h3 : t.sdHash.isSome → P t.sdHashSize) :
    TInv P (freeBuffers t) [] [] := by
  have e1 : t.inn.map (fun _ => Slot.zero) = List.replicate 60 Slot.zero := by
    rw [← h1]; exact List.map_const' ..
  have e2 : t.out.map (fun _ => Slot.zero) = List.replicate 60 Slot.zero := by
    rw [← h2]; exact List.map_const' ..
  have hz : ∀ s ∈ List.replicate 60 Slot.zero, ∀ p, s.ptr ≠ some p := by
    intro s hs p
    rw [(List.mem_replicate.1 hs).2]; simp [Slot.zero]
  refine ⟨by simp [freeBuffers, h1], by simp [freeBuffers, h2], rfl, rfl, ?_, ?_, ?_, ?_, ?_, by simp,
    h3⟩
  · simp only [freeBuffers, e1, e2, List.filterMap_append, filterMap_zero]; simp
  · intro s hs p hp; simp only [freeBuffers, e1] at hs; exact absurd hp (hz s hs p)
  · intro s hs p hp; simp only [freeBuffers, e2] at hs; exact absurd hp (hz s hs p)
  · simp only [freeBuffers, e1]; exact view_zero _ _
  · simp only [freeBuffers, e2]; exact view_zero _ _

theorem ptr_mem {a : List Slot} {s : Slot} {p : Nat} (hs : s ∈ a) (hp : s.ptr = some p) :
    p ∈ a.filterMap Slot.ptr := List.mem_filterMap.2 ⟨s, hs, hp⟩

theorem filterMap_eq_of_map {a a' : List Slot} (h : (a'.map Slot.ptr).Perm (a.map Slot.ptr)) :
    (a'.filterMap Slot.ptr).Perm (a.filterMap Slot.ptr) := by
  have e : ∀ l : List Slot, l.filterMap Slot.ptr = (l.map Slot.ptr).filterMap id := by
    intro l; rw [List.filterMap_map]; rfl
  rw [e, e]
  exact h.filterMap _

/-- Only the input array changes, by moving slots. -/
theorem TInv.moveIn {P : Nat → Prop} {t : TData} {iq iq' : List (UInt32 × Bytes)}
    {oq : List (UInt32 × Option Bytes)} (h : TInv P t iq oq) {a : List Slot} {n : Nat}
    (hm : Moved resetHash t.inn a) (hl : a.length = 60) (hv : View (HoldsHash t.heap) a iq')
    (hn : n = iq'.length) (hd : iq' ≠ [] → iq ≠ []) :
    TInv P { t with inn := a, inIdx := n } iq' oq := by
  refine ⟨hl, h.lout, hn, h.oidx, ?_, ?_, h.mout, hv, h.vout, fun e => h.sd (hd e), h.sdP⟩
  · refine (List.Perm.nodup_iff ?_).2 h.ptrs
    simp only [List.filterMap_append]
    exact (filterMap_eq_of_map hm.1).append_right _
  · intro s hs p hp
    obtain ⟨s0, hs0, e⟩ := hm.2 s hs
    rcases e with rfl | rfl
    · exact h.min s hs0 p hp
    · exact h.min s0 hs0 p hp

/-- Only the output array changes, by moving slots. -/
theorem TInv.moveOut {P : Nat → Prop} {t : TData} {iq : List (UInt32 × Bytes)}
    {oq oq' : List (UInt32 × Option Bytes)} (h : TInv P t iq oq) {a : List Slot} {n : Nat}
    (hm : Moved resetSig t.out a) (hl : a.length = 60) (hv : View (HoldsSig t.heap) a oq')
    (hn : n = oq'.length) :
    TInv P { t with out := a, outIdx := n } iq oq' := by
  refine ⟨h.lin, hl, h.iidx, hn, ?_, h.min, ?_, h.vin, hv, h.sd, h.sdP⟩
  · refine (List.Perm.nodup_iff ?_).2 h.ptrs
    simp only [List.filterMap_append]
    exact (filterMap_eq_of_map hm.1).append_left _
  · intro s hs p hp
    obtain ⟨s0, hs0, e⟩ := hm.2 s hs
    rcases e with rfl | rfl
    · exact h.mout s hs0 p hp
    · exact h.mout s0 hs0 p hp

theorem moved_rotate (reset : Slot → Slot) (hp : ∀ s, (reset s).ptr = s.ptr) (s : Slot)
    (r : List Slot) : Moved reset (s :: r) (r ++ [reset s]) := by
  refine ⟨?_, ?_⟩
  · simp only [List.map_append, List.map_cons, List.map_nil, hp]
    exact List.perm_append_singleton _ _
  · intro x hx
    rcases List.mem_append.1 hx with hx | hx
    · exact ⟨x, by simp [hx], .inl rfl⟩
    · simp only [List.mem_singleton] at hx
      exact ⟨s, by simp, .inr hx⟩

/-- `buffer_reset` removes everything of one session. -/
theorem bufferReset_inv {P : Nat → Prop} {t : TData} {iq : List (UInt32 × Bytes)}
    {oq : List (UInt32 × Option Bytes)} (h : TInv P t iq oq) (id : UInt32) (hid : id ≠ 0) :
    ∃ t', bufferReset t id = .ok t' ∧
      TInv P t' (iq.filter fun x => x.1 != id) (oq.filter fun x => x.1 != id) ∧
      t'.running = t.running ∧ t'.inSigning = t.inSigning ∧ t'.maxSig = t.maxSig := by
  obtain ⟨o, ho, hol, hov, hom⟩ := reset_view h.vout h.lout id hid Prod.fst (fun s x hx => hx.1)
    resetSig (fun _ => rfl) (fun _ => rfl)
  obtain ⟨i, hi, hil, hiv, him⟩ := reset_view h.vin h.lin id hid Prod.fst (fun s x hx => hx.1)
    resetHash (fun _ => rfl) (fun _ => rfl)
  rw [← h.oidx] at ho
  rw [← h.iidx] at hi
  refine ⟨{ t with out := o, outIdx := (oq.filter fun x => x.1 != id).length, inn := i
                   inIdx := (iq.filter fun x => x.1 != id).length },
    by simp only [bufferReset, ho, Out.bind_ok, hi], ?_, rfl, rfl, rfl⟩
  have h1 := h.moveOut hom hol hov rfl
  have h2 := h1.moveIn (n := (iq.filter fun x => x.1 != id).length) him hil hiv rfl (by
    intro e e2; subst e2; simp at e)
  exact h2

/-- `get_signature`. -/
theorem getSignature_inv {P : Nat → Prop} {t : TData} {iq : List (UInt32 × Bytes)}
    {oq : List (UInt32 × Option Bytes)} (h : TInv P t iq oq) (id : UInt32) (max : Nat) :
    ∃ t' sig rc oq', getSignature t id max = .ok (t', sig, rc) ∧ TInv P t' iq oq' ∧
      t'.running = t.running ∧ t'.inSigning = t.inSigning ∧ t'.maxSig = t.maxSig ∧
      ((oq' = oq ∧ sig = none) ∨
        ∃ res, oq = (id, res) :: oq' ∧ (sig = none ∨ (sig = res ∧ sig.isSome))) := by
  by_cases hrun : t.running = true
  · cases oq with
    | nil =>
      refine ⟨t, none, none, [], ?_, h, rfl, rfl, rfl, .inl ⟨rfl, rfl⟩⟩
      simp [getSignature, hrun, h.oidx]
    | cons x oq =>
      obtain ⟨o, r, ha, hv, hpop⟩ := h.vout.head
      have hne : t.outIdx ≠ 0 := by rw [h.oidx]; simp
      have hrd : rd t.out 0 = .ok o := by rw [ha]; rfl
      by_cases hid : o.id = id
      · have hl := h.lout
        rw [ha] at hl
        have hrot := rotate_eq o (resetSig o) r hl
        rw [← ha] at hrot
        have hinv : TInv P { t with out := r ++ [resetSig o], outIdx := t.outIdx - 1 } iq oq :=
          h.moveOut (by rw [ha]; exact moved_rotate resetSig (fun _ => rfl) o r)
            (by simp at hl ⊢; omega) (hpop _ rfl) (by rw [h.oidx]; simp)
        obtain ⟨z, hz⟩ : ∃ q, shiftLoop maxBuffer (maxBuffer + 1) t.out 1 = .ok q := by
          cases hz : shiftLoop maxBuffer (maxBuffer + 1) t.out 1 with
          | ok q => exact ⟨q, rfl⟩
          | err e => rw [hz] at hrot; simp at hrot
          | ub e => rw [hz] at hrot; simp at hrot
        rw [hz, Out.bind_ok] at hrot
        obtain ⟨x1, x2⟩ := x
        obtain ⟨hv1, hv2⟩ := hv
        have hx1 : x1 = id := by rw [← hid]; exact hv1.symm
        subst hx1
        cases x2 with
        | none =>
          have hv2 : o.err = true := hv2
          refine ⟨_, none, some .externalError, oq, ?_, hinv, rfl, rfl, rfl,
            .inr ⟨none, rfl, .inl rfl⟩⟩
          simp only [getSignature, hrun, hne, hrd, hid, hv2, hz, hrot, Out.bind_ok, if_true, if_false,
            ne_eq, not_true_eq_false, Bool.not_true, Bool.false_eq_true]
        | some sg =>
          obtain ⟨he, p, hp, hsz, hsg⟩ : o.err = false ∧ ∃ p, o.ptr = some p ∧
            o.size ≤ (t.heap.cell p).length ∧ (t.heap.cell p).take o.size = sg := hv2
          by_cases hm : max < o.size
          · refine ⟨_, none, some .invalidParameter, oq, ?_, hinv, rfl, rfl, rfl,
              .inr ⟨some sg, rfl, .inl rfl⟩⟩
            simp only [getSignature, hrun, hne, hrd, hid, he, hm, hz, hrot, Out.bind_ok, if_true,
              if_false, ne_eq, not_true_eq_false, Bool.not_true, Bool.false_eq_true]
          · refine ⟨_, some sg, none, oq, ?_, hinv, rfl, rfl, rfl,
              .inr ⟨some sg, rfl, .inr ⟨rfl, rfl⟩⟩⟩
            simp only [getSignature, hrun, hne, hrd, hid, he, hm, hz, hrot, Out.bind_ok, if_true,
              if_false, ne_eq, not_true_eq_false, Bool.not_true, Bool.false_eq_true, hp, Heap.load, hsz,
              hsg]
      · refine ⟨t, none, none, x :: oq, ?_, h, rfl, rfl, rfl, .inl ⟨rfl, rfl⟩⟩
        simp [getSignature, hrun, hne, hrd, hid]
  · refine ⟨t, none, some .externalError, oq, ?_, h, rfl, rfl, rfl, .inl ⟨rfl, rfl⟩⟩
    simp [getSignature, hrun]

/-- First half of the central worker. -/
theorem centralTake_inv {P : Nat → Prop} {t : TData} {iq : List (UInt32 × Bytes)}
    {oq : List (UInt32 × Option Bytes)} (h : TInv P t iq oq) :
    (centralTake t = .ub .assertFail ∧ ∃ a b, P a ∧ P b ∧ a ≠ b) ∨
    (centralTake t = .ok (t, none) ∧ (t.running = true → t.inSigning = false → iq = [])) ∨
    ∃ t' x iq', iq = x :: iq' ∧ t.inSigning = false ∧ t.running = true ∧
      centralTake t = .ok (t', some x) ∧ TInv P t' iq' oq ∧
      t'.inSigning = true ∧ t'.running = t.running ∧ t'.maxSig = t.maxSig := by
  by_cases hb : (!t.running || t.inSigning) = true
  · refine .inr (.inl ⟨by simp only [centralTake, hb, if_true], ?_⟩)
    intro h1 h2; simp [h1, h2] at hb
  · have hb' : t.running = true ∧ t.inSigning = false := by simpa using hb
    cases iq with
    | nil => exact .inr (.inl ⟨by simp [centralTake, hb', h.iidx], fun _ _ => rfl⟩)
    | cons x iq =>
      obtain ⟨s, r, ha, ⟨hv1, p, hp, hc⟩, hpop⟩ := h.vin.head
      have hne : t.inIdx ≠ 0 := by rw [h.iidx]; simp
      have hrd : rd t.inn 0 = .ok s := by rw [ha]; rfl
      have hsd := h.sd (by simp)
      have hmin := h.min s (by rw [ha]; simp) p hp
      by_cases hsz : s.size = t.sdHashSize
      · refine .inr (.inr ?_)
        have hl := h.lin
        rw [ha] at hl
        have hrot := rotate_eq s (resetHash s) r hl
        rw [← ha] at hrot
        obtain ⟨z, hz⟩ : ∃ q, shiftLoop maxBuffer (maxBuffer + 1) t.inn 1 = .ok q := by
          cases hz : shiftLoop maxBuffer (maxBuffer + 1) t.inn 1 with
          | ok q => exact ⟨q, rfl⟩
          | err e => rw [hz] at hrot; simp at hrot
          | ub e => rw [hz] at hrot; simp at hrot
        rw [hz, Out.bind_ok] at hrot
        have hinv : TInv P { t with inn := r ++ [resetHash s], inIdx := t.inIdx - 1 } iq oq :=
          h.moveIn (by rw [ha]; exact moved_rotate resetHash (fun _ => rfl) s r)
            (by simp at hl ⊢; omega) (hpop _ rfl) (by rw [h.iidx]; simp) (fun _ => by simp)
        have hload : t.heap.load p s.size = .ok x.2 := by
          rw [← hmin.2.1, hc]
          simp [Heap.load, hc]
        have hx : x = (s.id, x.2) := by rw [hv1]
        refine ⟨{ t with inn := r ++ [resetHash s], inIdx := t.inIdx - 1, sdHash := some x.2, inSigning := true },
          x, iq, rfl, hb'.2, hb'.1, ?_, ?_, rfl, rfl, rfl⟩
        · have hsn : t.sdHash.isNone = false := by
            cases hh : t.sdHash with
            | none => rw [hh] at hsd; simp at hsd
            | some b => rfl
          rw [hx]
          simp only [centralTake, hb, hne, hrd, hsz, hsn, hp, hz, hrot, Out.bind_ok, if_false,
            ne_eq, not_true_eq_false, Bool.false_eq_true]
          rw [← hsz, hload]
          rfl
        · exact ⟨hinv.lin, hinv.lout, hinv.iidx, hinv.oidx, hinv.ptrs, hinv.min, hinv.mout, hinv.vin,
            hinv.vout, fun _ => rfl, fun _ => hinv.sdP hsd⟩
      · refine .inl ⟨?_, s.size, t.sdHashSize, hmin.2.2, h.sdP hsd, hsz⟩
        simp [centralTake, hb', hne, hrd, hsz]

/-- Nodup of the pointers after replacing one slot by one with the same pointer or a new one. -/
theorem nodup_replace {p r : List Slot} {o y : Slot} {q : List Nat} {brk : Nat}
    (h : ((p ++ o :: r).filterMap Slot.ptr ++ q).Nodup)
    (hlt : ∀ s ∈ p ++ o :: r, ∀ a, s.ptr = some a → a < brk) (hq : ∀ a ∈ q, a < brk)
    (hy : y.ptr = o.ptr ∨ (o.ptr = none ∧ y.ptr = some brk)) :
    ((p ++ y :: r).filterMap Slot.ptr ++ q).Nodup := by
  rcases hy with hy | ⟨hy1, hy2⟩
  · have : (p ++ y :: r).filterMap Slot.ptr = (p ++ o :: r).filterMap Slot.ptr := by
      simp [List.filterMap_append, List.filterMap_cons, hy]
    rw [this]; exact h
  · have e1 : (p ++ o :: r).filterMap Slot.ptr = p.filterMap Slot.ptr ++ r.filterMap Slot.ptr := by
      simp [List.filterMap_append, List.filterMap_cons, hy1]
    have e2 : (p ++ y :: r).filterMap Slot.ptr = p.filterMap Slot.ptr ++ brk :: r.filterMap Slot.ptr := by
      simp [List.filterMap_append, List.filterMap_cons, hy2]
    rw [e1] at h
    rw [e2]
    have hperm : (p.filterMap Slot.ptr ++ brk :: r.filterMap Slot.ptr ++ q).Perm
        (brk :: (p.filterMap Slot.ptr ++ r.filterMap Slot.ptr ++ q)) := by
      have := List.perm_middle (a := brk) (l₁ := p.filterMap Slot.ptr) (l₂ := r.filterMap Slot.ptr)
      exact this.append_right q
    refine hperm.nodup_iff.2 (List.nodup_cons.2 ⟨?_, h⟩)
    intro hm
    simp only [List.mem_append] at hm
    rcases hm with (hm | hm) | hm
    · obtain ⟨s, hs, hp⟩ := List.mem_filterMap.1 hm
      exact absurd (hlt s (by simp [hs]) _ hp) (by omega)
    · obtain ⟨s, hs, hp⟩ := List.mem_filterMap.1 hm
      exact absurd (hlt s (by simp [hs]) _ hp) (by omega)
    · exact absurd (hq _ hm) (by omega)

/-- What a slot holds is kept when the heap is only changed elsewhere. -/
theorem HoldsHash.frame {H H' : Heap} {s : Slot} {x : UInt32 × Bytes} (h : HoldsHash H s x)
    (he : ∀ p, s.ptr = some p → H'.cell p = H.cell p) : HoldsHash H' s x := by
  obtain ⟨h1, p, h2, h3⟩ := h
  exact ⟨h1, p, h2, by rw [he p h2, h3]⟩

theorem HoldsSig.frame {H H' : Heap} {s : Slot} {x : UInt32 × Option Bytes} (h : HoldsSig H s x)
    (he : ∀ p, s.ptr = some p → H'.cell p = H.cell p) : HoldsSig H' s x := by
  obtain ⟨h1, h2⟩ := h
  refine ⟨h1, ?_⟩
  cases hx : x.2 with
  | none => rw [hx] at h2; exact h2
  | some sg =>
    rw [hx] at h2
    obtain ⟨h3, p, h4, h5, h6⟩ := h2
    exact ⟨h3, p, h4, by rw [he p h4]; exact h5, by rw [he p h4]; exact h6⟩

/-- The heap after a successful store. -/
def Heap_put (H : Heap) (q : Nat) (bs : Bytes) : Heap :=
  ⟨fun a => if a = q then bs ++ (H.cell q).drop bs.length else H.cell a, H.brk⟩

theorem store_put (H : Heap) (q : Nat) (bs : Bytes) (h : bs.length ≤ (H.cell q).length) :
    H.store q bs = .ok (Heap_put H q bs) := by simp [Heap.store, Heap_put, h]

/-- `sign_hash`. -/
theorem signHash_inv {P : Nat → Prop} {t : TData} {iq : List (UInt32 × Bytes)}
    {oq : List (UInt32 × Option Bytes)} (h : TInv P t iq oq) (id : UInt32) (hs : Bytes)
    (al1 al2 : Bool) (hP : P hs.length) :
    ∃ t' rc, signHash t id hs al1 al2 = .ok (t', rc) ∧
      TInv P t' (if rc = none then iq ++ [(id, hs)] else iq) oq ∧
      t'.running = t.running ∧ t'.inSigning = t.inSigning ∧ t'.maxSig = t.maxSig := by
  by_cases hfull : maxBuffer ≤ t.inIdx
  · exact ⟨t, some .notSupported, by simp only [signHash, hfull, if_true], by simpa using h,
      rfl, rfl, rfl⟩
  by_cases hrun : ¬ t.running = true
  · have hrun' : (!t.running) = true := by simpa using hrun
    exact ⟨t, some .externalError, by simp only [signHash, hfull, if_false, hrun', if_true],
      by simpa using h, rfl, rfl, rfl⟩
  have hrun : t.running = true := Classical.not_not.1 hrun
  have hrun' : (!t.running) = false := by simp [hrun]
  by_cases hm1 : (t.sdHash.isNone && !al1) = true
  · exact ⟨t, some .memory, by simp only [signHash, hfull, if_false, hrun', hm1, if_true,
      Bool.false_eq_true], by simpa using h, rfl, rfl, rfl⟩
  -- the state after the hash memory of `sign_data` exists
  let t1 : TData :=
    if t.sdHash.isNone then
      { t with sdHash := some (List.replicate hs.length 0), sdHashSize := hs.length }
    else t
  have ht1 : t1 = (if t.sdHash.isNone then
      { t with sdHash := some (List.replicate hs.length 0), sdHashSize := hs.length }
    else t) := rfl
  have h1 : TInv P t1 iq oq ∧ t1.sdHash.isSome ∧ t1.running = t.running ∧
      t1.inSigning = t.inSigning ∧ t1.maxSig = t.maxSig ∧ t1.inIdx = t.inIdx := by
    rw [ht1]
    cases hd : t.sdHash with
    | none =>
      simp only [Option.isNone_none, if_true]
      exact ⟨⟨h.lin, h.lout, h.iidx, h.oidx, h.ptrs, h.min, h.mout, h.vin, h.vout, fun _ => rfl,
        fun _ => hP⟩, rfl, trivial, trivial, trivial, trivial⟩
    | some b =>
      simp only [Option.isNone_some, Bool.false_eq_true, if_false]
      exact ⟨h, by rw [hd]; rfl, trivial, trivial, trivial, trivial⟩
  obtain ⟨h1, hsd, hr1, hr2, hr3, hr4⟩ := h1
  have hlt : iq.length < t1.inn.length := by
    rw [h1.lin, ← h1.iidx, hr4]; simp [maxBuffer] at hfull; omega
  obtain ⟨p, s, r, ha, hpl, hs0, hkeep, hpush⟩ := h1.vin.free hlt
  have hidx : t1.inIdx = p.length := by rw [h1.iidx, hpl]
  have hrd : rd t1.inn t1.inIdx = .ok s := by rw [ha]; exact rd_app _ _ _ _ hidx
  have hwr : ∀ y, wr t1.inn t1.inIdx y = .ok (p ++ y :: r) := by
    intro y; rw [ha]; exact wr_app _ _ _ _ _ hidx
  have hwr2 : ∀ x y, wr (p ++ x :: r) t1.inIdx y = .ok (p ++ y :: r) := by
    intro x y; exact wr_app _ _ _ _ _ hidx
  by_cases hm2 : (s.ptr.isNone && !al2) = true
  · refine ⟨t1, some .memory, ?_, by simpa using h1, hr1, hr2, hr3⟩
    simp only [signHash, hfull, if_false, hrun', hm1, Bool.false_eq_true, ← ht1, hrd, Out.bind_ok,
      hm2, if_true]
  have hmin := h1.min
  have hptr := h1.ptrs
  rw [ha] at hmin hptr
  have hinlt : ∀ x ∈ p ++ s :: r, ∀ a, x.ptr = some a → a < t1.heap.brk :=
    fun x hx a hxa => (hmin x hx a hxa).1
  have houtlt : ∀ a ∈ t1.out.filterMap Slot.ptr, a < t1.heap.brk := by
    intro a ha'
    obtain ⟨x, hx, hxa⟩ := List.mem_filterMap.1 ha'
    exact (h1.mout x hx a hxa).1
  -- conclusion when the hash is stored in block `q` of heap `H`
  have fin : ∀ (q : Nat) (H : Heap), (H.cell q).length = hs.length → q < H.brk →
      t1.heap.brk ≤ H.brk →
      (∀ a, a < t1.heap.brk → H.cell a = t1.heap.cell a) →
      (q = t1.heap.brk ∧ s.ptr = none ∨ s.ptr = some q ∧ q < t1.heap.brk) →
      ∃ H', H.store q hs = .ok H' ∧ TInv P
        { t1 with inn := p ++ { s with ptr := some q, size := hs.length, id := id } :: r, heap := H'
                  inIdx := t1.inIdx + 1 } (iq ++ [(id, hs)]) oq := by
    intro q H hq1 hq2 hbrk hsame hcase
    have hcell : ∀ a, (Heap_put H q hs).cell a = if a = q then hs else H.cell a := by
      intro a
      by_cases e : a = q
      · have : (H.cell q).drop hs.length = [] := by rw [← hq1]; simp
        simp [Heap_put, e, this]
      · simp [Heap_put, e]
    have hnotin : ∀ x ∈ p ++ r, x.ptr ≠ some q := by
      intro x hx hxq
      have hx' : x ∈ p ++ s :: r := by
        rcases List.mem_append.1 hx with hx | hx
        · exact List.mem_append_left _ hx
        · exact List.mem_append_right _ (List.mem_cons_of_mem _ hx)
      rcases hcase with ⟨e, -⟩ | ⟨e, -⟩
      · have := hinlt x hx' q hxq; omega
      · simp only [List.filterMap_append, List.filterMap_cons, e] at hptr
        rw [List.nodup_append] at hptr
        have hnd := hptr.1
        rw [List.nodup_append] at hnd
        rcases List.mem_append.1 hx with hx | hx
        · exact hnd.2.2 q (ptr_mem hx hxq) q (by simp) rfl
        · exact (List.nodup_cons.1 hnd.2.1).1 (ptr_mem hx hxq)
    have hnotout : ∀ x ∈ t1.out, x.ptr ≠ some q := by
      intro x hx hxq
      rcases hcase with ⟨e, -⟩ | ⟨e, -⟩
      · have := (h1.mout x hx q hxq).1; omega
      · simp only [List.filterMap_append, List.filterMap_cons, e] at hptr
        rw [List.nodup_append] at hptr
        exact hptr.2.2 q (by simp) q (ptr_mem hx hxq) rfl
    refine ⟨Heap_put H q hs, store_put H q hs (by omega), ?_, h1.lout, ?_, h1.oidx, ?_, ?_, ?_, ?_, ?_, fun _ => hsd, h1.sdP⟩
    · have := h1.lin; rw [ha] at this; simpa using this
    · simp [h1.iidx]
    · simp only [List.filterMap_append (l := _ ++ _)]
      rw [List.filterMap_append] at hptr
      refine nodup_replace hptr hinlt houtlt ?_
      rcases hcase with ⟨e1, e2⟩ | ⟨e1, -⟩
      · exact .inr ⟨e2, by simp [e1]⟩
      · exact .inl e1.symm
    · intro x hx a hxa
      simp only [hcell]
      simp only [List.mem_append, List.mem_cons] at hx
      have old : x ∈ p ++ r → a < H.brk ∧ (if a = q then hs else H.cell a).length = x.size ∧ P x.size := by
        intro hxm
        have hne : a ≠ q := by intro e; exact hnotin x hxm (e ▸ hxa)
        have := hmin x (by
          simp only [List.mem_append, List.mem_cons] at hxm ⊢
          rcases hxm with hxm | hxm
          · exact .inl hxm
          · exact .inr (.inr hxm)) a hxa
        simp only [hne, if_false, hsame a this.1]
        exact ⟨Nat.lt_of_lt_of_le this.1 hbrk, this.2⟩
      rcases hx with hx | rfl | hx
      · exact old (List.mem_append_left _ hx)
      · simp only [Option.some.injEq] at hxa
        subst hxa
        simp only [if_true]
        exact ⟨hq2, trivial, hP⟩
      · exact old (List.mem_append_right _ hx)
    · intro x hx a hxa
      have hne : a ≠ q := by rintro rfl; exact hnotout x hx hxa
      have := h1.mout x hx a hxa
      simp only [hcell, hne, if_false, hsame a this.1]
      exact ⟨Nat.lt_of_lt_of_le this.1 hbrk, this.2⟩
    · refine hpush _ _ _ ?_ ?_
      · intro x hx z hz
        refine hz.frame ?_
        intro a hxa
        have hne : a ≠ q := by rintro rfl; exact hnotin x (List.mem_append_left _ hx) hxa
        rw [hcell]; simp only [hne, if_false]
        exact hsame a (hinlt x (List.mem_append_left _ hx) a hxa)
      · refine ⟨rfl, q, rfl, ?_⟩
        rw [hcell]; simp
    · refine h1.vout.imp ?_
      intro x hx z hz
      refine hz.frame ?_
      intro a hxa
      have hne : a ≠ q := by rintro rfl; exact hnotout x hx hxa
      rw [hcell]; simp only [hne, if_false]
      exact hsame a (h1.mout x hx a hxa).1
  cases hsp : s.ptr with
  | none =>
    obtain ⟨H', hst, hinv⟩ := fin t1.heap.brk (t1.heap.alloc hs.length).1 (by simp [Heap.alloc])
      (by simp [Heap.alloc]) (by simp [Heap.alloc])
      (by intro a ha'; have : a ≠ t1.heap.brk := by omega
          simp [Heap.alloc, this]) (.inl ⟨rfl, hsp⟩)
    refine ⟨{ t1 with inn := p ++ { s with ptr := some t1.heap.brk, size := hs.length, id := id } :: r
                      heap := H', inIdx := t1.inIdx + 1 }, none, ?_, by simpa using hinv, hr1, hr2, hr3⟩
    simp only [signHash, hfull, if_false, hrun', hm1, Bool.false_eq_true, ← ht1, hrd, Out.bind_ok,
      hm2, hwr, hwr2]
    simp only [hsp, Option.isNone_none, if_true, Out.bind_ok, ne_eq, not_true_eq_false, if_false,
      hst, hwr2]
  | some q =>
    have hm := hmin s (by simp) q hsp
    by_cases hsz : s.size = hs.length
    · obtain ⟨H', hst, hinv⟩ := fin q t1.heap (by rw [hm.2.1, hsz]) hm.1 (Nat.le_refl _)
        (fun _ _ => rfl) (.inr ⟨hsp, hm.1⟩)
      refine ⟨{ t1 with inn := p ++ { s with ptr := some q, size := hs.length, id := id } :: r
                        heap := H', inIdx := t1.inIdx + 1 }, none, ?_, by simpa using hinv, hr1, hr2, hr3⟩
      have hs2 : ({ s with ptr := some q, size := hs.length, id := id } : Slot) = { s with id := id } := by
        cases s; simp_all
      rw [hs2]
      simp only [signHash, hfull, if_false, hrun', hm1, Bool.false_eq_true, ← ht1, hrd, Out.bind_ok,
        hm2]
      simp only [hsp, Option.isNone_some, Bool.false_eq_true, if_false, hwr, Out.bind_ok, hsz, ne_eq,
        not_true_eq_false, hst, hwr2]
    · refine ⟨{ t1 with inn := p ++ s :: r, heap := t1.heap }, some .notSupported, ?_, ?_, hr1, hr2, hr3⟩
      · simp only [signHash, hfull, if_false, hrun', hm1, Bool.false_eq_true, ← ht1, hrd, Out.bind_ok,
          hm2]
        simp only [hsp, Option.isNone_some, Bool.false_eq_true, if_false, hwr, Out.bind_ok, ne_eq, hsz,
          not_false_eq_true, if_true]
      · rw [← ha]; simpa using h1

/-- What the worker puts in the output buffer. -/
def sigOf (res : Out Bytes) : Option Bytes :=
  match res with
  | .ok sg => some sg
  | _ => none

theorem TInv.setSigning {P : Nat → Prop} {t : TData} {iq : List (UInt32 × Bytes)}
    {oq : List (UInt32 × Option Bytes)} (h : TInv P t iq oq) (b : Bool) :
    TInv P { t with inSigning := b } iq oq :=
  ⟨h.lin, h.lout, h.iidx, h.oidx, h.ptrs, h.min, h.mout, h.vin, h.vout, h.sd, h.sdP⟩

/-- Adding an outcome to the output buffer. -/
theorem push_out {P : Nat → Prop} {t : TData} {iq : List (UInt32 × Bytes)}
    {oq : List (UInt32 × Option Bytes)} (h : TInv P t iq oq) (id : UInt32) (res : Option Bytes)
    {p r : List Slot} {o y : Slot} (ha : t.out = p ++ o :: r)
    (hpush : ∀ (W : Slot → UInt32 × Option Bytes → Prop) (y : Slot) (x : UInt32 × Option Bytes),
      (∀ s ∈ p, ∀ z, HoldsSig t.heap s z → W s z) → W y x → View W (p ++ y :: r) (oq ++ [x]))
    (q : Nat) (H : Heap) (hyp : y.ptr = some q)
    (hq1 : (H.cell q).length = t.maxSig) (hq2 : q < H.brk) (hbrk : t.heap.brk ≤ H.brk)
    (hsame : ∀ a, a < t.heap.brk → a ≠ q → H.cell a = t.heap.cell a)
    (hcase : q = t.heap.brk ∧ o.ptr = none ∨ o.ptr = some q ∧ q < t.heap.brk)
    (hhold : HoldsSig H y (id, res)) :
    TInv P { t with out := p ++ y :: r, heap := H, outIdx := t.outIdx + 1 } iq (oq ++ [(id, res)]) := by
  have hptr := h.ptrs
  have hmout := h.mout
  rw [ha] at hptr hmout
  have houtlt : ∀ x ∈ p ++ o :: r, ∀ a, x.ptr = some a → a < t.heap.brk :=
    fun x hx a hxa => (hmout x hx a hxa).1
  have hinlt : ∀ a ∈ t.inn.filterMap Slot.ptr, a < t.heap.brk := by
    intro a ha'
    obtain ⟨x, hx, hxa⟩ := List.mem_filterMap.1 ha'
    exact (h.min x hx a hxa).1
  have hperm : ∀ l : List Slot, ((t.inn ++ l).filterMap Slot.ptr).Perm
      (l.filterMap Slot.ptr ++ t.inn.filterMap Slot.ptr) := by
    intro l; rw [List.filterMap_append]; exact List.perm_append_comm
  have hptr2 := (hperm _).nodup_iff.1 hptr
  have hnotout : ∀ x ∈ p ++ r, x.ptr ≠ some q := by
    intro x hx hxq
    have hx' : x ∈ p ++ o :: r := by
      rcases List.mem_append.1 hx with hx | hx
      · exact List.mem_append_left _ hx
      · exact List.mem_append_right _ (List.mem_cons_of_mem _ hx)
    rcases hcase with ⟨e, -⟩ | ⟨e, -⟩
    · have := houtlt x hx' q hxq; omega
    · simp only [List.filterMap_append, List.filterMap_cons, e] at hptr2
      rw [List.nodup_append] at hptr2
      have hnd := hptr2.1
      rw [List.nodup_append] at hnd
      rcases List.mem_append.1 hx with hx | hx
      · exact hnd.2.2 q (ptr_mem hx hxq) q (by simp) rfl
      · exact (List.nodup_cons.1 hnd.2.1).1 (ptr_mem hx hxq)
  have hnotin : ∀ x ∈ t.inn, x.ptr ≠ some q := by
    intro x hx hxq
    rcases hcase with ⟨e, -⟩ | ⟨e, -⟩
    · have := (h.min x hx q hxq).1; omega
    · simp only [List.filterMap_append, List.filterMap_cons, e] at hptr2
      rw [List.nodup_append] at hptr2
      exact hptr2.2.2 q (by simp) q (ptr_mem hx hxq) rfl
  refine ⟨h.lin, ?_, h.iidx, ?_, ?_, ?_, ?_, ?_, ?_, h.sd, h.sdP⟩
  · have := h.lout; rw [ha] at this; simpa using this
  · simp [h.oidx]
  · refine (hperm _).nodup_iff.2 (nodup_replace hptr2 houtlt hinlt ?_)
    rcases hcase with ⟨e1, e2⟩ | ⟨e1, -⟩
    · exact .inr ⟨e2, by rw [hyp, e1]⟩
    · exact .inl (by rw [hyp, e1])
  · intro x hx a hxa
    have hne : a ≠ q := by intro e; exact hnotin x hx (e ▸ hxa)
    have := h.min x hx a hxa
    rw [hsame a this.1 hne]
    exact ⟨Nat.lt_of_lt_of_le this.1 hbrk, this.2⟩
  · intro x hx a hxa
    have old : x ∈ p ++ r → a < H.brk ∧ (H.cell a).length = t.maxSig := by
      intro hxm
      have hne : a ≠ q := by intro e; exact hnotout x hxm (e ▸ hxa)
      have := hmout x (by
        simp only [List.mem_append, List.mem_cons] at hxm ⊢
        rcases hxm with hxm | hxm
        · exact .inl hxm
        · exact .inr (.inr hxm)) a hxa
      rw [hsame a this.1 hne]
      exact ⟨Nat.lt_of_lt_of_le this.1 hbrk, this.2⟩
    simp only [List.mem_append, List.mem_cons] at hx
    rcases hx with hx | rfl | hx
    · exact old (List.mem_append_left _ hx)
    · rw [hyp] at hxa
      simp only [Option.some.injEq] at hxa
      subst hxa
      exact ⟨hq2, hq1⟩
    · exact old (List.mem_append_right _ hx)
  · refine h.vin.imp ?_
    intro x hx z hz
    refine hz.frame ?_
    intro a hxa
    have hne : a ≠ q := by intro e; exact hnotin x hx (e ▸ hxa)
    exact hsame a (h.min x hx a hxa).1 hne
  · refine hpush _ _ _ ?_ hhold
    intro x hx z hz
    refine hz.frame ?_
    intro a hxa
    have hne : a ≠ q := by intro e; exact hnotout x (List.mem_append_left _ hx) (e ▸ hxa)
    exact hsame a (houtlt x (List.mem_append_left _ hx) a hxa) hne

/-- Writing the outcome at the end of the output buffer, common to both workers. -/
theorem put_slot {P : Nat → Prop} {t : TData} {iq : List (UInt32 × Bytes)}
    {oq : List (UInt32 × Option Bytes)} (h : TInv P t iq oq) (id : UInt32) (res : Out Bytes)
    (hlt : ¬ maxBuffer ≤ t.outIdx)
    (hok : ∀ sg, res = .ok sg → sg.length ≤ t.maxSig) :
    ∃ o, rd t.out t.outIdx = .ok o ∧ o.id = 0 ∧ ∀ bad, bad = (sigOf res).isNone →
      (∃ y H, y = (if o.ptr.isNone then { o with err := bad, id := id, ptr := some t.heap.brk }
            else { o with err := bad, id := id } : Slot) ∧
          H = (if o.ptr.isNone then (t.heap.alloc t.maxSig).1 else t.heap) ∧
        ∃ q, y.ptr = some q ∧
        (∀ sg, res = .ok sg → ∃ H' a, H.store q sg = .ok H' ∧
          wr t.out t.outIdx { y with size := sg.length } = .ok a ∧
          TInv P { t with out := a, heap := H', outIdx := t.outIdx + 1 } iq (oq ++ [(id, some sg)])) ∧
        ((sigOf res).isNone → ∃ a, wr t.out t.outIdx y = .ok a ∧
          TInv P { t with out := a, heap := H, outIdx := t.outIdx + 1 } iq (oq ++ [(id, none)]))) := by
  have hl : oq.length < t.out.length := by
    rw [h.lout, ← h.oidx]; simp [maxBuffer] at hlt; omega
  obtain ⟨p, o, r, ha, hpl, ho0, -, hpush⟩ := h.vout.free hl
  have hidx : t.outIdx = p.length := by rw [h.oidx, hpl]
  have hrd : rd t.out t.outIdx = .ok o := by rw [ha]; exact rd_app _ _ _ _ hidx
  have hwr : ∀ y, wr t.out t.outIdx y = .ok (p ++ y :: r) := by
    intro y; rw [ha]; exact wr_app _ _ _ _ _ hidx
  refine ⟨o, hrd, ho0, ?_⟩
  intro bad hbad
  refine ⟨_, _, rfl, rfl, ?_⟩
  have hmo := h.mout o (by rw [ha]; simp)
  cases hop : o.ptr with
  | none =>
    simp only [Option.isNone_none, if_true]
    refine ⟨t.heap.brk, rfl, ?_, ?_⟩
    · intro sg hsg
      have hfit : sg.length ≤ ((t.heap.alloc t.maxSig).1.cell t.heap.brk).length := by
        simpa [Heap.alloc] using hok sg hsg
      have hb : bad = false := by rw [hbad, hsg]; rfl
      refine ⟨_, _, store_put _ _ _ hfit, hwr _, ?_⟩
      refine push_out h id (some sg) ha hpush t.heap.brk _ rfl ?_ ?_ ?_ ?_ (.inl ⟨rfl, hop⟩) ?_
      · have := hok sg hsg
        simp [Heap_put, Heap.alloc]; omega
      · simp [Heap_put, Heap.alloc]
      · simp [Heap_put, Heap.alloc]
      · intro a _ hne; simp [Heap_put, Heap.alloc, hne]
      · refine ⟨rfl, hb, t.heap.brk, rfl, ?_, ?_⟩ <;> simp [Heap_put]
    · intro hn
      refine ⟨_, hwr _, ?_⟩
      refine push_out h id none ha hpush t.heap.brk _ rfl ?_ ?_ ?_ ?_ (.inl ⟨rfl, hop⟩) ?_
      · simp [Heap.alloc]
      · simp [Heap.alloc]
      · simp [Heap.alloc]
      · intro a _ hne; simp [Heap.alloc, hne]
      · exact ⟨rfl, by rw [hbad]; exact hn⟩
  | some q =>
    have hm := hmo q hop
    simp only [Option.isNone_some, Bool.false_eq_true, if_false]
    refine ⟨q, rfl, ?_, ?_⟩
    · intro sg hsg
      have hfit : sg.length ≤ (t.heap.cell q).length := by rw [hm.2]; exact hok sg hsg
      have hb : bad = false := by rw [hbad, hsg]; rfl
      refine ⟨_, _, store_put _ _ _ hfit, hwr _, ?_⟩
      refine push_out h id (some sg) ha hpush q _ rfl ?_ hm.1 (Nat.le_refl _) ?_ (.inr ⟨hop, hm.1⟩) ?_
      · simp only [Heap_put, if_true, List.length_append, List.length_drop]; omega
      · intro a _ hne; simp [Heap_put, hne]
      · refine ⟨rfl, hb, q, rfl, ?_, ?_⟩ <;> simp [Heap_put]
    · intro hn
      refine ⟨_, hwr _, ?_⟩
      refine push_out h id none ha hpush q _ rfl hm.2 hm.1 (Nat.le_refl _) (fun _ _ _ => rfl)
        (.inr ⟨hop, hm.1⟩) ?_
      exact ⟨rfl, by rw [hbad]; exact hn⟩

/-- Second half of the central worker. -/
theorem centralPut_inv {P : Nat → Prop} {t : TData} {iq : List (UInt32 × Bytes)}
    {oq : List (UInt32 × Option Bytes)} (h : TInv P t iq oq) (ids : List UInt32) (id : UInt32)
    (hid : id ≠ 0) (res : Out Bytes) (al : Bool)
    (hok : ∀ sg, res = .ok sg → sg.length ≤ t.maxSig) :
    ∃ t', centralPut t ids id res al = .ok t' ∧ t'.inSigning = false ∧ t'.maxSig = t.maxSig ∧
      ((isActive ids id = false ∧ TInv P t' iq oq ∧ t'.running = t.running) ∨
       (TInv P t' (iq.filter fun x => x.1 != id) (oq.filter fun x => x.1 != id) ∧
          t'.running = t.running) ∨
       (TInv P t' [] [] ∧ t'.running = false) ∨
       (isActive ids id = true ∧ TInv P t' iq (oq ++ [(id, sigOf res)]) ∧ t'.running = t.running)) := by
  have h0 := h.setSigning false
  by_cases hact : (!isActive ids id) = true
  · refine ⟨{ t with inSigning := false }, by simp only [centralPut, hact, if_true], rfl, rfl, .inl ⟨by simpa using hact, h0, rfl⟩⟩
  have hact' : isActive ids id = true := by simpa using hact
  by_cases hfull : maxBuffer ≤ t.outIdx
  · obtain ⟨t', h1, h2, h3, h4, h5⟩ := bufferReset_inv h0 id hid
    refine ⟨t', by simp only [centralPut, hact, if_false, hfull, if_true]; exact h1, h4, h5,
      .inr (.inl ⟨h2, h3⟩)⟩
  obtain ⟨o, hrd, -, hput⟩ := put_slot h0 id res hfull hok
  have hrd' : rd t.out t.outIdx = .ok o := hrd
  by_cases hmem : (o.ptr.isNone && !al) = true
  · refine ⟨freeBuffers { t with inSigning := false, running := false }, ?_, rfl, rfl,
      .inr (.inr (.inl ⟨freeBuffers_inv h.lin h.lout h.sdP, rfl⟩))⟩
    simp only [centralPut, hact, if_false, hfull, hrd', Out.bind_ok, hmem, if_true, Bool.false_eq_true]
  cases res with
  | ok sg =>
    obtain ⟨y, H, hy, hH, q, hq, hsg, -⟩ := hput false rfl
    obtain ⟨H', a, h1, h2, h3⟩ := hsg sg rfl
    refine ⟨{ t with inSigning := false, out := a, heap := H', outIdx := t.outIdx + 1 }, ?_, rfl, rfl,
      .inr (.inr (.inr ⟨hact', h3, rfl⟩))⟩
    simp only [centralPut, hact, if_false, hfull, hrd', Out.bind_ok, hmem]
    cases hop : o.ptr with
    | none =>
      simp only [hop, Option.isNone_none, if_true] at hy hH
      subst hy hH
      simp only [Option.some.injEq] at hq
      subst hq
      simp only [Option.isNone_none, if_true]
      rw [h1, Out.bind_ok]
      have h2' : wr t.out t.outIdx _ = .ok a := h2
      rw [h2']; rfl
    | some p =>
      simp only [hop, Option.isNone_some, Bool.false_eq_true, if_false] at hy hH
      subst hy hH
      simp only [Option.some.injEq] at hq
      subst hq
      simp only [Option.isNone_some, Bool.false_eq_true, if_false]
      have h1' : t.heap.store p sg = .ok H' := h1
      rw [h1', Out.bind_ok]
      have h2' : wr t.out t.outIdx _ = .ok a := h2
      rw [h2']; rfl
  | err e =>
    obtain ⟨y, H, hy, hH, q, hq, -, hsg⟩ := hput true rfl
    obtain ⟨a, h2, h3⟩ := hsg rfl
    refine ⟨{ t with inSigning := false, out := a, heap := H, outIdx := t.outIdx + 1 }, ?_, rfl, rfl,
      .inr (.inr (.inr ⟨hact', h3, rfl⟩))⟩
    simp only [centralPut, hact, if_false, hfull, hrd', Out.bind_ok, hmem]
    have h2' : wr t.out t.outIdx y = .ok a := h2
    rw [← hy, h2', ← hH]; rfl
  | ub e =>
    obtain ⟨y, H, hy, hH, q, hq, -, hsg⟩ := hput true rfl
    obtain ⟨a, h2, h3⟩ := hsg rfl
    refine ⟨{ t with inSigning := false, out := a, heap := H, outIdx := t.outIdx + 1 }, ?_, rfl, rfl,
      .inr (.inr (.inr ⟨hact', h3, rfl⟩))⟩
    simp only [centralPut, hact, if_false, hfull, hrd', Out.bind_ok, hmem]
    have h2' : wr t.out t.outIdx y = .ok a := h2
    rw [← hy, h2', ← hH]; rfl

end SV.Threaded
