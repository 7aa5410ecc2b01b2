import Verif.Proofs.Threaded3
/-!
The thread per session.
-/
namespace SV.Threaded

/-- The slots with memory come first and there are fewer than 60 of them. -/
def Packed (a : List Slot) (n : Nat) : Prop :=
  ∃ m b, a = m ++ b ∧ (∀ s ∈ m, s.ptr.isSome = true) ∧ (∀ s ∈ b, s.ptr = none) ∧ m.length ≤ 59 ∧
    n ≤ m.length

theorem Packed_zero : Packed (List.replicate 60 Slot.zero) 0 :=
  ⟨[], List.replicate 60 Slot.zero, rfl, by simp,
    by intro s hs; rw [(List.mem_replicate.1 hs).2]; rfl, by simp, by simp⟩

theorem Packed.mono {a : List Slot} {n k : Nat} (h : Packed a n) (hk : k ≤ n) : Packed a k := by
  obtain ⟨m, b, h1, h2, h3, h4, h5⟩ := h
  exact ⟨m, b, h1, h2, h3, h4, by omega⟩

theorem localShift_eq : ∀ (r p : List Slot) (x z : Slot) (b : List Slot) (f : Nat),
    (∀ y ∈ r, y.ptr.isSome = true) → z.ptr = none → p.length + r.length < 59 → r.length < f →
    ∃ w, localShift f (p ++ x :: r ++ z :: b) p.length = .ok (p ++ r ++ w :: z :: b, p.length + r.length) := by
  intro r
  induction r with
  | nil =>
    intro p x z b f _ hz _ hf
    obtain ⟨f, rfl⟩ : ∃ g, f = g + 1 := ⟨f - 1, by simp at hf; omega⟩
    refine ⟨x, ?_⟩
    have e : p ++ [x] ++ z :: b = (p ++ [x]) ++ z :: b := rfl
    have hr : rd (p ++ [x] ++ z :: b) (p.length + 1) = .ok z := by
      exact rd_app (p ++ [x]) z b _ (by simp)
    simp only [localShift, hr, Out.bind_ok, hz]
    simp
  | cons y r ih =>
    intro p x z b f hr hz hl hf
    obtain ⟨f, rfl⟩ : ∃ g, f = g + 1 := ⟨f - 1, by simp at hf; omega⟩
    have e1 : p ++ x :: (y :: r) ++ z :: b = (p ++ [x]) ++ y :: (r ++ z :: b) := by simp
    have hrd : rd (p ++ x :: (y :: r) ++ z :: b) (p.length + 1) = .ok y := by
      rw [e1]; exact rd_app _ _ _ _ (by simp)
    have hwr : wr (p ++ x :: (y :: r) ++ z :: b) p.length y = .ok ((p ++ [y]) ++ y :: r ++ z :: b) := by
      have := wr_app p x y (y :: r ++ z :: b) p.length rfl
      simpa using this
    have hy : y.ptr.isSome = true := hr y (by simp)
    have hj : p.length < maxBuffer - 1 := by simp at hl; simp [maxBuffer]; omega
    obtain ⟨w, hw⟩ := ih (p ++ [y]) y z b f (fun s hs => hr s (by simp [hs])) hz
      (by simp at hl ⊢; omega) (by simp at hf; omega)
    refine ⟨w, ?_⟩
    have hw' : localShift f (p ++ [y] ++ y :: r ++ z :: b) (p.length + 1)
        = .ok (p ++ [y] ++ r ++ w :: z :: b, p.length + 1 + r.length) := by
      simpa using hw
    simp only [localShift, hrd, Out.bind_ok, hy, hj, decide_true, Bool.and_self, if_true, hwr]
    rw [hw']
    simp; omega

/-- First half of the worker. -/
theorem localTake_inv {n : Nat} {t : TData} {iq : List (UInt32 × Bytes)}
    {oq : List (UInt32 × Option Bytes)} (h : TInv (· = n) t iq oq) (hz : ∀ x ∈ iq, x.1 = 0)
    (hp : Packed t.inn iq.length) :
    localTake t = .ok (t, none) ∨
    ∃ t' x iq', iq = x :: iq' ∧ t.inSigning = false ∧ localTake t = .ok (t', some x.2) ∧
      TInv (· = n) t' iq' oq ∧ Packed t'.inn iq'.length ∧ t'.inSigning = true ∧ t'.maxSig = t.maxSig := by
  by_cases hb : (!t.running || t.inSigning) = true
  · exact .inl (by simp only [localTake, hb, if_true])
  have hb' : t.running = true ∧ t.inSigning = false := by simpa using hb
  cases iq with
  | nil => exact .inl (by simp [localTake, hb', h.iidx])
  | cons x iq =>
    refine .inr ?_
    obtain ⟨gs, b0, ha, hq, hV, hb0⟩ := h.vin
    obtain ⟨m, b, hm1, hm2, hm3, hm4, hm5⟩ := hp
    cases gs with
    | nil => simp at hq
    | cons g gs =>
      obtain ⟨s, x'⟩ := g
      simp only [List.map_cons, List.cons.injEq] at hq
      obtain ⟨rfl, hq⟩ := hq
      obtain ⟨hv1, p, hpp, hc⟩ := hV (s, x) (by simp)
      simp only at hv1 hpp hc
      cases m with
      | nil => simp at hm5
      | cons s' m =>
        have hs : s' = s := by
          rw [ha] at hm1; simp at hm1; exact hm1.1.symm
        subst hs
        have hb1 : b ≠ [] := by
          intro e; have := h.lin; rw [hm1, e] at this; simp at this hm4; omega
        obtain ⟨z, b, rfl⟩ : ∃ z b', b = z :: b' := by
          cases b with
          | nil => exact absurd rfl hb1
          | cons z b => exact ⟨z, b, rfl⟩
        have hne : t.inIdx ≠ 0 := by rw [h.iidx]; simp
        have hrd : rd t.inn 0 = .ok s' := by rw [hm1]; rfl
        have hsd := h.sd (by simp)
        have hmin := h.min s' (by rw [hm1]; simp) p hpp
        have hsz : s'.size = t.sdHashSize := by rw [hmin.2.2, h.sdP hsd]
        obtain ⟨w, hw⟩ := localShift_eq m [] s' z b 61 (fun y hy => hm2 y (by simp [hy]))
          (hm3 z (by simp)) (by simp at hm4 ⊢; omega) (by simp at hm4; omega)
        simp only [List.nil_append, List.length_nil, Nat.zero_add] at hw
        have hwr : wr (m ++ w :: z :: b) m.length s' = .ok (m ++ s' :: z :: b) := wr_app _ _ _ _ _ rfl
        have hid : s'.id = 0 := by rw [hv1]; exact hz x (by simp)
        have hload : t.heap.load p s'.size = .ok x.2 := by
          rw [← hmin.2.1, hc]; simp [Heap.load, hc]
        have hsn : t.sdHash.isNone = false := by
          cases hh : t.sdHash with
          | none => rw [hh] at hsd; simp at hsd
          | some b => rfl
        have hview : View (HoldsHash t.heap) (m ++ s' :: z :: b) iq := by
          -- the allocated slots start with the ones in use
          have hm1' : gs.map Prod.fst ++ b0 = m ++ z :: b := by
            rw [ha] at hm1; simpa using hm1
          have hlen : gs.length ≤ m.length := by
            have e : iq.length = gs.length := by rw [hq]; simp
            simp at hm5; omega
          refine ⟨gs, m.drop gs.length ++ s' :: z :: b, ?_, hq, fun g hg => hV g (by simp [hg]), ?_⟩
          · have : m.take gs.length = gs.map Prod.fst := by
              have := congrArg (List.take gs.length) hm1'
              rw [List.take_append_of_le_length (by simp), List.take_append_of_le_length hlen] at this
              rw [← this, List.take_of_length_le (by simp)]
            rw [← this, ← List.append_assoc, List.take_append_drop]
          · intro y hy
            rw [List.append_cons, List.mem_append] at hy
            have hd : m.drop gs.length ++ z :: b = b0 := by
              have := congrArg (List.drop gs.length) hm1'
              rw [List.drop_append_of_le_length hlen] at this
              rw [← this]
              have : gs.length = (gs.map Prod.fst).length := by simp
              rw [this, List.drop_left]
            rcases hy with hy | hy
            · rcases List.mem_append.1 hy with hy | hy
              · exact hb0 y (by rw [← hd]; exact List.mem_append_left _ hy)
              · simp at hy; rw [hy]; exact hid
            · exact hb0 y (by rw [← hd]; exact List.mem_append_right _ hy)
        have hmoved : Moved resetHash t.inn (m ++ s' :: z :: b) := by
          rw [hm1]
          refine ⟨?_, ?_⟩
          · exact List.Perm.map _ List.perm_middle
          · intro y hy
            exact ⟨y, by simpa [or_assoc, or_left_comm] using hy, .inl rfl⟩
        have hinv : TInv (· = n) { t with inn := m ++ s' :: z :: b, inIdx := t.inIdx - 1 } iq oq :=
          h.moveIn hmoved (by have := h.lin; rw [hm1] at this; simp at this ⊢; omega) hview
            (by rw [h.iidx]; simp) (fun _ => by simp)
        refine ⟨{ t with inn := m ++ s' :: z :: b, inIdx := t.inIdx - 1, sdHash := some x.2, inSigning := true },
          x, iq, rfl, hb'.2, ?_, ?_, ?_, rfl, rfl⟩
        · simp only [localTake, hb, hne, hrd, hsz, hsn, hpp, Out.bind_ok, if_false, ne_eq,
            not_true_eq_false, Bool.false_eq_true]
          rw [← hsz, hload]
          simp only [Out.bind_ok, maxBuffer, hm1]
          rw [show s' :: m ++ z :: b = s' :: m ++ z :: b from rfl] at hw
          rw [hw]
          simp only [Out.bind_ok, hwr]
        · exact ⟨hinv.lin, hinv.lout, hinv.iidx, hinv.oidx, hinv.ptrs, hinv.min, hinv.mout, hinv.vin,
            hinv.vout, fun _ => rfl, fun _ => hinv.sdP hsd⟩
        · refine ⟨m ++ [s'], z :: b, by simp, ?_, hm3, by simpa using hm4, by simp at hm5 ⊢; omega⟩
          intro y hy
          rcases List.mem_append.1 hy with hy | hy
          · exact hm2 y (by simp [hy])
          · simp at hy; exact hm2 y (by simp [hy])

/-- Second half of the worker. -/
theorem localPut_inv {P : Nat → Prop} {t : TData} {iq : List (UInt32 × Bytes)}
    {oq : List (UInt32 × Option Bytes)} (h : TInv P t iq oq)
    (hp : Packed t.inn iq.length) (res : Out Bytes) (al : Bool)
    (hok : ∀ sg, res = .ok sg → sg.length ≤ t.maxSig) :
    ∃ t' iq' oq', localPut t res al = .ok t' ∧ t'.inSigning = false ∧ t'.maxSig = t.maxSig ∧
      TInv P t' iq' oq' ∧ Packed t'.inn iq'.length ∧
      ((iq' = [] ∧ oq' = []) ∨ (iq' = iq ∧ oq' = oq ++ [(0, sigOf res)])) := by
  have h0 := h.setSigning false
  have hfreeP : Packed (freePlugin { t with inSigning := false, running := false }).inn 0 := by
    have e1 : t.inn.map (fun _ => Slot.zero) = List.replicate 60 Slot.zero := by
      rw [← h.lin]; exact List.map_const' ..
    show Packed (t.inn.map fun _ => Slot.zero) 0
    rw [e1]; exact Packed_zero
  have hfree : TInv P (freePlugin { t with inSigning := false, running := false }) [] [] :=
    freeBuffers_inv h.lin h.lout (by simp)
  by_cases hfull : maxBuffer ≤ t.outIdx
  · exact ⟨freePlugin { t with inSigning := false, running := false }, [], [],
      by simp only [localPut, hfull, if_true], rfl, rfl, hfree, hfreeP, .inl ⟨rfl, rfl⟩⟩
  obtain ⟨o, hrd, ho0, hput⟩ := put_slot h0 0 res hfull hok
  have hrd' : rd t.out t.outIdx = .ok o := hrd
  by_cases hmem : (o.ptr.isNone && !al) = true
  · refine ⟨freePlugin { t with inSigning := false, running := false }, [], [], ?_, rfl, rfl, hfree,
      hfreeP, .inl ⟨rfl, rfl⟩⟩
    simp only [localPut, if_false, hfull, hrd', Out.bind_ok, hmem, if_true, Bool.false_eq_true]
  have hoid : ∀ b, ({ o with err := b, id := 0 } : Slot) = { o with err := b } := by
    intro b; cases o; simp at ho0 ⊢; exact ho0.symm
  cases res with
  | ok sg =>
    obtain ⟨y, H, hy, hH, q, hq, hsg, -⟩ := hput false rfl
    obtain ⟨H', a, h1, h2, h3⟩ := hsg sg rfl
    refine ⟨{ t with inSigning := false, out := a, heap := H', outIdx := t.outIdx + 1 }, iq, _, ?_,
      rfl, rfl, h3, hp, .inr ⟨rfl, rfl⟩⟩
    simp only [localPut, if_false, hfull, hrd', Out.bind_ok, hmem]
    cases hop : o.ptr with
    | none =>
      simp only [hop, Option.isNone_none, if_true] at hy hH
      subst hy hH
      simp only [Option.some.injEq] at hq
      subst hq
      simp only [Option.isNone_none, if_true]
      rw [h1, Out.bind_ok]
      have h2' : wr t.out t.outIdx _ = .ok a := h2
      rw [← ho0] at h2'
      rw [h2']; rfl
    | some p =>
      simp only [hop, Option.isNone_some, Bool.false_eq_true, if_false] at hy hH
      subst hy hH
      simp only [Option.some.injEq] at hq
      subst hq
      simp only [Option.isNone_some, Bool.false_eq_true, if_false]
      have h1' : t.heap.store p sg = .ok H' := h1
      rw [h1', Out.bind_ok]
      have h2' : wr t.out t.outIdx _ = .ok a := h2
      rw [← ho0] at h2'
      rw [h2']; rfl
  | err e =>
    obtain ⟨y, H, hy, hH, q, hq, -, hsg⟩ := hput true rfl
    obtain ⟨a, h2, h3⟩ := hsg rfl
    refine ⟨{ t with inSigning := false, out := a, heap := H, outIdx := t.outIdx + 1 }, iq, _, ?_,
      rfl, rfl, h3, hp, .inr ⟨rfl, rfl⟩⟩
    rw [← ho0] at hy
    simp only [localPut, if_false, hfull, hrd', Out.bind_ok, hmem]
    have h2' : wr t.out t.outIdx y = .ok a := h2
    rw [← hy, h2', ← hH]; rfl
  | ub e =>
    obtain ⟨y, H, hy, hH, q, hq, -, hsg⟩ := hput true rfl
    obtain ⟨a, h2, h3⟩ := hsg rfl
    refine ⟨{ t with inSigning := false, out := a, heap := H, outIdx := t.outIdx + 1 }, iq, _, ?_,
      rfl, rfl, h3, hp, .inr ⟨rfl, rfl⟩⟩
    rw [← ho0] at hy
    simp only [localPut, if_false, hfull, hrd', Out.bind_ok, hmem]
    have h2' : wr t.out t.outIdx y = .ok a := h2
    rw [← hy, h2', ← hH]; rfl

/-- What `sign_hash` does to the input array. -/
theorem signHash_inn {t t' : TData} {id : UInt32} {h : Bytes} {a1 a2 : Bool} {rc : Option Rc}
    (hs : signHash t id h a1 a2 = .ok (t', rc)) :
    (t'.inn = t.inn ∧ rc ≠ none) ∨
      ∃ y, y.ptr.isSome = true ∧ t.inIdx < t.inn.length ∧ t'.inn = t.inn.set t.inIdx y := by
  by_cases hfull : maxBuffer ≤ t.inIdx
  · simp only [signHash, hfull, if_true, Out.ok.injEq, Prod.mk.injEq] at hs
    exact .inl ⟨by rw [← hs.1], by rw [← hs.2]; simp⟩
  by_cases hrun : (!t.running) = true
  · simp only [signHash, hfull, if_false, hrun, if_true, Out.ok.injEq, Prod.mk.injEq] at hs
    exact .inl ⟨by rw [← hs.1], by rw [← hs.2]; simp⟩
  by_cases hm1 : (t.sdHash.isNone && !a1) = true
  · simp only [signHash, hfull, if_false, hrun, hm1, if_true, Out.ok.injEq, Prod.mk.injEq,
      Bool.false_eq_true] at hs
    exact .inl ⟨by rw [← hs.1], by rw [← hs.2]; simp⟩
  obtain ⟨t1, ht1, ht2, ht3⟩ : ∃ t1, t1 = (if t.sdHash.isNone then
      { t with sdHash := some (List.replicate h.length 0), sdHashSize := h.length } else t) ∧
      t1.inn = t.inn ∧ t1.inIdx = t.inIdx := by
    refine ⟨_, rfl, ?_, ?_⟩ <;> split <;> rfl
  simp only [signHash, hfull, if_false, hrun, hm1, ← ht1, Bool.false_eq_true] at hs
  cases hr : rd t1.inn t1.inIdx with
  | err e => rw [hr] at hs; simp at hs
  | ub e => rw [hr] at hs; simp at hs
  | ok s =>
    rw [hr] at hs
    simp only [Out.bind_ok] at hs
    by_cases hm2 : (s.ptr.isNone && !a2) = true
    · simp only [hm2, if_true, Out.ok.injEq, Prod.mk.injEq] at hs
      exact .inl ⟨by rw [← hs.1, ht2], by rw [← hs.2]; simp⟩
    simp only [hm2, if_false, Bool.false_eq_true] at hs
    obtain ⟨s1, hs1, hs2⟩ : ∃ s1 : Slot, s1 = (if s.ptr.isNone then
        { s with ptr := some t1.heap.brk, size := h.length } else s) ∧ s1.ptr.isSome = true := by
      refine ⟨_, rfl, ?_⟩
      cases hp : s.ptr <;> simp [hp]
    rw [← hs1] at hs
    have hlt : t1.inIdx < t1.inn.length := by
      unfold rd at hr
      split at hr
      · rename_i hh
        exact (List.getElem?_eq_some_iff.1 hh).1
      · simp at hr
    have hw : ∀ y, wr t1.inn t1.inIdx y = .ok (t1.inn.set t1.inIdx y) := by
      intro y; simp [wr, hlt]
    simp only [hw, Out.bind_ok] at hs
    refine .inr ?_
    split at hs
    · simp only [Out.ok.injEq, Prod.mk.injEq] at hs
      exact ⟨s1, hs2, by rw [← ht2, ← ht3]; exact hlt, by rw [← hs.1, ← ht2, ← ht3]⟩
    · split at hs
      · simp at hs
      · rename_i p hp
        cases hst : (if s.ptr.isNone then (t1.heap.alloc h.length).1 else t1.heap).store p h with
        | err e => rw [hst] at hs; simp at hs
        | ub e => rw [hst] at hs; simp at hs
        | ok H =>
          rw [hst] at hs
          simp only [Out.bind_ok, wr, List.length_set, hlt, if_true, List.set_set, Out.ok.injEq,
            Prod.mk.injEq] at hs
          exact ⟨{ s1 with id := id }, hs2, by rw [← ht2, ← ht3]; exact hlt, by rw [← hs.1, ← ht2, ← ht3]⟩

/-- Setting the first free slot keeps the slots packed. -/
theorem Packed.set {a : List Slot} {n : Nat} (h : Packed a n) (hn : n < 59) {y : Slot}
    (hy : y.ptr.isSome = true) (hl : n < a.length) : Packed (a.set n y) (n + 1) := by
  obtain ⟨m, b, h1, h2, h3, h4, h5⟩ := h
  subst h1
  by_cases e : n < m.length
  · refine ⟨m.set n y, b, by rw [List.set_append_left _ _ e], ?_, h3, by simpa using h4, by simp; omega⟩
    intro s hs
    rcases List.mem_or_eq_of_mem_set hs with hs | rfl
    · exact h2 s hs
    · exact hy
  · have e : n = m.length := by omega
    cases b with
    | nil => simp at hl; omega
    | cons z b =>
      refine ⟨m ++ [y], b, ?_, ?_, fun s hs => h3 s (by simp [hs]), by simp; omega, by simp; omega⟩
      · rw [e, List.set_append_right _ _ (Nat.le_refl _)]; simp
      · intro s hs
        rcases List.mem_append.1 hs with hs | hs
        · exact h2 s hs
        · simp at hs; rw [hs]; exact hy

/-- Invariant of a session with its own thread. -/
structure LInv (n : Nat) (c : Local) (iq : List (UInt32 × Bytes)) (oq : List (UInt32 × Option Bytes)) :
    Prop where
  td : TInv (· = n) c.td iq oq
  zi : ∀ x ∈ iq, x.1 = 0
  pk : Packed c.td.inn iq.length
  busy : c.td.inSigning = c.signing.isSome

/-- One step, when fewer than 59 hashes wait. -/
theorem lstep_inv (sign : Nat → Bytes → Option Bytes) {n : Nat} {c : Local}
    {iq : List (UInt32 × Bytes)} {oq : List (UInt32 × Option Bytes)} (h : LInv n c iq oq) (x : LStep)
    (hx : ∀ hs a1 a2, x = .submit hs a1 a2 → hs.length = n ∧ c.td.inIdx < 59) :
    ∃ c' e iq' oq', lstep sign c x = .ok (c', e) ∧ LInv n c' iq' oq' := by
  cases x with
  | submit hs a1 a2 =>
    obtain ⟨hlen, hlt⟩ := hx hs a1 a2 rfl
    by_cases h0 : hs.length = 0
    · exact ⟨c, .submit hs (some .invalidParameter), iq, oq, by simp only [lstep, h0, if_true], h⟩
    obtain ⟨t', rc, h1, h2, h3, h4, h5⟩ := signHash_inv h.td 0 hs a1 a2 hlen
    have hst : lstep sign c (.submit hs a1 a2) = .ok ({ c with td := t' }, .submit hs rc) := by
      simp only [lstep, h0, if_false, h1, Out.bind_ok]
    have hidx : c.td.inIdx = iq.length := h.td.iidx
    have hbase : Packed t'.inn iq.length ∧ (rc = none → Packed t'.inn (iq.length + 1)) := by
      rcases signHash_inn h1 with ⟨e, hr⟩ | ⟨y, hy, hl, e⟩
      · rw [e]; exact ⟨h.pk, fun e => absurd e hr⟩
      · have := h.pk.set (by omega) hy (by omega)
        rw [e, hidx]
        exact ⟨this.mono (by omega), fun _ => this⟩
    cases rc with
    | none =>
      refine ⟨_, _, iq ++ [(0, hs)], oq, hst, ⟨by simpa using h2, ?_, ?_, by rw [← h.busy]; exact h4⟩⟩
      · intro x hx
        rcases List.mem_append.1 hx with hx | hx
        · exact h.zi x hx
        · simp at hx; rw [hx]
      · simpa using hbase.2 rfl
    | some r =>
      exact ⟨_, _, iq, oq, hst, ⟨by simpa using h2, h.zi, hbase.1, by rw [← h.busy]; exact h4⟩⟩
  | fetch max =>
    obtain ⟨t', sig, rc, oq', h1, h2, h3, h4, h5, -⟩ := getSignature_inv h.td 0 max
    have hi : t'.inn = c.td.inn := by
      have hc := h1
      simp only [getSignature] at hc
      split at hc
      · simp only [Out.ok.injEq, Prod.mk.injEq] at hc; rw [← hc.1]
      · split at hc
        · simp only [Out.ok.injEq, Prod.mk.injEq] at hc; rw [← hc.1]
        · cases hr : rd c.td.out 0 with
          | err e => rw [hr] at hc; simp at hc
          | ub e => rw [hr] at hc; simp at hc
          | ok o =>
            rw [hr] at hc
            simp only [Out.bind_ok] at hc
            split at hc
            · simp only [Out.ok.injEq, Prod.mk.injEq] at hc; rw [← hc.1]
            · revert hc
              generalize (if o.err then .ok (none, some Rc.externalError)
                else if max < o.size then .ok (none, some Rc.invalidParameter)
                else match o.ptr with
                  | none => .ub .nullDeref
                  | some p => do
                    let b ← c.td.heap.load p o.size
                    .ok (some b, none) : Out (Option Bytes × Option Rc)) = R
              intro hc
              cases R with
              | err e => simp at hc
              | ub e => simp at hc
              | ok R =>
                simp only [Out.bind_ok] at hc
                cases hsf : shiftLoop maxBuffer (maxBuffer + 1) c.td.out 1 with
                | err e => rw [hsf] at hc; simp at hc
                | ub e => rw [hsf] at hc; simp at hc
                | ok q =>
                  rw [hsf] at hc
                  simp only [Out.bind_ok] at hc
                  cases hw : wr q.1 (maxBuffer - 1) (resetSig o) with
                  | err e => rw [hw] at hc; simp at hc
                  | ub e => rw [hw] at hc; simp at hc
                  | ok a =>
                    rw [hw] at hc
                    simp only [Out.bind_ok, Out.ok.injEq, Prod.mk.injEq] at hc
                    rw [← hc.1]
    exact ⟨{ c with td := t' }, .fetch sig rc, iq, oq', by simp only [lstep, h1, Out.bind_ok],
      ⟨h2, h.zi, hi ▸ h.pk, by rw [← h.busy]; exact h4⟩⟩
  | take =>
    rcases localTake_inv h.td h.zi h.pk with h1 | ⟨t', x, iq', hq, hns, h1, h2, h3, h4, h5⟩
    · exact ⟨c, .worker, iq, oq, by simp only [lstep, h1, Out.bind_ok], h⟩
    · refine ⟨⟨t', some x.2⟩, .worker, iq', oq, by simp only [lstep, h1, Out.bind_ok], ⟨h2, ?_, h3, h4⟩⟩
      intro y hy; exact h.zi y (by rw [hq]; simp [hy])
  | put r al =>
    cases hs : c.signing with
    | none => exact ⟨c, .worker, iq, oq, by simp only [lstep, hs], h⟩
    | some hash =>
      obtain ⟨hc1, hc2⟩ := opensslSign_cases sign c.td.maxSig r hash
      obtain ⟨td, iq', oq', h1, h2, h3, h4, h5, h6⟩ := localPut_inv h.td h.pk
        (opensslSign sign c.td.maxSig r hash) al hc1
      refine ⟨⟨td, none⟩, .worker, iq', oq', by simp only [lstep, hs, h1, Out.bind_ok], ⟨h4, ?_, h5, h2⟩⟩
      rcases h6 with ⟨rfl, -⟩ | ⟨rfl, -⟩
      · simp
      · exact h.zi

end SV.Threaded
