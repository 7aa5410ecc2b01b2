import Verif.Proofs.Slots
import Verif.Spec.Plugin
namespace SV.Unthreaded
open SV.Spec

/-- Slot `g.1` holds a signature of the hash `g.2`. -/
def Holds (sign : Nat → Bytes → Option Bytes) (H : Heap) (g : Slot × Bytes) : Prop :=
  ∃ p, g.1.ptr = some p ∧ g.1.size ≤ (H.cell p).length ∧
    IsSig sign g.2 ((H.cell p).take g.1.size)

/-- The plugin holds signatures of the hashes `q`, oldest first. -/
structure Inv (sign : Nat → Bytes → Option Bytes) (M : Nat) (s : St) (q : List Bytes) : Prop where
  len : s.out.length = 60
  idx : s.idx = q.length
  max : s.maxSig = M
  ptrs : (s.out.filterMap Slot.ptr).Nodup
  mem : ∀ o ∈ s.out, ∀ p, o.ptr = some p → p < s.heap.brk ∧ (s.heap.cell p).length = s.maxSig
  view : ∃ (gs : List (Slot × Bytes)) (b : List Slot),
    s.out = gs.map Prod.fst ++ b ∧ q = gs.map Prod.snd ∧ ∀ g ∈ gs, Holds sign s.heap g

theorem inv_init (sign : Nat → Bytes → Option Bytes) (m : Nat) : Inv sign m (init m) [] := by
  have hz : ∀ (n : Nat), (List.replicate n Slot.zero).filterMap Slot.ptr = [] := by
    intro n; induction n with
    | zero => rfl
    | succ n ih => simp [List.replicate_succ, ih, Slot.zero]
  refine ⟨by simp [init, maxBuffer], rfl, rfl, ?_, ?_, ⟨[], _, rfl, rfl, by simp⟩⟩
  · simp [init, hz]
  · intro o ho p hp
    simp [init, List.mem_replicate] at ho
    obtain ⟨-, rfl⟩ := ho
    simp [Slot.zero] at hp

theorem Inv.len_le {sign : Nat → Bytes → Option Bytes} {M : Nat} {s : St} {q : List Bytes}
    (h : Inv sign M s q) : q.length ≤ 60 := by
  obtain ⟨gs, b, ho, hq, -⟩ := h.view
  have := h.len
  rw [ho] at this
  simp at this
  rw [hq]; simp; omega

/-- Shifting removes the oldest. -/
theorem shift_inv {sign : Nat → Bytes → Option Bytes} {M : Nat} {s : St} {h : Bytes} {q : List Bytes}
    (hi : Inv sign M s (h :: q)) : ∃ s', shift s = .ok s' ∧ Inv sign M s' q := by
  obtain ⟨gs, b, ho, hq, hv⟩ := hi.view
  cases gs with
  | nil => simp at hq
  | cons g gs =>
    simp only [List.map_cons, List.cons.injEq] at hq
    obtain ⟨hq1, hq2⟩ := hq
    have hidx : s.idx = gs.length + 1 := by rw [hi.idx, hq2]; simp
    have hle : s.idx ≤ 60 := by have := hi.len_le; rw [hi.idx]; exact this
    simp only [List.map_cons, List.cons_append] at ho
    obtain ⟨z, hz⟩ := shiftLoop_eq s.idx (gs.map Prod.fst) [] g.1 b 61 (by simp; omega)
      (by simp; omega)
    simp only [List.nil_append, List.length_nil, Nat.zero_add] at hz
    rw [← ho] at hz
    have hr : rd s.out 0 = .ok g.1 := by rw [ho]; rfl
    have hr2 : rd (gs.map Prod.fst ++ z :: b) (s.idx - 1) = .ok z := rd_app _ _ _ _ (by simp; omega)
    have hw := fun y => wr_app (gs.map Prod.fst) z y b (s.idx - 1) (by simp; omega)
    refine ⟨{ s with out := gs.map Prod.fst ++ { z with ptr := g.1.ptr, size := 0 } :: b,
                     idx := s.idx - 1 }, ?_, ?_⟩
    · have h60 : ¬ (60 < s.idx) := by omega
      have h0 : s.idx ≠ 0 := by omega
      simp only [shift, h60, if_false, hr, Out.bind_ok, maxBuffer, hz, h0, hr2, hw]
    · refine ⟨?_, ?_, hi.max, ?_, ?_, ⟨gs, _, rfl, hq2, fun g hg => hv g (List.mem_cons_of_mem _ hg)⟩⟩
      · have := hi.len
        rw [ho] at this
        simp at this ⊢; omega
      · simp only [hidx, hq2]; simp
      · have := hi.ptrs
        rw [ho] at this
        simp only [List.filterMap_cons, List.filterMap_append] at this ⊢
        cases hp : g.1.ptr with
        | none => rw [hp] at this; simpa using this
        | some p =>
          rw [hp] at this
          simp only [List.nodup_cons, List.mem_append, not_or] at this
          obtain ⟨⟨h1, h2⟩, h3⟩ := this
          simp only
          rw [List.nodup_append] at h3 ⊢
          refine ⟨h3.1, List.nodup_cons.2 ⟨h2, h3.2.1⟩, ?_⟩
          intro a ha c hc
          rcases List.mem_cons.1 hc with rfl | hc
          · rintro rfl; exact h1 ha
          · exact h3.2.2 a ha c hc
      · intro o hom p hp
        simp only [List.mem_append, List.mem_cons] at hom
        have hmem := hi.mem
        rw [ho] at hmem
        rcases hom with hom | rfl | hom
        · exact hmem o (by simp only [List.mem_cons, List.mem_append]; exact .inr (.inl hom)) p hp
        · exact hmem g.1 (by simp) p hp
        · exact hmem o (by simp only [List.mem_cons, List.mem_append]; exact .inr (.inr hom)) p hp

/-- Fetching. -/
theorem fetch_inv {sign : Nat → Bytes → Option Bytes} {M : Nat} {s : St} {q : List Bytes}
    (hi : Inv sign M s q) (m : Nat) :
    ∃ s' sig q', fetch s m = .ok (s', sig) ∧ Inv sign M s' q' ∧
      FifoStep sign M q (.fetch m) (.fetch m sig) q' := by
  cases q with
  | nil =>
    refine ⟨s, none, [], ?_, hi, .empty⟩
    have := hi.idx
    simp [fetch, this]
  | cons h q =>
    obtain ⟨s', hs, hi'⟩ := shift_inv hi
    obtain ⟨gs, b, ho, hq, hv⟩ := hi.view
    cases gs with
    | nil => simp at hq
    | cons g gs =>
      obtain ⟨p, hp, hsz, hsig⟩ := hv g (by simp)
      have hh : h = g.2 := by simp at hq; exact hq.1
      have hr : rd s.out 0 = .ok g.1 := by rw [ho]; rfl
      have hpos : 0 < s.idx := by rw [hi.idx]; simp
      have hlen : ((s.heap.cell p).take g.1.size).length = g.1.size := by
        simp only [List.length_take]; omega
      by_cases hm : m < g.1.size
      · refine ⟨s', none, q, ?_, hi', ?_⟩
        · simp only [fetch, hpos, if_true, hr, Out.bind_ok, hm, hs]
        · exact .tooLarge (sig := (s.heap.cell p).take g.1.size) (hh ▸ hsig) (by omega)
      · refine ⟨s', some ((s.heap.cell p).take g.1.size), q, ?_, hi', ?_⟩
        · simp only [fetch, hpos, if_true, hr, Out.bind_ok, hm, if_false, hp, Heap.load, hsz, hs]
        · exact .delivered (hh ▸ hsig) (by omega)

theorem nodup_mid {α : Type} {a b : List α} {x : α} (h : (a ++ b).Nodup) (h1 : x ∉ a)
    (h2 : x ∉ b) : (a ++ x :: b).Nodup := by
  rw [List.nodup_append] at h ⊢
  refine ⟨h.1, List.nodup_cons.2 ⟨h2, h.2.1⟩, ?_⟩
  intro y hy c hc
  rcases List.mem_cons.1 hc with rfl | hc
  · rintro rfl; exact h1 hy
  · exact h.2.2 y hy c hc

/-- Storing in a block that no held slot uses keeps what is held. -/
theorem Holds.frame {sign : Nat → Bytes → Option Bytes} {H H' : Heap} {g : Slot × Bytes}
    (h : Holds sign H g) (he : ∀ p, g.1.ptr = some p → H'.cell p = H.cell p) : Holds sign H' g := by
  obtain ⟨p, hp, hs, hsig⟩ := h
  exact ⟨p, hp, by rw [he p hp]; exact hs, by rw [he p hp]; exact hsig⟩

/-- Submitting. -/
theorem submit_inv {sign : Nat → Bytes → Option Bytes} {M : Nat} {s : St} {q : List Bytes}
    (hi : Inv sign M s q) (h : Option Bytes) (r : Nat) (al : Bool) :
    ∃ s' rc q', submit sign s h r al = .ok (s', rc) ∧ Inv sign M s' q' ∧
      FifoStep sign M q (.submit h r al) (.submit h rc) q' := by
  cases h with
  | none => exact ⟨s, _, q, rfl, hi, .refused (.inl rfl)⟩
  | some h =>
    by_cases h0 : h.length = 0
    · refine ⟨s, some .invalidParameter, q, by simp [submit, h0], hi, .refused (.inr (.inl ?_))⟩
      rw [List.eq_nil_of_length_eq_zero h0]
    · by_cases hfull : maxBuffer ≤ s.idx
      · refine ⟨s, some .notSupported, q, by simp [submit, h0, hfull], hi,
          .refused (.inr (.inr (.inl ?_)))⟩
        have := hi.len_le
        rw [← hi.idx] at this ⊢
        simp [maxBuffer] at hfull; omega
      · cases hsg : sign r h with
        | none =>
          refine ⟨s, some .externalError, q, by simp [submit, h0, hfull, opensslSign, hsg], hi,
            .refused (.inr (.inr (.inr ⟨h, rfl, .inl hsg⟩)))⟩
        | some sg =>
          by_cases hmx : s.maxSig < sg.length
          · refine ⟨s, some .memory, q, by simp [submit, h0, hfull, opensslSign, hsg, hmx], hi,
              .refused (.inr (.inr (.inr ⟨h, rfl, .inr (.inr (.inr ⟨sg, hsg, hi.max ▸ hmx⟩))⟩)))⟩
          · by_cases he : sg.length = 0
            · refine ⟨s, some .notSupported, q,
                by simp [submit, h0, hfull, opensslSign, hsg, hmx, he], hi,
                .refused (.inr (.inr (.inr ⟨h, rfl, .inr (.inl ?_)⟩)))⟩
              rw [hsg, List.eq_nil_of_length_eq_zero he]
            · -- room for the signature
              obtain ⟨gs, b, ho, hq, hv⟩ := hi.view
              have hidx : s.idx = gs.length := by rw [hi.idx, hq]; simp
              have hb : ∃ o b', b = o :: b' := by
                cases b with
                | cons o b' => exact ⟨o, b', rfl⟩
                | nil =>
                  have := hi.len
                  rw [ho] at this
                  simp [maxBuffer] at this hfull; omega
              obtain ⟨o, b, rfl⟩ := hb
              have hr : rd s.out s.idx = .ok o := by rw [ho]; exact rd_app _ _ _ _ (by simp [hidx])
              have hw : ∀ y, wr s.out s.idx y = .ok (gs.map Prod.fst ++ y :: b) := by
                intro y; rw [ho]; exact wr_app _ _ _ _ _ (by simp [hidx])
              have hlt : q.length < 60 := by
                rw [← hi.idx]; simp [maxBuffer] at hfull; omega
              have hmem := hi.mem
              have hpt := hi.ptrs
              have hlen := hi.len
              rw [ho] at hmem hpt hlen
              have hin : ∀ g ∈ gs, g.1 ∈ gs.map Prod.fst ++ o :: b := fun g hg =>
                List.mem_append_left _ (List.mem_map.2 ⟨g, hg, rfl⟩)
              -- common conclusion for a block `p` in heap `H`
              have fin : ∀ (p : Nat) (H : Heap), (H.cell p).length = s.maxSig → p < H.brk →
                  (∀ x ∈ gs.map Prod.fst ++ b, ∀ a, x.ptr = some a → a ≠ p ∧ a < H.brk ∧
                    (H.cell a).length = s.maxSig) →
                  ((gs.map Prod.fst).filterMap Slot.ptr ++ b.filterMap Slot.ptr).Nodup →
                  (∀ g ∈ gs, Holds sign H g) →
                  ∃ H', H.store p sg = .ok H' ∧
                    Inv sign M ⟨gs.map Prod.fst ++ { o with ptr := some p, size := sg.length } :: b,
                      s.idx + 1, H', s.maxSig⟩ (q ++ [h]) := by
                intro p H hpl hpb hx hnd hold
                have hfit : sg.length ≤ (H.cell p).length := by omega
                refine ⟨{ H with cell := fun a => if a = p then sg ++ (H.cell p).drop sg.length else H.cell a },
                  by simp only [Heap.store, hfit, if_true], ?_, ?_, hi.max, ?_, ?_, ?_⟩
                · simp at hlen ⊢; omega
                · simp [hi.idx]
                · simp only [List.filterMap_append, List.filterMap_cons]
                  refine nodup_mid hnd ?_ ?_
                  · intro hc
                    obtain ⟨x, hxm, hxp⟩ := List.mem_filterMap.1 hc
                    exact (hx x (List.mem_append_left _ hxm) p hxp).1 rfl
                  · intro hc
                    obtain ⟨x, hxm, hxp⟩ := List.mem_filterMap.1 hc
                    exact (hx x (List.mem_append_right _ hxm) p hxp).1 rfl
                · intro x hxm a ha
                  simp only [List.mem_append, List.mem_cons] at hxm
                  rcases hxm with hxm | rfl | hxm
                  · obtain ⟨h1, h2, h3⟩ := hx x (List.mem_append_left _ hxm) a ha
                    exact ⟨h2, by simp [h1, h3]⟩
                  · simp only [Option.some.injEq] at ha
                    subst ha
                    exact ⟨hpb, by simp; omega⟩
                  · obtain ⟨h1, h2, h3⟩ := hx x (List.mem_append_right _ hxm) a ha
                    exact ⟨h2, by simp [h1, h3]⟩
                · refine ⟨gs ++ [({ o with ptr := some p, size := sg.length }, h)], b, by simp,
                    by simp [hq], ?_⟩
                  intro g hg
                  rcases List.mem_append.1 hg with hg | hg
                  · refine (hold g hg).frame ?_
                    intro a ha
                    have := (hx g.1 (List.mem_append_left _ (List.mem_map.2 ⟨g, hg, rfl⟩)) a ha).1
                    simp [this]
                  · simp only [List.mem_singleton] at hg
                    subst hg
                    refine ⟨p, rfl, by simp, ⟨r, ?_⟩⟩
                    simp [hsg]
              simp only [List.filterMap_append, List.filterMap_cons] at hpt
              have hstep : ∀ s', (submit sign s (some h) r al = .ok (s', none)) →
                  Inv sign M s' (q ++ [h]) → ∃ s' rc q', submit sign s (some h) r al = .ok (s', rc) ∧
                    Inv sign M s' q' ∧ FifoStep sign M q (.submit (some h) r al) (.submit (some h) rc) q' :=
                fun s' e hinv => ⟨s', none, _, e, hinv, .accepted hlt⟩
              cases hop : o.ptr with
              | none =>
                cases al with
                | false =>
                  refine ⟨s, some .memory, q, ?_, hi,
                    .refused (.inr (.inr (.inr ⟨h, rfl, .inr (.inr (.inl rfl))⟩)))⟩
                  simp [submit, h0, hfull, opensslSign, hsg, hmx, he, hr, hop]
                | true =>
                  rw [hop] at hpt
                  obtain ⟨H', hst, hinv⟩ := fin s.heap.brk (s.heap.alloc s.maxSig).1
                    (by simp [Heap.alloc]) (by simp [Heap.alloc])
                    (by
                      intro x hx a ha
                      have := hmem x (by
                        simp only [List.mem_append, List.mem_cons] at hx ⊢
                        rcases hx with hx | hx
                        · exact .inl hx
                        · exact .inr (.inr hx)) a ha
                      have hne : a ≠ s.heap.brk := by omega
                      exact ⟨hne, by simp [Heap.alloc]; omega, by simp [Heap.alloc, hne, this.2]⟩)
                    hpt
                    (by
                      intro g hg
                      refine (hv g (by simpa using hg)).frame ?_
                      intro a ha
                      have := (hmem g.1 (hin g hg) a ha).1
                      have hne : a ≠ s.heap.brk := by omega
                      simp [Heap.alloc, hne])
                  refine hstep _ ?_ hinv
                  have hst' : Heap.store (s.heap.alloc s.maxSig).1 (s.heap.alloc s.maxSig).2 sg
                      = .ok H' := hst
                  simp only [submit, h0, hfull, opensslSign, hsg, hmx, he, hr, hop, if_false,
                    Out.bind_ok, hst', hw]
                  rfl
              | some p =>
                rw [hop] at hpt
                have hpm := hmem o (by simp) p hop
                have hnd : ((gs.map Prod.fst).filterMap Slot.ptr ++ p :: b.filterMap Slot.ptr).Nodup :=
                  hpt
                rw [List.nodup_append] at hnd
                obtain ⟨n1, n2, n3⟩ := hnd
                rw [List.nodup_cons] at n2
                obtain ⟨H', hst, hinv⟩ := fin p s.heap hpm.2 hpm.1
                    (by
                      intro x hx a ha
                      have := hmem x (by
                        simp only [List.mem_append, List.mem_cons] at hx ⊢
                        rcases hx with hx | hx
                        · exact .inl hx
                        · exact .inr (.inr hx)) a ha
                      refine ⟨?_, this.1, this.2⟩
                      rintro rfl
                      rcases List.mem_append.1 hx with hx | hx
                      · exact n3 a (List.mem_filterMap.2 ⟨x, hx, ha⟩) a (by simp) rfl
                      · exact n2.1 (List.mem_filterMap.2 ⟨x, hx, ha⟩))
                    (by
                      rw [List.nodup_append]
                      exact ⟨n1, n2.2, fun a ha c hc => n3 a ha c (List.mem_cons_of_mem _ hc)⟩)
                    (fun g hg => hv g (by simpa using hg))
                have ho2 : ({ o with ptr := some p, size := sg.length } : Slot)
                    = { o with size := sg.length } := by cases o; simp_all
                rw [ho2] at hinv
                refine hstep _ ?_ hinv
                simp only [submit, h0, hfull, opensslSign, hsg, hmx, he, hr, hop, if_false,
                    Out.bind_ok, hst, hw]

/-- Any number of calls. -/
theorem run_fifo {sign : Nat → Bytes → Option Bytes} {M : Nat} (cs : List Call) :
    ∀ {s : St} {q : List Bytes}, Inv sign M s q →
      ∃ s' es q', run sign s cs = .ok (s', es) ∧ Inv sign M s' q' ∧ FifoRun sign M q cs es q' := by
  induction cs with
  | nil => intro s q hi; exact ⟨s, [], q, rfl, hi, .nil⟩
  | cons c cs ih =>
    intro s q hi
    have hstep : ∃ s' e q', step sign s c = .ok (s', e) ∧ Inv sign M s' q' ∧ FifoStep sign M q c e q' := by
      cases c with
      | submit h r al =>
        obtain ⟨s', rc, q', h1, h2, h3⟩ := submit_inv hi h r al
        exact ⟨s', _, q', by simp [step, h1], h2, h3⟩
      | fetch m =>
        obtain ⟨s', sig, q', h1, h2, h3⟩ := fetch_inv hi m
        exact ⟨s', _, q', by simp [step, h1], h2, h3⟩
    obtain ⟨s1, e, q1, h1, h2, h3⟩ := hstep
    obtain ⟨s2, es, q2, h4, h5, h6⟩ := ih h2
    exact ⟨s2, e :: es, q2, by simp [run, h1, h4], h5, .cons h3 h6⟩

end SV.Unthreaded
