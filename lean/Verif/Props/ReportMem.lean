import Verif.Proofs.ReportSess
/-!
C72: the memory of authenticity reports.
-/
namespace SV.RepMem

/-- The operation creates a report. -/
def Op.Creates : Op → Prop
  | .createLocal => True
  | .get _ => True
  | _ => False

/-- The precondition that is left to the caller: wherever a report is created, its version strings get their memory. -/
def Supplied (os : List (Op × List Bool)) : Prop := ∀ o ∈ os, o.1.Creates → VersionsAllocated o

/-- One operation. -/
theorem step_ok {s : Sess} (hi : Inv s) {o : Op × List Bool} (hv : o.1.Creates → VersionsAllocated o) :
    ∃ s', s.step o = .ok s' ∧ Inv s' ∧
      (∀ (k : Nat) (r : Rep), s.out[k]? = some (some r) → o.1 ≠ .free k →
        s'.out[k]? = some (some r) ∧ view s'.heap.mem r = view s.heap.mem r) ∧
      (false ∉ o.2 → o.1.Five → s'.vals = s.vals.apply o.1) := by
  obtain ⟨op, orc⟩ := o
  have hi0 : Inv { s with heap := { s.heap with orc := orc } } := ⟨hi.fresh, hi.all, hi.prod, hi.five,
    fun r hr => ⟨(hi.loc r hr).strs, (hi.loc r hr).five, (hi.loc r hr).ver⟩,
    fun r hr => ⟨(hi.out r hr).strs, (hi.out r hr).five, (hi.out r hr).ver⟩⟩
  have hsame : ∀ {s' : Sess}, OutSame { s with heap := { s.heap with orc := orc } } s' →
      ∀ (k : Nat) (r : Rep), s.out[k]? = some (some r) → op ≠ .free k →
        s'.out[k]? = some (some r) ∧ view s'.heap.mem r = view s.heap.mem r := fun h k r hr _ =>
    ⟨by rw [h.out]; exact hr, h.view (List.mem_of_getElem? hr)⟩
  have hvals : ({ s with heap := { s.heap with orc := orc } } : Sess).vals = s.vals := rfl
  unfold Sess.step
  cases op with
  | createLocal =>
    obtain ⟨s', e, i, o1, _, v⟩ := createLocal_ok hi0 (hv trivial)
    exact ⟨s', e, i, hsame o1, fun h _ => (v.resolve_right fun hc => h hc.2)⟩
  | setProduct l =>
    obtain ⟨s', e, i, o1, _, v⟩ := setProduct_ok hi0 l
    exact ⟨s', e, i, hsame o1, fun h h5 => (v.resolve_right fun hc => h hc.2) h5⟩
  | decodeProduct l =>
    obtain ⟨s', e, i, o1, v⟩ := decodeProduct_ok hi0 l
    exact ⟨s', e, i, hsame o1, fun h h5 => (v.resolve_right fun hc => h hc) h5⟩
  | version a b c =>
    obtain ⟨s', e, i, o1, v⟩ := version_ok hi0 a b c
    exact ⟨s', e, i, hsame o1, fun _ _ => v⟩
  | update n w r =>
    obtain ⟨s', e, i, o1, v⟩ := update_ok hi0 n w r
    exact ⟨s', e, i, hsame o1, fun h _ => v.resolve_right fun hc => h hc⟩
  | reset =>
    obtain ⟨s', e, i, o1, v⟩ := reset_ok hi0
    exact ⟨s', e, i, hsame o1, fun _ _ => v⟩
  | get r =>
    obtain ⟨s', e, i, m, v⟩ := get_ok hi0 r (hv trivial)
    refine ⟨s', e, i, fun k q hq _ => ⟨?_, view_kept fun a ha => m a (mem_outPtrs (List.mem_of_getElem? hq) ha)⟩, fun h _ => ?_⟩
    · rcases v with v | ⟨⟨d, v⟩, _⟩
      · rw [v.1]; exact hq
      · rw [v]
        obtain ⟨hlt, hg⟩ := List.getElem?_eq_some_iff.1 hq
        rw [List.getElem?_append_left hlt]; exact hq
    · rcases v with v | ⟨_, _, v⟩
      · by_cases hl : s.loc = none
        · have h1 : s'.vals.loc = none := by
            have := v.2.2.2.1
            simp only [Sess.vals, hl, Option.map_none] at this ⊢
            cases hx : s'.loc with
            | none => rfl
            | some x => rw [hx] at this; cases this
          have h2 := v.2.1
          have h3 := v.2.2.1
          have h4 : s.vals.apply (.get r) = s.vals := by simp [Vals.apply, Sess.vals, hl]
          rw [h4]
          show (⟨s'.vals.product, s'.vals.loc, s'.vals.out⟩ : Vals) = _
          rw [h1, h2, h3]
          simp [Sess.vals, hl]
        · exact absurd (v.2.2.2.2 hl) h
      · exact v
  | free k =>
    obtain ⟨s', e, i, ho, m, v⟩ := free_ok hi0 k
    refine ⟨s', e, i, fun j q hq hne => ?_, fun _ _ => v⟩
    have hjk : k ≠ j := fun hc => hne (by simp [hc])
    have hj : (s.out.set k none)[j]? = some (some q) := by rw [List.getElem?_set_ne hjk]; exact hq
    exact ⟨by rw [ho]; exact hj, view_kept fun a ha => m a (mem_outPtrs (List.mem_of_getElem? hj) ha)⟩

/-- A sequence of operations. -/
theorem run_ok {s : Sess} (hi : Inv s) (os : List (Op × List Bool)) (hv : Supplied os) :
    ∃ s', s.run os = .ok s' ∧ Inv s' ∧
      (∀ (k : Nat) (r : Rep), s.out[k]? = some (some r) → (∀ o ∈ os, o.1 ≠ .free k) →
        s'.out[k]? = some (some r) ∧ view s'.heap.mem r = view s.heap.mem r) ∧
      ((∀ o ∈ os, false ∉ o.2 ∧ o.1.Five) → s'.vals = os.foldl (fun v o => v.apply o.1) s.vals) := by
  induction os generalizing s with
  | nil => exact ⟨s, rfl, hi, fun k r h _ => ⟨h, rfl⟩, fun _ => rfl⟩
  | cons o os ih =>
    obtain ⟨s1, e1, i1, o1, v1⟩ := step_ok hi (hv o (List.mem_cons_self ..))
    obtain ⟨s2, e2, i2, o2, v2⟩ := ih i1 (fun x hx => hv x (List.mem_cons_of_mem _ hx))
    refine ⟨s2, by simp only [Sess.run, e1, Out.bind_ok, e2], i2, fun k r h hf => ?_, fun h => ?_⟩
    · obtain ⟨a1, b1⟩ := o1 k r h (hf o (List.mem_cons_self ..))
      obtain ⟨a2, b2⟩ := o2 k r a1 (fun x hx => hf x (List.mem_cons_of_mem _ hx))
      exact ⟨a2, by rw [b2, b1]⟩
    · rw [v2 (fun x hx => h x (List.mem_cons_of_mem _ hx)), v1 (h o (List.mem_cons_self ..)).1 (h o (List.mem_cons_self ..)).2]
      rfl

/-! ### No undefined behaviour -/

/-- C72, full statement on memory safety: whatever allocations fail, nothing is freed twice, used after it is freed, read or
written outside of its block, or used through NULL. -/
def C72_safe_statement : Prop := ∀ os : List (Op × List Bool), ∃ s', Sess.init.run os = .ok s'

/-- The statement is false: the two allocations in `authenticity_report_init` are not checked, and `transfer_authenticity`
writes through the pointers. -/
theorem C72_safe_statement_false : ¬ C72_safe_statement := by
  intro h
  obtain ⟨s', hs⟩ := h [(.createLocal, []), (.get 0, [true, false])]
  have : Sess.init.run [(.createLocal, []), (.get 0, [true, false])] = .ub .nullDeref := rfl
  rw [this] at hs
  cases hs

/-- It is read through as well, when it was the local report that did not get its memory. -/
theorem C72_safe_statement_false_local :
    Sess.init.run [(.createLocal, [true, false]), (.get 0, [])] = .ub .nullDeref := rfl

/-- C72, the part on memory safety that holds: if the version strings get their memory, no sequence of operations has undefined
behaviour, whatever other allocations fail. Missing: the case of `C72_safe_statement_false`. -/
theorem C72_safe_partial (os : List (Op × List Bool)) (hv : Supplied os) : ∃ s', Sess.init.run os = .ok s' := by
  obtain ⟨s', e, _⟩ := run_ok Inv.init os hv
  exact ⟨s', e⟩

/-! ### Copies -/

/-- C72, on copies: what is handed out by `signed_video_get_authenticity_report` reads as the local report does at that time,
and if memory is short nothing is handed out, with all texts as before. -/
theorem C72_copy {os : List (Op × List Bool)} (hv : Supplied os) {s s' : Sess} (hs : Sess.init.run os = .ok s)
    {rest : Nat} {orc : List Bool} (hva : VersionsAllocated (.get rest, orc)) {l : Rep} (hl : s.loc = some l)
    (hg : s.step (.get rest, orc) = .ok s') :
    (∃ r, s'.out = s.out ++ [some r] ∧
      view s'.heap.mem r = { view s.heap.mem l with rest := rest }.copied) ∨
    (s'.out = s.out ∧ s'.vals.product = s.vals.product ∧ s'.vals.out = s.vals.out ∧ false ∈ orc ∧
      ∃ l', s'.loc = some l' ∧ view s'.heap.mem l' = { view s.heap.mem l with rest := l'.rest }) := by
  obtain ⟨s1, e1, i1, _⟩ := run_ok Inv.init os hv
  rw [hs] at e1; cases e1
  have hi0 : ∀ orc, Inv { s with heap := { s.heap with orc := orc } } := fun orc => ⟨i1.fresh, i1.all, i1.prod, i1.five,
    fun r hr => ⟨(i1.loc r hr).strs, (i1.loc r hr).five, (i1.loc r hr).ver⟩,
    fun r hr => ⟨(i1.out r hr).strs, (i1.out r hr).five, (i1.out r hr).ver⟩⟩
  obtain ⟨s2, e2, i2, m, v⟩ := get_ok (hi0 orc) rest hva
  have e2' : s.step (.get rest, orc) = .ok s2 := e2
  rw [hg] at e2'; cases e2'
  rcases v with ⟨h1, h2, h3, h4, h5⟩ | ⟨⟨r, h1⟩, _, h2⟩
  · refine .inr ⟨h1, h2, h3, h5 (by simp [hl]), ?_⟩
    · simp only [Sess.vals, hl, Option.map_some] at h4
      cases hx : s'.loc with
      | none => rw [hx] at h4; cases h4
      | some l' =>
        rw [hx] at h4
        simp only [Option.map_some, Option.some.injEq, view, View.mk.injEq, and_true] at h4
        refine ⟨l', rfl, ?_⟩
        simp only [view, h4.1, h4.2.1, h4.2.2.1, h4.2.2.2.1, h4.2.2.2.2]
  · refine .inl ⟨r, h1, ?_⟩
    have h3 : s'.vals.out = (s.vals.apply (.get rest)).out := by rw [h2]; rfl
    simp only [Sess.vals, Vals.apply, hl, Option.map_some, h1, List.map_append, List.map_cons, List.map_nil] at h3
    have h4 := List.append_inj_right' h3 rfl
    simpa using h4

/-- C72, on reports in the hands of the user: such a report stays and reads the same, whatever is done with the session
afterwards, until the user frees it. -/
theorem C72_kept {os os' : List (Op × List Bool)} (hv : Supplied os) (hv' : Supplied os') {s s' : Sess}
    (hs : Sess.init.run os = .ok s) (hs' : s.run os' = .ok s') {k : Nat} {r : Rep} (hr : s.out[k]? = some (some r))
    (hf : ∀ o ∈ os', o.1 ≠ .free k) :
    s'.out[k]? = some (some r) ∧ view s'.heap.mem r = view s.heap.mem r := by
  obtain ⟨s1, e1, i1, _⟩ := run_ok Inv.init os hv
  rw [hs] at e1; cases e1
  obtain ⟨s2, e2, _, o2, _⟩ := run_ok i1 os' hv'
  rw [hs'] at e2; cases e2
  exact o2 k r hr hf

/-- C72, on the texts: when no allocation fails, all texts are what they are without any memory, `Vals.apply`. -/
theorem C72_values (os : List (Op × List Bool)) (hn : ∀ o ∈ os, false ∉ o.2 ∧ o.1.Five) :
    ∃ s', Sess.init.run os = .ok s' ∧
      s'.vals = os.foldl (fun v o => v.apply o.1) ⟨List.replicate 5 none, none, []⟩ := by
  obtain ⟨s', e, _, _, v⟩ := run_ok Inv.init os (fun o ho _ =>
    ⟨fun hc => (hn o ho).1 (List.mem_of_getElem? hc), fun hc => (hn o ho).1 (List.mem_of_getElem? hc)⟩)
  exact ⟨s', e, v hn⟩

/-! ### Nothing is lost -/

/-- C72, on leaks: once the session is closed, the blocks left are those of the reports that the user has not freed, each
owned once; none if all are freed. -/
theorem C72_no_leak {os : List (Op × List Bool)} (hv : Supplied os) {s : Sess} (hs : Sess.init.run os = .ok s) :
    ∃ h, s.close = .ok h ∧
      (∀ a, (h.mem a).isSome ↔ ∃ r, some r ∈ s.out ∧ (some a ∈ r.strs ∨ a = r.self)) ∧
      ((∀ r, some r ∉ s.out) → ∀ a, h.mem a = none) := by
  obtain ⟨s1, e1, i1, _⟩ := run_ok Inv.init os hv
  rw [hs] at e1; cases e1
  have h1 : ∃ h1, freeRep s.heap s.loc = .ok h1 ∧ Moves s.heap (repPtrs s.loc) h1 [] := by
    cases hl : s.loc with
    | none => exact ⟨s.heap, rfl, Moves.refl i1.fresh _⟩
    | some r => exact freeRep_moves i1.fresh (i1.own.sub fun a => by
        simp only [Sess.all, hl, repPtrs, List.count_append]; omega)
  obtain ⟨h1, e1, m1⟩ := h1
  have hk1 := i1.keep m1 (f := s.product ++ outPtrs s.out) (fun a => by simp only [Sess.all, List.count_append]; omega)
  obtain ⟨h2, e2, m2⟩ := freeAll_moves s.product m1.fresh (fun a => by
    rw [hk1.2 a]; simp only [List.count_append]; omega)
  have hlive : ∀ a, live h2 a = (outPtrs s.out).count (some a) := fun a => by
    have := m2.live a
    have := hk1.2 a
    simp only [List.count_append, List.count_nil] at *
    omega
  have hiff : ∀ a, (h2.mem a).isSome ↔ ∃ r, some r ∈ s.out ∧ (some a ∈ r.strs ∨ a = r.self) := fun a => by
    rw [← live_pos, hlive, List.count_pos_iff]
    unfold outPtrs
    rw [List.mem_flatMap]
    constructor
    · rintro ⟨x, hx, ha⟩
      cases x with
      | none => cases ha
      | some r =>
        refine ⟨r, hx, ?_⟩
        simp only [repPtrs, Rep.ptrs, Rep.tail, Rep.strs, List.mem_append, List.mem_cons, List.not_mem_nil, or_false,
          Option.some.injEq] at ha ⊢
        rcases ha with h | h | h | h | h | h <;> simp [h]
    · rintro ⟨r, hx, ha⟩
      refine ⟨some r, hx, ?_⟩
      rcases ha with ha | ha
      · exact Rep.strs_sub ha
      · simp [repPtrs, Rep.ptrs, Rep.tail, ha]
  refine ⟨h2, by simp only [Sess.close, e1, Out.bind_ok, e2], hiff, fun hno a => ?_⟩
  cases hx : h2.mem a with
  | none => rfl
  | some b =>
    obtain ⟨r, hr, _⟩ := (hiff a).1 (by rw [hx]; rfl)
    exact absurd hr (hno r)

/-- C72, on product information set when memory is short: either all five texts are the new ones, or there are none; the local
report is left alone. -/
theorem C72_set {os : List (Op × List Bool)} (hv : Supplied os) {s : Sess} (hs : Sess.init.run os = .ok s)
    (l : List (Option Bytes)) (h5 : l.length = 5) (orc : List Bool) :
    ∃ s', s.step (.setProduct l, orc) = .ok s' ∧ s'.vals.loc = s.vals.loc ∧ s'.vals.out = s.vals.out ∧
      (s'.vals.product = (l.map fun b => filled (b.map textOf)) ∨
       (s'.vals.product = List.replicate 5 none ∧ false ∈ orc)) := by
  obtain ⟨s1, e1, i1, _⟩ := run_ok Inv.init os hv
  rw [hs] at e1; cases e1
  have hi0 : Inv { s with heap := { s.heap with orc := orc } } := ⟨i1.fresh, i1.all, i1.prod, i1.five,
    fun r hr => ⟨(i1.loc r hr).strs, (i1.loc r hr).five, (i1.loc r hr).ver⟩,
    fun r hr => ⟨(i1.out r hr).strs, (i1.out r hr).five, (i1.out r hr).ver⟩⟩
  obtain ⟨s', e, _, o1, v1, v2⟩ := setProduct_ok hi0 l
  refine ⟨s', e, v1, o1.vals, ?_⟩
  rcases v2 with v2 | ⟨v2, v3⟩
  · exact .inl (by rw [v2 h5]; rfl)
  · exact .inr ⟨by rw [v2], v3⟩

/-! ### Examples -/

/-- A use of a session: product information from the user and from a SEI, a version, two validations with a report after each,
the first report freed; some allocations fail. -/
def exampleUse : List (Op × List Bool) :=
  [(.setProduct [some [72, 87], none, some [83, 78], some [65], some []], []), (.createLocal, [true, true, true, true]),
   (.decodeProduct [[72, 87], [70, 0], [83, 0], [65, 66], [0]], []), (.version 1 2 103, []), (.update [73, 80] [46, 80] 7, []),
   (.get 8, []), (.update [83] [46] 9, [true, false]), (.get 10, [true, true, true, true, false]), (.get 11, []), (.free 0, []),
   (.setProduct [none, none, none, none, none], [false])]

theorem exampleUse_supplied : Supplied exampleUse := by
  intro o ho hc
  simp only [exampleUse, List.mem_cons, List.not_mem_nil, or_false] at ho
  rcases ho with rfl | rfl | rfl | rfl | rfl | rfl | rfl | rfl | rfl | rfl | rfl <;> first | exact ⟨by decide, by decide⟩ | cases hc

/-- The hypotheses of the theorems hold of it: it runs, with two reports handed out and one left. -/
example : ∃ s, Sess.init.run exampleUse = .ok s ∧ s.out.map Option.isSome = [false, true] ∧ s.loc.isSome := by
  have h : (match Sess.init.run exampleUse with
      | .ok s => decide (s.out.map Option.isSome = [false, true] ∧ s.loc.isSome)
      | _ => false) = true := by decide +kernel
  obtain ⟨s, hs⟩ := C72_safe_partial _ exampleUse_supplied
  rw [hs] at h
  have h := of_decide_eq_true h
  exact ⟨s, hs, h.1, h.2⟩

example : (match Sess.init.run exampleUse with | .ok s => s.vals.product | _ => []) = [none, none, none, none, none] := by
  decide +kernel

/-- What the user reads in the second report: an empty string for the statuses, that could not be allocated. -/
example : (match Sess.init.run exampleUse with | .ok s => s.vals.out | _ => []) =
    [none, some ⟨[some [72, 87], some [70], some [83], some [65, 66], some []], some [118, 49, 46, 50, 46, 49, 48, 51],
      some [118, 49, 46, 49, 46, 50, 57], some [83], some [], 11⟩] := by
  decide +kernel

end SV.RepMem
