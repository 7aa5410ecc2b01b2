import Verif.Proofs.ReportCopy
/-!
The blocks of a session in any sequence of operations.
-/
namespace SV.RepMem

/-- Pointers of a report that may not be there. -/
def repPtrs : Option Rep → List (Option Nat)
  | none => []
  | some r => r.ptrs

/-- Pointers of the reports handed out. -/
def outPtrs (l : List (Option Rep)) : List (Option Nat) := l.flatMap repPtrs

/-- All the pointers. -/
def Sess.all (s : Sess) : List (Option Nat) := s.product ++ (repPtrs s.loc ++ outPtrs s.out)

/-- Every block is owned by one pointer, and the strings are in order. -/
structure Inv (s : Sess) : Prop where
  fresh : Fresh s.heap
  all : ∀ a, s.all.count (some a) = live s.heap a
  prod : ∀ p ∈ s.product, Str s.heap p
  five : s.product.length = 5
  loc : ∀ r, s.loc = some r → RepOk s.heap r
  out : ∀ r, some r ∈ s.out → RepOk s.heap r

theorem Inv.init : Inv Sess.init := by
  refine ⟨fun _ _ => rfl, fun a => ?_, fun p hp => ?_, rfl, nofun, fun r hr => nomatch hr⟩
  · simp [Sess.init, Sess.all, repPtrs, outPtrs, live, List.count_replicate]
  · rw [(List.mem_replicate.1 hp).2]; exact Str.none _

theorem Inv.own {s : Sess} (h : Inv s) : Own s.heap s.all := fun a => Nat.le_of_eq (h.all a)

theorem mem_outPtrs {l : List (Option Rep)} {r : Rep} (hr : some r ∈ l) {p : Option Nat} (hp : p ∈ r.ptrs) : p ∈ outPtrs l :=
  List.mem_flatMap.2 ⟨some r, hr, hp⟩

/-- A move of the part `old` of all blocks leaves the others. -/
theorem Inv.keep {s : Sess} (hi : Inv s) {h' : Heap} {old new f : List (Option Nat)} (m : Moves s.heap old h' new)
    (hc : ∀ a, s.all.count (some a) = old.count (some a) + f.count (some a)) :
    (∀ a, some a ∈ f → h'.mem a = s.heap.mem a) ∧ ∀ a, live h' a = new.count (some a) + f.count (some a) := by
  refine ⟨fun a ha => hi.own.part m (fun a => Nat.le_of_eq (hc a).symm) ha, fun a => ?_⟩
  have h1 := hi.all a
  have h2 := hc a
  have h3 := m.live a
  omega

/-- The reports handed out, when their blocks are left alone. -/
structure OutSame (s : Sess) (s' : Sess) : Prop where
  out : s'.out = s.out
  mem : ∀ a, some a ∈ outPtrs s.out → s'.heap.mem a = s.heap.mem a

theorem OutSame.ok {s s' : Sess} (hi : Inv s) (h : OutSame s s') : ∀ r, some r ∈ s'.out → RepOk s'.heap r := by
  intro r hr
  rw [h.out] at hr
  exact (hi.out r hr).kept fun a ha => h.mem a (mem_outPtrs hr ha)

theorem OutSame.view {s s' : Sess} (h : OutSame s s') {r : Rep} (hr : some r ∈ s.out) :
    view s'.heap.mem r = view s.heap.mem r :=
  view_kept fun a ha => h.mem a (mem_outPtrs hr ha)

theorem OutSame.vals {s s' : Sess} (h : OutSame s s') : s'.vals.out = s.vals.out := by
  simp only [Sess.vals, h.out]
  apply List.map_congr_left
  intro r hr
  cases r with
  | none => rfl
  | some r => simp only [Option.map_some, h.view hr]

theorem prod_vals {h h' : Heap} {l : List (Option Nat)} (hk : ∀ a, some a ∈ l → h'.mem a = h.mem a) :
    l.map (textAt h'.mem) = l.map (textAt h.mem) :=
  List.map_congr_left fun p hp => by
    rw [textAt_eq, textAt_eq]
    exact val_kept fun a ha => hk a (ha ▸ hp)

/-! ### The operations -/

/-- A text from elsewhere as a source. -/
theorem text_ready (h : Heap) (l : List (Option Nat)) (b : Option Bytes) : (Src.text b).Ready h l := trivial

theorem freeRep_moves {h : Heap} (hf : Fresh h) {r : Rep} (ho : Own h r.ptrs) :
    ∃ h', freeRep h (some r) = .ok h' ∧ Moves h r.ptrs h' [] := freeAll_moves _ hf ho

theorem createLocal_ok {s : Sess} (hi : Inv s) (hv : s.heap.orc[1]? ≠ some false ∧ s.heap.orc[2]? ≠ some false) :
    ∃ s', s.createLocal = .ok s' ∧ Inv s' ∧ OutSame s s' ∧ s'.vals.product = s.vals.product ∧
      (s'.vals = (s.vals.apply .createLocal) ∨ (s'.vals = s.vals ∧ false ∈ s.heap.orc)) := by
  unfold Sess.createLocal
  cases hl : s.loc with
  | some l =>
    exact ⟨s, rfl, hi, ⟨rfl, fun _ _ => rfl⟩, rfl, .inl (by simp [Vals.apply, Sess.vals, hl])⟩
  | none =>
    simp only
    rcases create_moves hi.fresh with ⟨e, m, hne⟩ | ⟨r, e, m, hp, hn, hw, hr, hst, horc, hver⟩
    · rw [e]
      have hk := hi.keep m (f := s.all) (fun a => by simp)
      have hO : OutSame s { s with heap := (create s.heap).1, loc := none } :=
        ⟨rfl, fun a ha => hk.1 a (by simp [Sess.all, ha])⟩
      have hk1 : ∀ a, some a ∈ s.product → (create s.heap).1.mem a = s.heap.mem a := fun a ha => hk.1 a (by simp [Sess.all, ha])
      refine ⟨{ s with heap := (create s.heap).1, loc := none }, by simp [hl], ⟨m.fresh, fun a => ?_, fun p hp => (hi.prod p hp).kept fun a ha => hk1 a (ha ▸ hp), hi.five,
        nofun, hO.ok hi⟩, hO, prod_vals hk1, .inr ⟨?_, hne⟩⟩
      · have := hk.2 a
        simp only [Sess.all, hl, List.count_nil, Nat.zero_add] at this ⊢
        exact this.symm
      · have h1 := hO.vals
        have h2 : s.product.map (textAt (create s.heap).1.mem) = s.product.map (textAt s.heap.mem) := prod_vals hk1
        simp only [Sess.vals] at h1 ⊢
        rw [h1, h2, hl]
        rfl
    · rw [e]
      simp only
      obtain ⟨hV, hT, hv0, hvt0⟩ := hver hv.1 hv.2
      have hk0 := hi.keep m (f := s.all) (fun a => by simp)
      have ho0 : Own (create s.heap).1 (r.ptrs ++ s.all) := fun a => by
        rw [List.count_append, hk0.2 a]; exact Nat.le_refl _
      obtain ⟨h2, P, ok, e2, m2, hl2, hs2, hv2, hz2⟩ := copyAll_moves r.product (s.product.map .ptr) m.fresh
        (ho0.sub fun a => by simp only [Rep.ptrs, List.count_append]; omega)
        (fun d hd => hst d (List.mem_append_left _ hd)) (fun x hx => by
          obtain ⟨p, hp', rfl⟩ := List.mem_map.1 hx
          refine ⟨(hi.prod p hp').kept fun a ha => hk0.1 a (by simp [Sess.all, ← ha, hp']), fun a _ hc => ?_⟩
          rw [hp] at hc
          have := (List.mem_replicate.1 hc).2
          cases this)
      rw [e2]
      simp only [Out.bind_ok]
      have M2 : Moves (create s.heap).1 r.ptrs h2 { r with product := P }.ptrs := m2.part (f := r.tail)
        (fun a => by simp only [Rep.ptrs, List.count_append])
        (fun a => by simp only [Rep.ptrs, Rep.tail, List.count_append])
      have M := m.trans M2
      have kt : ∀ a, some a ∈ r.tail → h2.mem a = (create s.heap).1.mem a := fun a ha =>
        ho0.part m2 (fun a => by simp only [Rep.ptrs, List.count_append]; omega) ha
      have hrok : RepOk h2 { r with product := P } := by
        refine ⟨fun p hp' => ?_, by rw [hl2, hp]; rfl, hV.kept fun a ha => kt a (by simp [Rep.tail, ha])⟩
        simp only [Rep.strs, List.mem_append, List.mem_cons, List.not_mem_nil, or_false] at hp'
        rcases hp' with h | h | h | h | h
        · exact hs2 p h
        · rw [h]; exact (hst _ (by simp [Rep.strs])).kept fun a ha => kt a (by simp [Rep.tail, ha])
        · rw [h]; exact (hst _ (by simp [Rep.strs])).kept fun a ha => kt a (by simp [Rep.tail, ha])
        · rw [h]; exact (hst _ (by simp [Rep.strs])).kept fun a ha => kt a (by simp [Rep.tail, ha])
        · rw [h]; exact (hst _ (by simp [Rep.strs])).kept fun a ha => kt a (by simp [Rep.tail, ha])
      cases ok with
      | true =>
        have hk := hi.keep M (f := s.all) (fun a => by simp)
        have hO : OutSame s { s with heap := h2, loc := some { r with product := P } } :=
          ⟨rfl, fun a ha => hk.1 a (by simp [Sess.all, ha])⟩
        have hk1 : ∀ a, some a ∈ s.product → h2.mem a = s.heap.mem a := fun a ha => hk.1 a (by simp [Sess.all, ha])
        refine ⟨_, rfl, ⟨M.fresh, fun a => ?_, fun p hp => (hi.prod p hp).kept fun a ha => hk1 a (ha ▸ hp), hi.five,
          fun x hx => by cases hx; exact hrok, hO.ok hi⟩, hO, prod_vals hk1, .inl ?_⟩
        · have := hk.2 a
          simp only [Sess.all, hl, repPtrs, List.count_append, List.count_nil] at this ⊢
          omega
        · have h1 := hO.vals
          have h2' : s.product.map (textAt h2.mem) = s.product.map (textAt s.heap.mem) := prod_vals hk1
          simp only [Sess.vals] at h1 ⊢
          rw [h1, h2']
          simp only [Vals.apply, hl, Option.map_none, Option.map_some, Vals.mk.injEq, and_true, true_and, Option.some.injEq,
            view, View.mk.injEq, textAt_eq]
          refine ⟨?_, ?_, ?_, ?_, ?_, hr⟩
          · rw [show (textAt h2.mem) = val h2 from funext (textAt_eq h2), hv2 rfl (by rw [List.length_map, hi.five, hp]; rfl),
              List.map_map, List.map_map]
            apply List.map_congr_left
            intro p hp'
            simp only [Function.comp, filled, Src.val, textAt_eq]
            rw [val_kept (h := s.heap) fun a ha => hk0.1 a (by simp [Sess.all, ← ha, hp'])]
          · rw [val_kept (h := (create s.heap).1) fun a ha => kt a (by simp [Rep.tail, ha]), hv0]
          · rw [val_kept (h := (create s.heap).1) fun a ha => kt a (by simp [Rep.tail, ha]), hvt0]
          · rw [hn]; rfl
          · rw [hw]; rfl
      | false =>
        simp only [Bool.false_eq_true, if_false]
        have hk' := hi.keep M (f := s.all) (fun a => by simp)
        obtain ⟨h3, e3, m3⟩ := freeRep_moves M.fresh (r := { r with product := P }) (fun a => by rw [hk'.2 a]; omega)
        rw [e3]
        simp only [Out.bind_ok]
        have M3 := M.trans m3
        have hk := hi.keep M3 (f := s.all) (fun a => by simp)
        have hO : OutSame s { s with heap := h3, loc := none } :=
          ⟨rfl, fun a ha => hk.1 a (by simp [Sess.all, ha])⟩
        have hk1 : ∀ a, some a ∈ s.product → h3.mem a = s.heap.mem a := fun a ha => hk.1 a (by simp [Sess.all, ha])
        refine ⟨{ s with heap := h3, loc := none }, by simp [hl], ⟨M3.fresh, fun a => ?_, fun p hp => (hi.prod p hp).kept fun a ha => hk1 a (ha ▸ hp), hi.five,
          nofun, hO.ok hi⟩, hO, prod_vals hk1, .inr ⟨?_, Classical.byContradiction fun hc => ?_⟩⟩
        · have := hk.2 a
          simp only [Sess.all, hl, List.count_nil, Nat.zero_add] at this ⊢
          exact this.symm
        · have h1 := hO.vals
          have h2 : s.product.map (textAt h3.mem) = s.product.map (textAt s.heap.mem) := prod_vals hk1
          simp only [Sess.vals] at h1 ⊢
          rw [h1, h2, hl]
          rfl
        · have := (hz2 (horc hc)).1
          cases this

theorem setProduct_ok {s : Sess} (hi : Inv s) (l : List (Option Bytes)) :
    ∃ s', s.setProduct l = .ok s' ∧ Inv s' ∧ OutSame s s' ∧ s'.vals.loc = s.vals.loc ∧
      ((l.length = 5 → s'.vals = s.vals.apply (.setProduct l)) ∨
       (s'.vals = { s.vals with product := List.replicate 5 none } ∧ false ∈ s.heap.orc)) := by
  unfold Sess.setProduct
  obtain ⟨h1, P, ok, e1, m1, hl1, hs1, hv1, hz1⟩ := copyAll_moves s.product (l.map .text) hi.fresh
    (hi.own.sub fun a => by simp only [Sess.all, List.count_append]; omega) hi.prod (fun x hx => by
      obtain ⟨p, _, rfl⟩ := List.mem_map.1 hx
      trivial)
  rw [e1]
  simp only [Out.bind_ok]
  have hcount : ∀ a, s.all.count (some a) = s.product.count (some a) + (repPtrs s.loc ++ outPtrs s.out).count (some a) :=
    fun a => by simp only [Sess.all, List.count_append]
  have hk := hi.keep m1 hcount
  cases ok with
  | true =>
    have hO : OutSame s { s with heap := h1, product := P } := ⟨rfl, fun a ha => hk.1 a (by simp [ha])⟩
    have hloc : s.loc.map (view h1.mem) = s.loc.map (view s.heap.mem) := by
      cases hl : s.loc with
      | none => rfl
      | some r => simp only [Option.map_some]; rw [view_kept fun a ha => hk.1 a (by simp [hl, repPtrs, ha])]
    refine ⟨_, rfl, ⟨m1.fresh, fun a => ?_, hs1, by rw [hl1]; exact hi.five, fun r hr => ?_, hO.ok hi⟩, hO, hloc,
      .inl fun h5 => ?_⟩
    · have := hk.2 a
      simp only [Sess.all, List.count_append] at this ⊢
      omega
    · exact (hi.loc r hr).kept fun a ha => hk.1 a (by rw [show s.loc = some r from hr]; simp [repPtrs, ha])
    · have h1' := hO.vals
      simp only [Sess.vals] at h1' ⊢
      rw [h1', hloc]
      simp only [Vals.apply, Vals.mk.injEq, and_true]
      rw [show (textAt h1.mem) = val h1 from funext (textAt_eq h1), hv1 rfl (by rw [List.length_map, hi.five, h5]), List.map_map]
      apply List.map_congr_left
      intro b _
      simp only [Function.comp, Src.val, filled]
      rw [show textOf = cstr from funext textOf_eq]
  | false =>
    simp only [Bool.false_eq_true, if_false]
    obtain ⟨h2, e2, m2⟩ := freeAll_moves P m1.fresh (fun a => by rw [hk.2 a]; omega)
    rw [e2]
    simp only [Out.bind_ok]
    have hk := hi.keep (m1.trans m2) hcount
    have hO : OutSame s { s with heap := h2, product := List.replicate 5 none } := ⟨rfl, fun a ha => hk.1 a (by simp [ha])⟩
    have hloc : s.loc.map (view h2.mem) = s.loc.map (view s.heap.mem) := by
      cases hl : s.loc with
      | none => rfl
      | some r => simp only [Option.map_some]; rw [view_kept fun a ha => hk.1 a (by simp [hl, repPtrs, ha])]
    refine ⟨_, rfl, ⟨m2.fresh, fun a => ?_, fun p hp => ?_, rfl, fun r hr => ?_, hO.ok hi⟩, hO, hloc, .inr ⟨?_, Classical.byContradiction fun hc => ?_⟩⟩
    · have := hk.2 a
      have hr : List.count (some a) (List.replicate 5 (none : Option Nat)) = 0 := by simp [List.count_replicate]
      simp only [Sess.all, List.count_append, List.count_nil, hr] at this ⊢
      omega
    · rw [(List.mem_replicate.1 hp).2]; exact Str.none _
    · exact (hi.loc r hr).kept fun a ha => hk.1 a (by rw [show s.loc = some r from hr]; simp [repPtrs, ha])
    · have h1' := hO.vals
      simp only [Sess.vals] at h1' ⊢
      rw [h1', hloc]
      rfl
    · have := (hz1 hc).1
      cases this

theorem decodeProduct_ok {s : Sess} (hi : Inv s) (l : List Bytes) :
    ∃ s', s.decodeProduct l = .ok s' ∧ Inv s' ∧ OutSame s s' ∧
      ((l.length = 5 → s'.vals = s.vals.apply (.decodeProduct l)) ∨ false ∈ s.heap.orc) := by
  unfold Sess.decodeProduct
  obtain ⟨h1, P, ok, e1, m1, hl1, hs1, hv1, hz1⟩ := copyAll_moves s.product (l.map fun b => .text (some b)) hi.fresh
    (hi.own.sub fun a => by simp only [Sess.all, List.count_append]; omega) hi.prod (fun x hx => by
      obtain ⟨p, _, rfl⟩ := List.mem_map.1 hx
      trivial)
  rw [e1]
  simp only [Out.bind_ok]
  have hcount : ∀ a, s.all.count (some a) = s.product.count (some a) + (repPtrs s.loc ++ outPtrs s.out).count (some a) :=
    fun a => by simp only [Sess.all, List.count_append]
  have hk := hi.keep m1 hcount
  have hO : OutSame s { s with heap := h1, product := P } := ⟨rfl, fun a ha => hk.1 a (by simp [ha])⟩
  have hloc : s.loc.map (view h1.mem) = s.loc.map (view s.heap.mem) := by
    cases hl : s.loc with
    | none => rfl
    | some r => simp only [Option.map_some]; rw [view_kept fun a ha => hk.1 a (by simp [hl, repPtrs, ha])]
  have hI : Inv { s with heap := h1, product := P } := by
    refine ⟨m1.fresh, fun a => ?_, hs1, by rw [hl1]; exact hi.five, fun r hr => ?_, hO.ok hi⟩
    · have := hk.2 a
      simp only [Sess.all, List.count_append] at this ⊢
      omega
    · exact (hi.loc r hr).kept fun a ha => hk.1 a (by rw [show s.loc = some r from hr]; simp [repPtrs, ha])
  have hprod : ok = true → l.length = 5 → P.map (val h1) = l.map fun b => some (textOf b) := fun hok h5 => by
    rw [hv1 hok (by rw [List.length_map, hi.five, h5]), List.map_map]
    apply List.map_congr_left
    intro b _
    simp only [Function.comp, Src.val, Option.map_some, Option.getD_some, textOf_eq]
  cases ok with
  | false =>
    exact ⟨_, rfl, hI, hO, .inr <| Classical.byContradiction fun hc => by have := (hz1 hc).1; cases this⟩
  | true =>
    simp only [if_true]
    cases hl : s.loc with
    | none =>
      refine ⟨{ s with heap := h1, product := P }, by simp [hl], hI, hO, .inl fun h5 => ?_⟩
      have h1' := hO.vals
      simp only [Sess.vals] at h1' ⊢
      rw [h1']
      simp only [Vals.apply, hl, Option.map_none, Vals.mk.injEq, and_true]
      rw [show (textAt h1.mem) = val h1 from funext (textAt_eq h1), hprod rfl h5]
    | some r =>
      simp only
      have hr : RepOk h1 r := hI.loc r (by simpa using hl)
      have hown : Own h1 (r.product ++ (r.tail ++ (P ++ outPtrs s.out))) := hI.own.sub fun a => by
        simp only [Sess.all, hl, repPtrs, Rep.ptrs, List.count_append]; omega
      obtain ⟨h2, Q, ok2, e2, m2, hl2, hs2, hv2, hz2⟩ := copyAll_moves r.product (P.map .ptr) m1.fresh hown.left
        (fun d hd => hr.strs d (List.mem_append_left _ hd)) (fun x hx => by
          obtain ⟨p, hp, rfl⟩ := List.mem_map.1 hx
          exact ⟨hs1 p hp, fun a ha => hown.disjoint (by rw [← ha]; simp [hp])⟩)
      rw [e2]
      simp only [Out.bind_ok]
      have hk2 := hI.keep m2 (f := r.tail ++ (P ++ outPtrs s.out)) (fun a => by
        simp only [Sess.all, hl, repPtrs, Rep.ptrs, List.count_append]; omega)
      have hO2 : OutSame s { s with heap := h2, product := P, loc := some { r with product := Q } } :=
        ⟨rfl, fun a ha => by
          have := hk2.1 a (by simp [ha])
          simp only at this ⊢
          rw [this]; exact hO.mem a ha⟩
      have kt : ∀ a, some a ∈ r.tail → h2.mem a = h1.mem a := fun a ha => hk2.1 a (by simp [ha])
      have hrok : RepOk h2 { r with product := Q } := by
        refine ⟨fun p hp' => ?_, by rw [hl2]; exact hr.five, hr.ver.kept fun a ha => kt a (by simp [Rep.tail, ha])⟩
        simp only [Rep.strs, List.mem_append, List.mem_cons, List.not_mem_nil, or_false] at hp'
        rcases hp' with h | h | h | h | h
        · exact hs2 p h
        · rw [h]; exact (hr.strs _ (by simp [Rep.strs])).kept fun a ha => kt a (by simp [Rep.tail, ha])
        · rw [h]; exact (hr.strs _ (by simp [Rep.strs])).kept fun a ha => kt a (by simp [Rep.tail, ha])
        · rw [h]; exact (hr.strs _ (by simp [Rep.strs])).kept fun a ha => kt a (by simp [Rep.tail, ha])
        · rw [h]; exact (hr.strs _ (by simp [Rep.strs])).kept fun a ha => kt a (by simp [Rep.tail, ha])
      have kP : ∀ a, some a ∈ P → h2.mem a = h1.mem a := fun a ha => hk2.1 a (by simp [ha])
      refine ⟨_, rfl, ⟨m2.fresh, fun a => ?_, fun p hp => (hs1 p hp).kept fun a ha => kP a (ha ▸ hp), hI.five,
        fun x hx => by cases hx; exact hrok, hO2.ok hi⟩, hO2, ?_⟩
      · have := hk2.2 a
        simp only [Sess.all, repPtrs, Rep.ptrs, Rep.tail, List.count_append] at this ⊢
        omega
      · cases ok2 with
        | false => exact .inr <| Classical.byContradiction fun hc => by have := (hz2 (hz1 hc).2).1; cases this
        | true =>
          refine .inl fun h5 => ?_
          have h1' := hO2.vals
          simp only [Sess.vals] at h1' ⊢
          rw [h1']
          have hP : P.map (textAt h2.mem) = l.map fun b => some (textOf b) := by
            rw [prod_vals (h := h1) kP, show (textAt h1.mem) = val h1 from funext (textAt_eq h1), hprod rfl h5]
          have hQ : Q.map (textAt h2.mem) = l.map fun b => some (textOf b) := by
            rw [show (textAt h2.mem) = val h2 from funext (textAt_eq h2), hv2 rfl (by rw [List.length_map, hr.five, hI.five]),
              List.map_map, ← hprod rfl h5]
            apply List.map_congr_left
            intro p hp
            have hpv : ∃ t, val h1 p = some t := by
              have : val h1 p ∈ P.map (val h1) := List.mem_map_of_mem hp
              rw [hprod rfl h5] at this
              obtain ⟨b, _, hb⟩ := List.mem_map.1 this
              exact ⟨_, hb.symm⟩
            obtain ⟨t, ht⟩ := hpv
            simp only [Function.comp, Src.val, ht, Option.getD_some]
          have hold : ∀ p ∈ r.tail, textAt h2.mem p = textAt s.heap.mem p := fun p hp => by
            rw [textAt_eq, textAt_eq, val_kept (h := h1) fun a ha => kt a (ha ▸ hp),
              val_kept (h := s.heap) fun a ha => hk.1 a (by rw [hl]; simp [repPtrs, Rep.ptrs, ← ha, hp])]
          simp only [Vals.apply, hl, Option.map_some, view, hP, hQ]
          rw [hold r.version (by simp [Rep.tail]), hold r.thisVersion (by simp [Rep.tail]), hold r.nalu (by simp [Rep.tail]),
            hold r.validation (by simp [Rep.tail])]

theorem versionText_digits (x : UInt8) :
    (decimal x.toNat).map (fun c => UInt8.ofNat c.toNat) = digits x ∧ (digits x).length ≤ 3 ∧ (0 : UInt8) ∉ digits x := by
  have hall : ∀ n : Nat, n < 256 → (decimal n).map (fun c => UInt8.ofNat c.toNat) = digits (UInt8.ofNat n) ∧
      (digits (UInt8.ofNat n)).length ≤ 3 ∧ (0 : UInt8) ∉ digits (UInt8.ofNat n) := by decide +kernel
  have h := hall x.toNat x.toNat_lt
  rw [UInt8.ofNat_toNat] at h
  exact h

theorem versionText_eq (a b c : UInt8) :
    versionText a b c = 118 :: digits a ++ 46 :: digits b ++ 46 :: digits c := by
  simp only [versionText, versionStr, List.map_cons, List.map_append, (versionText_digits a).1, (versionText_digits b).1,
    (versionText_digits c).1]
  simp

theorem version_ok {s : Sess} (hi : Inv s) (a b c : UInt8) :
    ∃ s', s.version a b c = .ok s' ∧ Inv s' ∧ OutSame s s' ∧ s'.vals = s.vals.apply (.version a b c) := by
  unfold Sess.version
  cases hl : s.loc with
  | none => exact ⟨s, rfl, hi, ⟨rfl, fun _ _ => rfl⟩, by simp [Vals.apply, Sess.vals, hl]⟩
  | some r =>
    simp only
    have hr := hi.loc r hl
    obtain ⟨p, b0, hp, hb0, hb1⟩ := hr.ver
    have hlen : (versionText a b c).length + 1 ≤ versionMax := by
      rw [versionText_eq]
      have h1 := (versionText_digits a).2.1
      have h2 := (versionText_digits b).2.1
      have h3 := (versionText_digits c).2.1
      simp only [List.length_append, List.length_cons, versionMax]
      omega
    have hz : (0 : UInt8) ∉ versionText a b c := by
      rw [versionText_eq]
      have h1 := (versionText_digits a).2.2
      have h2 := (versionText_digits b).2.2
      have h3 := (versionText_digits c).2.2
      simp [h1, h2, h3]
    obtain ⟨h1, e1, m1, hV, hS, hv, _⟩ := hr.ver.strcpy hi.fresh hlen hz
    rw [hp] at e1
    rw [hp]
    simp only [e1, Out.bind_ok]
    have hk := hi.keep m1 (f := r.product ++ ([r.thisVersion] ++ ([r.nalu] ++ ([r.validation] ++ ([some r.self] ++ (s.product ++ outPtrs s.out))))))
      (fun a => by simp only [Sess.all, hl, repPtrs, Rep.ptrs, Rep.tail, List.count_append]; omega)
    have hO : OutSame s { s with heap := h1, loc := some r } := ⟨rfl, fun a ha => hk.1 a (by simp [ha])⟩
    have hk1 : ∀ a, some a ∈ s.product → h1.mem a = s.heap.mem a := fun a ha => hk.1 a (by simp [ha])
    refine ⟨{ s with heap := h1, loc := some r }, by simp [hl], ⟨m1.fresh, fun a => ?_, fun p hp => (hi.prod p hp).kept fun a ha => hk1 a (ha ▸ hp), hi.five, fun x hx => ?_,
      hO.ok hi⟩, hO, ?_⟩
    · have := hk.2 a
      simp only [Sess.all, hl, repPtrs, Rep.ptrs, Rep.tail, List.count_append] at this ⊢
      omega
    · have : x = r := by simp only [hl] at hx; cases hx; rfl
      subst this
      refine ⟨fun q hq => ?_, hr.five, hV⟩
      simp only [Rep.strs, List.mem_append, List.mem_cons, List.not_mem_nil, or_false] at hq
      rcases hq with h | h | h | h | h
      · exact (hr.strs q (by simp [Rep.strs, h])).kept fun a ha => hk.1 a (by simp [← ha, h])
      · rw [h]; exact hS
      · rw [h]; exact (hr.strs _ (by simp [Rep.strs])).kept fun a ha => hk.1 a (by simp [ha])
      · rw [h]; exact (hr.strs _ (by simp [Rep.strs])).kept fun a ha => hk.1 a (by simp [ha])
      · rw [h]; exact (hr.strs _ (by simp [Rep.strs])).kept fun a ha => hk.1 a (by simp [ha])
    · have h1' := hO.vals
      simp only [Sess.vals] at h1' ⊢
      rw [h1', prod_vals (h := s.heap) hk1]
      simp only [Vals.apply, hl, Option.map_some, view, Vals.mk.injEq, true_and, and_true, Option.some.injEq, View.mk.injEq]
      refine ⟨prod_vals fun a ha => hk.1 a (by simp [ha]), ?_, ?_, ?_, ?_⟩
      · rw [textAt_eq, hv, versionText_eq]
      · rw [textAt_eq, textAt_eq, val_kept fun a ha => hk.1 a (by simp [ha])]
      · rw [textAt_eq, textAt_eq, val_kept fun a ha => hk.1 a (by simp [ha])]
      · rw [textAt_eq, textAt_eq, val_kept fun a ha => hk.1 a (by simp [ha])]

/-- New strings for the latest validation, with the old ones freed. -/
theorem strings_ok {s : Sess} (hi : Inv s) {r : Rep} (hl : s.loc = some r) {h' : Heap} {n w : Option Nat} {rest : Nat}
    (m : Moves s.heap ([r.nalu] ++ [r.validation]) h' ([n] ++ [w])) (hn : Str h' n) (hw : Str h' w) :
    Inv { s with heap := h', loc := some { r with nalu := n, validation := w, rest := rest } } ∧
    OutSame s { s with heap := h', loc := some { r with nalu := n, validation := w, rest := rest } } ∧
    { s with heap := h', loc := some { r with nalu := n, validation := w, rest := rest } }.vals =
      { s.vals with loc := some { view s.heap.mem r with nalu := val h' n, validation := val h' w, rest := rest } } := by
  have hr := hi.loc r hl
  have hk := hi.keep m (f := r.product ++ ([r.version] ++ ([r.thisVersion] ++ ([some r.self] ++ (s.product ++ outPtrs s.out)))))
    (fun a => by simp only [Sess.all, hl, repPtrs, Rep.ptrs, Rep.tail, List.count_append]; omega)
  have hO : OutSame s { s with heap := h', loc := some { r with nalu := n, validation := w, rest := rest } } :=
    ⟨rfl, fun a ha => hk.1 a (by simp [ha])⟩
  have hk1 : ∀ a, some a ∈ s.product → h'.mem a = s.heap.mem a := fun a ha => hk.1 a (by simp [ha])
  refine ⟨⟨m.fresh, fun a => ?_, fun p hp => (hi.prod p hp).kept fun a ha => hk1 a (ha ▸ hp), hi.five, fun x hx => ?_,
    hO.ok hi⟩, hO, ?_⟩
  · have := hk.2 a
    simp only [Sess.all, repPtrs, Rep.ptrs, Rep.tail, List.count_append] at this ⊢
    omega
  · cases hx
    refine ⟨fun q hq => ?_, hr.five, hr.ver.kept fun a ha => hk.1 a (by simp [ha])⟩
    simp only [Rep.strs, List.mem_append, List.mem_cons, List.not_mem_nil, or_false] at hq
    rcases hq with h | h | h | h | h
    · exact (hr.strs q (by simp [Rep.strs, h])).kept fun a ha => hk.1 a (by simp [← ha, h])
    · rw [h]; exact (hr.strs _ (by simp [Rep.strs])).kept fun a ha => hk.1 a (by simp [ha])
    · rw [h]; exact (hr.strs _ (by simp [Rep.strs])).kept fun a ha => hk.1 a (by simp [ha])
    · rw [h]; exact hn
    · rw [h]; exact hw
  · have h1' := hO.vals
    simp only [Sess.vals] at h1' ⊢
    rw [h1', prod_vals (h := s.heap) hk1]
    simp only [Option.map_some, view, Vals.mk.injEq, true_and, and_true, Option.some.injEq, View.mk.injEq]
    refine ⟨prod_vals fun a ha => hk.1 a (by simp [ha]), ?_, ?_, ?_, ?_⟩
    · rw [textAt_eq, textAt_eq, val_kept fun a ha => hk.1 a (by simp [ha])]
    · rw [textAt_eq, textAt_eq, val_kept fun a ha => hk.1 a (by simp [ha])]
    · rw [textAt_eq]
    · rw [textAt_eq]

theorem update_ok {s : Sess} (hi : Inv s) (n w : Bytes) (rest : Nat) :
    ∃ s', s.update n w rest = .ok s' ∧ Inv s' ∧ OutSame s s' ∧
      (s'.vals = s.vals.apply (.update n w rest) ∨ false ∈ s.heap.orc) := by
  unfold Sess.update
  cases hl : s.loc with
  | none => exact ⟨s, rfl, hi, ⟨rfl, fun _ _ => rfl⟩, .inl (by simp [Vals.apply, Sess.vals, hl])⟩
  | some r =>
    simp only
    have m1 := alloc_moves hi.fresh (cstr n ++ [0])
    have hS1 := alloc_str s.heap (s := cstr n ++ [0]) (by simp)
    have hM1 := fun a => alloc_mem (h := s.heap) (b := cstr n ++ [0]) (a := a)
    have hz1 : false ∉ s.heap.orc →
        (s.heap.alloc (cstr n ++ [0])).2 = some s.heap.brk ∧ false ∉ (s.heap.alloc (cstr n ++ [0])).1.orc :=
      fun e => alloc_noFail e _
    generalize hA : s.heap.alloc (cstr n ++ [0]) = A at m1 hS1 hM1 hz1
    have m2 := alloc_moves m1.fresh (cstr w ++ [0])
    have hS2 := alloc_str A.1 (s := cstr w ++ [0]) (by simp)
    have hM2 := fun a => alloc_mem (h := A.1) (b := cstr w ++ [0]) (a := a)
    have hz2 : false ∉ A.1.orc → (A.1.alloc (cstr w ++ [0])).2 = some A.1.brk := fun e => (alloc_noFail e _).1
    generalize hB : A.1.alloc (cstr w ++ [0]) = B at m2 hS2 hM2 hz2
    have hown0 : Own s.heap ([r.nalu] ++ [r.validation]) := hi.own.sub fun a => by
      simp only [Sess.all, hl, repPtrs, Rep.ptrs, Rep.tail, List.count_append]; omega
    have M12 : Moves s.heap [] B.1 ([A.2] ++ [B.2]) :=
      (m1.trans (m2.frame [A.2])).congr (fun _ => rfl) (fun a => by simp only [List.count_append]; omega)
    have hown : Own B.1 ([r.nalu] ++ ([r.validation] ++ ([A.2] ++ [B.2]))) :=
      (Own.moves (old := []) (f := [r.nalu] ++ [r.validation]) hown0 M12).sub fun a => by
        simp only [List.count_append]; omega
    obtain ⟨h3, e3, m3, _⟩ := free_moves m2.fresh hown.left
    have hown3 : Own h3 ([r.validation] ++ ([A.2] ++ [B.2])) := Own.moves (new := []) hown m3
    obtain ⟨h4, e4, m4, _⟩ := free_moves m3.fresh hown3.left
    rw [e3]
    simp only [Out.bind_ok, e4]
    have k4 : ∀ a, some a ∈ [A.2] ++ [B.2] → h4.mem a = B.1.mem a := fun a ha => by
      rw [hown3.kept m4 ha, hown.kept m3 (List.mem_append_right _ ha)]
    have kA : ∀ a, A.2 = some a → B.1.mem a = A.1.mem a := fun a ha =>
      m2.kept a List.not_mem_nil (by rw [hM1 a ha]; rfl)
    have M : Moves s.heap ([r.nalu] ++ [r.validation]) h4 ([A.2] ++ [B.2]) := by
      have x1 := M12.frame ([r.nalu] ++ [r.validation])
      have x2 := m3.part (l := ([A.2] ++ [B.2]) ++ ([r.nalu] ++ [r.validation])) (l' := [r.validation] ++ ([A.2] ++ [B.2]))
        (f := [r.validation] ++ ([A.2] ++ [B.2])) (fun a => by simp only [List.count_append]; omega)
        (fun a => by simp only [List.count_append, List.count_nil]; omega)
      have x3 := m4.frame ([A.2] ++ [B.2])
      exact (x1.trans x2).trans x3
    obtain ⟨i1, i2, i3⟩ := strings_ok hi hl (rest := rest) M
      ((hS1.kept kA).kept fun a ha => k4 a (by simp [ha])) (hS2.kept fun a ha => k4 a (by simp [ha]))
    refine ⟨_, rfl, i1, i2, ?_⟩
    by_cases hc : false ∉ s.heap.orc
    · refine .inl ?_
      rw [i3]
      obtain ⟨hA2, hAo⟩ := hz1 hc
      have hB2 := hz2 hAo
      have hva : val h4 A.2 = some (textOf n) := by
        rw [val_kept (h := B.1) fun a ha => k4 a (by simp [ha]), val_kept (h := A.1) kA, textOf_eq, hA2]
        simp only [val, Option.bind_some, hM1 _ hA2, Option.map_some, cstr_append_zero _ _ (zero_not_mem_cstr n)]
      have hvb : val h4 B.2 = some (textOf w) := by
        rw [val_kept (h := B.1) fun a ha => k4 a (by simp [ha]), textOf_eq, hB2]
        simp only [val, Option.bind_some, hM2 _ hB2, Option.map_some, cstr_append_zero _ _ (zero_not_mem_cstr w)]
      simp only [Vals.apply, Sess.vals, hl, Option.map_some, hva, hvb]
    · exact .inr (Classical.not_not.1 hc)

theorem reset_ok {s : Sess} (hi : Inv s) :
    ∃ s', s.reset = .ok s' ∧ Inv s' ∧ OutSame s s' ∧ s'.vals = s.vals.apply .reset := by
  unfold Sess.reset
  cases hl : s.loc with
  | none => exact ⟨s, rfl, hi, ⟨rfl, fun _ _ => rfl⟩, by simp [Vals.apply, Sess.vals, hl]⟩
  | some r =>
    simp only
    have hown0 : Own s.heap ([r.nalu] ++ [r.validation]) := hi.own.sub fun a => by
      simp only [Sess.all, hl, repPtrs, Rep.ptrs, Rep.tail, List.count_append]; omega
    obtain ⟨h3, e3, m3, _⟩ := free_moves hi.fresh hown0.left
    have hown3 : Own h3 [r.validation] := Own.moves (new := []) hown0 m3
    obtain ⟨h4, e4, m4, _⟩ := free_moves m3.fresh hown3
    rw [e3]
    simp only [Out.bind_ok, e4]
    obtain ⟨i1, i2, i3⟩ := strings_ok hi hl (h' := h4) (n := none) (w := none) (rest := restInit)
      (((m3.frame [r.validation]).trans m4).congr (fun _ => rfl) (fun a => by simp)) (Str.none _) (Str.none _)
    exact ⟨_, rfl, i1, i2, by rw [i3]; simp only [Vals.apply, Sess.vals, hl, Option.map_some, val_none, restInit]⟩

theorem get_ok {s : Sess} (hi : Inv s) (rest : Nat) (hv : s.heap.orc[1]? ≠ some false ∧ s.heap.orc[2]? ≠ some false) :
    ∃ s', s.get rest = .ok s' ∧ Inv s' ∧ (∀ a, some a ∈ outPtrs s.out → s'.heap.mem a = s.heap.mem a) ∧
      ((s'.out = s.out ∧ s'.vals.product = s.vals.product ∧ s'.vals.out = s.vals.out ∧
          s'.vals.loc.map (fun v => { v with rest := 0 }) = s.vals.loc.map (fun v => { v with rest := 0 }) ∧
          (s.loc ≠ none → false ∈ s.heap.orc)) ∨
       (∃ r, s'.out = s.out ++ [some r]) ∧ s.loc ≠ none ∧ s'.vals = s.vals.apply (.get rest)) := by
  unfold Sess.get
  cases hl : s.loc with
  | none => exact ⟨s, rfl, hi, fun _ _ => rfl, .inl ⟨rfl, rfl, rfl, rfl, fun h => absurd rfl h⟩⟩
  | some l =>
    simp only
    have hlok := hi.loc l hl
    -- nothing is handed out
    have hnone : ∀ (h' : Heap) (l' : Rep), Moves s.heap [] h' [] → false ∈ s.heap.orc → l' = { l with rest := l'.rest } →
        Inv { s with heap := h', loc := some l' } ∧
        (∀ a, some a ∈ outPtrs s.out → h'.mem a = s.heap.mem a) ∧
        (({ s with heap := h', loc := some l' } : Sess).out = s.out ∧
          ({ s with heap := h', loc := some l' } : Sess).vals.product = s.vals.product ∧
          ({ s with heap := h', loc := some l' } : Sess).vals.out = s.vals.out ∧
          ({ s with heap := h', loc := some l' } : Sess).vals.loc.map (fun v => { v with rest := 0 }) =
            s.vals.loc.map (fun v => { v with rest := 0 }) ∧
          (some l ≠ none → false ∈ s.heap.orc)) := by
      intro h' l' m hne hl'
      have hk := hi.keep m (f := s.all) (fun a => by simp)
      have hO : OutSame s { s with heap := h', loc := some l' } := ⟨rfl, fun a ha => hk.1 a (by simp [Sess.all, ha])⟩
      have hk1 : ∀ a, some a ∈ s.product → h'.mem a = s.heap.mem a := fun a ha => hk.1 a (by simp [Sess.all, ha])
      have hkl : ∀ a, some a ∈ l.ptrs → h'.mem a = s.heap.mem a := fun a ha => hk.1 a (by simp [Sess.all, hl, repPtrs, ha])
      refine ⟨⟨m.fresh, fun a => ?_, fun p hp => (hi.prod p hp).kept fun a ha => hk1 a (ha ▸ hp), hi.five, fun x hx => ?_, hO.ok hi⟩,
        hO.mem, rfl, prod_vals hk1, hO.vals, ?_, fun _ => hne⟩
      · have := hk.2 a
        rw [hl']
        simp only [Sess.all, hl, repPtrs, Rep.ptrs, Rep.tail, List.count_nil, Nat.zero_add] at this ⊢
        exact this.symm
      · cases hx
        rw [hl']
        have := hlok.kept hkl
        exact ⟨this.strs, this.five, this.ver⟩
      · have h2 := view_kept hkl
        rw [hl']
        simp only [Sess.vals, hl, Option.map_some, view, View.mk.injEq, Option.some.injEq] at h2 ⊢
        simp [h2.1, h2.2.1, h2.2.2.1, h2.2.2.2.1, h2.2.2.2.2.1]
    rcases create_moves hi.fresh with ⟨e, m, hne⟩ | ⟨r, e, m, hp, hn, hw, hr, hst, horc, hver⟩
    · rw [e]
      obtain ⟨i1, i2, i3⟩ := hnone _ l m hne rfl
      exact ⟨{ s with heap := (create s.heap).1, loc := some l }, by simp [hl], i1, i2, .inl i3⟩
    · rw [e]
      simp only
      obtain ⟨hV, hT, hv0, hvt0⟩ := hver hv.1 hv.2
      have hk0 := hi.keep m (f := s.all) (fun a => by simp)
      have ho0 : Own (create s.heap).1 (r.ptrs ++ s.all) := fun a => by
        rw [List.count_append, hk0.2 a]; exact Nat.le_refl _
      have hrok : RepOk (create s.heap).1 r := ⟨hst, by rw [hp]; rfl, hV⟩
      have hlok0 : RepOk (create s.heap).1 { l with rest := rest } := by
        have := hlok.kept (h' := (create s.heap).1) fun a ha => hk0.1 a (by simp [Sess.all, hl, repPtrs, ha])
        exact ⟨this.strs, this.five, this.ver⟩
      obtain ⟨h2, d, ok, e2, m2, hd2, hv2, hz2⟩ := transfer_moves m.fresh (d := r) (s := { l with rest := rest })
        (ho0.sub fun a => by
          simp only [Sess.all, hl, repPtrs, Rep.ptrs, Rep.tail, List.count_append]; omega) hrok hT hlok0
      rw [e2]
      simp only [Out.bind_ok]
      have M := m.trans m2
      have hk := hi.keep M (f := s.all) (fun a => by simp)
      cases ok with
      | false =>
        simp only [Bool.false_eq_true, if_false]
        obtain ⟨h3, e3, m3⟩ := freeRep_moves M.fresh (r := d) (fun a => by rw [hk.2 a]; omega)
        rw [e3]
        simp only [Out.bind_ok]
        obtain ⟨i1, i2, i3⟩ := hnone h3 { l with rest := rest } (M.trans m3)
          (Classical.byContradiction fun hc => by have := (hz2 (horc hc)).1; cases this) rfl
        exact ⟨_, rfl, i1, i2, .inl i3⟩
      | true =>
        simp only [if_true]
        have hko : ∀ a, some a ∈ outPtrs s.out → h2.mem a = s.heap.mem a := fun a ha => hk.1 a (by simp [Sess.all, ha])
        have hk1 : ∀ a, some a ∈ s.product → h2.mem a = s.heap.mem a := fun a ha => hk.1 a (by simp [Sess.all, ha])
        have hkl : ∀ a, some a ∈ l.ptrs → h2.mem a = s.heap.mem a := fun a ha => hk.1 a (by simp [Sess.all, hl, repPtrs, ha])
        have hvl : view h2.mem { l with rest := rest } = view s.heap.mem { l with rest := rest } :=
          view_kept (r := { l with rest := rest }) hkl
        have hvl0 : view (create s.heap).1.mem { l with rest := rest } = view s.heap.mem { l with rest := rest } :=
          view_kept (r := { l with rest := rest }) fun a ha => hk0.1 a (by
            rw [show ({ l with rest := rest } : Rep).ptrs = l.ptrs from rfl] at ha
            simp [Sess.all, hl, repPtrs, ha])
        have hO : OutSame s { s with heap := h2 } := ⟨rfl, hko⟩
        refine ⟨_, rfl, ⟨M.fresh, fun a => ?_, fun p hp => (hi.prod p hp).kept fun a ha => hk1 a (ha ▸ hp), hi.five, fun x hx => ?_,
          fun x hx => ?_⟩, hko, .inr ⟨⟨d, rfl⟩, by simp, ?_⟩⟩
        · have := hk.2 a
          simp only [Sess.all, hl, repPtrs, outPtrs, Rep.ptrs, Rep.tail, List.count_append, List.flatMap_append, List.flatMap_cons,
            List.flatMap_nil, List.append_nil] at this ⊢
          omega
        · cases hx
          have := hlok.kept hkl
          exact ⟨this.strs, this.five, this.ver⟩
        · rcases List.mem_append.1 hx with hx | hx
          · exact hO.ok hi x hx
          · have : x = d := by simpa using hx
            rw [this]; exact hd2
        · have h1' := hO.vals
          simp only [Sess.vals] at h1' ⊢
          simp only [Vals.apply, hl, Option.map_some, List.map_append, h1', List.map_cons, List.map_nil, prod_vals (h := s.heap) hk1,
            hv2 rfl, hvl, hvl0]
          rfl

theorem count_outPtrs_set (l : List (Option Rep)) {k : Nat} {r : Rep} (h : l[k]? = some (some r)) (a : Nat) :
    (outPtrs l).count (some a) = r.ptrs.count (some a) + (outPtrs (l.set k none)).count (some a) := by
  induction l generalizing k with
  | nil => cases h
  | cons x l ih =>
    cases k with
    | zero =>
      simp only [List.getElem?_cons_zero, Option.some.injEq] at h
      subst h
      simp [outPtrs, repPtrs, List.count_append]
    | succ k =>
      simp only [List.getElem?_cons_succ] at h
      have := ih h
      simp only [outPtrs] at this ⊢
      simp only [List.set_cons_succ, List.flatMap_cons, List.count_append]
      omega

theorem free_ok {s : Sess} (hi : Inv s) (k : Nat) :
    ∃ s', s.free k = .ok s' ∧ Inv s' ∧ s'.out = s.out.set k none ∧
      (∀ a, some a ∈ outPtrs (s.out.set k none) → s'.heap.mem a = s.heap.mem a) ∧ s'.vals = s.vals.apply (.free k) := by
  unfold Sess.free
  cases hx : s.out[k]? with
  | none =>
    have hs : s.out.set k none = s.out := List.set_eq_of_length_le (List.getElem?_eq_none_iff.1 hx)
    refine ⟨s, rfl, hi, hs.symm, fun _ _ => rfl, ?_⟩
    simp only [Vals.apply, Sess.vals]
    rw [List.set_eq_of_length_le (by rw [List.length_map]; exact List.getElem?_eq_none_iff.1 hx)]
  | some x =>
    cases x with
    | none =>
      obtain ⟨hlt, hget⟩ := List.getElem?_eq_some_iff.1 hx
      have hs : s.out.set k none = s.out := by
        conv => lhs; rw [← hget]
        exact List.set_getElem_self hlt
      refine ⟨s, rfl, hi, hs.symm, fun _ _ => rfl, ?_⟩
      simp only [Vals.apply, Sess.vals]
      have : (s.out.map fun r => r.map (view s.heap.mem)).set k none = s.out.map fun r => r.map (view s.heap.mem) := by
        have h2 := List.map_set (f := fun r : Option Rep => r.map (view s.heap.mem)) (l := s.out) (i := k) (a := none)
        simp only [Option.map_none] at h2
        rw [← h2, hs]
      rw [this]
    | some r =>
      simp only
      have hc := count_outPtrs_set s.out hx
      obtain ⟨h1, e1, m1⟩ := freeRep_moves hi.fresh (r := r) (hi.own.sub fun a => by
        have := hc a
        simp only [Sess.all, List.count_append]; omega)
      rw [e1]
      simp only [Out.bind_ok]
      have hk := hi.keep m1 (f := s.product ++ (repPtrs s.loc ++ outPtrs (s.out.set k none))) (fun a => by
        have := hc a
        simp only [Sess.all, List.count_append]; omega)
      have hk1 : ∀ a, some a ∈ s.product → h1.mem a = s.heap.mem a := fun a ha => hk.1 a (by simp [ha])
      have hko : ∀ a, some a ∈ outPtrs (s.out.set k none) → h1.mem a = s.heap.mem a := fun a ha => hk.1 a (by simp [ha])
      have hloc : s.loc.map (view h1.mem) = s.loc.map (view s.heap.mem) := by
        cases hl : s.loc with
        | none => rfl
        | some r => simp only [Option.map_some]; rw [view_kept fun a ha => hk.1 a (by simp [hl, repPtrs, ha])]
      refine ⟨_, rfl, ⟨m1.fresh, fun a => ?_, fun p hp => (hi.prod p hp).kept fun a ha => hk1 a (ha ▸ hp), hi.five, fun x hx => ?_,
        fun x hx => ?_⟩, rfl, hko, ?_⟩
      · have := hk.2 a
        simp only [Sess.all, List.count_append, List.count_nil] at this ⊢
        omega
      · exact (hi.loc x hx).kept fun a ha => hk.1 a (by rw [show s.loc = some x from hx]; simp [repPtrs, ha])
      · have hx' : some x ∈ s.out := by
          rcases List.mem_or_eq_of_mem_set hx with h | h
          · exact h
          · cases h
        exact (hi.out x hx').kept fun a ha => hko a (mem_outPtrs hx ha)
      · simp only [Vals.apply, Sess.vals, hloc, prod_vals (h := s.heap) hk1]
        have h2 := List.map_set (f := fun r : Option Rep => r.map (view s.heap.mem)) (l := s.out) (i := k) (a := none)
        simp only [Option.map_none] at h2
        rw [← h2]
        congr 1
        apply List.map_congr_left
        intro x hx
        cases x with
        | none => rfl
        | some x => simp only [Option.map_some]; rw [view_kept fun a ha => hko a (mem_outPtrs hx ha)]

end SV.RepMem
