import Verif.Proofs.Slots
import Verif.Model.Threaded
namespace SV.Threaded

/-- Rotation used by `getSignature` and `centralTake`. -/
theorem rotate_eq (x y : Slot) (r : List Slot) (h : (x :: r).length = 60) :
    (shiftLoop maxBuffer (maxBuffer + 1) (x :: r) 1 >>= fun q => wr q.1 (maxBuffer - 1) y)
      = .ok (r ++ [y]) := by
  have := shift_store [] r x y 60 61 (by simp at h ⊢; omega) (by simp at h; omega)
  simpa [maxBuffer] using this

theorem rotate_at (p r : List Slot) (x y : Slot) (h : (p ++ x :: r).length = 60) :
    ∃ z, shiftLoop maxBuffer (maxBuffer + 1) (p ++ x :: r) (p.length + 1) = .ok (p ++ r ++ [z], 60) ∧
      wr (p ++ r ++ [z]) (60 - 1) y = .ok (p ++ r ++ [y]) := by
  obtain ⟨z, hz⟩ := shiftLoop_eq 60 r p x [] 61 (by simp at h; omega) (by simp at h; omega)
  refine ⟨z, by simpa [maxBuffer] using hz, ?_⟩
  exact wr_app (p ++ r) z y [] _ (by simp at h ⊢; omega)

/-- The reset loop over slots that do not match. -/
theorem resetLoop_skip (id : UInt32) (reset : Slot → Slot) : ∀ (t p : List Slot) (n f : Nat),
    (p ++ t).length = 60 → (∀ s ∈ t, s.id ≠ id) → t.length < f →
    resetLoop id reset f (p ++ t) n p.length = .ok (p ++ t, n) := by
  intro t
  induction t with
  | nil =>
    intro p n f hl _ hf
    obtain ⟨f, rfl⟩ : ∃ g, f = g + 1 := ⟨f - 1, by simp at hf; omega⟩
    have : ¬ p.length < 60 := by simp at hl; omega
    simp [resetLoop, maxBuffer, this]
  | cons x t ih =>
    intro p n f hl ht hf
    obtain ⟨f, rfl⟩ : ∃ g, f = g + 1 := ⟨f - 1, by simp at hf; omega⟩
    have hlt : p.length < 60 := by simp at hl; omega
    have hx : x.id ≠ id := ht x (by simp)
    have := ih (p ++ [x]) n f (by simpa using hl) (fun s hs => ht s (by simp [hs]))
      (by simp at hf; omega)
    simp only [resetLoop, maxBuffer, hlt, if_true, rd_app p x t _ rfl, Out.bind_ok, hx, if_false]
    simpa using this

/-- The reset loop in general: matching slots are reset and moved to the back. -/
theorem resetLoop_eq (id : UInt32) (reset : Slot → Slot) (hid : id ≠ 0)
    (hr : ∀ s, (reset s).id = 0) : ∀ (r p t : List Slot) (n f : Nat),
    (p ++ r ++ t).length = 60 → (∀ s ∈ t, s.id ≠ id) →
    r.length + t.length + (r.filter fun s => s.id == id).length < f →
    ∃ n', resetLoop id reset f (p ++ r ++ t) n p.length
      = .ok (p ++ r.filter (fun s => s.id != id) ++ t ++ (r.filter fun s => s.id == id).map reset, n')
      ∧ n' + ((r.take (n - p.length)).filter fun s => s.id == id).length = n := by
  intro r
  induction r with
  | nil =>
    intro p t n f hl ht hf
    refine ⟨n, ?_, by simp⟩
    have := resetLoop_skip id reset t p n f (by simpa using hl) ht (by simp at hf; omega)
    simpa using this
  | cons x r ih =>
    intro p t n f hl ht hf
    obtain ⟨f, rfl⟩ : ∃ g, f = g + 1 := ⟨f - 1, by omega⟩
    have hlt : p.length < 60 := by simp at hl; omega
    have hrd : rd (p ++ x :: r ++ t) p.length = .ok x := by
      have := rd_app p x (r ++ t) _ rfl
      simpa using this
    by_cases hx : x.id = id
    · obtain ⟨z, h1, h2⟩ := rotate_at p (r ++ t) x (reset x) (by simpa using hl)
      have h1' : shiftLoop 60 61 (p ++ x :: r ++ t) (p.length + 1) = .ok (p ++ (r ++ t) ++ [z], 60) := by
        simpa [maxBuffer] using h1
      obtain ⟨n', h3, h4⟩ := ih p (t ++ [reset x]) (if p.length < n then n - 1 else n) f
        (by simp at hl ⊢; omega)
        (by
          intro s hs
          rcases List.mem_append.1 hs with hs | hs
          · exact ht s hs
          · simp only [List.mem_singleton] at hs
            subst hs
            rw [hr]; exact fun h => hid h.symm)
        (by
          simp only [List.length_append, List.length_cons, List.length_nil, List.filter_cons, hx,
            beq_self_eq_true, if_true] at hf ⊢
          omega)
      refine ⟨n', ?_, ?_⟩
      · simp only [resetLoop, maxBuffer, hlt, if_true, hrd, Out.bind_ok, hx, h1', h2]
        simp only [List.append_assoc] at h3 ⊢
        rw [h3]
        simp [List.filter_cons, hx]
      · by_cases hn : p.length < n
        · simp only [hn, if_true] at h4
          obtain ⟨d, hd⟩ : ∃ d, n - p.length = d + 1 := ⟨n - p.length - 1, by omega⟩
          have hd' : n - 1 - p.length = d := by omega
          rw [hd'] at h4
          rw [hd, List.take_succ_cons, List.filter_cons]
          simp only [hx, beq_self_eq_true, if_true, List.length_cons]
          omega
        · simp only [hn, if_false] at h4
          have hd : n - p.length = 0 := by omega
          rw [hd] at h4 ⊢
          simpa using h4
    · obtain ⟨n', h3, h4⟩ := ih (p ++ [x]) t n f (by simp at hl ⊢; omega) ht
        (by
          simp only [List.length_cons, List.filter_cons, beq_iff_eq, hx, if_false] at hf ⊢
          omega)
      refine ⟨n', ?_, ?_⟩
      · simp only [resetLoop, maxBuffer, hlt, if_true, hrd, Out.bind_ok, hx, if_false]
        have e1 : p ++ x :: r ++ t = p ++ [x] ++ r ++ t := by simp
        have e2 : p.length + 1 = (p ++ [x]).length := by simp
        rw [e1, e2, h3]
        simp [List.filter_cons, hx]
      · simp only [List.length_append, List.length_cons, List.length_nil] at h4
        by_cases hn : p.length < n
        · obtain ⟨d, hd⟩ : ∃ d, n - p.length = d + 1 := ⟨n - p.length - 1, by omega⟩
          have hd' : n - (p.length + (0 + 1)) = d := by omega
          rw [hd'] at h4
          rw [hd, List.take_succ_cons, List.filter_cons]
          simpa [hx] using h4
        · have hd : n - p.length = 0 := by omega
          have hd' : n - (p.length + (0 + 1)) = 0 := by omega
          rw [hd'] at h4
          rw [hd]
          simpa using h4

/-! ### Views of the arrays -/

/-- The first slots of `a` hold the elements of `q`, the others are unused. -/
def View {α : Type} (V : Slot → α → Prop) (a : List Slot) (q : List α) : Prop :=
  ∃ (gs : List (Slot × α)) (b : List Slot), a = gs.map Prod.fst ++ b ∧ q = gs.map Prod.snd ∧
    (∀ g ∈ gs, V g.1 g.2) ∧ ∀ s ∈ b, s.id = 0

theorem View.imp {α : Type} {V W : Slot → α → Prop} {a : List Slot} {q : List α}
    (h : View V a q) (hi : ∀ s ∈ a, ∀ x, V s x → W s x) : View W a q := by
  obtain ⟨gs, b, h1, h2, h3, h4⟩ := h
  refine ⟨gs, b, h1, h2, fun g hg => hi g.1 ?_ g.2 (h3 g hg), h4⟩
  rw [h1]; exact List.mem_append_left _ (List.mem_map.2 ⟨g, hg, rfl⟩)

theorem View.length_le {α : Type} {V : Slot → α → Prop} {a : List Slot} {q : List α}
    (h : View V a q) : q.length ≤ a.length := by
  obtain ⟨gs, b, h1, h2, -, -⟩ := h
  rw [h1, h2]; simp

/-- The oldest element. -/
theorem View.head {α : Type} {V : Slot → α → Prop} {a : List Slot} {x : α} {q : List α}
    (h : View V a (x :: q)) : ∃ s r, a = s :: r ∧ V s x ∧
      ∀ y : Slot, y.id = 0 → View V (r ++ [y]) q := by
  obtain ⟨gs, b, h1, h2, h3, h4⟩ := h
  cases gs with
  | nil => simp at h2
  | cons g gs =>
    simp only [List.map_cons, List.cons.injEq] at h2
    refine ⟨g.1, gs.map Prod.fst ++ b, by simpa using h1, h2.1 ▸ h3 g (by simp), ?_⟩
    intro y hy
    refine ⟨gs, b ++ [y], by simp, h2.2, fun g hg => h3 g (List.mem_cons_of_mem _ hg), ?_⟩
    intro s hs
    rcases List.mem_append.1 hs with hs | hs
    · exact h4 s hs
    · simp only [List.mem_singleton] at hs; subst hs; exact hy

/-- The first unused slot. -/
theorem View.free {α : Type} {V : Slot → α → Prop} {a : List Slot} {q : List α}
    (h : View V a q) (hl : q.length < a.length) : ∃ p s r, a = p ++ s :: r ∧ p.length = q.length ∧
      s.id = 0 ∧ (∀ (y : Slot), y.id = 0 → View V (p ++ y :: r) q) ∧
      ∀ (W : Slot → α → Prop) (y : Slot) (x : α), (∀ s ∈ p, ∀ z, V s z → W s z) → W y x →
        View W (p ++ y :: r) (q ++ [x]) := by
  obtain ⟨gs, b, h1, h2, h3, h4⟩ := h
  cases b with
  | nil => rw [h1, h2] at hl; simp at hl
  | cons s b =>
    refine ⟨gs.map Prod.fst, s, b, h1, by simp [h2], h4 s (by simp), ?_, ?_⟩
    · intro y hy
      refine ⟨gs, y :: b, rfl, h2, h3, ?_⟩
      intro z hz
      rcases List.mem_cons.1 hz with rfl | hz
      · exact hy
      · exact h4 z (List.mem_cons_of_mem _ hz)
    · intro W y x hw hy
      refine ⟨gs ++ [(y, x)], b, by simp, by simp [h2], ?_, fun z hz => h4 z (List.mem_cons_of_mem _ hz)⟩
      intro g hg
      rcases List.mem_append.1 hg with hg | hg
      · exact hw g.1 (List.mem_map.2 ⟨g, hg, rfl⟩) g.2 (h3 g hg)
      · simp only [List.mem_singleton] at hg; subst hg; exact hy

theorem filter_perm (id : UInt32) (l : List Slot) :
    (l.filter (fun s => s.id != id) ++ l.filter fun s => s.id == id).Perm l := by
  induction l with
  | nil => exact .nil
  | cons x l ih =>
    by_cases h : x.id = id
    · simp only [List.filter_cons, h, bne_self_eq_false, Bool.false_eq_true, if_false,
        beq_self_eq_true, if_true]
      exact List.perm_middle.trans (ih.cons x)
    · simp only [List.filter_cons, bne_iff_ne, ne_eq, h, not_false_eq_true, if_true, beq_iff_eq,
        if_false, List.cons_append]
      exact ih.cons x

/-- Slots only moved around or reset. -/
def Moved (reset : Slot → Slot) (a a' : List Slot) : Prop :=
  (a'.map Slot.ptr).Perm (a.map Slot.ptr) ∧ ∀ s' ∈ a', ∃ s ∈ a, s' = s ∨ s' = reset s

/-- `buffer_reset` on one array. -/
theorem reset_view {α : Type} {V : Slot → α → Prop} {a : List Slot} {q : List α}
    (h : View V a q) (hl : a.length = 60) (id : UInt32) (hid : id ≠ 0) (idOf : α → UInt32)
    (hv : ∀ s x, V s x → s.id = idOf x) (reset : Slot → Slot) (hr : ∀ s, (reset s).id = 0)
    (hp : ∀ s, (reset s).ptr = s.ptr) :
    ∃ a', resetLoop id reset (2 * maxBuffer + 1) a q.length 0
        = .ok (a', (q.filter fun x => idOf x != id).length) ∧
      a'.length = 60 ∧ View V a' (q.filter fun x => idOf x != id) ∧ Moved reset a a' := by
  obtain ⟨gs, b, h1, h2, h3, h4⟩ := h
  have hf : (a.filter fun s => s.id == id).length ≤ a.length := List.length_filter_le _ _
  obtain ⟨n', h5, h6⟩ := resetLoop_eq id reset hid hr a [] [] q.length 121 (by simpa using hl)
    (by simp) (by simp; omega)
  simp only [List.nil_append, List.append_nil, List.length_nil, Nat.sub_zero] at h5 h6
  have hb1 : b.filter (fun s => s.id == id) = [] := by
    rw [List.filter_eq_nil_iff]; intro s hs; simp [h4 s hs, hid.symm]
  have hb2 : b.filter (fun s => s.id != id) = b := by
    rw [List.filter_eq_self]; intro s hs; simp [h4 s hs, hid.symm]
  have hg : ∀ (l : List (Slot × α)), (∀ g ∈ l, V g.1 g.2) →
      (l.map Prod.fst).filter (fun s => s.id != id) = (l.filter fun g => idOf g.2 != id).map Prod.fst ∧
      (l.map Prod.snd).filter (fun x => idOf x != id) = (l.filter fun g => idOf g.2 != id).map Prod.snd ∧
      ((l.map Prod.fst).filter fun s => s.id == id).length + (l.filter fun g => idOf g.2 != id).length
        = l.length := by
    intro l
    induction l with
    | nil => intro _; simp
    | cons g l ih =>
      intro hl
      obtain ⟨i1, i2, i3⟩ := ih (fun g hg => hl g (List.mem_cons_of_mem _ hg))
      have hgv := hv _ _ (hl g (by simp))
      by_cases hh : idOf g.2 = id
      · simp [hgv, hh] at i1 i2 i3 ⊢
        exact ⟨i1, i2, by omega⟩
      · simp [hgv, hh] at i1 i2 i3 ⊢
        exact ⟨i1, i2, by omega⟩
  obtain ⟨g1, g2, g3⟩ := hg gs h3
  have hn : n' = (q.filter fun x => idOf x != id).length := by
    rw [h2, g2]
    have ht : a.take q.length = gs.map Prod.fst := by rw [h1, h2]; simp
    rw [ht] at h6
    have hq : q.length = gs.length := by rw [h2]; simp
    simp only [List.length_map] at g3 ⊢
    omega
  refine ⟨_, by rw [← hn]; exact h5, ?_, ?_, ?_, ?_⟩
  · simp only [List.length_append, List.length_map]
    have := (filter_perm id a).length_eq
    simp only [List.length_append] at this
    omega
  · refine ⟨gs.filter (fun g => idOf g.2 != id), b ++ (a.filter fun s => s.id == id).map reset, ?_, ?_, ?_, ?_⟩
    · conv => lhs; rw [h1]
      rw [List.filter_append, g1, hb2, List.filter_append, hb1]
      simp [h1, List.filter_append, hb1]
    · rw [h2, g2]
    · intro g hg; exact h3 g (List.mem_filter.1 hg).1
    · intro s hs
      rcases List.mem_append.1 hs with hs | hs
      · exact h4 s hs
      · obtain ⟨x, -, rfl⟩ := List.mem_map.1 hs; exact hr x
  · have e : (List.map Slot.ptr (a.filter (fun s => s.id != id) ++ (a.filter fun s => s.id == id).map reset))
        = (a.filter (fun s => s.id != id) ++ (a.filter fun s => s.id == id)).map Slot.ptr := by
      simp [List.map_append, List.map_map, Function.comp_def, hp]
    rw [e]
    refine List.Perm.map _ ?_
    exact filter_perm id a
  · intro s hs
    rcases List.mem_append.1 hs with hs | hs
    · exact ⟨s, (List.mem_filter.1 hs).1, .inl rfl⟩
    · obtain ⟨x, hx, rfl⟩ := List.mem_map.1 hs
      exact ⟨x, (List.mem_filter.1 hx).1, .inr rfl⟩

end SV.Threaded
