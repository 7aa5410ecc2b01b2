import Verif.Proofs.AuthRound
/-! Rounds of the validation loop: their parts, and the removal of missing items after a failed first validation. -/
namespace SV

/-! ### Taking back a first validation -/

/-- What `h26x_nalu_list_remove_missing_items` does: missing items may go, other items get another status. -/
inductive Undo : NList → NList → Prop
  | nil : Undo [] []
  | same {x : Nat × Item} {l l' : NList} : Undo l l' → Undo (x :: l) (x :: l')
  | reset {x : Nat × Item} {l l' : NList} : Undo l l' → Undo (x :: l) ((x.1, resetStatus x.2) :: l')
  | drop {x : Nat × Item} {l l' : NList} : x.2.status = .M → Undo l l' → Undo (x :: l) l'

theorem Undo.refl (l : NList) : Undo l l := by
  induction l with
  | nil => exact .nil
  | cons x l ih => exact .same ih

theorem removeMissingFrom_undo (l : NList) (f p d : Bool) : Undo l (removeMissingFrom l f p d) := by
  induction l generalizing f p d with
  | nil => exact .nil
  | cons x r ih =>
    unfold removeMissingFrom
    split
    · exact Undo.refl _
    · split
      · rename_i h; exact .drop h.1 (ih _ _ _)
      · exact .reset (ih _ _ _)

theorem removeMissing_undo (l : NList) : Undo l (removeMissing l) := removeMissingFrom_undo l _ _ _

theorem resetStatus_cases (i : Item) :
    resetStatus i = i ∨ resetStatus i = { i with status := .U } ∨ (i.status = .N ∧ resetStatus i = { i with status := .P }) := by
  unfold resetStatus
  by_cases h : i.decoded = true ∧ i.status ≠ .U
  · rw [if_pos h]
    exact .inr (.inl rfl)
  · rw [if_neg h]
    by_cases h2 : i.status = .N
    · dsimp only
      rw [if_pos h2]
      exact .inr (.inr ⟨h2, rfl⟩)
    · dsimp only
      rw [if_neg h2]
      exact .inl rfl

theorem resetStatus_nalu (i : Item) : (resetStatus i).nalu = i.nalu := by
  rcases resetStatus_cases i with h | h | ⟨-, h⟩ <;> rw [h]

theorem Undo.sublist {l l' : NList} (h : Undo l l') : (l'.map Prod.fst).Sublist (l.map Prod.fst) := by
  induction h with
  | nil => exact List.Sublist.slnil
  | same _ ih => exact ih.cons_cons _
  | reset _ ih => exact ih.cons_cons _
  | drop _ _ ih => exact ih.cons _

theorem Undo.wf {l l' : NList} {b : Nat} (h : Undo l l') (w : WF l b) : WF l' b := by
  refine ⟨h.sublist.nodup w.nodup, fun x hx => ?_⟩
  obtain ⟨y, hy, e⟩ := List.mem_map.1 (h.sublist.subset (List.mem_map_of_mem (f := Prod.fst) hx))
  have := w.lt y hy
  omega

/-- Number of items that do not stand for missing NAL units. -/
def held (l : NList) : Nat := (l.filter fun x => x.2.status ≠ .M).length

theorem held_cons (x : Nat × Item) (l : NList) : held (x :: l) = (if x.2.status = .M then 0 else 1) + held l := by
  unfold held
  rw [List.filter_cons]
  by_cases h : x.2.status = .M
  · simp [h]
  · simp [h]; omega

theorem numPending_cons (x : Nat × Item) (l : NList) :
    numPending (x :: l) = (if x.2.status = .P then 1 else 0) + numPending l := by
  rw [← pend_length, ← pend_length, pend_cons]
  split <;> simp <;> omega

theorem numPending_le_held (l : NList) : numPending l ≤ held l := by
  induction l with
  | nil => exact Nat.le_refl _
  | cons x l ih =>
    rw [numPending_cons, held_cons]
    by_cases h : x.2.status = .P
    · rw [if_pos h, if_neg (by rw [h]; decide)]; omega
    · rw [if_neg h]; omega

theorem held_le_length (l : NList) : held l ≤ l.length := List.length_filter_le _ _

theorem Grow.held {S : Option Nalu → Status → Prop} (hS : ∀ n, ¬ S n .M) {l l' : NList} (h : Grow S l l') :
    SV.held l' = SV.held l := by
  induction h with
  | nil => rfl
  | keep k _ ih =>
    rw [held_cons, held_cons, ih]
    dsimp only
    rcases k.status with e | ⟨e, s⟩
    · rw [e]
    · rw [e, if_neg (fun hc => hS _ (hc ▸ s)), if_neg (by decide)]
  | miss m _ ih =>
    rw [held_cons, ih]
    dsimp only
    rw [if_pos m.2]; omega

theorem Undo.held {l l' : NList} (h : Undo l l') : SV.held l' ≤ l.length := by
  induction h with
  | nil => exact Nat.le_refl _
  | same _ ih => rw [held_cons, List.length_cons]; split <;> omega
  | reset _ ih => rw [held_cons, List.length_cons]; split <;> omega
  | drop _ _ ih => rw [List.length_cons]; omega

namespace Validator

/-! ### The parts of a round -/

theorem not_valid_M (n : Option Nalu) : ¬ Valid n .M := by
  rintro (h | h | ⟨h, -⟩) <;> cases h

/-- The pending items counted by `has_pending_gop`. -/
theorem scanStep_sei {sg : Bool} {c : Scan} {x : Nat × Item} {Q : Prop}
    (hc : (c.sei = true ∨ c.after = true ∨ c.last = some true ∨ c.found = true) → Q)
    (hx : ∀ n, x.2.nalu = some n → n.gopSei = true → x.2.status = .P → Q) (hsg : sg = true) :
    ((scanStep sg c x.2).sei = true ∨ (scanStep sg c x.2).after = true ∨ (scanStep sg c x.2).last = some true ∨
      (scanStep sg c x.2).found = true) → Q := by
  subst hsg
  unfold scanStep
  have key : ∀ c' : Scan, ((c'.sei = true ∨ c'.after = true ∨ c'.last = some true ∨ c'.found = true) → Q) →
      (({ c' with found := c'.found || (decide (c'.ends > 0) && c'.sei) || c'.after } : Scan).sei = true ∨ c'.after = true ∨
        c'.last = some true ∨ (c'.found || (decide (c'.ends > 0) && c'.sei) || c'.after) = true) → Q := by
    intro c' h hh
    rcases hh with h1 | h1 | h1 | h1
    · exact h (.inl h1)
    · exact h (.inr (.inl h1))
    · exact h (.inr (.inr (.inl h1)))
    · simp only [Bool.or_eq_true, Bool.and_eq_true] at h1
      rcases h1 with (h1 | h1) | h1
      · exact h (.inr (.inr (.inr h1)))
      · exact h (.inl h1.2)
      · exact h (.inr (.inl h1))
  refine key _ ?_
  cases hn : x.2.nalu with
  | none => exact hc
  | some n =>
    dsimp only
    generalize hc1 : (if n.valid ≤ 0 ∨ n.isHashable = false then c else { c with hasSei := c.hasSei || n.gopSei }) = c1
    have h1 : c1.sei = c.sei ∧ c1.after = c.after ∧ c1.last = c.last ∧ c1.found = c.found := by
      rw [← hc1]; split <;> exact ⟨rfl, rfl, rfl, rfl⟩
    have hc2 : (c1.sei = true ∨ c1.after = true ∨ c1.last = some true ∨ c1.found = true) → Q := by
      rw [h1.1, h1.2.1, h1.2.2.1, h1.2.2.2]; exact hc
    split
    · rename_i hp
      dsimp only
      rintro (h | h | h | h)
      · rw [Bool.or_eq_true] at h
        rcases h with h | h
        · exact hc2 (.inl h)
        · exact hx n hn h hp.1
      · rw [Bool.or_eq_true] at h
        rcases h with h | h
        · exact hc2 (.inr (.inl h))
        · cases hl : c1.last with
          | none => rw [hl] at h; cases h
          | some b => rw [hl] at h; cases h; exact hc2 (.inr (.inr (.inl hl)))
      · exact hx n hn (Option.some.inj h) hp.1
      · exact hc2 (.inr (.inr (.inr h)))
    · exact hc2

theorem scan_sei {l : NList} {c : Scan} {Q : Prop}
    (hc : (c.sei = true ∨ c.after = true ∨ c.last = some true ∨ c.found = true) → Q)
    (hl : ∀ x ∈ l, ∀ n, x.2.nalu = some n → n.gopSei = true → x.2.status = .P → Q)
    (h : (scan true l c).found = true) : Q := by
  induction l generalizing c with
  | nil => exact hc (.inr (.inr (.inr h)))
  | cons x r ih =>
    unfold scan at h
    split at h
    · rename_i hf; exact hc (.inr (.inr (.inr hf)))
    · exact ih (scanStep_sei hc (hl x (by simp)) rfl) (fun y hy => hl y (by simp [hy])) h

/-- A pending GOP of a signed stream has a pending SEI. -/
theorem hasPending_sei {s : Validator} (hs : s.flags.signing = true) (h : s.hasPending.2 = true) : ∃ x, nextSei s.list = some x := by
  have hf : (scan s.flags.signing s.list {}).found = true := h
  rw [hs] at hf
  refine scan_sei (by rintro (h | h | h | h) <;> cases h) ?_ hf
  intro x hx n hn hg hp
  cases hs : nextSei s.list with
  | some y => exact ⟨y, rfl⟩
  | none =>
    have := List.find?_eq_none.1 hs x hx
    simp [hn, hg, hp] at this

/-- A round of a signed stream that succeeds. -/
theorem round_ok {env : AuthEnv} {s s' : Validator} (hs : s.flags.signing = true) (h : s.round env = .ok s' ()) :
    ∃ u v t p, s.begin.prepare env = .ok u () ∧ updateLinkLoop u u.list = .ok v ∧ v.verifyGop = .ok t p ∧
      s' = (t.conclude p).finish := by
  unfold round at h
  obtain ⟨u, _, h1, h2⟩ := Res.andThen_eq_ok h
  cases hu : updateLinkLoop u u.list with
  | ub e => rw [hu] at h2; cases h2
  | err e => rw [hu] at h2; cases h2
  | ok v =>
    rw [hu] at h2
    dsimp only at h2
    obtain ⟨t, _, h3, h4⟩ := Res.andThen_eq_ok h2
    cases h4
    have hf : v.flags = s.flags := by
      have hp := (prepare_prep env s.begin).of_ok h1
      have hb : s.begin.flags = s.flags := by unfold begin; split <;> rfl
      rcases updateLinkLoop_eq hu with e | ⟨lk, a, e⟩
      · rw [e, hp.flags, hb]
      · rw [e]; exact hp.flags.trans hb
    unfold conduct at h3
    rw [hf, hs, if_pos rfl] at h3
    unfold validate at h3
    obtain ⟨w, p, h5, h6⟩ := Res.andThen_eq_ok h3
    cases h6
    exact ⟨u, v, w, p, h1, hu, h5, rfl⟩

theorem begin_list (s : Validator) : s.begin.list = s.list := by unfold begin; split <;> rfl
theorem begin_brk (s : Validator) : s.begin.brk = s.brk := by unfold begin; split <;> rfl
theorem begin_flags (s : Validator) : s.begin.flags = s.flags := by unfold begin; split <;> rfl
theorem begin_d (s : Validator) : s.begin.d = s.d := by unfold begin; split <;> rfl
theorem begin_gop (s : Validator) : s.begin.gop = s.gop := by unfold begin; split <;> rfl
theorem begin_synced (s : Validator) : s.begin.synced = s.synced := by unfold begin; split <;> rfl
theorem begin_primary (s : Validator) : s.begin.primary = s.primary := by unfold begin; split <;> rfl
theorem begin_key (s : Validator) : s.begin.key = s.key := by unfold begin; split <;> rfl
theorem begin_latestGop (s : Validator) : s.begin.latestGop = s.latestGop := by unfold begin; split <;> rfl

theorem markLoop_count {l l' : NList} {k : Nat} {f : Bool} (h : markLoop l = .ok (l', k, f)) : numPending l' + k = numPending l := by
  induction l generalizing l' k f with
  | nil => unfold markLoop at h; cases h; rfl
  | cons x r ih =>
    unfold markLoop at h
    split at h
    · rename_i hp
      cases hr : markLoop r with
      | err e => rw [hr] at h; cases h
      | ub u => rw [hr] at h; cases h
      | ok p =>
        rw [hr] at h
        cases h
        have := ih hr
        rw [numPending_cons, numPending_cons, if_neg hp]
        omega
    · rename_i hp
      have hp : x.2.status = .P := Decidable.not_not.1 hp
      split at h
      · cases h
      · split at h
        · cases h; rfl
        · dsimp only at h
          split at h
          · cases h
            rw [numPending_cons, numPending_cons, if_pos hp]
            rfl
          · split at h
            · cases h
            · split at h
              · cases h
                rw [numPending_cons x, if_pos hp, numPending_cons (x.1, _)]
                simp only [reduceCtorEq, if_false]
                omega
              · generalize hr : markLoop _ = t at h
                cases t with
                | err e => cases h
                | ub u => cases h
                | ok p =>
                  cases h
                  have := ih hr
                  rw [numPending_cons x, if_pos hp, numPending_cons (x.1, _)]
                  simp only [reduceCtorEq, if_false]
                  omega

/-- Nothing is marked if the oldest pending item is a SEI, or no item is pending. -/
theorem markLoop_zero {l l' : NList} {f : Bool} (h : markLoop l = .ok (l', 0, f)) :
    l' = l ∧ (pend l = [] ∨ ∃ pre x rest n, l = pre ++ x :: rest ∧ (∀ y ∈ pre, y.2.status ≠ .P) ∧ x.2.status = .P ∧
      x.2.nalu = some n ∧ n.gopSei = true) := by
  induction l generalizing l' f with
  | nil => unfold markLoop at h; cases h; exact ⟨rfl, .inl rfl⟩
  | cons x r ih =>
    unfold markLoop at h
    split at h
    · rename_i hp
      cases hr : markLoop r with
      | err e => rw [hr] at h; cases h
      | ub u => rw [hr] at h; cases h
      | ok p =>
        obtain ⟨p1, p2, p3⟩ := p
        rw [hr] at h
        cases h
        obtain ⟨e, h1⟩ := ih hr
        refine ⟨by rw [e], ?_⟩
        rcases h1 with h1 | ⟨pre, y, rest, n, h1, h2, h3⟩
        · exact .inl (by rw [pend_cons, if_neg hp, h1])
        · refine .inr ⟨x :: pre, y, rest, n, by rw [h1]; rfl, ?_, h3⟩
          intro z hz
          rcases List.mem_cons.1 hz with rfl | hz
          · exact hp
          · exact h2 z hz
    · rename_i hp
      have hp : x.2.status = .P := Decidable.not_not.1 hp
      split at h
      · cases h
      · rename_i n hn
        split at h
        · rename_i hg
          cases h
          exact ⟨rfl, .inr ⟨[], x, r, n, rfl, by simp, hp, hn, hg⟩⟩
        · dsimp only at h
          split at h
          · cases h
          · split at h
            · cases h
            · split at h
              · cases h
              · generalize hr : markLoop _ = t at h
                cases t with
                | err e => cases h
                | ub u => cases h
                | ok p => cases h

theorem Grow.nextSei {l l' : NList} (h : Grow noStatus l l') :
    (SV.nextSei l').map Prod.fst = (SV.nextSei l).map Prod.fst := by
  induction h with
  | nil => rfl
  | @keep a x y l l' k _ ih =>
    have hs : y.status = x.status := by
      rcases k.status with e | ⟨-, e⟩
      · exact e
      · exact e.elim
    unfold SV.nextSei at ih ⊢
    rw [List.find?_cons, List.find?_cons]
    dsimp only
    rw [k.nalu, hs]
    generalize ((match x.nalu with | some n => n.gopSei | none => false) && decide (x.status = .P)) = b
    cases b
    · exact ih
    · rfl
  | @miss a y l l' m _ ih =>
    unfold SV.nextSei at ih ⊢
    rw [List.find?_cons]
    dsimp only
    rw [m.1]
    exact ih

/-- A preparation that succeeds, with a pending SEI. -/
theorem prepare_ok {env : AuthEnv} {s u : Validator} {x : Nat × Item} (hx : nextSei s.list = some x)
    (h : s.prepare env = .ok u ()) :
    ∃ a b c, s.decodeNext env x = .ok a () ∧ a.detectLost env = .ok b () ∧ b.prepareGopHash env x.1 = .ok c () ∧
      (c.flags.signing = true → c.d.hasPublicKey = true) ∧
      ((c.gop.hasSei = true ∧ c.verifyHash env = .ok u ()) ∨ (c.gop.hasSei = false ∧ u = c)) := by
  unfold prepare at h
  rw [hx] at h
  obtain ⟨c, _, h1, h2⟩ := Res.andThen_eq_ok h
  obtain ⟨a, _, h3, h4⟩ := Res.andThen_eq_ok h1
  obtain ⟨b, _, h5, h6⟩ := Res.andThen_eq_ok h4
  refine ⟨a, b, c, h3, h5, h6, ?_⟩
  split at h2
  · cases h2
  · rename_i hk
    refine ⟨?_, ?_⟩
    · intro hs
      rw [hs] at hk
      simpa using hk
    · cases hsei : c.gop.hasSei
      · rw [hsei] at h2
        cases h2
        exact .inr ⟨rfl, rfl⟩
      · rw [hsei] at h2
        exact .inl ⟨rfl, h2⟩

/-- The oldest pending SEI has been decoded. -/
theorem decodeNext_decoded {env : AuthEnv} {s a : Validator} {x : Nat × Item} (w : WF s.list s.brk) (hx : x ∈ s.list)
    (h : s.decodeNext env x = .ok a ()) : ∀ y ∈ a.list, y.1 = x.1 → y.2.decoded = true := by
  unfold decodeNext at h
  split at h
  · rename_i hd
    cases h
    intro y hy e
    rw [w.unique hy hx e]; exact hd
  · dsimp only at h
    split at h
    · cases h
    · obtain ⟨t, _, h1, h2⟩ := Res.andThen_eq_ok h
      split at h2
      · cases h2
      · cases h2
        intro y hy e
        dsimp only at hy
        obtain ⟨z, hz, rfl⟩ := List.mem_map.1 hy
        split
        · rfl
        · rename_i hc
          rw [if_neg hc] at e
          exact absurd e hc

/-- What is known after a preparation. -/
structure Prepared (env : AuthEnv) (s u : Validator) (x : Nat × Item) : Prop where
  prep : Prep s u
  decoded : ∀ y ∈ u.list, y.1 = x.1 → y.2.decoded = true
  primary : u.primary.isSome = true
  hasKey : u.flags.signing = true → u.d.hasPublicKey = true
  sig : u.gop.hasSei = true → u.d.maxSignature ≠ none ∧ u.d.signature ≠ [] ∧ u.key ≠ none
  lost : u.gop.lost = true → u.synced = true
  ahead : env.ov = .exact → u.gop.lost = true → u.d.gopCounter.toNat > (u.latestGop + 1).toNat
  wrap : env.ov ≠ .exact → u.gop.lost = false

end Validator
end SV
