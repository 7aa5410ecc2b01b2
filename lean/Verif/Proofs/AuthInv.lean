import Verif.Proofs.AuthProgress
/-! Invariants of a round and of the validation loop. -/
namespace SV
namespace Validator

theorem markLoop_ne_err (l : NList) (e : Rc) : markLoop l ≠ .err e := by
  induction l with
  | nil => unfold markLoop; intro h; cases h
  | cons x r ih =>
    intro h
    unfold markLoop at h
    split at h
    · cases hr : markLoop r with
      | err e' => rw [hr] at h; cases h; exact ih hr
      | ub u => rw [hr] at h; cases h
      | ok p => rw [hr] at h; cases h
    · split at h
      · cases h
      · split at h
        · cases h
        · dsimp only at h
          split at h
          · cases h
          · split at h
            · cases h
            · split at h
              · cases h
              · generalize hr : markLoop _ = t at h
                cases t with
                | err e' => cases h; exact ih hr
                | ub u => cases h
                | ok p => cases h

theorem setStatusLoop_ne_err (st : Status) (l : NList) (e : Rc) : setStatusLoop st l ≠ .err e := by
  induction l with
  | nil => unfold setStatusLoop; intro h; cases h
  | cons x r ih =>
    intro h
    unfold setStatusLoop at h
    split at h
    · split at h
      · cases h
      · cases hr : setStatusLoop st r with
        | err e' => rw [hr] at h; cases h; exact ih hr
        | ub u => rw [hr] at h; cases h
        | ok p => rw [hr] at h; cases h
    · cases hr : setStatusLoop st r with
      | err e' => rw [hr] at h; cases h; exact ih hr
      | ub u => rw [hr] at h; cases h
      | ok p => rw [hr] at h; cases h

theorem hashListLoop_ne_err (hs : Nat) (hashes : List Bytes) (sei : Nat) (l : NList) (prev : Option Nat) (m : Match) (e : Rc) :
    hashListLoop hs hashes sei l prev m ≠ .err e := by
  induction l generalizing prev m with
  | nil => intro h; cases h
  | cons x r ih =>
    intro h
    unfold hashListLoop at h
    split at h
    · cases hr : hashListLoop hs hashes sei r (some x.1) m with
      | err e' => rw [hr] at h; cases h; exact ih _ _ hr
      | ub u => rw [hr] at h; cases h
      | ok p => rw [hr] at h; cases h
    · split at h
      · cases h
      · dsimp only at h
        split at h
        · cases h
        · split at h
          · cases h
          · split at h
            · cases h
            · generalize hr : hashListLoop _ _ _ _ _ _ = t at h
              cases t with
              | err e' => cases h; exact ih _ _ hr
              | ub u => cases h
              | ok p => cases h

theorem withoutSei_ne_err (s t : Validator) (e : Rc) : s.withoutSei ≠ .err t e := by
  unfold withoutSei
  cases h : markLoop s.list with
  | err e' => exact absurd h (markLoop_ne_err _ _)
  | ub u => intro h; cases h
  | ok p => intro h; cases h

theorem setStatus_ne_err (s : Validator) (st : Status) (sei : Option Nat) (t : Validator) (e : Rc) : s.setStatus st sei ≠ .err t e := by
  unfold setStatus
  cases sei with
  | none => intro h; cases h
  | some a =>
    dsimp only
    cases h : setStatusLoop st s.list with
    | err e' => exact absurd h (setStatusLoop_ne_err _ _ _)
    | ub u => intro h; cases h
    | ok p =>
      dsimp only
      split
      · split <;> (intro h; cases h)
      · intro h; cases h

theorem withSeiRest_ne_err (s : Validator) (st : Status) (sei : Option Nat) (x : Int) (t : Validator) (e : Rc) :
    s.withSeiRest st sei x ≠ .err t e := by
  unfold withSeiRest
  dsimp only
  cases h : s.setStatus st sei with
  | err t' e' => exact absurd h (setStatus_ne_err _ _ _ _ _)
  | ub u => intro h; cases h
  | ok s' k =>
    rw [Res.andThen_ok]
    split
    · intro h; cases h
    · split
      · intro h; cases h
      · split <;> (intro h; cases h)

theorem withHashList_ne_err (s : Validator) (o : Bool) (t : Validator) (e : Rc) : s.withHashList o ≠ .err t e := by
  unfold withHashList
  split
  · intro h; cases h
  · split
    · intro h; cases h
    · dsimp only
      split
      · intro h; cases h
      · rename_i e' h; exact absurd h (hashListLoop_ne_err _ _ _ _ _ _ _)
      · intro h; cases h

theorem withSei_ne_err (s t : Validator) (e : Rc) : s.withSei ≠ .err t e := by
  unfold withSei
  dsimp only
  split
  · split
    · exact withHashList_ne_err _ _ _ _
    · exact withSeiRest_ne_err _ _ _ _ _ _
  · split
    · intro h; cases h
    · split
      · exact withSeiRest_ne_err _ _ _ _ _ _
      · intro h
        generalize hr : withoutSei _ = r at h
        cases r with
        | ok s' b => cases h
        | ub u => cases h
        | err s' e' => exact withoutSei_ne_err _ _ _ hr

/-- The verification of a GOP does not fail. -/
theorem verifyGop_ne_err (s t : Validator) (e : Rc) : s.verifyGop ≠ .err t e := by
  unfold verifyGop
  split
  · intro h
    generalize hr : withoutSei _ = r at h
    cases r with
    | ok s' b => cases h
    | ub u => cases h
    | err s' e' => exact withoutSei_ne_err _ _ _ hr
  · intro h
    generalize hr : withSei _ = r at h
    cases r with
    | ok s' b => cases h
    | ub u => cases h
    | err s' e' => exact withSei_ne_err _ _ _ hr

theorem updateLinkLoop_ne_err (s : Validator) (l : NList) (e : Rc) : updateLinkLoop s l ≠ .err e := by
  induction l with
  | nil => intro h; cases h
  | cons x r ih =>
    unfold updateLinkLoop
    split
    · exact ih
    · split
      · intro h; cases h
      · split
        · exact ih
        · split <;> (intro h; cases h)

/-- A property of states that is kept by the parts of a round. -/
structure RoundInv (P : Validator → Prop) : Prop where
  pending : ∀ s, P s → P s.hasPending.1
  begin : ∀ s, P s → P s.begin
  prep : ∀ env s, P s → (s.prepare env).Ends P
  link : ∀ u v, P u → updateLinkLoop u u.list = .ok v → P v
  verify : ∀ v t p, P v → v.verifyGop = .ok t p → P t
  conclude : ∀ t p, P t → P (t.conclude p)
  notSigned : ∀ s : Validator, P s → P { s with rep := { s.rep with latest := { s.rep.latest with auth := .notSigned } } }
  finish : ∀ s, P s → P s.finish

theorem RoundInv.round {P : Validator → Prop} (hP : RoundInv P) (env : AuthEnv) {s : Validator} (h : P s) : (s.round env).Ends P := by
  unfold Validator.round
  refine Res.Ends.andThen' (hP.prep env _ (hP.begin s h)) fun u _ _ hu => ?_
  cases hl : updateLinkLoop u u.list with
  | ub e => trivial
  | err e => exact absurd hl (updateLinkLoop_ne_err _ _ _)
  | ok v =>
    dsimp only
    have hv := hP.link u v hu hl
    unfold conduct
    split
    · unfold validate
      cases hg : v.verifyGop with
      | err t e => exact absurd hg (verifyGop_ne_err _ _ _)
      | ub e => trivial
      | ok t p => exact hP.finish _ (hP.conclude t p (hP.verify v t p hv hg))
    · exact hP.finish _ (hP.notSigned v hv)

theorem RoundInv.rounds {P : Validator → Prop} (hP : RoundInv P) (env : AuthEnv) (k : Nat) {s : Validator} (h : P s) :
    (s.rounds env k).Ends P := by
  induction k generalizing s with
  | zero => trivial
  | succ k ih =>
    unfold Validator.rounds
    split
    · refine Res.Ends.andThen' (hP.round env (hP.pending s h)) fun t _ _ ht => ?_
      split
      · exact ih ht
      · exact hP.pending t ht
    · exact hP.pending s h

/-- Addresses are unique. -/
def WFs (s : Validator) : Prop := WF s.list s.brk

theorem wfs_conclude (t : Validator) (p : Bool × Int × Int) (h : WFs t) : WFs (t.conclude p) := by
  have h1 : WF (clearUsed t.list) t.brk := (clearUsed_evolves noStatus t.list t.brk).wf h
  show WF (if _ then _ else _) t.brk
  split
  · exact (removeMissing_undo _).wf h1
  · exact h1

theorem wfs_inv : RoundInv WFs where
  pending _ h := h
  begin s h := by unfold WFs; rw [begin_list, begin_brk]; exact h
  prep env s h := (prepare_prep env s).mono fun _ hp => (hp.ev noStatus).wf h
  link u v h hl := by
    obtain ⟨v1, v2, v3⟩ := updateLinkLoop_prep hl
    unfold WFs; rw [v3]; exact (Evolves.same _ v1 v2).wf h
  verify v t p h hv := (verifyGop_ver h hv).ev.wf h
  conclude := wfs_conclude
  notSigned _ h := h
  finish _ h := h

end Validator
end SV
