import Verif.Proofs.TraceList
import Verif.Proofs.AuthVouch
/-! Pending SEIs in a round. -/
namespace SV
namespace Validator

theorem UsedPlain.of_tidyFrom {b : Bool} {l : NList} (h : TidyFrom b l) : UsedPlain l := by
  induction l generalizing b with
  | nil => intro x hx; cases hx
  | cons x r ih =>
    intro y hy hu hp
    have hc : candidate y = true := by unfold candidate; rw [hu, hp]; rfl
    unfold TidyFrom at h
    split at h
    · rename_i hx
      rcases List.mem_cons.1 hy with rfl | hy
      · exact absurd hp hx
      · exact ih h y hy hu hp
    · split at h
      · rw [h y hy] at hc; cases hc
      · rename_i hs
        rcases List.mem_cons.1 hy with rfl | hy
        · cases hq : y.2.isSei with
          | false => rfl
          | true => rw [hq] at hs; simp at hs
        · exact ih h y hy hu hp

/-- Giving a SEI a status other than P and N. -/
theorem set_calm {l : NList} (a : Nat) {st : Status} (h1 : st ≠ .P) (h2 : st ≠ .N) : CalmList l (l.set a fun i => { i with status := st }) :=
  CalmList.set fun _ _ _ => ⟨rfl, rfl, fun _ h => absurd h h1, fun _ h => absurd h h2⟩

theorem UsedPlain.set {l : NList} {a : Nat} {st : Status} (h : UsedPlain l) (h1 : st ≠ .P) : UsedPlain (l.set a fun i => { i with status := st }) := by
  intro x hx hu hp
  obtain ⟨y, hy, rfl⟩ := List.mem_map.1 hx
  by_cases hc : y.1 = a
  · rw [if_pos hc] at hp; exact absurd hp h1
  · rw [if_neg hc] at hu hp ⊢
    exact h y hy hu hp

theorem setStatus_calm {s s' : Validator} {st : Status} {sei : Option Nat} {k : Int} (hu : UsedPlain s.list)
    (h : s.setStatus st sei = .ok s' k) : CalmList s.list s'.list := by
  unfold setStatus at h
  cases sei with
  | none => cases h; exact .refl _
  | some a =>
    dsimp only at h
    cases hl : setStatusLoop st s.list with
    | ub u => rw [hl] at h; cases h
    | err e => rw [hl] at h; cases h
    | ok q =>
      rw [hl] at h
      have g := setStatusLoop_calm hu hl
      dsimp only at h
      split at h
      · split at h
        · cases h; exact g.trans (set_calm _ (by decide) (by decide))
        · cases h
      · cases h; exact g

theorem withHashList_calm {s s' : Validator} {o : Bool} {p : Bool × Int × Int} (h : s.withHashList o = .ok s' p) : CalmList s.list s'.list := by
  unfold withHashList at h
  split at h
  · cases h
  · cases hn : nextSei s.list with
    | none => rw [hn] at h; cases h; exact .refl _
    | some x =>
      rw [hn] at h
      dsimp only at h
      cases hl : hashListLoop s.d.hashSize (chunk s.d.hashSize s.d.hashList) x.1 s.list none { orderOk := o, brk := s.brk } with
      | ub u => rw [hl] at h; cases h
      | err e => rw [hl] at h; cases h
      | ok q =>
        rw [hl] at h
        dsimp only at h
        have e0 := hashListLoop_calm hl
        generalize hs1 : ({ s with list := q.1, brk := q.2.brk } : Validator) = s1 at h
        have v1 : CalmList s.list s1.list := by subst hs1; exact e0
        generalize hs2 : (if q.2.latest = -1 then
          match q.1 with
          | [] => s1
          | f :: _ => s1.addMissing ((chunk s.d.hashSize s.d.hashList).length - q.2.invalid) f.2.second.isSome f.1
        else s1) = s2 at h
        have v2 : CalmList s.list s2.list := by
          rw [← hs2]
          split
          · split
            · exact v1
            · exact v1.trans (addMissing_calm _ _ _ _)
          · exact v1
        generalize hs3 : (if q.2.latest ≠ q.2.compare then s2
        else match q.2.lastUsed with
          | none => s2
          | some a => s2.addMissing ((chunk s.d.hashSize s.d.hashList).length - 1 - q.2.latest) true a) = s3 at h
        have v3 : CalmList s.list s3.list := by
          rw [← hs3]
          split
          · exact v2
          · split
            · exact v2
            · exact v2.trans (addMissing_calm _ _ _ _)
        clear hs1 hs2 hs3 v1 v2
        cases h
        exact v3.trans (set_calm _ (by decide) (by decide))

theorem withSeiRest_calm {s s' : Validator} {st : Status} {sei : Option Nat} {e : Int} {p : Bool × Int × Int} (hu : UsedPlain s.list)
    (h : s.withSeiRest st sei e = .ok s' p) : CalmList s.list s'.list := by
  unfold withSeiRest at h
  obtain ⟨t, k, h1, h2⟩ := Res.andThen_eq_ok h
  have g := setStatus_calm hu h1
  split at h2
  · cases h2; exact g
  · split at h2
    · cases h2; exact g
    · split at h2
      · cases h2
      · cases h2; exact g.trans (addMissing_calm _ _ _ _)

theorem withoutSei_calm {s s' : Validator} {b : Bool} (h : s.withoutSei = .ok s' b) : CalmList s.list s'.list := by
  unfold withoutSei at h
  cases hm : markLoop s.list with
  | ub u => rw [hm] at h; cases h
  | err e => rw [hm] at h; cases h
  | ok q =>
    rw [hm] at h
    obtain ⟨l, k, f⟩ := q
    cases h
    exact markLoop_calm hm

theorem withSei_calm {s s' : Validator} {p : Bool × Int × Int} (w : WFs s) (hu : UsedPlain s.list)
    (hd : ∀ x, nextSei s.list = some x → x.2.decoded = true) (h : s.withSei = .ok s' p) : CalmList s.list s'.list := by
  unfold withSei at h
  dsimp only at h
  split at h
  · split at h
    · exact withHashList_calm h
    · exact withSeiRest_calm hu h
  · cases hn : nextSei s.list with
    | none => rw [hn] at h; cases h
    | some x =>
      rw [hn] at h
      dsimp only [Option.map] at h
      obtain ⟨hx, hp, n, hxn, hg⟩ := nextSei_spec hn
      split at h
      · have hc : CalmList s.list (s.list.set x.1 fun i => { i with status := .N }) := CalmList.set fun y hy e => by
          rw [WF.unique w hy hx e]
          exact ⟨rfl, rfl, fun _ h => (by cases h), fun _ _ => .inr (hd x hn)⟩
        exact hc.trans (withSeiRest_calm (s := { s with list := s.list.set x.1 fun i => { i with status := .N } }) (hu.set (by decide)) h)
      · obtain ⟨t, b, h1, h2⟩ := Res.andThen_eq_ok h
        cases h2
        refine ((set_calm (st := .E) x.1 (by decide) (by decide)).trans (clearUsed_calm _)).trans ?_
        exact withoutSei_calm (s := { s with list := clearUsed (s.list.set x.1 fun i => { i with status := .E }) }) h1

theorem verifyGop_calm {s s' : Validator} {p : Bool × Int × Int} (w : WFs s) (hu : UsedPlain s.list)
    (hd : ∀ x, nextSei s.list = some x → x.2.decoded = true) (h : s.verifyGop = .ok s' p) : CalmList s.list s'.list := by
  unfold verifyGop at h
  split at h
  · obtain ⟨t, b, h1, h2⟩ := Res.andThen_eq_ok h
    cases h2
    exact withoutSei_calm h1
  · obtain ⟨t, b, h1, h2⟩ := Res.andThen_eq_ok h
    cases h2
    exact withSei_calm (s' := t) w hu hd h1

theorem conclude_calm (t : Validator) (p : Bool × Int × Int) (hb : BadDecoded t.list) : CalmList t.list (t.conclude p).list := by
  have h1 := clearUsed_calm t.list
  unfold conclude
  dsimp only
  split
  · exact h1.trans (CalmList.of_undo (removeMissing_undo _) (h1.bad hb))
  · exact h1

theorem updateLinkLoop_calm {u v : Validator} (hl : updateLinkLoop u u.list = .ok v) : CalmList u.list v.list := by
  rcases updateLinkLoop_eq hl with e | ⟨lk, a, e⟩
  · rw [e]; exact .refl _
  · rw [e]
    exact CalmList.set (f := fun i => { i with linked := true }) fun _ _ _ => .of_status rfl rfl rfl

theorem prepareGopHash_calm (env : AuthEnv) (s : Validator) (a : Nat) : (s.prepareGopHash env a).Ends fun t => CalmList s.list t.list ∧ t.d = s.d ∧ t.sigHash = s.sigHash := by
  unfold prepareGopHash
  dsimp only
  split
  · exact ⟨clearUsed_calm _, rfl, rfl⟩
  · cases hg : gopLoop s.d.hashSize a s.list 0 0 [] with
    | ub u => trivial
    | err e => exact ⟨clearUsed_calm _, rfl, rfl⟩
    | ok p =>
      obtain ⟨l, acc⟩ := p
      exact ⟨gopLoop_calm hg, rfl, rfl⟩

end Validator
end SV
