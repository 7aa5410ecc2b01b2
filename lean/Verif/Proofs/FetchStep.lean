import Verif.Proofs.FetchTotal
/-! The accumulated validation along the calls of a session. -/
namespace SV
open Spec

/-- The accumulated validation after a report, or without one. -/
def accNext (a : Accumulated) : Option Report → Accumulated
  | none => a
  | some r => updateAccumulated r.latest a

/-- What a report handed out says is what the local report says afterwards, except that the time stamp of the latest
validation is taken to be used. -/
def Repeats (r : Report) (numItems : Nat) (p : Report) : Prop :=
  (getReport r numItems).2 = { p with latest := { p.latest with hasTs := false } }

theorem updateReport_acc {r r' : Report} {l l' : NList} (h : updateReport r l = .ok (r', l')) :
    shown r'.acc = shown (updateAccumulated r'.latest r.acc) := by
  unfold updateReport at h
  dsimp only at h
  obtain ⟨c, _, h⟩ := Out.bind_eq_ok h
  cases h
  split <;> split <;> rfl

namespace Legacy

theorem updateReport_acc {r r' : Report} {l l' : LList} (h : Legacy.updateReport r l = .ok (r', l')) :
    shown r'.acc = shown (updateAccumulated r'.latest r.acc) := by
  unfold Legacy.updateReport at h
  dsimp only at h
  obtain ⟨c, _, h⟩ := Out.bind_eq_ok h
  cases h
  split <;> split <;> rfl

/-! ### The older format -/

/-- The accumulated validation is kept. -/
def AccKept (s t : Legacy) : Prop := t.v.rep.acc = s.v.rep.acc

theorem AccKept.trans {a b c : Legacy} (h : AccKept a b) (g : AccKept b c) : AccKept a c := Eq.trans g h

theorem addMissing_keepsV (s : Legacy) (n : Int) (app : Bool) (a : Nat) : (s.addMissing n app a).v = s.v := by
  unfold addMissing
  split <;> rfl

theorem withoutSei_acc (s : Legacy) : s.withoutSei.Ends (AccKept s) := by
  unfold withoutSei
  split
  · trivial
  · exact rfl
  · show AccKept _ _
    unfold AccKept
    dsimp only
    split <;> rfl

theorem hashListEnd_keepsV (s : Legacy) (m : Match) (n : Int) (sei : Nat) : (hashListEnd s m n sei).1.v = s.v := by
  unfold hashListEnd
  dsimp only
  have h0 : ∀ t : Legacy, t.v = s.v → (match m.lastUsed with
      | none => (t, (m.count : Int))
      | some a =>
        if m.latest ≠ m.compare then ({ t with list := t.list.set a fun i => { i with bad := true, need := true } }, (m.count : Int))
        else (t.addMissing (n - 1 - m.latest - 1) true a, if n - 1 - m.latest - 1 ≥ 0 then (m.count : Int) + 1 else m.count)).1.v = s.v := by
    intro t ht
    split
    · exact ht
    · split
      · exact ht
      · exact (addMissing_keepsV ..).trans ht
  refine h0 _ ?_
  split
  · split
    · rfl
    · exact addMissing_keepsV ..
  · rfl

theorem withHashList_acc (s : Legacy) : s.withHashList.Ends (AccKept s) := by
  unfold withHashList
  split
  · trivial
  · split
    · exact rfl
    · split
      · exact Res.Ends.andThen' (withoutSei_acc _) fun t b _ h => h
      · split
        · trivial
        · dsimp only
          split
          · trivial
          · exact rfl
          · show AccKept _ _
            unfold AccKept
            rw [hashListEnd_keepsV]

theorem withGopHash_acc (s : Legacy) : s.withGopHash.Ends (AccKept s) := by
  unfold withGopHash
  split
  · dsimp only
    split
    · exact rfl
    · split
      · exact rfl
      · split
        · trivial
        · show AccKept _ _
          unfold AccKept
          rw [addMissing_keepsV]
  · exact Res.Ends.andThen' (withoutSei_acc s) fun t b _ h => h

theorem verifyGop_acc (s : Legacy) : s.verifyGop.Ends (AccKept s) := by
  unfold verifyGop
  split
  · exact Res.Ends.andThen' (withoutSei_acc _) fun t b _ h => h
  · split
    · exact withHashList_acc s
    · exact withGopHash_acc s

theorem conduct_acc (s : Legacy) : s.conduct.Ends (AccKept s) := by
  unfold conduct
  split
  · unfold validate
    exact Res.Ends.andThen' (verifyGop_acc s) fun t p _ h => h
  · exact rfl

theorem round_acc (env : AuthEnv) (s : Legacy) : (s.round env).Ends (AccKept s) := by
  unfold round
  refine Res.Ends.andThen' (P := AccKept s) ((prepare_prep env s.begin).mono fun t h => h.acc) fun t _ _ ht => ?_
  refine Res.Ends.andThen' (P := AccKept s) ((conduct_acc t).mono fun u h => ht.trans h) fun u _ _ hu => ?_
  exact hu

theorem rounds_acc (env : AuthEnv) (k : Nat) (s : Legacy) : (s.rounds env k).Ends (AccKept s) := by
  induction k generalizing s with
  | zero => trivial
  | succ k ih =>
    unfold rounds
    split
    · refine Res.Ends.andThen' (P := AccKept s) ((round_acc env s.hasPending.1).mono fun t h => h) fun t _ _ ht => ?_
      split
      · exact (ih t).mono fun u h => ht.trans h
      · exact ht
    · exact rfl

theorem maybeValidate_acc (env : AuthEnv) (s : Legacy) : (s.maybeValidate env).Ends (AccKept s) := by
  unfold maybeValidate
  split
  · trivial
  · exact rfl
  · refine Res.Ends.andThen' (P := AccKept s) ((recurrentDecoded_frame env s).mono fun t h => h.2.acc) fun t _ _ ht => ?_
    split
    · split
      · exact ht
      · exact ht
    · split
      · trivial
      · exact (rounds_acc env _ t).mono fun u h => ht.trans h

theorem register_acc (env : AuthEnv) (s : Legacy) (a : Nat) (n : Nalu) : (s.register env a n).Ends (AccKept s) := by
  unfold register
  split
  · trivial
  · split
    · exact rfl
    · split
      · trivial
      · exact rfl
      · refine (hashItem_frame env _ a _).mono fun t h => ?_
        obtain ⟨b, r, f, rfl, hf⟩ := h
        exact rfl

theorem addBody_acc (env : AuthEnv) (s : Legacy) (n : Nalu) : (s.addBody env n).Ends (AccKept s) := by
  unfold addBody
  dsimp only
  split
  · exact rfl
  · refine Res.Ends.andThen' (P := AccKept s) ((register_acc env _ _ n).mono fun t h => h) fun t _ _ ht => ?_
    exact (maybeValidate_acc env t).mono fun u h => ht.trans h

theorem addH26x_acc (env : AuthEnv) (s : Legacy) (data : Bytes) :
    (s.addH26x env data).Ends fun t => shown t.v.rep.acc = shown s.v.rep.acc := by
  unfold addH26x
  split
  · exact rfl
  · split
    · trivial
    · exact rfl
    · rename_i n _
      have hb := addBody_acc env s.entry n
      unfold entry at hb
      dsimp only
      split
      · trivial
      · rename_i t e ht
        rw [ht] at hb
        refine (addEnd_quiet t _ _).mono fun u h => ?_
        rw [h.2, hb]; rfl
      · rename_i t _ ht
        rw [ht] at hb
        refine (addEnd_quiet t _ _).mono fun u h => ?_
        rw [h.2, hb]; rfl

theorem report_acc {s t : Legacy} {r : Option Report} (h : s.report = .ok t r) :
    shown t.v.rep.acc = shown (accNext s.v.rep.acc r) ∧ ∀ p, r = some p → Repeats t.v.rep t.list.length p := by
  unfold report at h
  split at h
  · split at h
    · cases h
    · split at h
      · cases h
      · cases h
      · rename_i p l hu
        cases h
        refine ⟨updateReport_acc hu, fun p hp => ?_⟩
        cases hp
        unfold Repeats getReport
        dsimp only
  · cases h
    exact ⟨rfl, fun p hp => absurd hp (by simp)⟩

theorem add_acc (env : AuthEnv) (s : Legacy) (data : Bytes) :
    (∀ t r, s.add env data = .ok t r → shown t.v.rep.acc = shown (accNext s.v.rep.acc r) ∧
      ∀ p, r = some p → Repeats t.v.rep t.list.length p) ∧
    (∀ t e, s.add env data = .err t e → shown t.v.rep.acc = shown s.v.rep.acc) := by
  have next : ∀ {a b : Accumulated} (r : Option Report), shown a = shown b → shown (accNext a r) = shown (accNext b r) := by
    intro a b r h
    cases r with
    | none => exact h
    | some r => exact shown_upd _ h
  unfold add
  split
  · exact ⟨fun t r h => (by cases h), fun t e h => by cases h; rfl⟩
  · have ha := addH26x_acc env s data
    generalize s.addH26x env data = x at ha
    cases x with
    | ub u => exact ⟨fun t r h => (by cases h), fun t e h => by cases h⟩
    | err u e => exact ⟨fun t r h => (by cases h), fun t e h => by cases h; exact ha⟩
    | ok u b =>
      refine ⟨fun t r h => ?_, fun t e h => ?_⟩
      · exact ⟨(report_acc h).1.trans (next r ha), (report_acc h).2⟩
      · rw [report_err h]; exact ha

end Legacy

namespace Validator

theorem report_acc {s t : Validator} {r : Option Report} (h : s.report = .ok t r) :
    shown t.rep.acc = shown (accNext s.rep.acc r) ∧ (∀ p, r = some p → Repeats t.rep t.list.length p) ∧
      t.legacy = s.legacy ∧ t.hasReport = s.hasReport := by
  unfold report at h
  split at h
  · split at h
    · cases h
    · cases h
    · rename_i p l hu
      cases h
      refine ⟨updateReport_acc hu, fun p hp => ?_, rfl, rfl⟩
      cases hp
      unfold Repeats getReport
      dsimp only
  · cases h
    exact ⟨rfl, fun p hp => absurd hp (by simp), rfl, rfl⟩

theorem addH26x_acc (env : AuthEnv) (s : Validator) (data : Bytes) :
    (s.addH26x env data).Ends fun t => t.hasReport = s.hasReport ∧ (t.legacy = false → shown t.rep.acc = shown s.rep.acc) := by
  unfold addH26x
  split
  · exact ⟨rfl, fun _ => rfl⟩
  split
  · exact ⟨rfl, fun _ => rfl⟩
  split
  · trivial
  · exact ⟨rfl, fun _ => rfl⟩
  · dsimp only
    have hb := addBody_rep env { s with
      flags := { s.flags with hasAuth := false }
      rep := { s.rep with acc := { s.rep.acc with received := s.rep.acc.received + 1 } } } ‹_›
    split
    · trivial
    · rename_i e; rw [e] at hb
      refine (addEnd_rep _ _).mono fun u hu => ⟨hu.1.has.trans hb.has, fun hl => ?_⟩
      have h1 := hu.1.acc hl
      rw [h1.2, (hb.acc h1.1).2]; rfl
    · rename_i e; rw [e] at hb
      refine (addEnd_rep _ _).mono fun u hu => ⟨hu.1.has.trans hb.has, fun hl => ?_⟩
      have h1 := hu.1.acc hl
      rw [h1.2, (hb.acc h1.1).2]; rfl

theorem add_acc (env : AuthEnv) (s : Validator) (data : Bytes) :
    (∀ t r, s.add env data = .ok t r → t.hasReport = true ∧ (t.legacy = false → shown t.rep.acc = shown (accNext s.rep.acc r) ∧
      ∀ p, r = some p → Repeats t.rep t.list.length p)) ∧
    (∀ t e, s.add env data = .err t e → (data ≠ [] → t.hasReport = true) ∧ (data = [] → t = s) ∧
      (t.legacy = false → shown t.rep.acc = shown s.rep.acc)) := by
  have next : ∀ {a b : Accumulated} (r : Option Report), shown a = shown b → shown (accNext a r) = shown (accNext b r) := by
    intro a b r h
    cases r with
    | none => exact h
    | some r => exact shown_upd _ h
  unfold add
  split
  · rename_i hd
    exact ⟨fun t r h => (by cases h), fun t e h => by cases h; exact ⟨fun h => absurd hd h, fun _ => rfl, fun _ => rfl⟩⟩
  · rename_i hd
    dsimp only
    have ha := addH26x_acc env { s with started := true, hasReport := true } data
    generalize Validator.addH26x env { s with started := true, hasReport := true } data = x at ha
    cases x with
    | ub u => exact ⟨fun t r h => (by cases h), fun t e h => by cases h⟩
    | err u e => exact ⟨fun t r h => (by cases h), fun t e h => by cases h; exact ⟨fun _ => ha.1, fun h => absurd h hd, ha.2⟩⟩
    | ok u b =>
      rw [Res.andThen_ok]
      split
      · rename_i hl
        refine ⟨fun t r h => ?_, fun t e h => by cases h⟩
        cases h
        exact ⟨ha.1, fun h => by rw [h] at hl; cases hl⟩
      · rename_i hl
        refine ⟨fun t r h => ?_, fun t e h => ?_⟩
        · obtain ⟨h1, h2, h3, h4⟩ := report_acc h
          exact ⟨h4.trans ha.1, fun _ => ⟨h1.trans (next r (ha.2 (by simpa using hl))), h2⟩⟩
        · have : t = u := by
            unfold report at h
            split at h
            · split at h
              · cases h
              · cases h; rfl
              · cases h
            · cases h
          subst this
          exact ⟨fun _ => ha.1, fun h => absurd h hd, fun hl => ha.2 hl⟩

end Validator
end SV
