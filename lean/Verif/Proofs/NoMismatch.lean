import Verif.Props.Fetch
/-! The verdict 'version mismatch' is never given. -/
namespace SV
open Spec

/-- The local report has no version of the library and does not say 'version mismatch'. -/
structure Unversioned (r : Report) : Prop where
  this : r.thisVersion = []
  latest : r.latest.auth ≠ .versionMismatch
  acc : r.acc.auth ≠ .versionMismatch

theorem Unversioned.keep {r q : Report} (h : Unversioned r) (h1 : q.thisVersion = r.thisVersion) (h2 : q.latest.auth = r.latest.auth)
    (h3 : q.acc.auth = r.acc.auth) : Unversioned q := ⟨h1.trans h.this, by rw [h2]; exact h.latest, by rw [h3]; exact h.acc⟩

theorem upd_unversioned {l : Latest} {a : Accumulated} (h : l.auth ≠ .versionMismatch) (g : a.auth ≠ .versionMismatch) :
    (updateAccumulated l a).auth ≠ .versionMismatch := by
  rw [upd_auth]
  split
  · exact h
  · split <;> assumption

theorem updateReport_unversioned {r r' : Report} {l l' : NList} (h : Unversioned r) (hu : updateReport r l = .ok (r', l')) : Unversioned r' := by
  have hc : compareVersions (some r.thisVersion) (some r.versionOnSigningSide) = .ok (-1) := by rw [h.this]; rfl
  unfold updateReport at hu
  dsimp only at hu
  rw [hc] at hu
  rw [Out.bind_ok, if_neg (show ¬ (-1 : Int) = 2 by decide)] at hu
  cases hu
  have ha := upd_unversioned (l := { r.latest with naluStr := some (naluStr l), validationStr := some (validationStr l) }) h.latest h.acc
  split
  · exact ⟨h.this, h.latest, ha⟩
  · exact ⟨h.this, h.latest, ha⟩

theorem getReport_unversioned {r : Report} (n : Nat) (h : Unversioned r) : Unversioned (getReport r n).1 ∧ (getReport r n).2.latest.auth ≠ .versionMismatch ∧
    (getReport r n).2.acc.auth ≠ .versionMismatch := ⟨⟨h.this, h.latest, h.acc⟩, h.latest, h.acc⟩

/-- A report that does not say 'version mismatch'. -/
def NoMismatch (p : Report) : Prop := p.latest.auth ≠ .versionMismatch ∧ p.acc.auth ≠ .versionMismatch

namespace Validator

theorem LatestKept.sameAuth {l m : Latest} (h : LatestKept l m) : m.auth = l.auth := by
  obtain ⟨_, _, _, rfl⟩ := h; rfl

theorem unversioned_prep {s t : Validator} (h : Prep s t) (hs : Unversioned s.rep) : Unversioned t.rep :=
  hs.keep h.thisVersion (LatestKept.sameAuth h.latest) (by rw [h.acc])

theorem unversioned_before {s t : Validator} (h : Before s t) (hs : Unversioned s.rep) : Unversioned t.rep := by
  refine ⟨h.rep.this.trans hs.this, ?_, ?_⟩
  · rw [LatestKept.sameAuth h.latest]; exact hs.latest
  · rcases h.rep.any with e | e
    · rw [e]; exact hs.acc
    · rw [e]; exact fun h => by cases h

theorem judge_unversioned (st : Stats) (f : Bool) (e : Int) (b : Bool) : judge st f e b ≠ .versionMismatch := by
  unfold judge
  dsimp only
  by_cases h1 : st.invalid > 0
  · rw [if_pos h1]
    repeat' split
    all_goals intro h; cases h
  · rw [if_neg h1]
    repeat' split
    all_goals intro h; cases h

theorem verdict_unversioned (st : Stats) (f : Bool) (p : Bool × Int × Int) : verdict st f p ≠ .versionMismatch := by
  unfold verdict
  dsimp only
  split
  · intro h; cases h
  · apply judge_unversioned

theorem conclude_unversioned (s : Validator) (p : Bool × Int × Int) (hs : Unversioned s.rep) : Unversioned (s.conclude p).rep := by
  refine ⟨hs.this, ?_, hs.acc⟩
  unfold conclude concludeLatest
  dsimp only
  generalize hv : (if s.rep.latest.keyChanged = true then Auth.notOk else _) = v
  have hv : v ≠ .versionMismatch := by
    rw [← hv]
    split
    · intro h; cases h
    · split
      · intro h; cases h
      · apply verdict_unversioned
  unfold worse
  split
  · exact hv
  · split
    · exact hv
    · exact hs.latest

theorem begin_unversioned (s : Validator) (hs : Unversioned s.rep) : Unversioned s.begin.rep := by
  unfold begin
  split
  · exact hs
  · exact ⟨hs.this, fun h => (by cases h), hs.acc⟩

theorem round_unversioned (env : AuthEnv) (s : Validator) (hs : Unversioned s.rep) : (s.round env).Ends fun t => Unversioned t.rep := by
  unfold round
  refine Res.Ends.andThen' ((prepare_prep env s.begin).mono fun t h => unversioned_prep h (begin_unversioned s hs)) fun t _ _ ht => ?_
  split
  · trivial
  · exact ht
  · rename_i u hu
    have hu : Unversioned u.rep := by
      rcases updateLinkLoop_eq hu with e | ⟨lk, a, e⟩
      · rw [e]; exact ht
      · rw [e]; exact ht
    refine Res.Ends.andThen' (P := fun t : Validator => Unversioned t.rep) ?_ fun v _ _ hv => hv.keep rfl rfl rfl
    unfold conduct
    split
    · unfold validate
      refine Res.Ends.andThen' (P := fun t : Validator => Unversioned t.rep)
        ((verifyGop_listed u).mono fun v hv => by rw [hv.rep]; exact hu) fun v p _ hv => conclude_unversioned v p hv
    · exact ⟨hu.this, fun h => (by cases h), hu.acc⟩

theorem rounds_unversioned (env : AuthEnv) (k : Nat) (s : Validator) (hs : Unversioned s.rep) : (s.rounds env k).Ends fun t => Unversioned t.rep := by
  induction k generalizing s with
  | zero => trivial
  | succ k ih =>
    unfold rounds
    split
    · refine Res.Ends.andThen' (round_unversioned env s.hasPending.1 hs) fun t _ _ ht => ?_
      split
      · exact ih t ht
      · exact ht
    · exact hs

theorem firstSei_unversioned (s : Validator) (n : Nalu) (a : Nat) (hs : Unversioned s.rep) : Unversioned (s.firstSei n a).rep := by
  unfold firstSei
  dsimp only
  split
  · split <;> exact ⟨hs.this, fun h => (by cases h), hs.acc⟩
  · exact ⟨hs.this, fun h => (by cases h), hs.acc⟩

theorem maybeValidate_unversioned (env : AuthEnv) (s : Validator) (n : Nalu) (hs : Unversioned s.rep) :
    (s.maybeValidate env n).Ends fun t => Unversioned t.rep := by
  unfold maybeValidate
  split
  · exact hs
  split
  · trivial
  · refine Res.Ends.andThen' ((recurrentDecoded_before env s).mono fun t h => unversioned_before h hs) fun t ok _ ht => ?_
    split
    · split
      · exact firstSei_unversioned _ _ _ ht
      · exact ht
    · exact rounds_unversioned env _ t ht

theorem addBody_unversioned (env : AuthEnv) (s : Validator) (n : Nalu) (hs : Unversioned s.rep) : (s.addBody env n).Ends fun t => Unversioned t.rep := by
  unfold addBody
  dsimp only
  split
  · exact hs
  · refine Res.Ends.andThen' (P := fun t : Validator => Unversioned t.rep)
      ((register_before env _ _ n).mono fun t h => unversioned_before h hs) fun t _ _ ht => ?_
    refine Res.Ends.andThen' ((hashAlgoBlock_before env t _ n).mono fun u h => unversioned_before h ht) fun u _ _ hu => ?_
    exact maybeValidate_unversioned env u n hu

theorem addH26x_unversioned (env : AuthEnv) (s : Validator) (data : Bytes) (hs : Unversioned s.rep) :
    (s.addH26x env data).Ends fun t => Unversioned t.rep := by
  unfold addH26x
  split
  · exact hs
  split
  · exact hs
  split
  · trivial
  · exact hs
  · dsimp only
    have hb := addBody_unversioned env { s with
      flags := { s.flags with hasAuth := false }
      rep := { s.rep with acc := { s.rep.acc with received := s.rep.acc.received + 1 } } } ‹_› ⟨hs.this, hs.latest, hs.acc⟩
    split
    · trivial
    · rename_i e; rw [e] at hb
      exact (addEnd_rep _ _).mono fun u hu => by rw [hu.2.2]; exact hb
    · rename_i e; rw [e] at hb
      exact (addEnd_rep _ _).mono fun u hu => by rw [hu.2.2]; exact hb

theorem add_unversioned (env : AuthEnv) (s : Validator) (data : Bytes) (hs : Unversioned s.rep) :
    (s.add env data).Ends (fun t => Unversioned t.rep) ∧ ∀ t r, s.add env data = .ok t r → ∀ p, r = some p → NoMismatch p := by
  unfold add
  split
  · exact ⟨hs, fun t r h => by cases h⟩
  · dsimp only
    have ha := addH26x_unversioned env { s with started := true, hasReport := true } data hs
    generalize Validator.addH26x env { s with started := true, hasReport := true } data = x at ha
    cases x with
    | ub u => exact ⟨trivial, fun t r h => by cases h⟩
    | err u e => exact ⟨ha, fun t r h => by cases h⟩
    | ok u b =>
      rw [Res.andThen_ok]
      replace ha : Unversioned u.rep := ha
      split
      · exact ⟨ha, fun t r h p hp => by cases h; cases hp⟩
      · unfold report
        split
        · split
          · exact ⟨trivial, fun t r h => by cases h⟩
          · exact ⟨ha, fun t r h => by cases h⟩
          · rename_i q l e
            have hq := getReport_unversioned l.length (updateReport_unversioned ha e)
            exact ⟨hq.1.keep rfl rfl rfl, fun t r h p hp => by cases h; cases hp; exact hq.2⟩
        · exact ⟨ha, fun t r h p hp => by cases h; cases hp⟩

end Validator

namespace Legacy

theorem updateReport_unversioned {r r' : Report} {l l' : LList} (h : Unversioned r) (hu : Legacy.updateReport r l = .ok (r', l')) : Unversioned r' := by
  have hc : compareVersions (some r.thisVersion) (some r.versionOnSigningSide) = .ok (-1) := by rw [h.this]; rfl
  unfold Legacy.updateReport at hu
  dsimp only at hu
  rw [hc] at hu
  rw [Out.bind_ok, if_neg (show ¬ (-1 : Int) = 2 by decide)] at hu
  cases hu
  have ha := upd_unversioned (l := { r.latest with
    naluStr := some (l.map fun (x : Nat × LItem) => typeChar x.2.nalu)
    validationStr := some (l.map fun (x : Nat × LItem) => x.2.status.char) }) h.latest h.acc
  split
  · exact ⟨h.this, h.latest, ha⟩
  · exact ⟨h.this, h.latest, ha⟩

/-- The local report is kept. -/
def SameReport (s t : Legacy) : Prop := t.v.rep = s.v.rep

theorem SameReport.trans {a b c : Legacy} (h : SameReport a b) (g : SameReport b c) : SameReport a c := Eq.trans g h

theorem withoutSei_sameReport (s : Legacy) : s.withoutSei.Ends (SameReport s) := by
  unfold withoutSei
  split
  · trivial
  · exact rfl
  · show SameReport _ _
    unfold SameReport
    dsimp only
    split <;> rfl

theorem withHashList_sameReport (s : Legacy) : s.withHashList.Ends (SameReport s) := by
  unfold withHashList
  split
  · trivial
  · split
    · exact rfl
    · split
      · exact Res.Ends.andThen' (withoutSei_sameReport _) fun t b _ h => h
      · split
        · trivial
        · dsimp only
          split
          · trivial
          · exact rfl
          · show SameReport _ _
            unfold SameReport
            rw [hashListEnd_keepsV]

theorem withGopHash_sameReport (s : Legacy) : s.withGopHash.Ends (SameReport s) := by
  unfold withGopHash
  split
  · dsimp only
    split
    · exact rfl
    · split
      · exact rfl
      · split
        · trivial
        · show SameReport _ _
          unfold SameReport
          rw [addMissing_keepsV]
  · exact Res.Ends.andThen' (withoutSei_sameReport s) fun t b _ h => h

theorem verifyGop_sameReport (s : Legacy) : s.verifyGop.Ends (SameReport s) := by
  unfold verifyGop
  split
  · exact Res.Ends.andThen' (withoutSei_sameReport _) fun t b _ h => h
  · split
    · exact withHashList_sameReport s
    · exact withGopHash_sameReport s

theorem judge_unversioned (st : Stats) (f : Bool) (e : Int) (b : Bool) : judge st f e b ≠ .versionMismatch := by
  unfold judge
  dsimp only
  by_cases h1 : st.invalid > 0
  · rw [if_pos h1]
    repeat' split
    all_goals intro h; cases h
  · rw [if_neg h1]
    repeat' split
    all_goals intro h; cases h

theorem verdict_unversioned (st : Stats) (f : Bool) (p : Bool × Int × Int) : verdict st f p ≠ .versionMismatch := by
  unfold verdict
  dsimp only
  split
  · intro h; cases h
  · apply judge_unversioned

theorem conclude_unversioned (s : Legacy) (p : Bool × Int × Int) (hs : Unversioned s.v.rep) : Unversioned (s.conclude p).v.rep := by
  refine ⟨hs.this, ?_, hs.acc⟩
  unfold conclude
  dsimp only
  split
  · intro h; cases h
  · split
    · intro h; cases h
    · apply verdict_unversioned

theorem conduct_unversioned (s : Legacy) (hs : Unversioned s.v.rep) : s.conduct.Ends fun t => Unversioned t.v.rep := by
  unfold conduct
  split
  · unfold validate
    exact Res.Ends.andThen' (P := fun t : Legacy => Unversioned t.v.rep)
      ((verifyGop_sameReport s).mono fun t ht => by unfold SameReport at ht; rw [ht]; exact hs) fun t p _ ht => conclude_unversioned t p ht
  · exact ⟨hs.this, fun h => (by cases h), hs.acc⟩

theorem unversioned_prep {s t : Legacy} (h : Prep s t) (hs : Unversioned s.v.rep) : Unversioned t.v.rep := by
  obtain ⟨_, _, _, e⟩ := h.latest
  exact hs.keep h.thisVersion (by rw [e]) (by rw [h.acc])

theorem round_unversioned (env : AuthEnv) (s : Legacy) (hs : Unversioned s.v.rep) : (s.round env).Ends fun t => Unversioned t.v.rep := by
  unfold round
  refine Res.Ends.andThen' (P := fun t : Legacy => Unversioned t.v.rep) ((prepare_prep env s.begin).mono fun t h =>
    unversioned_prep h ⟨hs.this, fun h => (by cases h), hs.acc⟩) fun t _ _ ht => ?_
  exact Res.Ends.andThen' (P := fun t : Legacy => Unversioned t.v.rep) (conduct_unversioned t ht) fun u _ _ hu => hu.keep rfl rfl rfl

theorem rounds_unversioned (env : AuthEnv) (k : Nat) (s : Legacy) (hs : Unversioned s.v.rep) : (s.rounds env k).Ends fun t => Unversioned t.v.rep := by
  induction k generalizing s with
  | zero => trivial
  | succ k ih =>
    unfold rounds
    split
    · refine Res.Ends.andThen' (P := fun t : Legacy => Unversioned t.v.rep) (round_unversioned env s.hasPending.1 hs) fun t _ _ ht => ?_
      split
      · exact ih t ht
      · exact ht
    · exact hs

theorem maybeValidate_unversioned (env : AuthEnv) (s : Legacy) (hs : Unversioned s.v.rep) : (s.maybeValidate env).Ends fun t => Unversioned t.v.rep := by
  unfold maybeValidate
  split
  · trivial
  · exact hs
  · refine Res.Ends.andThen' (P := fun t : Legacy => Unversioned t.v.rep) ((recurrentDecoded_frame env s).mono fun t h =>
      hs.keep h.2.thisVersion (Validator.LatestKept.sameAuth h.2.latest) (by rw [h.2.acc])) fun t _ _ ht => ?_
    split
    · split
      · exact ⟨ht.this, fun h => (by cases h), ht.acc⟩
      · exact ht
    · split
      · trivial
      · exact rounds_unversioned env _ t ht

theorem register_sameReport (env : AuthEnv) (s : Legacy) (a : Nat) (n : Nalu) : (s.register env a n).Ends (SameReport s) := by
  unfold register
  split
  · trivial
  · split
    · exact rfl
    · split
      · trivial
      · exact rfl
      · refine (hashItem_frame env _ a _).mono fun t h => ?_
        obtain ⟨b, r, f, rfl, hf⟩ := h
        exact rfl

theorem addBody_unversioned (env : AuthEnv) (s : Legacy) (n : Nalu) (hs : Unversioned s.v.rep) : (s.addBody env n).Ends fun t => Unversioned t.v.rep := by
  unfold addBody
  dsimp only
  split
  · exact hs
  · refine Res.Ends.andThen' (P := fun t : Legacy => Unversioned t.v.rep) ((register_sameReport env _ _ n).mono fun t h => by
      unfold SameReport at h; rw [h]; exact hs) fun t _ _ ht => maybeValidate_unversioned env t ht

theorem addH26x_unversioned (env : AuthEnv) (s : Legacy) (data : Bytes) (hs : Unversioned s.v.rep) :
    (s.addH26x env data).Ends fun t => Unversioned t.v.rep := by
  unfold addH26x
  split
  · exact hs
  · split
    · trivial
    · exact hs
    · rename_i n _
      have hb := addBody_unversioned env { s with v := { s.v with
        flags := { s.v.flags with hasAuth := false }
        rep := { s.v.rep with acc := { s.v.rep.acc with received := s.v.rep.acc.received + 1 } } } } n ⟨hs.this, hs.latest, hs.acc⟩
      dsimp only
      split
      · trivial
      · rename_i t e ht
        rw [ht] at hb
        exact (addEnd_quiet t _ _).mono fun u h => by rw [h.2]; exact hb
      · rename_i t _ ht
        rw [ht] at hb
        exact (addEnd_quiet t _ _).mono fun u h => by rw [h.2]; exact hb

theorem add_unversioned (env : AuthEnv) (s : Legacy) (data : Bytes) (hs : Unversioned s.v.rep) :
    (s.add env data).Ends (fun t => Unversioned t.v.rep) ∧ ∀ t r, s.add env data = .ok t r → ∀ p, r = some p → NoMismatch p := by
  unfold add
  split
  · exact ⟨hs, fun t r h => by cases h⟩
  · have ha := addH26x_unversioned env s data hs
    generalize s.addH26x env data = x at ha
    cases x with
    | ub u => exact ⟨trivial, fun t r h => by cases h⟩
    | err u e => exact ⟨ha, fun t r h => by cases h⟩
    | ok u b =>
      rw [Res.andThen_ok]
      replace ha : Unversioned u.v.rep := ha
      unfold report
      split
      · split
        · exact ⟨trivial, fun t r h => by cases h⟩
        · split
          · exact ⟨trivial, fun t r h => by cases h⟩
          · exact ⟨ha, fun t r h => by cases h⟩
          · rename_i q l e
            have hq := getReport_unversioned l.length (updateReport_unversioned ha e)
            exact ⟨hq.1.keep rfl rfl rfl, fun t r h p hp => by cases h; cases hp; exact hq.2⟩
      · exact ⟨ha, fun t r h p hp => by cases h; cases hp⟩

theorem reset_unversioned (env : AuthEnv) (s : Legacy) (hs : Unversioned s.v.rep) : (s.reset env).Ends fun t => Unversioned t.v.rep := by
  unfold reset
  dsimp only
  split
  · trivial
  all_goals exact ⟨hs.this, fun h => (by cases h), fun h => by cases h⟩

theorem create_unversioned {env : AuthEnv} {p : Validator} {l : Legacy} (h : create env p = .ok l) (hp : Unversioned p.rep) : Unversioned l.v.rep := by
  unfold create at h
  obtain ⟨b, _, h⟩ := Out.bind_eq_ok h
  cases h
  exact hp

end Legacy

namespace Session

/-- Neither of the local reports says 'version mismatch'. -/
structure BothUnversioned (s : Session) : Prop where
  outer : Unversioned s.v.rep
  inner : ∀ l, s.leg = some l → Unversioned l.v.rep

theorem replay_unversioned (env : AuthEnv) (raw : List (Nat × Bytes)) (l : NList) (s : Legacy) (hs : Unversioned s.v.rep) :
    (replay env raw l s).Ends fun t => Unversioned t.v.rep := by
  induction l generalizing s with
  | nil => exact hs
  | cons x r ih =>
    unfold replay
    split
    · trivial
    · split
      · trivial
      · exact Res.Ends.andThen' (P := fun t : Legacy => Unversioned t.v.rep) (Legacy.add_unversioned env s _ hs).1 fun t _ _ ht => ih t ht

theorem add_unversionedB (env : AuthEnv) (s : Session) (d : Bytes) (hs : s.BothUnversioned) :
    Gives (s.add env d) fun t o => t.BothUnversioned ∧ ∀ p, o.report = some p → NoMismatch p := by
  obtain ⟨v0, raw0, leg0⟩ := s
  have hv : Unversioned v0.rep := hs.outer
  have no : ∀ p : Report, (none : Option Report) = some p → NoMismatch p := fun p h => by cases h
  unfold add
  cases leg0 with
  | some l =>
    dsimp only
    obtain ⟨h1, h2⟩ := Legacy.add_unversioned env l d (hs.inner l rfl)
    generalize l.add env d = x at h1 h2
    cases x with
    | ub u => trivial
    | ok m r => exact ⟨⟨hv, fun k hk => by cases hk; exact h1⟩, h2 m r rfl⟩
    | err m e => exact ⟨⟨hv, fun k hk => by cases hk; exact h1⟩, no⟩
  | none =>
    have start : ∀ (v : Validator) (k : Legacy → Res Legacy (Option Report)), Unversioned v.rep →
        (∀ l : Legacy, Unversioned l.v.rep → (k l).Ends (fun t => Unversioned t.v.rep) ∧ ∀ m r, k l = .ok m r → ∀ p, r = some p → NoMismatch p) →
        Gives (match Legacy.create env v with
          | .ub u => .ub u
          | .err _ => .err { v := { v.markLast with legacy := false }, raw := (v0.brk, d) :: raw0 } .memory
          | .ok l =>
            match (replay env ((v0.brk, d) :: raw0) v.list.dropLast l).andThen fun l _ => k l with
            | .ok l r => .ok { v := v, raw := (v0.brk, d) :: raw0, leg := some l } r
            | .err l e => .err { v := v, raw := (v0.brk, d) :: raw0, leg := some l } e
            | .ub u => .ub u) fun t o => t.BothUnversioned ∧ ∀ p, o.report = some p → NoMismatch p := by
      intro v k hw hk
      split
      · trivial
      · refine ⟨⟨?_, fun k hk => by cases hk⟩, no⟩
        show Unversioned v.markLast.rep
        unfold Validator.markLast
        split <;> exact hw
      · rename_i l hl
        have hc := replay_unversioned env ((v0.brk, d) :: raw0) v.list.dropLast l (Legacy.create_unversioned hl hw)
        generalize replay env ((v0.brk, d) :: raw0) v.list.dropLast l = x at hc
        cases x with
        | ub u => trivial
        | err m e => exact ⟨⟨hw, fun k hk => by cases hk; exact hc⟩, no⟩
        | ok m r =>
          rw [Res.andThen_ok]
          obtain ⟨h1, h2⟩ := hk m hc
          generalize k m = y at h1 h2
          cases y with
          | ub u => trivial
          | ok m r => exact ⟨⟨hw, fun k hk => by cases hk; exact h1⟩, h2 m r rfl⟩
          | err m e => exact ⟨⟨hw, fun k hk => by cases hk; exact h1⟩, no⟩
    dsimp only
    obtain ⟨h1, h2⟩ := Validator.add_unversioned env v0 d hv
    generalize v0.add env d = x at h1 h2
    cases x with
    | ub u => trivial
    | ok v r =>
      dsimp only
      split
      · exact start v (fun l => l.add env d) h1 fun l hl => Legacy.add_unversioned env l d hl
      · exact ⟨⟨h1, fun k hk => by cases hk⟩, h2 v r rfl⟩
    | err v e =>
      dsimp only
      split
      · exact start v (fun l => .err l e) h1 fun l hl => ⟨hl, fun m r h => by cases h⟩
      · exact ⟨⟨h1, fun k hk => by cases hk⟩, no⟩

theorem call_unversionedB (env : AuthEnv) (s : Session) (c : AuthCall) (hs : s.BothUnversioned) :
    Gives (s.call env c) fun t o => t.BothUnversioned ∧ ∀ p, o.report = some p → NoMismatch p := by
  have no : ∀ p : Report, (none : Option Report) = some p → NoMismatch p := fun p h => by cases h
  have hreset : Unversioned s.v.reset.rep := ⟨hs.outer.this, fun h => (by cases h), fun h => by cases h⟩
  cases c with
  | nalu d => exact add_unversionedB env s d hs
  | reset =>
    obtain ⟨v0, raw0, leg0⟩ := s
    unfold call
    cases leg0 with
    | none => exact ⟨⟨hreset, fun k hk => by cases hk⟩, no⟩
    | some l =>
      dsimp only
      have hr := Legacy.reset_unversioned env l (hs.inner l rfl)
      generalize l.reset env = x at hr
      cases x with
      | ub u => trivial
      | ok m r => exact ⟨⟨hreset, fun k hk => by cases hk; exact hr⟩, no⟩
      | err m e => exact ⟨⟨hs.outer, fun k hk => by cases hk; exact hr⟩, no⟩
  | publicKey k =>
    unfold call
    dsimp only
    have hp := setPublicKey_rep env s.v k
    generalize s.v.setPublicKey env k = x at hp
    cases x with
    | ub u => trivial
    | ok w r => exact ⟨⟨by show Unversioned w.rep; rw [hp.1]; exact hs.outer, hs.inner⟩, no⟩
    | err w e => exact ⟨⟨by show Unversioned w.rep; rw [hp.1]; exact hs.outer, hs.inner⟩, no⟩

theorem fstep_unversionedB {env : AuthEnv} {s t : Session} {c : FCall} {o : AObs} (h : s.fstep env c = .ok (t, o)) (hs : s.BothUnversioned) :
    t.BothUnversioned ∧ ∀ p, o.report = some p → NoMismatch p := by
  cases c with
  | call c =>
    replace h : s.step env c = .ok (t, o) := h
    have hc := call_unversionedB env s c hs
    unfold step at h
    generalize s.call env c = x at h hc
    cases x with
    | ub u => cases h
    | ok u r => cases h; exact hc
    | err u e => cases h; exact hc
  | fetch =>
    replace h : Out.ok (s.fetch.1, AObs.mk none s.fetch.2) = .ok (t, o) := h
    cases h
    have hr : Unversioned s.rep := by
      unfold rep
      split
      · exact hs.outer
      · exact hs.inner _ ‹_›
    unfold fetch
    split
    · have hq := getReport_unversioned s.numItems hr
      refine ⟨?_, fun p hp => by cases hp; exact hq.2⟩
      show (s.withRep (getReport s.rep s.numItems).1).BothUnversioned
      unfold withRep
      split
      · rename_i e
        exact ⟨hq.1, fun l hl => by dsimp only at hl; rw [e] at hl; cases hl⟩
      · exact ⟨hs.outer, fun l hl => by cases hl; exact hq.1⟩
    · exact ⟨hs, fun p hp => by cases hp⟩

theorem frun_unversionedB {env : AuthEnv} {cs : List FCall} {s t : Session} {os : List AObs} (h : s.frun env cs = .ok (t, os))
    (hs : s.BothUnversioned) : ∀ o ∈ os, ∀ p, o.report = some p → NoMismatch p := by
  induction cs generalizing s os with
  | nil => cases h; intro o ho; cases ho
  | cons c cs ih =>
    obtain ⟨u, o, os', rfl, h1, h2⟩ := frun_cons h
    obtain ⟨hu, ho⟩ := fstep_unversionedB h1 hs
    intro q hq
    rcases List.mem_cons.1 hq with rfl | hq
    · exact ho
    · exact ih h2 hu q hq

end Session
end SV
