import Verif.Proofs.AuthPaint
import Verif.Proofs.AuthRep
import Verif.Proofs.AuthHang
import Verif.Props.AuthDemo
/-!
C47: several GOPs validated by one call.
-/
namespace SV

namespace Spec

/-- A verdict that says something about the NAL units. -/
def Conclusive (a : Auth) : Prop := a = .notOk ∨ a = .okWithMissing ∨ a = .ok

instance (a : Auth) : Decidable (Conclusive a) := inferInstanceAs (Decidable (_ ∨ _))

/-- From the worst verdict to the best. -/
def goodness : Auth → Nat
  | .notOk => 0
  | .okWithMissing => 1
  | .ok => 2
  | _ => 3

/-- The worst verdict of a list: a verdict that says something is preferred, and none of these is worse. -/
structure Worst (vs : List Auth) (a : Auth) : Prop where
  mem : a ∈ vs
  le : ∀ v ∈ vs, Conclusive v → Conclusive a ∧ goodness a ≤ goodness v

end Spec

open Spec

namespace Validator

/-- The verdict on the GOP that is validated next by itself: what is reported if the round is the first one of a call. -/
def Own (env : AuthEnv) (s : Validator) (v : Auth) : Prop :=
  ∃ t, round env { s with flags := { s.flags with hasAuth := false } } = .ok t () ∧ t.rep.latest.auth = v

/-- The verdicts on the GOPs validated by one call, from the state in which its loop is entered. -/
inductive Verdicts (env : AuthEnv) : Validator → List Auth → Prop
  | done {s : Validator} : s.hasPending.2 = false → Verdicts env s []
  | stop {s t : Validator} {v : Auth} : s.hasPending.2 = true → s.hasPending.1.round env = .ok t () → t.flags.signing = false →
      Own env s.hasPending.1 v → Verdicts env s [v]
  | next {s t : Validator} {v : Auth} {vs : List Auth} : s.hasPending.2 = true → s.hasPending.1.round env = .ok t () →
      t.flags.signing = true → Own env s.hasPending.1 v → Verdicts env t vs → Verdicts env s (v :: vs)

theorem conclude_auth (t : Validator) (p : Bool × Int × Int) :
    ∃ v, (∀ a e r q h, ((t.paint a e r q h).conclude p).finish.rep.latest.auth = worse a v) ∧
      (t.flags.first = false → Conclusive v) := by
  let st := getStats t.list
  let v := verdict st t.flags.first p
  let retry := t.flags.first && decide (v ≠ .ok)
  refine ⟨if t.rep.latest.keyChanged then .notOk else if retry then .signaturePresent else v, fun a e r q h => rfl, fun hf => ?_⟩
  split
  · exact .inl rfl
  have hr : retry = false := by show (t.flags.first && _) = false; rw [hf]; rfl
  rw [if_neg (by rw [hr]; decide)]
  have hv : v = judge st false p.2.1 p.1 := by
    show verdict st t.flags.first p = _
    unfold verdict
    rw [hf]
    dsimp only
    rw [if_neg (by simp)]
  rw [hv]
  unfold judge
  dsimp only
  repeat' split
  all_goals first | exact .inl rfl | exact .inr (.inl rfl) | exact .inr (.inr rfl)

theorem round_own {env : AuthEnv} {s t : Validator} (hs : s.flags.signing = true) (h : s.round env = .ok t ()) :
    ∃ v, Own env s v ∧ t.rep.latest.auth = (if s.flags.hasAuth then worse s.rep.latest.auth v else v) ∧
      (s.flags.first = false → Conclusive v) ∧ t.flags.hasAuth = true ∧ t.flags.first = false ∧ t.flags.signing = true := by
  obtain ⟨u, v, w, p, h1, h2, h3, h4⟩ := round_ok hs h
  have hpr := (prepare_prep env s.begin).of_ok h1
  have hv : v.flags = u.flags ∧ v.rep = u.rep := by
    rcases updateLinkLoop_eq h2 with e | ⟨lk, a, e⟩
    · rw [e]; exact ⟨rfl, rfl⟩
    · rw [e]; exact ⟨rfl, rfl⟩
  have hw := (verifyGop_listed v).of_ok h3
  have hwf : w.flags = s.flags := by rw [hw.flags, hv.1, hpr.flags, begin_flags]
  obtain ⟨k, hh, ts, hl⟩ := hpr.latest
  have hwa : w.rep.latest.auth = s.begin.rep.latest.auth := by rw [hw.rep, hv.2, hl]
  obtain ⟨x, hx, hc⟩ := conclude_auth w p
  have hlast : (w.conclude p).finish.rep.latest.auth = worse w.rep.latest.auth x :=
    hx w.rep.latest.auth w.rep.latest.expected w.rep.latest.received w.rep.latest.pending w.flags.hasAuth
  refine ⟨x, ?_, ?_, ?_, ?_, ?_, ?_⟩
  · -- the round by itself
    have e0 : Validator.begin { s with flags := { s.flags with hasAuth := false } } =
        s.begin.paint .signaturePresent 0 0 (-1) false := by
      unfold Validator.begin
      rw [if_neg (show ¬ (false = true) by decide)]
      by_cases hb : s.flags.hasAuth = true
      · rw [if_pos hb]; rfl
      · rw [if_neg hb]; rfl
    have e1 : Validator.round env { s with flags := { s.flags with hasAuth := false } } =
        .ok ((w.paint .signaturePresent 0 0 (-1) false).conclude p).finish () := by
      unfold Validator.round
      rw [e0, prepare_paint, h1]
      show (match updateLinkLoop (u.paint .signaturePresent 0 0 (-1) false) u.list with | .ub u => _ | .err e => _ | .ok s => _) = _
      rw [updateLinkLoop_paint, h2]
      dsimp only
      unfold conduct
      rw [if_pos (show (v.paint .signaturePresent 0 0 (-1) false).flags.signing = true by
        show v.flags.signing = true; rw [hv.1, hpr.flags, begin_flags]; exact hs)]
      unfold validate
      rw [verifyGop_paint, h3]
      rfl
    refine ⟨_, e1, ?_⟩
    rw [hx]; rfl
  · rw [h4, hlast, hwa]
    unfold Validator.begin
    by_cases hb : s.flags.hasAuth = true
    · rw [if_pos hb, if_pos hb]
    · rw [if_neg hb, if_neg hb]; rfl
  · intro hf; exact hc (hwf ▸ hf)
  · rw [h4]; rfl
  · rw [h4]
    have : (w.conclude p).flags.signing = w.flags.signing := by
      show (if _ then _ else _ : VFlags).signing = _
      split <;> rfl
    show (!(w.conclude p).flags.signing) = false
    rw [this, hwf, hs]; rfl
  · rw [h4]
    have : (w.conclude p).flags.signing = w.flags.signing := by
      show (if _ then _ else _ : VFlags).signing = _
      split <;> rfl
    show (w.conclude p).flags.signing = true
    rw [this, hwf, hs]

theorem worse_spec {a v : Auth} (h : Conclusive v) : (worse a v = a ∨ worse a v = v) ∧ Conclusive (worse a v) ∧
    goodness (worse a v) ≤ goodness v ∧ (Conclusive a → goodness (worse a v) ≤ goodness a) := by
  rcases h with rfl | rfl | rfl <;> cases a <;> decide

/-- The verdicts of the rounds after the first one, put together with what is there. -/
theorem rounds_worst {env : AuthEnv} (k : Nat) {s u : Validator} (hs : s.flags.signing = true) (hf : s.flags.first = false)
    (ha : s.flags.hasAuth = true) (h : s.rounds env k = .ok u ()) :
    ∃ vs, Verdicts env s vs ∧ u.flags.hasAuth = true ∧ (u.rep.latest.auth = s.rep.latest.auth ∨ u.rep.latest.auth ∈ vs) ∧
      (Conclusive s.rep.latest.auth → Conclusive u.rep.latest.auth ∧ goodness u.rep.latest.auth ≤ goodness s.rep.latest.auth) ∧
      (∀ v ∈ vs, Conclusive u.rep.latest.auth ∧ goodness u.rep.latest.auth ≤ goodness v) ∧
      (vs ≠ [] → Conclusive u.rep.latest.auth) := by
  induction k generalizing s with
  | zero => cases h
  | succ k ih =>
    unfold rounds at h
    by_cases hp : s.hasPending.2 = true
    · rw [if_pos hp] at h
      obtain ⟨t, _, h1, h2⟩ := Res.andThen_eq_ok h
      obtain ⟨v, hv, hta, hvc, hth, htf, hts⟩ := round_own (s := s.hasPending.1) hs h1
      rw [if_pos hts] at h2
      obtain ⟨vs, g1, g2, g3, g4, g5, g6⟩ := ih hts htf hth h2
      have hta : t.rep.latest.auth = worse s.rep.latest.auth v := by
        rw [hta]; exact if_pos ha
      obtain ⟨w1, w2, w3, w4⟩ := worse_spec (a := s.rep.latest.auth) (hvc hf)
      rw [← hta] at w1 w2 w3 w4
      obtain ⟨c1, c2⟩ := g4 w2
      refine ⟨v :: vs, .next hp h1 hts hv g1, g2, ?_, ?_, ?_, fun _ => c1⟩
      · rcases g3 with e | e
        · rcases w1 with e' | e'
          · exact .inl (e.trans e')
          · exact .inr (by rw [e, e']; exact List.mem_cons_self)
        · exact .inr (List.mem_cons_of_mem _ e)
      · exact fun hc => ⟨c1, Nat.le_trans c2 (w4 hc)⟩
      · intro x hx
        rcases List.mem_cons.1 hx with rfl | hx
        · exact ⟨c1, Nat.le_trans c2 w3⟩
        · exact g5 x hx
    · rw [if_neg hp] at h
      cases h
      exact ⟨[], .done (by simpa using hp), ha, .inl rfl, fun hc => ⟨hc, Nat.le_refl _⟩, fun _ hv => (nomatch hv), fun hn => absurd rfl hn⟩

/-- The loop of a call. -/
theorem loop_worst {env : AuthEnv} {k : Nat} {s u : Validator} (ha : s.flags.hasAuth = false) (h : s.rounds env k = .ok u ()) :
    ∃ vs, Verdicts env s vs ∧ (vs ≠ [] → Worst vs u.rep.latest.auth) ∧ (u.flags.hasAuth = true ↔ vs ≠ []) := by
  cases k with
  | zero => cases h
  | succ k =>
    unfold rounds at h
    by_cases hp : s.hasPending.2 = true
    · rw [if_pos hp] at h
      obtain ⟨t, _, h1, h2⟩ := Res.andThen_eq_ok h
      by_cases hs : s.flags.signing = true
      · obtain ⟨v, hv, hta, -, hth, htf, hts⟩ := round_own (s := s.hasPending.1) hs h1
        rw [if_pos hts] at h2
        obtain ⟨vs, g1, g2, g3, g4, g5, g6⟩ := rounds_worst k hts htf hth h2
        have hta : t.rep.latest.auth = v := by rw [hta]; exact if_neg (by rw [show s.hasPending.1.flags.hasAuth = false from ha]; decide)
        rw [hta] at g3 g4
        refine ⟨v :: vs, .next hp h1 hts hv g1, fun _ => ⟨?_, ?_⟩, ⟨fun _ => by simp, fun _ => g2⟩⟩
        · rcases g3 with e | e
          · rw [e]; exact List.mem_cons_self
          · exact List.mem_cons_of_mem _ e
        · intro x hx hc
          rcases List.mem_cons.1 hx with rfl | hx
          · exact g4 hc
          · exact g5 x hx
      · have hs : s.flags.signing = false := by simpa using hs
        obtain ⟨r1, r2⟩ : t.flags.signing = false ∧ t.rep.latest.auth = .notSigned := by
          unfold Validator.round at h1
          obtain ⟨a, _, a1, a2⟩ := Res.andThen_eq_ok h1
          have hpr := (prepare_prep env s.hasPending.1.begin).of_ok a1
          split at a2
          · cases a2
          · cases a2
          · rename_i b hb
            have hbf : b.flags.signing = false := by
              rcases updateLinkLoop_eq hb with e | ⟨lk, i, e⟩
              · rw [e, hpr.flags, begin_flags]; exact hs
              · rw [e]; show a.flags.signing = false; rw [hpr.flags, begin_flags]; exact hs
            obtain ⟨c, _, c1, c2⟩ := Res.andThen_eq_ok a2
            unfold conduct at c1
            rw [if_neg (by rw [hbf]; decide)] at c1
            cases c1; cases c2
            exact ⟨hbf, rfl⟩
        rw [if_neg (by rw [r1]; decide)] at h2
        cases h2
        have e : ({ s.hasPending.1 with flags := { s.hasPending.1.flags with hasAuth := false } } : Validator) = s.hasPending.1 := by
          have : ({ s.flags with hasAuth := false } : VFlags) = s.flags := by rw [← ha]
          show ({ s.hasPending.1 with flags := { s.flags with hasAuth := false } } : Validator) = _
          rw [this]; rfl
        have hh : t.flags.hasAuth = true := by
          unfold Validator.round at h1
          obtain ⟨a, _, a1, a2⟩ := Res.andThen_eq_ok h1
          split at a2
          · cases a2
          · cases a2
          · obtain ⟨c, _, c1, c2⟩ := Res.andThen_eq_ok a2
            cases c2; rfl
        refine ⟨[.notSigned], .stop hp h1 r1 ⟨t, by rw [e]; exact h1, r2⟩, fun _ => ⟨?_, ?_⟩, ⟨fun _ => by simp, fun _ => hh⟩⟩
        · show t.rep.latest.auth ∈ _
          rw [r2]; exact List.mem_cons_self
        · intro x hx hc
          rcases List.mem_cons.1 hx with rfl | hx
          · exact absurd hc (by decide)
          · cases hx
    · rw [if_neg hp] at h
      cases h
      refine ⟨[], .done (by simpa using hp), fun hn => absurd rfl hn, ⟨fun hc => ?_, fun hn => absurd rfl hn⟩⟩
      rw [show s.hasPending.1.flags.hasAuth = false from ha] at hc; cases hc

/-- What a call does once its loop is entered. -/
theorem add_atLoop {env : AuthEnv} {s v : Validator} {data : Bytes} (h : atLoop env s data = some v) :
    s.add env data = (match v.rounds env env.rounds with
      | .ub u => .ub u | .err t e => t.addEnd (some e) | .ok t _ => t.addEnd none : Res Validator Unit).andThen
      (fun s _ => if s.legacy then .ok s none else s.report) ∧
    v.flags.hasAuth = false ∧ v.rep.thisVersion = s.rep.thisVersion ∧ v.legacy = false := by
  unfold atLoop at h
  unfold add addH26x
  by_cases hd : data = [] ∨ s.legacy = true
  · rw [if_pos hd] at h; cases h
  · rw [if_neg hd] at h
    have hd1 : ¬ data = [] := fun hc => hd (.inl hc)
    have hd2 : ¬ s.legacy = true := fun hc => hd (.inr hc)
    rw [if_neg hd1]
    dsimp only
    rw [if_neg hd1, if_neg hd2]
    cases hn : parseNalu data s.codec true true with
    | err e => rw [hn] at h; cases h
    | ub u => rw [hn] at h; cases h
    | ok n =>
      rw [hn] at h
      dsimp only at h ⊢
      by_cases hv : n.valid < 0
      · rw [if_pos hv] at h; cases h
      · rw [if_neg hv] at h
        unfold addBody
        dsimp only
        rw [if_neg hv]
        have hb := register_before env { s with
          started := true, hasReport := true
          flags := { s.flags with
            hasAuth := false, firstSei := !s.flags.signing && n.gopSei, signing := s.flags.signing || n.gopSei }
          rep := { s.rep with acc := { s.rep.acc with received := s.rep.acc.received + 1 } }
          list := s.list.append s.brk (newItem (some n)), brk := s.brk + 1 } s.brk n
        revert h hb
        generalize Validator.register env _ s.brk n = r
        cases r with
        | err s e => intro h; cases h
        | ub u => intro h; cases h
        | ok s1 a =>
          simp only [Res.andThen_ok]
          intro h hb
          have hb2 := hashAlgoBlock_before env s1 s.brk n
          revert h hb2
          generalize Validator.hashAlgoBlock env s1 _ n = r
          cases r with
          | err s e => intro h; cases h
          | ub u => intro h; cases h
          | ok s2 a =>
            simp only [Res.andThen_ok]
            intro h hb2
            unfold maybeValidate
            split at h
            · cases h
            · rename_i hl
              rw [if_neg hl]
              cases hx : s2.list.getLast? with
              | none => rw [hx] at h; cases h
              | some x =>
                rw [hx] at h
                dsimp only at h ⊢
                have hb3 := recurrentDecoded_decoded env s2
                cases hr : s2.recurrentDecoded env with
                | err s e => rw [hr] at h; cases h
                | ub u => rw [hr] at h; cases h
                | ok s3 b =>
                  rw [hr] at h hb3
                  dsimp only at h
                  rw [Res.andThen_ok]
                  by_cases hf : (feasible x.2 && b) = true
                  · rw [if_pos hf] at h
                    cases h
                    rw [hf]
                    simp only [Bool.not_true, Bool.false_eq_true, if_false]
                    have hb3 : Decoded s2 v := hb3
                    have hb2 : Before s1 s2 := hb2
                    refine ⟨rfl, ?_, ?_, ?_⟩
                    · rw [hb3.flags, hb2.flags]
                      exact (congrArg VFlags.hasAuth (Before.flags hb)).trans rfl
                    · rw [hb3.thisVersion, hb2.rep.this]
                      exact (RepKept.this (Before.rep hb)).trans rfl
                    · rw [hb3.legacy]; simpa using hl
                  · rw [if_neg hf] at h; cases h

end Validator

/-- **C47.** Whatever happened before, if a call enters the validation loop and gives a report, then GOPs were validated
and the verdict of the report is the worst of the verdicts on them: it is one of them, and as good as or worse than
every one that says something.  "Signature present" says nothing and is only reported if nothing else is to report. -/
theorem C47_worst {env : AuthEnv} {codec : Codec} {calls : List AuthCall} {s t v : Validator} {os : List AObs} {data : Bytes} {r : Report}
    (hist : authRun env (newValidator env codec) calls = .ok (s, os)) (hl : Validator.atLoop env s data = some v)
    (h : s.add env data = .ok t (some r)) : ∃ vs, Validator.Verdicts env v vs ∧ vs ≠ [] ∧ Worst vs r.latest.auth := by
  obtain ⟨e, ha, hv, hleg⟩ := Validator.add_atLoop hl
  have hthis : s.rep.thisVersion = [] := authRun_this (s := newValidator env codec) rfl hist
  rw [e] at h
  obtain ⟨w, _, h1, h2⟩ := Res.andThen_eq_ok h
  cases hr : v.rounds env env.rounds with
  | ub u => rw [hr] at h1; cases h1
  | err u c =>
    rw [hr] at h1
    unfold Validator.addEnd at h1
    obtain ⟨x, c2, _, h3⟩ := Res.andThen_eq_ok h1
    cases h3
  | ok u _ =>
    rw [hr] at h1
    have hu := (Validator.rounds_rep env env.rounds v).of_ok hr
    have hw := (Validator.addEnd_rep u none).of_ok h1
    obtain ⟨vs, g1, g2, g3⟩ := Validator.loop_worst ha hr
    split at h2
    · cases h2
    · unfold Validator.report at h2
      by_cases hh : w.flags.hasAuth = true
      · rw [if_pos hh] at h2
        have hne : vs ≠ [] := g3.1 (hw.2.1 ▸ hh)
        have hwt : w.rep.thisVersion = [] := by rw [hw.1.this, hu.this, hv, hthis]
        obtain ⟨r', e', ea, -⟩ := C25_never_mismatch w.rep w.list hwt
        rw [e'] at h2
        cases h2
        refine ⟨vs, g1, hne, ?_⟩
        have : (getReport r' (cleanUp w.list).length).2.latest.auth = u.rep.latest.auth := by
          rw [← hw.2.2, ← ea]; rfl
        rw [this]
        exact g2 hne
      · rw [if_neg hh] at h2; cases h2

/-- The verdicts on the GOPs validated by a call, computed. -/
def toyVerdicts (env : AuthEnv) : Nat → Validator → List Auth
  | 0, _ => []
  | k + 1, s =>
    if s.hasPending.2 then
      match s.hasPending.1.round env,
          Validator.round env { s.hasPending.1 with flags := { s.hasPending.1.flags with hasAuth := false } } with
      | .ok t _, .ok u _ => u.rep.latest.auth :: (if t.flags.signing then toyVerdicts env k t else [])
      | _, _ => []
    else []

/-- The hypotheses are met: an SEI is lost; when the next one arrives two GOPs are validated, one NOT OK and one OK, and
the report says NOT OK. -/
example : ∃ s os, authRun toyEnv (newValidator toyEnv .h264)
      ((((toySigned [] "IPPIPPIPPI").eraseIdx 8).take 11).map AuthCall.nalu) = .ok (s, os) ∧
    (let data := (((toySigned [] "IPPIPPIPPI").eraseIdx 8).drop 11).headD []
     match Validator.atLoop toyEnv s data, s.add toyEnv data with
     | some v, .ok _ (some r) =>
       decide (toyVerdicts toyEnv 10 v = [.notOk, .ok]) && decide (r.latest.auth = .notOk)
     | _, _ => false) = true :=
  authCheck toyEnv _ _ (fun s _ =>
    (let data := (((toySigned [] "IPPIPPIPPI").eraseIdx 8).drop 11).headD []
     match Validator.atLoop toyEnv s data, s.add toyEnv data with
     | some v, .ok _ (some r) =>
       decide (toyVerdicts toyEnv 10 v = [.notOk, .ok]) && decide (r.latest.auth = .notOk)
     | _, _ => false)) (by decide +kernel)

end SV
