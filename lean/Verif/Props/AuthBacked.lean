import Verif.Proofs.AuthVouch
import Verif.Props.AuthForge
import Verif.Props.AuthWorst
import Verif.Props.AuthHang
/-!
C41: what is behind a good verdict.
-/
namespace SV
open Spec

/-- The loop goes on from every state it comes through. -/
theorem Steps.from {env : AuthEnv} {k n : Nat} {s t u : Validator} (h : Steps env k s t) (hr : s.rounds env n = .ok u ()) :
    ∃ m, t.rounds env m = .ok u () := by
  induction h generalizing n with
  | zero s => exact ⟨n, hr⟩
  | @succ k s t w hp h1 hs _ ih =>
    cases n with
    | zero => cases hr
    | succ n =>
      rw [Validator.rounds, if_pos hp, h1, Res.andThen_ok, if_pos hs] at hr
      exact ih hr

theorem Steps.good {env : AuthEnv} {k : Nat} {s t : Validator} (g : Validator.Good s) (h : Steps env k s t) : Validator.Good t := by
  induction h with
  | zero s => exact g
  | @succ k s t u hp h1 hs _ ih =>
    refine ih ?_
    have : Validator.Good s.hasPending.1 := ⟨g.wf, g.kinds, g.tidy, g.used⟩
    exact ((Validator.good_inv env).round [] _ this).of_ok h1

/-- Before any round of a call no verdict is there; after it there is one. -/
theorem Steps.state {env : AuthEnv} {k : Nat} {s t : Validator} (hs : s.flags.signing = true) (h : Steps env k s t) :
    t.flags.signing = true ∧ (t = s ∨ t.flags.hasAuth = true ∧ t.flags.first = false) := by
  induction h with
  | zero s => exact ⟨hs, .inl rfl⟩
  | @succ k s t u hp h1 hs' _ ih =>
    obtain ⟨v, -, -, -, e1, e2, -⟩ := Validator.round_own (s := s.hasPending.1) hs h1
    obtain ⟨i1, i2⟩ := ih hs'
    refine ⟨i1, .inr ?_⟩
    rcases i2 with rfl | i2
    · exact ⟨e1, e2⟩
    · exact i2

theorem Conclusive.good {a b : Auth} (ha : a = .ok ∨ a = .okWithMissing) (h : goodness a ≤ goodness b) (hb : Conclusive b) :
    b = .ok ∨ b = .okWithMissing := by
  rcases ha with rfl | rfl <;> rcases hb with rfl | rfl | rfl <;> revert h <;> decide

theorem Validator.good_new (env : AuthEnv) (codec : Codec) : Validator.Good (newValidator env codec) where
  wf := ⟨List.nodup_nil, fun x hx => by cases hx⟩
  kinds := fun x hx => by cases hx
  tidy := trivial
  used := trivial

theorem Validator.round_plain {env : AuthEnv} {s t : Validator} (hs : s.flags.signing = false) (h1 : s.round env = .ok t ()) :
    t.flags.signing = false ∧ t.rep.latest.auth = .notSigned := by
  unfold Validator.round at h1
  obtain ⟨a, _, a1, a2⟩ := Res.andThen_eq_ok h1
  have hpr := (prepare_prep env s.begin).of_ok a1
  split at a2
  · cases a2
  · cases a2
  · rename_i b hb
    have hbf : b.flags.signing = false := by
      rcases updateLinkLoop_eq hb with e | ⟨lk, i, e⟩
      · rw [e, hpr.flags, begin_flags]; exact hs
      · rw [e]; show a.flags.signing = false; rw [hpr.flags, begin_flags]; exact hs
    obtain ⟨c, _, c1, c2⟩ := Res.andThen_eq_ok a2
    unfold conduct at c1
    rw [if_neg (by rw [hbf]; decide)] at c1
    cases c1; cases c2
    exact ⟨hbf, rfl⟩

/-- A verdict of a validation that says nothing is "signature present". -/
theorem Validator.round_says {env : AuthEnv} {s t : Validator} (hs : s.flags.signing = true) (ha : s.flags.hasAuth = false)
    (h : s.round env = .ok t ()) : Conclusive t.rep.latest.auth ∨ t.rep.latest.auth = .signaturePresent := by
  obtain ⟨u, v, w, p, h1, h2, h3, h4⟩ := round_ok hs h
  have hpr := (prepare_prep env s.begin).of_ok h1
  have hl := (verifyGop_listed v).of_ok h3
  have e : t.rep.latest.auth = worse w.rep.latest.auth (if w.rep.latest.keyChanged then .notOk else
      (if (w.flags.first && decide (verdict (getStats w.list) w.flags.first p ≠ .ok)) then .signaturePresent
        else verdict (getStats w.list) w.flags.first p)) := by rw [h4]; rfl
  have hv : ∀ st f, verdict st f p = .ok ∨ verdict st f p = .okWithMissing ∨ verdict st f p = .notOk ∨ verdict st f p = .signaturePresent := by
    intro st f
    unfold verdict judge
    dsimp only
    repeat' split
    all_goals simp
  have ho : w.rep.latest.auth = .signaturePresent := by
    rw [hl.rep]
    have : v.rep = u.rep := by rw [(updateLinkLoop_prep h2).2.2]
    rw [this]
    have hb : s.begin.rep.latest.auth = .signaturePresent := by
      unfold begin; rw [if_neg (by rw [ha]; decide)]
    rw [← hb]
    obtain ⟨k, hh, ts, e⟩ := hpr.latest
    rw [e]
  rw [e, ho]
  have hw : ∀ a, worse .signaturePresent a = a := fun a => by cases a <;> rfl
  rw [hw]
  split
  · exact .inl (.inl rfl)
  · split
    · exact .inr rfl
    · rcases hv (getStats w.list) w.flags.first with e | e | e | e <;> rw [e]
      · exact .inl (.inr (.inr rfl))
      · exact .inl (.inr (.inl rfl))
      · exact .inl (.inl rfl)
      · exact .inr rfl

theorem backed_signing {env : AuthEnv} {codec : Codec} {calls : List AuthCall} {s t v : Validator} {os : List AObs} {data : Bytes}
    {r : Report} (hist : authRun env (newValidator env codec) calls = .ok (s, os)) (hl : Validator.atLoop env s data = some v)
    (h : s.add env data = .ok t (some r)) (hgood : r.latest.auth = .ok ∨ r.latest.auth = .okWithMissing)
    (hv : ∀ k sig h, env.verify k sig h = 0 ∨ env.verify k sig h = 1) {k : Nat} {a b : Validator} (hk : Steps env k v a)
    (hp : a.hasPending.2 = true) (hr : a.hasPending.1.round env = .ok b ()) :
    (k = 0 ∧ a.flags.first = true ∧ b.rep.latest.auth = .signaturePresent) ∨
    a.flags.signing = true ∧ ∃ key, b.key = some key ∧ (r.latest.auth = .ok → b.rep.latest.auth = .ok) ∧
      (segment a.list ≠ [] → Backed env b key ((segment a.list).map (hashOf b.d.hashSize))) ∧
      ∀ x ∈ segment a.list, x.2.nalu.isSome = true ∧ ∃ y ∈ b.list, y.1 = x.1 ∧ y.2.status = .ok := by
  obtain ⟨e, hav, hv0, hleg⟩ := Validator.add_atLoop hl
  have hthis : s.rep.thisVersion = [] := authRun_this (s := newValidator env codec) rfl hist
  rw [e] at h
  obtain ⟨w, _, h1, h2⟩ := Res.andThen_eq_ok h
  cases hrr : v.rounds env env.rounds with
  | ub u => rw [hrr] at h1; cases h1
  | err u c =>
    rw [hrr] at h1
    unfold Validator.addEnd at h1
    obtain ⟨x, c2, _, h3⟩ := Res.andThen_eq_ok h1
    cases h3
  | ok u _ =>
    rw [hrr] at h1
    have hu := (Validator.rounds_rep env env.rounds v).of_ok hrr
    have hw := (Validator.addEnd_rep u none).of_ok h1
    have hfin : u.rep.latest.auth = r.latest.auth := by
      split at h2
      · cases h2
      · unfold Validator.report at h2
        by_cases hh : w.flags.hasAuth = true
        · rw [if_pos hh] at h2
          have hwt : w.rep.thisVersion = [] := by rw [hw.1.this, hu.this, hv0, hthis]
          obtain ⟨r', e', ea, -⟩ := C25_never_mismatch w.rep w.list hwt
          rw [e'] at h2
          cases h2
          rw [← hw.2.2, ← ea]; rfl
        · rw [if_neg hh] at h2; cases h2
    rw [← hfin] at hgood
    have gs : Validator.Good s := (Validator.good_inv env).run (L := []) (Validator.good_new env codec) hist
    have gv : Validator.Good v := (Validator.good_inv env).atLoop (L := []) gs hl
    have ga := Steps.good gv hk
    by_cases hsv : v.flags.signing = true
    · obtain ⟨sa, sb⟩ := Steps.state hsv hk
      obtain ⟨m, hm⟩ := Steps.from hk hrr
      cases m with
      | zero => cases hm
      | succ m =>
        rw [Validator.rounds, if_pos hp, hr, Res.andThen_ok] at hm
        obtain ⟨vv, -, e1, e2, e3, e4, e5⟩ := Validator.round_own (s := a.hasPending.1) sa hr
        rw [if_pos e5] at hm
        obtain ⟨vs, -, -, -, k4, -, -⟩ := Validator.rounds_worst m e5 e4 e3 hm
        have key : Conclusive b.rep.latest.auth ∨ (k = 0 ∧ a.flags.first = true ∧ b.rep.latest.auth = .signaturePresent) := by
          rcases sb with rfl | ⟨sb1, sb2⟩
          · by_cases hf : a.flags.first = true
            · rcases Validator.round_says (s := a.hasPending.1) sa hav hr with g | g
              · exact .inl g
              · refine .inr ⟨?_, hf, g⟩
                cases hk with
                | zero => rfl
                | succ hp' hr' hs' hk' =>
                  exfalso
                  rw [hr] at hr'
                  cases hr'
                  have := (Steps.state e5 hk').2
                  rcases this with h | ⟨-, h⟩
                  · rw [h] at hf; rw [e4] at hf; cases hf
                  · rw [h] at hf; cases hf
            · left
              rw [e1, if_neg (by rw [show a.hasPending.1.flags.hasAuth = false from hav]; decide)]
              exact e2 (show a.flags.first = false by simpa using hf)
          · left
            rw [e1, if_pos (show a.hasPending.1.flags.hasAuth = true from sb1)]
            exact (Validator.worse_spec (e2 sb2)).2.1
        rcases key with hc | hc
        · right
          have hb := Conclusive.good hgood (k4 hc).2 hc
          obtain ⟨key, r1, r2, r3⟩ := Validator.round_backed ga sa hp hv hr hb
          refine ⟨sa, key, r1, fun hok => ?_, r2, fun x hx => ⟨Validator.round_nalus ga sa hp hr x hx, r3 x hx⟩⟩
          have := (k4 hc).2
          rw [hfin, hok] at this
          rcases hb with e | e
          · exact e
          · rw [e] at this; exact absurd this (by decide)
        · exact .inl hc
    · exfalso
      have hsv : v.flags.signing = false := by simpa using hsv
      cases hk with
      | zero =>
        obtain ⟨r1, r2⟩ := Validator.round_plain (s := v.hasPending.1) hsv hr
        cases hn : env.rounds with
        | zero => rw [hn] at hrr; cases hrr
        | succ n =>
          rw [hn, Validator.rounds, if_pos hp, hr, Res.andThen_ok, if_neg (by rw [r1]; decide)] at hrr
          cases hrr
          rw [show b.hasPending.1.rep.latest.auth = .notSigned from r2] at hgood
          rcases hgood with h | h <;> cases h
      | succ hp' hr' hs' hk' =>
        obtain ⟨r1, -⟩ := Validator.round_plain (s := v.hasPending.1) hsv hr'
        rw [r1] at hs'; cases hs'

/-- **C41 in part.** Let `EVP_PKEY_verify` say "valid" or "not valid" (no error), and let a call in any history give a report
that says OK or OK WITH MISSING INFO. Then for every validation of this call, unless it was the first one and was taken
back, there is a public key with which the signature of the SEI holds, if any NAL unit was compared with the SEI, and the
hashes of all NAL units compared are committed to by what was decoded: by the GOP hash, or in this order by the list of
hashes, which has no other hashes if the report says OK. All these NAL units are marked as valid.

What is missing: an error of `EVP_PKEY_verify` and SEIs that nothing is compared with (`C41_verify_error_false`,
`C41_first_sei_false`). That what was decoded comes from this SEI is not said, and not true of the list of hashes
(`C42_injected_list_false`). -/
theorem C41_backed_partial {env : AuthEnv} {codec : Codec} {calls : List AuthCall} {s t v : Validator} {os : List AObs} {data : Bytes}
    {r : Report} (hist : authRun env (newValidator env codec) calls = .ok (s, os)) (hl : Validator.atLoop env s data = some v)
    (h : s.add env data = .ok t (some r)) (hgood : r.latest.auth = .ok ∨ r.latest.auth = .okWithMissing)
    (hv : ∀ k sig h, env.verify k sig h = 0 ∨ env.verify k sig h = 1) {k : Nat} {a b : Validator} (hk : Steps env k v a)
    (hp : a.hasPending.2 = true) (hr : a.hasPending.1.round env = .ok b ()) :
    (k = 0 ∧ a.flags.first = true ∧ b.rep.latest.auth = .signaturePresent) ∨
    ∃ key, b.key = some key ∧ (r.latest.auth = .ok → b.rep.latest.auth = .ok) ∧
      (segment a.list ≠ [] → Backed env b key ((segment a.list).map (hashOf b.d.hashSize))) ∧
      ∀ x ∈ segment a.list, x.2.nalu.isSome = true ∧ ∃ y ∈ b.list, y.1 = x.1 ∧ y.2.status = .ok :=
  (backed_signing hist hl h hgood hv hk hp hr).imp id fun h => h.2

/-- The hypotheses are met: in a signed stream the second SEI gives a report that says OK, and three NAL units are compared
with it in the only validation of this call, which is not the first one of the session. -/
example : ∃ s os, authRun toyEnv (newValidator toyEnv .h264) (((toySigned [] "IPPIPPI").take 8).map AuthCall.nalu) = .ok (s, os) ∧
    (let data := ((toySigned [] "IPPIPPI").drop 8).headD []
     match Validator.atLoop toyEnv s data, s.add toyEnv data with
     | some v, .ok _ (some r) =>
       decide (r.latest.auth = .ok) && v.hasPending.2 && decide ((segment v.list).length = 3) && !v.flags.first &&
         (match v.hasPending.1.round toyEnv with | .ok b _ => decide (b.rep.latest.auth = .ok) | _ => false)
     | _, _ => false) = true :=
  authCheck toyEnv _ _ (fun s _ =>
    (let data := ((toySigned [] "IPPIPPI").drop 8).headD []
     match Validator.atLoop toyEnv s data, s.add toyEnv data with
     | some v, .ok _ (some r) =>
       decide (r.latest.auth = .ok) && v.hasPending.2 && decide ((segment v.list).length = 3) && !v.flags.first &&
         (match v.hasPending.1.round toyEnv with | .ok b _ => decide (b.rep.latest.auth = .ok) | _ => false)
     | _, _ => false)) (by decide +kernel)

example : ∀ k sig h, toyEnv.verify k sig h = 0 ∨ toyEnv.verify k sig h = 1 := by
  intro k sig h
  show (if _ then _ else _ : Int) = 0 ∨ (if _ then _ else _ : Int) = 1
  split <;> simp

end SV
