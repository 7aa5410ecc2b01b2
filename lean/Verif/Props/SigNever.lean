import Verif.Proofs.AuthOther
import Verif.Props.SigSize
import Verif.Props.AuthBacked
import Verif.Props.AuthProduct
/-! A session never accepts a stream whose signatures have another size: C87. -/
namespace SV
open Spec Validator

theorem addEnd_some {b w : Validator} {e : Rc} (h : b.addEnd (some e) = .ok w ()) : False := by
  unfold Validator.addEnd at h
  obtain ⟨x, c2, _, h3⟩ := Res.andThen_eq_ok h
  cases h3

theorem addEnd_none {b w : Validator} (h : b.addEnd none = .ok w ()) : w = { b with list := w.list } := by
  unfold Validator.addEnd at h
  obtain ⟨x, c2, h1, h3⟩ := Res.andThen_eq_ok h
  have hx : x = { b with list := x.list } := by
    unfold copyLast at h1
    split at h1
    · cases h1
    · split at h1
      · cases h1
      · split at h1
        · cases h1
        · cases h1
        · cases h1; rfl
  cases c2 with
  | none => cases h3; exact hx
  | some e => cases h3

theorem report_some {w t : Validator} {r : Report} (h : (if w.legacy then .ok w none else w.report : Res Validator (Option Report)) = .ok t (some r)) :
    w.legacy = false ∧ w.flags.hasAuth = true ∧ (w.rep.thisVersion = [] → r.latest.auth = w.rep.latest.auth) := by
  split at h
  · cases h
  · rename_i hl
    unfold Validator.report at h
    by_cases hh : w.flags.hasAuth = true
    · rw [if_pos hh] at h
      refine ⟨by simpa using hl, hh, fun ht => ?_⟩
      obtain ⟨r', e', ea, -⟩ := C25_never_mismatch w.rep w.list ht
      rw [e'] at h
      cases h
      rw [← ea]; rfl
    · rw [if_neg hh] at h; cases h

/-- A report of a call that does not come to the validation loop says that there is a signature, or that the SEI is not valid. -/
theorem report_noLoop {env : AuthEnv} {s t : Validator} {data : Bytes} {r : Report} (hthis : s.rep.thisVersion = [])
    (h : s.add env data = .ok t (some r)) (hn : Validator.atLoop env s data = none) :
    r.latest.auth = .signaturePresent ∨ r.latest.auth = .notOk := by
  unfold Validator.atLoop at hn
  unfold Validator.add addH26x at h
  by_cases hd : data = [] ∨ s.legacy = true
  · exfalso
    rcases hd with hd | hd
    · rw [if_pos hd] at h; cases h
    · by_cases hd1 : data = []
      · rw [if_pos hd1] at h; cases h
      · rw [if_neg hd1] at h
        dsimp only at h
        rw [if_neg hd1, if_pos hd, Res.andThen_ok, if_pos hd] at h
        cases h
  · rw [if_neg hd] at hn
    have hd1 : ¬ data = [] := fun hc => hd (.inl hc)
    have hd2 : ¬ s.legacy = true := fun hc => hd (.inr hc)
    rw [if_neg hd1] at h
    dsimp only at h
    rw [if_neg hd1, if_neg hd2] at h
    cases hp : parseNalu data s.codec true true with
    | err e => rw [hp] at h; cases h
    | ub u => rw [hp] at h; cases h
    | ok n =>
      rw [hp] at h hn
      dsimp only at h hn
      obtain ⟨w, _, h1, h2⟩ := Res.andThen_eq_ok h
      obtain ⟨hw1, hw2, hw3⟩ := report_some h2
      unfold addBody at h1
      dsimp only at h1
      by_cases hv : n.valid < 0
      · exfalso
        rw [if_pos hv] at h1
        exact addEnd_some h1
      rw [if_neg hv] at h1 hn
      have hb := register_before env { s with
        started := true, hasReport := true
        flags := { s.flags with
          hasAuth := false, firstSei := !s.flags.signing && n.gopSei, signing := s.flags.signing || n.gopSei }
        rep := { s.rep with acc := { s.rep.acc with received := s.rep.acc.received + 1 } }
        list := s.list.append s.brk (newItem (some n)), brk := s.brk + 1 } s.brk n
      revert h1 hn hb
      generalize Validator.register env _ s.brk n = q
      cases q with
      | ub u => intro hn h1; cases h1
      | err u e => intro hn h1; exact (addEnd_some h1).elim
      | ok s1 a =>
        simp only [Res.andThen_ok]
        intro hn h1 hb
        have hb2 := hashAlgoBlock_before env s1 s.brk n
        revert h1 hn hb2
        generalize Validator.hashAlgoBlock env s1 _ n = q
        cases q with
        | ub u => intro hn h1; cases h1
        | err u e => intro hn h1; exact (addEnd_some h1).elim
        | ok s2 a =>
          simp only [Res.andThen_ok]
          intro hn h1 hb2
          have f2 : s2.flags.hasAuth = false := by
            rw [hb2.flags]
            exact (congrArg VFlags.hasAuth (Before.flags hb)).trans rfl
          have t2 : s2.rep.thisVersion = [] := by
            rw [hb2.rep.this]
            exact (RepKept.this (Before.rep hb)).trans hthis
          unfold maybeValidate at h1
          by_cases hl : s2.legacy = true
          · exfalso
            rw [if_pos hl] at h1
            rw [addEnd_none h1] at hw1
            rw [show s2.legacy = false from hw1] at hl
            cases hl
          rw [if_neg hl] at h1 hn
          cases hx : s2.list.getLast? with
          | none => rw [hx] at h1; cases h1
          | some x =>
            rw [hx] at h1 hn
            dsimp only at h1 hn
            have hb3 := recurrentDecoded_before env s2
            cases hr : s2.recurrentDecoded env with
            | ub u => rw [hr] at h1; cases h1
            | err u e => rw [hr] at h1; exact (addEnd_some h1).elim
            | ok s3 b =>
              rw [hr] at h1 hn hb3
              have hb3 : Before s2 s3 := hb3
              rw [Res.andThen_ok] at h1
              dsimp only at hn
              by_cases hf : (feasible x.2 && b) = true
              · rw [if_pos hf] at hn; cases hn
              · rw [if_pos (by rw [Bool.not_eq_true] at hf; rw [hf]; rfl)] at h1
                have e := addEnd_none h1
                by_cases hfs : s3.flags.firstSei = true
                · rw [if_pos hfs] at e
                  have ht : w.rep.thisVersion = [] := by
                    rw [e]
                    show (s3.firstSei n x.1).rep.thisVersion = []
                    rw [(firstSei_rep s3 n x.1).this, hb3.rep.this, t2]
                  rw [hw3 ht, e]
                  show (s3.firstSei n x.1).rep.latest.auth = _ ∨ (s3.firstSei n x.1).rep.latest.auth = _
                  unfold firstSei
                  dsimp only
                  by_cases hg : n.golden = true
                  · rw [if_pos hg]
                    split
                    · exact .inl rfl
                    · exact .inr rfl
                  · rw [if_neg hg]
                    exact .inl rfl
                · rw [if_neg hfs] at e
                  rw [e] at hw2
                  exfalso
                  have h3 : s3.flags.hasAuth = false := by rw [hb3.flags]; exact f2
                  rw [show s3.flags.hasAuth = true from hw2] at h3; cases h3

/-- A call that comes to the validation loop with a list in which all SEIs have another room reports neither OK nor OK with missing info. -/
theorem report_loop {env : AuthEnv} {s t v : Validator} {data : Bytes} {r : Report} {N : Nat} (hthis : s.rep.thisVersion = [])
    (h : s.add env data = .ok t (some r)) (hl : Validator.atLoop env s data = some v) (hr : Room N v) (ho : Others N v.list) :
    r.latest.auth = .notSigned := by
  obtain ⟨e, ha, ht, hleg⟩ := Validator.add_atLoop hl
  rw [e] at h
  obtain ⟨w, _, h1, h2⟩ := Res.andThen_eq_ok h
  obtain ⟨hw1, hw2, hw3⟩ := report_some h2
  cases hn : env.rounds with
  | zero => rw [hn] at h1; cases h1
  | succ k =>
    rw [hn, Validator.rounds] at h1
    by_cases hp : v.hasPending.2 = true
    · rw [if_pos hp] at h1
      cases hrd : v.hasPending.1.round env with
      | ub u => rw [hrd] at h1; cases h1
      | err u c => rw [hrd] at h1; exact (addEnd_some h1).elim
      | ok u y =>
        have hs : v.flags.signing = false := by
          cases hs : v.flags.signing with
          | false => rfl
          | true =>
            exfalso
            obtain ⟨x, hx⟩ := Validator.hasPending_sei hs hp
            obtain ⟨x1, _, m, hm, hg⟩ := Validator.nextSei_spec hx
            obtain ⟨d1, d2⟩ := ho x x1 m hm hg
            exact round_other (a := v.hasPending.1) hr hx d1 hm d2 hrd
        obtain ⟨r1, r2⟩ := Validator.round_plain (s := v.hasPending.1) hs hrd
        have hthisu : u.rep.thisVersion = [] := by
          have := (Validator.rounds_rep env 1 v)
          rw [Validator.rounds, if_pos hp, hrd, Res.andThen_ok, if_neg (by rw [r1]; decide)] at this
          exact (RepKept.this this).trans (ht.trans hthis)
        rw [hrd, Res.andThen_ok, if_neg (by rw [r1]; decide)] at h1
        have e := addEnd_none h1
        rw [hw3 (by rw [e]; exact hthisu), e]
        exact r2
    · exfalso
      rw [if_neg hp] at h1
      rw [addEnd_none h1] at hw2
      rw [show v.flags.hasAuth = true from hw2] at ha
      cases ha

/-- **C87**, what follows: a session in which a signature with room for `N` bytes was decoded never again accepts a stream whose SEIs all have
another room for the signature. Whatever calls were made before, also with the public key of the stream, and however often the session is reset: no
report says OK or OK WITH MISSING INFO. -/
theorem C87_never {env : AuthEnv} {codec : Codec} {before calls : List AuthCall} {s v : Validator} {os rs : List AObs} {N : Nat}
    (hist : authRun env (newValidator env codec) before = .ok (s, os)) (hN : s.d.maxSignature = some N)
    (hr : authRun env s (.reset :: calls) = .ok (v, rs)) (hc : ∀ d, .nalu d ∈ calls → OtherSei codec N d) :
    ∀ o ∈ rs, ∀ r, o.report = some r → r.latest.auth = .notSigned ∨ r.latest.auth = .signaturePresent ∨ r.latest.auth = .notOk := by
  have hthis : s.rep.thisVersion = [] := authRun_this (s := newValidator env codec) rfl hist
  have hg : Good s := (good_inv env).run (L := []) (good_new env codec) hist
  have hcod : s.codec = codec := (codec_inv env codec).run (L := []) (s := newValidator env codec) rfl hist
  unfold authRun at hr
  obtain ⟨⟨s1, o1⟩, hr1, hr2⟩ := Out.bind_eq_ok hr
  obtain ⟨⟨v', rs'⟩, hr3, hr4⟩ := Out.bind_eq_ok hr2
  cases hr4
  cases hr1
  have hb : OtherBase codec N s.reset ∧ ((∀ p ∈ ([] : Log), OtherSei codec N p.2) → Others N s.reset.list) :=
    ⟨(otherBase_step env codec N).reset [] s ⟨⟨hg, hcod⟩, hN⟩, fun _ x hx => by cases hx⟩
  have ht : s.reset.rep.thisVersion = [] := hthis
  have key : ∀ (cs : List AuthCall) (L : Log) (a b : Validator) (xs : List AObs), (∀ p ∈ L, OtherSei codec N p.2) →
      (OtherBase codec N a ∧ ((∀ p ∈ L, OtherSei codec N p.2) → Others N a.list)) → a.rep.thisVersion = [] →
      (∀ d, .nalu d ∈ cs → OtherSei codec N d) → authRun env a cs = .ok (b, xs) →
      ∀ o ∈ xs, ∀ r, o.report = some r → r.latest.auth = .notSigned ∨ r.latest.auth = .signaturePresent ∨ r.latest.auth = .notOk := by
    intro cs
    induction cs with
    | nil => intro L a b xs _ _ _ _ h o ho; cases h; cases ho
    | cons c cs ih =>
      intro L a b xs hL ha hta hcs h
      unfold authRun at h
      obtain ⟨⟨a1, o1⟩, h1, h2⟩ := Out.bind_eq_ok h
      obtain ⟨⟨b', xs'⟩, h3, h4⟩ := Out.bind_eq_ok h2
      cases h4
      have hL' : ∀ p ∈ logStep a L c, OtherSei codec N p.2 := by
        intro p hp
        cases c with
        | nalu d =>
          rw [logStep_nalu] at hp
          split at hp
          · exact hL p hp
          · split at hp
            · rcases List.mem_cons.1 hp with rfl | hp
              · exact hcs d List.mem_cons_self
              · exact hL p hp
            · exact hL p hp
        | reset => exact hL p hp
        | publicKey k => exact hL p hp
      have ha1 := (others_step env codec N).step ha h1
      have ht1 := call_this env a c hta
      unfold authStep at h1
      intro o ho r hor
      rcases List.mem_cons.1 ho with rfl | ho
      · cases c with
        | reset => cases h1; cases hor
        | publicKey k =>
          exfalso
          have h1 : (match ((a.setPublicKey env k).andThen fun s _ => .ok s none : Res Validator (Option Report)) with
            | .ok s r => .ok (s, ⟨none, r⟩) | .err s e => .ok (s, ⟨some e, none⟩) | .ub u => .ub u : Out (Validator × AObs)) = .ok (a1, o) := h1
          generalize a.setPublicKey env k = q at h1
          cases q <;> cases h1 <;> cases hor
        | nalu d =>
          have h1 : (match a.add env d with
            | .ok s r => .ok (s, ⟨none, r⟩) | .err s e => .ok (s, ⟨some e, none⟩) | .ub u => .ub u : Out (Validator × AObs)) = .ok (a1, o) := h1
          cases hadd : a.add env d with
          | ub u => rw [hadd] at h1; cases h1
          | err u e => rw [hadd] at h1; cases h1; cases hor
          | ok u rep =>
            rw [hadd] at h1
            cases h1
            have hor : rep = some r := hor
            subst hor
            cases hat : Validator.atLoop env a d with
            | none => exact .inr (report_noLoop hta hadd hat)
            | some w =>
              obtain ⟨w1, w2⟩ := (others_step env codec N).atLoop ha hat
              exact .inl (report_loop hta hadd hat w1.2 (w2 hL'))
      · refine ih (logStep a L c) a1 _ xs' hL' ha1 ?_ (fun d hd => hcs d (List.mem_cons_of_mem _ hd)) h3 o ho r hor
        generalize authCall env a c = q at h1 ht1
        cases q with
        | ub u => cases h1
        | err u e => cases h1; exact ht1
        | ok u r => cases h1; exact ht1
  intro o ho r hor
  rcases List.mem_cons.1 ho with rfl | ho
  · cases hor
  · exact key calls [] s.reset _ rs' (fun p hp => by cases hp) hb ht hc hr3 o ho r hor

/-- Whether a NAL unit is no SEI of the framework, or one with another room than `N`. -/
def otherSei (c : Codec) (N : Nat) (d : Bytes) : Bool :=
  match parseNalu d c true true with
  | .ok n => !n.gopSei || (sigRooms n.tlvSize (n.tlvMem.take n.tlvSize) n.tlvSize).any fun k => k != N
  | _ => true

theorem otherSei_of {c : Codec} {N : Nat} {d : Bytes} (h : otherSei c N d = true) : OtherSei c N d := by
  intro n hn hg
  unfold otherSei at h
  rw [hn] at h
  dsimp only at h
  rw [hg, Bool.not_true, Bool.false_or, List.any_eq_true] at h
  obtain ⟨k, hk, hne⟩ := h
  exact ⟨k, hk, by simpa using hne⟩

/-- The hypotheses of `C87_never` are met: the session has validated the first stream, is reset, and is given the second one, of which a new
session reports every GOP as OK (`sigB_new`). The stream has SEIs. -/
example : ∃ s os v rs, authRun polyEnv (newValidator polyEnv .h264) (sigA.map .nalu) = .ok (s, os) ∧ s.d.maxSignature = some 33 ∧
    authRun polyEnv s (.reset :: sigB.map .nalu) = .ok (v, rs) ∧ (∀ d, AuthCall.nalu d ∈ sigB.map .nalu → OtherSei .h264 33 d) ∧
    (∃ d ∈ sigB, ∃ n, parseNalu d .h264 true true = .ok n ∧ n.gopSei = true) ∧ ∃ o ∈ rs, o.report ≠ none := by
  obtain ⟨s, os, h, hp⟩ := authCheck polyEnv (newValidator polyEnv .h264) (sigA.map .nalu) (fun s _ => s.d.maxSignature == some 33 &&
    (match authRun polyEnv s (.reset :: sigB.map .nalu) with
      | .ok p => p.2.any fun o => o.report.isSome
      | _ => false)) (by decide +kernel)
  rw [Bool.and_eq_true, beq_iff_eq] at hp
  obtain ⟨h1, h2⟩ := hp
  split at h2
  · rename_i p hr
    have ha : sigB.all (otherSei .h264 33) = true := by decide +kernel
    have hs : sigB.any (fun d => match parseNalu d .h264 true true with | .ok n => n.gopSei | _ => false) = true := by decide +kernel
    rw [List.any_eq_true] at h2 hs
    rw [List.all_eq_true] at ha
    refine ⟨s, os, p.1, p.2, h, h1, hr, fun d hd => ?_, ?_, ?_⟩
    · obtain ⟨e, he, hde⟩ := List.mem_map.1 hd
      cases hde
      exact otherSei_of (ha d he)
    · obtain ⟨d, hd, hg⟩ := hs
      split at hg
      · rename_i n hn
        exact ⟨d, hd, n, hn, hg⟩
      · cases hg
    · obtain ⟨o, ho, hi⟩ := h2
      exact ⟨o, ho, fun e => by rw [e] at hi; cases hi⟩
  · cases h2

end SV
