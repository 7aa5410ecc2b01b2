import Verif.Proofs.AuthKeyInv
import Verif.Props.AuthWorst
import Verif.Props.AuthHang
import Verif.Props.AuthForge
/-!
C48: a public key that changes.

`s.key` is the key that signatures are verified with.
-/
namespace SV

theorem Steps.keyInv {env : AuthEnv} {k : Nat} {v a : Validator} (h : Steps env k v a) (hv : Validator.KeyInv env v) :
    Validator.KeyInv env a := by
  induction h with
  | zero s => exact hv
  | @succ k s t u _ hr _ _ ih => exact ih ((Validator.round_inv (s := s.hasPending.1) hv).of_ok hr)

namespace Validator

/-- While a SEI is decoded: a key was known, and it is still the same or the change has been noticed. -/
def Noticed (env : AuthEnv) (o : Validator) (s : Validator) : Prop :=
  s.d.hasPublicKey = true ∧ (s.rep.latest.keyChanged = true ∨ s.d.publicKey = o.d.publicKey ∧
    (s.key = o.key ∨ s.key = some o.d.publicKey ∧ env.crypto.keyOk o.d.publicKey = true))

theorem decTag_noticed {env : AuthEnv} (hz : ∀ n, env.crypto.keyOk (List.replicate n 0) = false) {o s t : Validator}
    (h : Noticed env o s) {tag : UInt8} {mem : Bytes} {size : Nat} (e : s.decTag env tag mem size = .ok t ()) : Noticed env o t := by
  by_cases ht : tag = tagPublicKey
  · subst ht
    rw [decTag_publicKey] at e
    obtain ⟨e1, e2, e3, e4⟩ := decPublicKey_ok e
    refine ⟨e2, ?_⟩
    rcases h.2 with hc | hc
    · exact .inl (by rw [e4, hc]; rfl)
    · by_cases hk : t.d.publicKey = o.d.publicKey
      · exact .inr ⟨hk, .inr ⟨by rw [e1, hk], by rw [← hk]; exact e3⟩⟩
      · refine .inl ?_
        rw [e4, h.1, hc.1]
        split
        · simp [bne_iff_ne.2 hk]
        · have : t.d.publicKey ≠ List.replicate t.d.publicKey.length 0 := by
            intro hr
            rw [hr, hz] at e3
            cases e3
          simp [bne_iff_ne.2 this]
  · have := (decTag_key env s tag mem size ht).of_ok e
    unfold Noticed
    rw [this.has, this.flag, this.pub, this.key]; exact h

theorem tlvLoop_noticed {env : AuthEnv} (hz : ∀ n, env.crypto.keyOk (List.replicate n 0) = false) (j : Nat)
    {o s t : Validator} (h : Noticed env o s) {mem : Bytes} {size : Nat} (e : tlvLoop env j s mem size = .ok t ()) : Noticed env o t := by
  induction j generalizing s mem size with
  | zero => cases e; exact h
  | succ j ih =>
    unfold tlvLoop at e
    split at e
    · cases e; exact h
    · split at e
      · cases e
      · cases e
      · obtain ⟨u, _, e1, e2⟩ := Res.andThen_eq_ok e
        exact ih (decTag_noticed hz h e1) e2

/-- The SEI that is decoded for a validation. -/
theorem decodeNext_noticed {env : AuthEnv} (hz : ∀ n, env.crypto.keyOk (List.replicate n 0) = false) {s a : Validator}
    {x : Nat × Item} (hd : x.2.decoded = false) (hk : s.d.hasPublicKey = true) (e : s.decodeNext env x = .ok a ()) :
    Noticed env s a := by
  unfold decodeNext at e
  rw [if_neg (by rw [hd]; decide)] at e
  dsimp only at e
  split at e
  · cases e
  · obtain ⟨b, _, e1, e2⟩ := Res.andThen_eq_ok e
    split at e2
    · cases e2
    · cases e2
      unfold decodeSei at e1
      split at e1
      · cases e1
      · obtain ⟨c, _, e3, e4⟩ := Res.andThen_eq_ok e1
        obtain ⟨d, _, e5, e6⟩ := Res.andThen_eq_ok e4
        unfold tlvDecode at e3
        split at e3
        · cases e3
        have h3 : Noticed env s c := tlvLoop_noticed hz _
          (s := { s with rep := { s.rep with latest := { s.rep.latest with keyChanged := false } } })
          ⟨hk, .inr ⟨rfl, .inl rfl⟩⟩ e3
        have h5 := (detectLost_key env c).of_ok e5
        have h6 : Noticed env s d := by
          unfold Noticed
          rw [h5.has, h5.flag, h5.pub, h5.key]; exact h3
        cases e6
        show Noticed env s { (if _ then _ else d : Validator) with list := _, sigHash := _ }
        split
        · exact h6
        · exact h6

/-- The key and the flag at the end of a round are those after the preparation. -/
theorem round_parts {env : AuthEnv} {s t : Validator} (hs : s.flags.signing = true) (h : s.round env = .ok t ()) :
    ∃ u, s.begin.prepare env = .ok u () ∧ SameKey u t ∧ (u.rep.latest.keyChanged = true → t.rep.latest.auth = .notOk) := by
  obtain ⟨u, v, w, p, h1, h2, h3, rfl⟩ := round_ok hs h
  have g1 := updateLink_key h2
  have g2 := listed_key ((verifyGop_listed v).of_ok h3)
  have g := g1.trans g2
  refine ⟨u, h1, ⟨g.key, g.pub, g.has, g.flag⟩, fun hk => ?_⟩
  have hw : w.rep.latest.keyChanged = true := by rw [g.flag]; exact hk
  show worse w.rep.latest.auth (if w.rep.latest.keyChanged = true then Auth.notOk else _) = Auth.notOk
  rw [if_pos hw]
  cases w.rep.latest.auth <;> rfl

theorem prepare_decoded {env : AuthEnv} {s u : Validator} {x : Nat × Item} (hx : nextSei s.list = some x)
    (h : s.prepare env = .ok u ()) : ∃ a, s.decodeNext env x = .ok a () ∧ SameKey a u := by
  obtain ⟨a, b, c, h1, h2, h3, -, h5⟩ := prepare_ok hx h
  refine ⟨a, h1, ?_⟩
  have g := ((detectLost_key env a).of_ok h2).trans ((prepareGopHash_key env b x.1).of_ok h3)
  rcases h5 with ⟨_, h5⟩ | ⟨_, rfl⟩
  · exact g.trans ((verifyHash_key env c).of_ok h5)
  · exact g

theorem begin_same (s : Validator) : SameKey s s.begin := by
  unfold Validator.begin
  split
  · exact .rfl
  · exact ⟨rfl, rfl, rfl, rfl⟩

end Validator

open Spec

/-- **C48**, one validation: in a session that knows a public key, if the SEI that is decoded for the validation changes the
key that signatures are verified with, the change is flagged and the verdict is NOT OK, whatever the state. -/
theorem C48_round {env : AuthEnv} (hz : ∀ n, env.crypto.keyOk (List.replicate n 0) = false) {s t : Validator}
    (inv : Validator.KeyInv env s) (hs : s.flags.signing = true) (hk : s.d.hasPublicKey = true)
    (hx : ∀ x, nextSei s.list = some x → x.2.decoded = false) (h : s.round env = .ok t ()) (hc : t.key ≠ s.key) :
    t.rep.latest.keyChanged = true ∧ t.rep.latest.auth = .notOk := by
  obtain ⟨u, h1, g, hno⟩ := Validator.round_parts hs h
  have gb := Validator.begin_same s
  cases hn : nextSei s.list with
  | none =>
    -- no SEI, no change
    exfalso
    unfold Validator.prepare at h1
    rw [Validator.begin_list, hn] at h1
    dsimp only at h1
    rw [Res.andThen_ok] at h1
    have : Validator.SameKey s.begin u := by
      split at h1
      · cases h1
      · split at h1
        · exact (Validator.verifyHash_key env _).of_ok h1
        · cases h1; exact .rfl
    exact hc ((gb.trans this).trans g).key
  | some x =>
    obtain ⟨a, h2, g2⟩ := Validator.prepare_decoded (by rw [Validator.begin_list]; exact hn) h1
    have h3 := Validator.decodeNext_noticed hz (hx x hn) (by rw [gb.has]; exact hk) h2
    have gt := g2.trans g
    have hflag : a.rep.latest.keyChanged = true := by
      rcases h3.2 with e | e
      · exact e
      · exfalso
        rw [gb.pub, gb.key] at e
        rcases e.2 with e2 | ⟨e2, e3⟩
        · exact hc (gt.key.trans e2)
        · rcases inv hk with e4 | e4
          · exact hc ((gt.key.trans e2).trans e4.symm)
          · rw [e4] at e3; cases e3
    exact ⟨gt.flag.trans hflag, hno (g2.flag.trans hflag)⟩

namespace Validator

/-- A round validates the same with a fresh report, and the key is the same. -/
theorem round_fresh {env : AuthEnv} {s t : Validator} (hs : s.flags.signing = true) (h : s.round env = .ok t ()) :
    ∃ t', round env { s with flags := { s.flags with hasAuth := false } } = .ok t' () ∧ t'.key = t.key := by
  obtain ⟨u, v, w, p, h1, h2, h3, rfl⟩ := round_ok hs h
  have hpr := (prepare_prep env s.begin).of_ok h1
  have hv : v.flags = u.flags := by
    rcases updateLinkLoop_eq h2 with e | ⟨lk, a, e⟩
    · rw [e]
    · rw [e]
  have e0 : Validator.begin { s with flags := { s.flags with hasAuth := false } } =
      s.begin.paint .signaturePresent 0 0 (-1) false := by
    unfold Validator.begin
    rw [if_neg (show ¬ (false = true) by decide)]
    by_cases hb : s.flags.hasAuth = true
    · rw [if_pos hb]; rfl
    · rw [if_neg hb]; rfl
  refine ⟨((w.paint .signaturePresent 0 0 (-1) false).conclude p).finish, ?_, rfl⟩
  unfold Validator.round
  rw [e0, prepare_paint, h1]
  show (match updateLinkLoop (u.paint .signaturePresent 0 0 (-1) false) u.list with | .ub u => _ | .err e => _ | .ok s => _) = _
  rw [updateLinkLoop_paint, h2]
  dsimp only
  unfold conduct
  rw [if_pos (show (v.paint .signaturePresent 0 0 (-1) false).flags.signing = true by
    show v.flags.signing = true; rw [hv, hpr.flags, begin_flags]; exact hs)]
  unfold validate
  rw [verifyGop_paint, h3]
  rfl

/-- Each round of a call contributes its verdict. -/
theorem Verdicts.mem {env : AuthEnv} {k : Nat} {v a b : Validator} {vs : List Auth} (hv : Verdicts env v vs)
    (h : Steps env k v a) (hp : a.hasPending.2 = true) (hr : a.hasPending.1.round env = .ok b ()) :
    ∃ x ∈ vs, Own env a.hasPending.1 x := by
  induction h generalizing vs with
  | zero s =>
    cases hv with
    | done h => rw [hp] at h; cases h
    | stop _ _ _ ho => exact ⟨_, List.mem_cons_self, ho⟩
    | next _ _ _ ho _ => exact ⟨_, List.mem_cons_self, ho⟩
  | @succ k s t u hps hrs hss hst ih =>
    cases hv with
    | done h => rw [hps] at h; cases h
    | stop _ h1 h2 _ =>
      rw [hrs] at h1; cases h1
      rw [hss] at h2; cases h2
    | next _ h1 _ _ hv =>
      rw [hrs] at h1; cases h1
      obtain ⟨x, hx, ho⟩ := ih hv hp hr
      exact ⟨x, List.mem_cons_of_mem _ hx, ho⟩

end Validator

/-- **C48.** Whatever happened before: if one of the validations made by a call (after `k` others) uses a SEI that changes
the key that signatures are verified with, then the call reports NOT OK.  The session knows a public key, and the SEI was
not decoded before.  A key of zeros cannot be used (the comparison is with zeros if the length changes). -/
theorem C48_report {env : AuthEnv} (hz : ∀ n, env.crypto.keyOk (List.replicate n 0) = false) {codec : Codec}
    {calls : List AuthCall} {s t v a b : Validator} {os : List AObs} {data : Bytes} {r : Report} {k : Nat}
    (hist : authRun env (newValidator env codec) calls = .ok (s, os)) (hl : Validator.atLoop env s data = some v)
    (h : s.add env data = .ok t (some r)) (hsteps : Steps env k v a) (hs : a.flags.signing = true)
    (hp : a.hasPending.2 = true) (hr : a.hasPending.1.round env = .ok b ())
    (hk : a.d.hasPublicKey = true) (hx : ∀ x, nextSei a.list = some x → x.2.decoded = false) (hc : b.key ≠ a.key) :
    b.rep.latest.keyChanged = true ∧ r.latest.auth = .notOk := by
  have i0 : Validator.KeyInv env (newValidator env codec) := fun h => by cases h
  have i1 := (Validator.key_inv env).run (L := []) i0 hist
  have i2 := (Validator.key_inv env).atLoop (L := []) i1 hl
  have i3 : Validator.KeyInv env a := hsteps.keyInv i2
  obtain ⟨vs, h1, _, h3⟩ := C47_worst hist hl h
  obtain ⟨x, hm, ho⟩ := h1.mem hsteps hp hr
  obtain ⟨b', h4, h5⟩ := Validator.round_fresh (s := a.hasPending.1) hs hr
  obtain ⟨b'', h6, h7⟩ := ho
  rw [h4] at h6
  cases h6
  have hno := C48_round hz (s := { a.hasPending.1 with flags := { a.hasPending.1.flags with hasAuth := false } }) (t := b')
    i3 hs hk hx h4 (by rw [h5]; exact hc)
  have hb := C48_round hz (s := a.hasPending.1) i3 hs hk hx hr hc
  rw [hno.2] at h7
  subst h7
  obtain ⟨g1, g2⟩ := h3.le _ hm (.inl rfl)
  refine ⟨hb.1, ?_⟩
  rcases g1 with e | e | e
  · exact e
  · rw [e] at g2; exact absurd g2 (by decide)
  · rw [e] at g2; exact absurd g2 (by decide)

/-- **C48**, a SEI that had been decoded by a call that then failed: as long as the change is flagged, the verdict is
NOT OK. -/
theorem C48_decoded {env : AuthEnv} {s t : Validator} {x : Nat × Item} (hs : s.flags.signing = true)
    (hx : nextSei s.list = some x) (hd : x.2.decoded = true) (hc : s.rep.latest.keyChanged = true) (h : s.round env = .ok t ()) :
    t.rep.latest.keyChanged = true ∧ t.rep.latest.auth = .notOk := by
  obtain ⟨u, h1, g, hno⟩ := Validator.round_parts hs h
  obtain ⟨a, h2, g2⟩ := Validator.prepare_decoded (by rw [Validator.begin_list]; exact hx) h1
  unfold Validator.decodeNext at h2
  rw [if_pos hd] at h2
  cases h2
  have hf := ((Validator.begin_same s).trans g2).flag.trans hc
  exact ⟨g.flag.trans hf, hno hf⟩

/-! ### Examples, and where the property does not hold -/

/-- A toy signature that depends on the key. -/
def keySig (k : UInt8) (h : Bytes) : Bytes := k :: h

/-- A validator for these signatures. A key of zeros is not accepted. -/
def keyEnv : AuthEnv :=
  { polyEnv with
    crypto := ⟨polyEnv.crypto.oidHashSize, fun k => k.any (· != 0)⟩
    verify := fun k s h => if s = keySig (k.headD 0) h then 1 else 0 }

theorem keyEnv_zero (n : Nat) : keyEnv.crypto.keyOk (List.replicate n 0) = false := by
  show (List.replicate n (0 : UInt8)).any (· != 0) = false
  simp

/-- Sign NAL units with the key `k`; an empty NAL unit stands for a golden SEI. -/
def keyStream (k : UInt8) (s : Signer) : List Bytes → List Bytes
  | [] => []
  | n :: ns =>
    match signStep polyHashing s (if n = [] then .golden none else .nalu n none true none) with
    | .ok (s, o) =>
      match o.signed with
      | none => n :: keyStream k s ns
      | some g =>
        match signStep polyHashing s (.getSei true none [.ok (keySig k g.h)]) with
        | .ok (s, o) => (if n = [] then [] else [n]) ++ (o.sei.toList ++ keyStream k s ns)
        | _ => []
    | _ => []

/-- A signer with the key `k`. -/
def keySigner (k : UInt8) : Signer :=
  match signRun polyHashing toySigner [.set (.privateKey (some ([k, k, k], 33)) true)] with
  | .ok p => p.1
  | _ => toySigner

/-- A stream signed with the key `k`; `G` stands for a golden SEI. -/
def keySigned (k : UInt8) (types : String) : List Bytes :=
  keyStream k (keySigner k) (types.toList.zipIdx.map fun p => if p.1 = 'G' then [] else toyNalu p.1 (UInt8.ofNat (p.2 + 1)))

/-- The verdicts of a session, and whether the key was flagged as changed. -/
def keyReports (os : List AObs) : List (Auth × Bool) := os.filterMap fun o => o.report.map fun r => (r.latest.auth, r.latest.keyChanged)

/-- The hypotheses of `C48_report` are met: the stream is signed with another key than the one set by the user; the first
SEI changes the key. -/
example : ∃ s os, authRun keyEnv (newValidator keyEnv .h264) (.publicKey [9, 9, 9] :: ((keySigned 8 "IPPI").take 4).map .nalu) = .ok (s, os) ∧
    (let data := (keySigned 8 "IPPI").getD 4 []
     match Validator.atLoop keyEnv s data, s.add keyEnv data with
     | some v, .ok _ (some r) =>
       v.flags.signing && v.hasPending.2 && v.d.hasPublicKey && ((nextSei v.list).map (·.2.decoded) == some false) &&
       (match v.hasPending.1.round keyEnv with | .ok b _ => decide (b.key ≠ v.key) | _ => false) &&
       decide (r.latest.auth = .notOk)
     | _, _ => false) = true :=
  authCheck keyEnv _ _ (fun s _ =>
    (let data := (keySigned 8 "IPPI").getD 4 []
     match Validator.atLoop keyEnv s data, s.add keyEnv data with
     | some v, .ok _ (some r) =>
       v.flags.signing && v.hasPending.2 && v.d.hasPublicKey && ((nextSei v.list).map (·.2.decoded) == some false) &&
       (match v.hasPending.1.round keyEnv with | .ok b _ => decide (b.key ≠ v.key) | _ => false) &&
       decide (r.latest.auth = .notOk)
     | _, _ => false)) (by decide +kernel)

/-- **C48 does not hold (1): a golden SEI.** A golden SEI as the first SEI brings another key than the one set by the user.
The change is flagged, but the verdict is SIGNATURE PRESENT, and the following GOPs are OK with the new key. -/
theorem C48_golden_false :
    ∃ s os, authRun keyEnv (newValidator keyEnv .h264) (.publicKey [9, 9, 9] :: (keySigned 8 "GIPPIPPI").map .nalu) = .ok (s, os) ∧
      keyReports os = [(.signaturePresent, true), (.ok, false), (.ok, false)] ∧ s.key = some [8, 8, 8] := by
  obtain ⟨s, os, h, hp⟩ := authCheck keyEnv (newValidator keyEnv .h264) (.publicKey [9, 9, 9] :: (keySigned 8 "GIPPIPPI").map .nalu)
    (fun s os => decide (keyReports os = [(.signaturePresent, true), (.ok, false), (.ok, false)] ∧ s.key = some [8, 8, 8]))
    (by decide +kernel)
  exact ⟨s, os, h, of_decide_eq_true hp⟩

/-- A golden SEI with a wrong signature and the key `k`. -/
def badGolden (k : UInt8) : Bytes := let n := (keySigned k "G").getD 0 []; n.set (n.length - 20) 0x33

/-- **C48 does not hold (2): a key that is forgotten.** If a golden SEI as the first SEI is not authentic, the session
forgets that a public key was known.  The next SEI brings another key than the one in use, nothing is flagged, and the GOP
is reported OK. -/
theorem C48_forgotten_false :
    ∃ s s' os os', authRun keyEnv (newValidator keyEnv .h264) [.publicKey [9, 9, 9], .nalu (badGolden 7)] = .ok (s, os) ∧
      s.key = some [7, 7, 7] ∧ authRun keyEnv s ((keySigned 8 "IPPIPPI").map .nalu) = .ok (s', os') ∧
      keyReports os = [(.notOk, true)] ∧ keyReports os' = [(.ok, false), (.ok, false)] ∧ s'.key = some [8, 8, 8] := by
  obtain ⟨s, os, h, hp⟩ := authCheck keyEnv (newValidator keyEnv .h264) [.publicKey [9, 9, 9], .nalu (badGolden 7)]
    (fun s os => decide (keyReports os = [(.notOk, true)] ∧ s.key = some [7, 7, 7]) &&
      (match authRun keyEnv s ((keySigned 8 "IPPIPPI").map .nalu) with
       | .ok (s', os') => decide (keyReports os' = [(.ok, false), (.ok, false)] ∧ s'.key = some [8, 8, 8])
       | _ => false)) (by decide +kernel)
  rw [Bool.and_eq_true] at hp
  obtain ⟨h1, h2⟩ := of_decide_eq_true hp.1
  cases hr : authRun keyEnv s ((keySigned 8 "IPPIPPI").map .nalu) with
  | ub u => rw [hr] at hp; exact nomatch hp.2
  | err e => rw [hr] at hp; exact nomatch hp.2
  | ok q =>
    rw [hr] at hp
    obtain ⟨h3, h4⟩ := of_decide_eq_true hp.2
    exact ⟨s, q.1, os, q.2, h, h2, hr, h1, h3, h4⟩

end SV
