import Verif.Proofs.AuthSig
import Verif.Props.AuthHang
import Verif.Props.AuthForge
import Verif.Props.AuthReset
/-! The room for the signature is fixed by the first SEI: C87. -/
namespace SV
open Spec Validator

/-- **C87**, the full statement: what a session has validated before a reset does not matter. A stream that a new session takes without an
error is taken without an error by a session that was reset. -/
def C87_statement : Prop :=
  ∀ (env : AuthEnv) (codec : Codec) (before : List AuthCall) (s : Validator) (os : List AObs) (stream : List Bytes) (v : Validator)
    (rs : List AObs),
    authRun env (newValidator env codec) before = .ok (s, os) →
    authRun env (newValidator env codec) (stream.map .nalu) = .ok (v, rs) → (∀ o ∈ rs, o.rc = none) →
    ∃ v' rs', authRun env s (.reset :: stream.map .nalu) = .ok (v', rs') ∧ ∀ o ∈ rs', o.rc = none

/-- A new session has no room for a signature yet. -/
theorem C87_new (env : AuthEnv) (codec : Codec) : (newValidator env codec).d.maxSignature = none := rfl

/-- **C87**: a SEI that is decoded leaves room for exactly as many bytes as it has, and all its signature records have this room. -/
theorem C87_taken {env : AuthEnv} {s t : Validator} {x : Nat × Item} {n : Nalu} (hx : x.2.nalu = some n) (hd : x.2.decoded = false)
    (h : s.decodeNext env x = .ok t ()) (m : Nat) (hm : m ∈ sigRooms n.tlvSize (n.tlvMem.take n.tlvSize) n.tlvSize) :
    t.d.maxSignature = some m := by
  unfold decodeNext at h
  rw [if_neg (by rw [hd]; decide)] at h
  simp only [hx] at h
  cases hr : decodeSei env { s with rep := { s.rep with latest := { s.rep.latest with keyChanged := false } } } n.tlvMem n.tlvSize with
  | ub u => rw [hr] at h; cases h
  | err u c => rw [hr] at h; cases h
  | ok u y =>
    have hu : Room m u := by
      unfold decodeSei at hr
      split at hr
      · cases hr
      · rename_i hs
        unfold Validator.tlvDecode at hr
        rw [if_neg hs] at hr
        cases hl : Validator.tlvLoop env n.tlvSize { s with rep := { s.rep with latest := { s.rep.latest with keyChanged := false } } } n.tlvMem n.tlvSize with
        | ub u => rw [hl] at hr; cases hr
        | err u c => rw [hl] at hr; cases hr
        | ok w y =>
          rw [hl, Res.andThen_ok] at hr
          have hw := tlvLoop_room (env := env) n.tlvSize _ w n.tlvSize (List.take_prefix _ _) hl m hm
          have he : (Res.andThen (w.detectLost env) fun s _ =>
              (.ok (if s.gop.noEnd && s.gop.lost then { s with gop := { s.gop with transLost := true } } else s) () : Res Validator Unit)).Ends (Room m) := by
            refine Res.Ends.andThen' (detectLost_room hw) fun u _ _ hu => ?_
            show Room m (if _ then _ else _)
            split
            · exact hu
            · exact hu
          rw [hr] at he
          exact he
    rw [hr, Res.andThen_ok] at h
    split at h
    · cases h
    · cases h
      exact hu

/-- **C87**: the room for the signature is never changed again, whatever NAL units are added, also if the session is reset or if a public key
is set. -/
theorem C87_kept {env : AuthEnv} {s t : Validator} {n : Nat} (h : s.d.maxSignature = some n) {calls : List AuthCall} {os : List AObs}
    (hr : authRun env s calls = .ok (t, os)) : t.d.maxSignature = some n :=
  CallInv.run (room_inv env n) (L := []) h hr

theorem Steps.room {env : AuthEnv} {n k : Nat} {s t : Validator} (h : s.d.maxSignature = some n) (hs : Steps env k s t) :
    t.d.maxSignature = some n := by
  induction hs with
  | zero s => exact h
  | @succ k s t u hp hr hs _ ih =>
    refine ih ?_
    have := round_keeps (env := env) (n := n) (s := s.hasPending.1) h
    rw [hr] at this
    exact this

/-- A round with a SEI that has another room for the signature fails. -/
theorem round_other {env : AuthEnv} {n : Nat} {a b : Validator} (h : a.d.maxSignature = some n) {x : Nat × Item} (hx : nextSei a.list = some x)
    (hd : x.2.decoded = false) {m : Nalu} (hm : x.2.nalu = some m) (ho : OtherRoom m n) : a.round env ≠ .ok b () := by
  intro hr
  unfold round at hr
  have hb : a.begin.list = a.list ∧ Room n a.begin := by
    unfold Validator.begin
    split
    · exact ⟨rfl, h⟩
    · exact ⟨rfl, h⟩
  cases hp : a.begin.prepare env with
  | ub u => rw [hp] at hr; cases hr
  | err u c => rw [hp] at hr; cases hr
  | ok u y =>
    clear hr
    unfold Validator.prepare at hp
    rw [hb.1, hx] at hp
    dsimp only at hp
    cases he : a.begin.decodeNext env x with
    | ub u => rw [he] at hp; cases hp
    | err u c => rw [he] at hp; cases hp
    | ok w z =>
      obtain ⟨k, hk, hne⟩ := ho
      have h1 := C87_taken hm hd he k hk
      have h2 := decodeNext_keeps (env := env) hb.2 x
      rw [he] at h2
      exact hne (Option.some.inj (h1.symm.trans h2))

/-- **C87**, what holds: once a session has decoded a signature with room for `n` bytes, no validation ever succeeds again that is due to a
SEI with another room, whatever calls are made in between and also after a reset: the oldest pending SEI with another room makes the
validation fail, in every call and in every round.

Missing: that the stream is validated nevertheless. It is not (`C87_false`). -/
theorem C87_refused_partial {env : AuthEnv} {s t v a b : Validator} {n : Nat} (h : s.d.maxSignature = some n) {calls : List AuthCall} {os : List AObs}
    (hr : authRun env s calls = .ok (t, os)) {data : Bytes} (hl : Validator.atLoop env t data = some v) {k : Nat} (hs : Steps env k v a)
    {x : Nat × Item} (hx : nextSei a.list = some x) (hd : x.2.decoded = false) {m : Nalu} (hm : x.2.nalu = some m) (ho : OtherRoom m n) :
    a.hasPending.1.round env ≠ .ok b () := by
  have ht := C87_kept h hr
  have hv : v.d.maxSignature = some n := CallInv.atLoop (room_inv env n) (L := []) ht hl
  have ha := Steps.room hv hs
  exact round_other (a := a.hasPending.1) ha hx hd hm ho

/-- A stream with signatures of at most 33 bytes, and one with signatures of at most 40 bytes; the signatures used have 33 bytes in both. -/
def sigA : List Bytes := polyStream (polySigner 33 []) (polyNalus "IPPIPPI")
def sigB : List Bytes := polyStream (polySigner 40 []) (polyNalus "IPPIPPIPPI")

/-- A new session reports every GOP of the second stream as OK. -/
theorem sigB_new : ∃ v rs, authRun polyEnv (newValidator polyEnv .h264) (sigB.map .nalu) = .ok (v, rs) ∧ (∀ o ∈ rs, o.rc = none) ∧
    toyReports rs = [("IPPI", "PPPP", .notSigned), ("IPPIS", "...P.", .ok), ("ISPPIS", "....P.", .ok), ("ISPPIS", "....P.", .ok)] := by
  obtain ⟨v, rs, h, hp⟩ := authCheck polyEnv (newValidator polyEnv .h264) (sigB.map .nalu)
    (fun _ rs => rs.all (fun o => o.rc == none) && toyReports rs ==
      [("IPPI", "PPPP", .notSigned), ("IPPIS", "...P.", .ok), ("ISPPIS", "....P.", .ok), ("ISPPIS", "....P.", .ok)]) (by decide +kernel)
  simp only [Bool.and_eq_true, List.all_eq_true, beq_iff_eq] at hp
  exact ⟨v, rs, h, hp.1, hp.2⟩

/-- The reports on the second stream by a session that has validated the first one: none after the first SEI, and an error for every SEI. -/
def refusedB (s : Validator) (cs : List AuthCall) (reports : List (String × String × Auth)) : Bool :=
  match authRun polyEnv s cs with
  | .ok p => toyReports p.2 == reports && p.2.map AObs.rc ==
      (cs.map fun c => match c with
        | .nalu d => match parseNalu d .h264 true true with
          | .ok n => if n.gopSei then some Rc.memory else none
          | _ => none
        | _ => none)
  | _ => false

/-- **C87 does not hold.** A session that has validated a stream cannot validate a stream signed by a key with a larger signature, not even
after a reset: each SEI is refused with `SV_MEMORY`, and nothing is reported any more. -/
theorem C87_false : ¬ C87_statement := by
  intro h
  obtain ⟨v, rs, h1, h2, -⟩ := sigB_new
  obtain ⟨s, os, h3, h4⟩ := authCheck polyEnv (newValidator polyEnv .h264) (sigA.map .nalu) (fun s os => (match authRun polyEnv s (.reset :: sigB.map .nalu) with
    | .ok p => !(p.2.all fun o => o.rc == none) | _ => false)) (by decide +kernel)
  obtain ⟨v', rs', h5, h6⟩ := h polyEnv .h264 _ s os sigB v rs h3 h1 h2
  rw [h5] at h4
  simp only [Bool.not_eq_true', List.all_eq_false] at h4
  obtain ⟨o, ho, hn⟩ := h4
  exact hn (by rw [h6 o ho]; rfl)

/-- What is seen then: with a reset in between and without one. -/
theorem C87_seen : ∃ s os, authRun polyEnv (newValidator polyEnv .h264) (sigA.map .nalu) = .ok (s, os) ∧
    (∀ o ∈ os, o.rc = none) ∧ s.d.maxSignature = some 33 ∧
    refusedB s (sigB.map .nalu) [] = true ∧ refusedB s (.reset :: sigB.map .nalu) [("IPPI", "PPPP", .notSigned)] = true := by
  obtain ⟨s, os, h, hp⟩ := authCheck polyEnv (newValidator polyEnv .h264) (sigA.map .nalu) (fun s os => os.all (fun o => o.rc == none) && s.d.maxSignature == some 33 &&
    refusedB s (sigB.map .nalu) [] && refusedB s (.reset :: sigB.map .nalu) [("IPPI", "PPPP", .notSigned)]) (by decide +kernel)
  simp only [Bool.and_eq_true, List.all_eq_true, beq_iff_eq] at hp
  exact ⟨s, os, h, hp.1.1.1, hp.1.1.2, hp.1.2, hp.2⟩

/-- The oldest pending SEI has not been decoded and has another room than `n`. -/
def otherNext (v : Validator) (n : Nat) : Bool :=
  match nextSei v.list with
  | some x => !x.2.decoded && (match x.2.nalu with
    | some m => (sigRooms m.tlvSize (m.tlvMem.take m.tlvSize) m.tlvSize).any fun k => k != n
    | none => false)
  | none => false

theorem otherNext_of {v : Validator} {n : Nat} (h : otherNext v n = true) :
    ∃ x m, nextSei v.list = some x ∧ x.2.decoded = false ∧ x.2.nalu = some m ∧ OtherRoom m n := by
  unfold otherNext at h
  split at h
  · rename_i x hx
    rw [Bool.and_eq_true] at h
    obtain ⟨h1, h2⟩ := h
    split at h2
    · rename_i m hm
      rw [List.any_eq_true] at h2
      obtain ⟨k, hk, hne⟩ := h2
      exact ⟨x, m, hx, by simpa using h1, hm, k, hk, by simpa using hne⟩
    · cases h2
  · cases h

/-- The hypotheses of `C87_refused_partial` are met: a session that has validated the first stream is reset and receives the second one up
to its first SEI. -/
example : ∃ s os t os' v x m, authRun polyEnv (newValidator polyEnv .h264) (sigA.map .nalu) = .ok (s, os) ∧ s.d.maxSignature = some 33 ∧
    authRun polyEnv s (.reset :: (sigB.take 4).map .nalu) = .ok (t, os') ∧ Validator.atLoop polyEnv t (sigB.getD 4 []) = some v ∧
    Steps polyEnv 0 v v ∧ nextSei v.list = some x ∧ x.2.decoded = false ∧ x.2.nalu = some m ∧ OtherRoom m 33 ∧ v.hasPending.2 = true := by
  obtain ⟨s, os, h, hp⟩ := authCheck polyEnv (newValidator polyEnv .h264) (sigA.map .nalu) (fun s _ => s.d.maxSignature == some 33 &&
    (match authRun polyEnv s (.reset :: (sigB.take 4).map .nalu) with
      | .ok p => (match Validator.atLoop polyEnv p.1 (sigB.getD 4 []) with
        | some v => otherNext v 33 && v.hasPending.2
        | none => false)
      | _ => false)) (by decide +kernel)
  rw [Bool.and_eq_true, beq_iff_eq] at hp
  obtain ⟨h1, h2⟩ := hp
  split at h2
  · rename_i p hr
    split at h2
    · rename_i v hv
      rw [Bool.and_eq_true] at h2
      obtain ⟨x, m, h3, h4, h5, h6⟩ := otherNext_of h2.1
      exact ⟨s, os, p.1, p.2, v, x, m, h, h1, hr, hv, .zero v, h3, h4, h5, h6, h2.2⟩
    · cases h2
  · cases h2

end SV
