import Verif.Props.SignLevel
import Verif.Props.Nalu
/-! Recurrent data after a reset: C91. -/
namespace SV
open Spec

/-- The SEI generated by the present call, if any, has the recurrent data. -/
def RecIs (s : Signer) : Prop := ∀ g, s.signed = some g → g.e.recurrent = true

def KeepsRec (s t : Signer) : Prop := RecIs s → RecIs t

theorem rec_next {α β : Type} {s : Signer} {r : Res Signer α} {f : Signer → α → Res Signer β} (h : r.All (KeepsRec s))
    (g : ∀ t a, (f t a).All (KeepsRec t)) : (r.andThen f).All (KeepsRec s) := by
  cases r with
  | ok t a => exact Res.All.mono (g t a) (fun u hu hs => hu (h hs))
  | err t e => exact h
  | ub u => trivial

theorem updateHash_rec (s : Signer) (d : Bytes) : (updateHash s d).All (KeepsRec s) := by
  unfold updateHash
  split <;> first | trivial | exact id

theorem ofOut_rec {α : Type} (s : Signer) (o : Out α) : (Res.ofOut s o).All (KeepsRec s) := by
  cases o <;> first | trivial | exact id

theorem simplyHash_rec (hs : Hashing) (s : Signer) (d : Bytes) (f : Bool) : (simplyHash hs s d f).All (KeepsRec s) := by
  unfold simplyHash
  split
  · exact ofOut_rec _ _
  · refine rec_next (updateHash_rec s d) (fun t _ => ?_)
    split <;> first | trivial | exact id

theorem hashAndAdd_rec (hs : Hashing) (s : Signer) (n : Nalu) (f l : Bool) : (hashAndAdd hs s n f l).All (KeepsRec s) := by
  unfold hashAndAdd
  split
  · exact id
  · dsimp only
    generalize ht : (if (f && !l) = true then { s with secondary := .open [] } else s : Signer) = t
    have h0 : KeepsRec s t := by subst ht; split <;> exact id
    clear ht
    have onErr : ∀ r : Res Signer Unit, r.All (KeepsRec t) → (r.onErr fun s => { s with e := { s.e with hashList := none } }).All (KeepsRec s) := by
      intro r hr
      cases r with
      | ok u a => exact fun h => hr (h0 h)
      | err u a => exact fun h => hr (h0 h)
      | ub u => trivial
    apply onErr
    split
    · exact updateHash_rec _ _
    · refine rec_next ?_ (fun u a => ?_)
      · split
        · exact simplyHash_rec _ _ _ _
        · split
          · exact rec_next (simplyHash_rec _ _ _ _) (fun u a => id)
          · exact rec_next (simplyHash_rec _ _ _ _) (fun u a => ofOut_rec _ _)
      · show KeepsRec u _
        split <;> exact id

theorem prepare_rec (s : Signer) : (prepare s).All (KeepsRec s) := by
  unfold prepare
  dsimp only
  repeat' split
  all_goals exact id

theorem addPayload_rec (s : Signer) (p : SeiSlot) : (addPayload s p).All (KeepsRec s) := by
  unfold addPayload
  repeat' split
  all_goals first | trivial | exact id

theorem generateSei_rec (hs : Hashing) (s : Signer) (rc : Option Rc) (hr : s.e.recurrent = true) :
    (generateSei hs s rc).All (KeepsRec s) := by
  unfold generateSei
  split
  · exact id
  dsimp only
  split
  · trivial
  split
  · trivial
  · exact id
  · next fake hp =>
    have h3 : (hashAndAdd hs { s with e := (seiStart s.opts s.encNow).2 } fake true true).All (KeepsRec s) :=
      hashAndAdd_rec hs { s with e := (seiStart s.opts s.encNow).2 } fake true true
    generalize hashAndAdd hs { s with e := (seiStart s.opts s.encNow).2 } fake true true = r at h3
    cases r with
    | ub u => trivial
    | err u e => exact h3
    | ok u a =>
      cases rc with
      | some e => exact h3
      | none =>
        intro _ g hg
        cases hg
        exact hr

theorem endOfGop_rec (hs : Hashing) (s : Signer) (ts : Option Int64) (rc : Option Rc) (hr : s.e.recurrent = true) :
    (endOfGop hs s ts rc).All (KeepsRec s) := by
  unfold endOfGop
  split
  · dsimp only
    have h0 : KeepsRec s (stamp s ts) := by cases ts <;> exact id
    have hr : (stamp s ts).e.recurrent = true := by cases ts <;> exact hr
    generalize stamp s ts = t at h0 hr
    split
    · exact h0
    · trivial
    · next c h _ =>
      refine Res.All.mono (P := KeepsRec t) ?_ (fun u hu hs => hu (h0 hs))
      refine rec_next (s := t) (generateSei_rec hs { t with primary := c, e := { t.e with gopHash := h } } rc hr) (fun u p => ?_)
      exact rec_next (addPayload_rec u p) (fun v a => id)
  · exact id

/-- The first slice of an intra picture is the first slice of a picture. -/
theorem first_primary {d : Bytes} {c : Codec} {a b : Bool} {n : Nalu} (h : parseNalu d c a b = .ok n) (hf : n.firstInGop = true) :
    n.primary = true := by
  by_cases hd : d = []
  · subst hd
    cases h
    cases hf
  · obtain ⟨t, v, prim, -, -, -, -, -, h1, h2⟩ := parseNalu_header d c a b n hd h
    rw [h1] at hf
    rw [h2]
    exact (Bool.and_eq_true_iff.1 hf).2

/-- **C91**: with the interval 1 every SEI generated for a NAL unit given as a whole has the recurrent data, in whatever state the
session is, also after a reset.  Missing: other intervals, for which it is false after a reset (`C91_false`; for sessions
without a reset see C39). -/
theorem C91_partial (hs : Hashing) (s t : Signer) (d : Bytes) (ts : Option Int64) (rc : Option Rc) (o : Obs) (g : Gen)
    (hl : s.lastIsLast = true) (h1 : s.recurrence = 1) (h : signStep hs s (.nalu d ts true rc) = .ok (t, o))
    (hg : o.signed = some g) : g.e.recurrent = true := by
  have key : (signCall hs { s with signed := none, got := [] } (.nalu d ts true rc)).All RecIs := by
    have h0 : RecIs { s with signed := none, got := [] } := fun g hg => by cases hg
    have hl : ({ s with signed := none, got := [] } : Signer).lastIsLast = true := hl
    have h1 : ({ s with signed := none, got := [] } : Signer).recurrence = 1 := h1
    generalize ({ s with signed := none, got := [] } : Signer) = a at h0 hl h1
    have : (addNalu hs a d ts true rc).All RecIs := by
      unfold addNalu
      split
      · exact h0
      unfold nextPart
      rw [if_pos hl]
      cases hp : parseNalu d a.codec true false with
      | ub u => trivial
      | err e => exact h0
      | ok n =>
        dsimp only [Res.andThen]
        unfold addParsed
        have h0 : RecIs { a with lastNalu := n, lastIsLast := true } := h0
        have h1 : ({ a with lastNalu := n, lastIsLast := true } : Signer).recurrence = 1 := h1
        generalize ({ a with lastNalu := n, lastIsLast := true } : Signer) = a at h0 h1
        have hp' : (prepare a).All fun u => RecIs u ∧ u.recurrence = 1 := by
          unfold prepare
          dsimp only
          repeat' split
          all_goals exact ⟨h0, h1⟩
        generalize prepare a = r at hp'
        cases r with
        | ub u => trivial
        | err u e => exact hp'.1
        | ok u x =>
          obtain ⟨h0, h1⟩ := hp'
          dsimp only [Res.andThen]
          split
          · exact h0
          have hc : (countFrame u n true).All fun w => RecIs w ∧ (n.firstInGop = true → w.e.recurrent = true) := by
            unfold countFrame
            cases hpr : n.primary with
            | false =>
              refine ⟨h0, fun hf => ?_⟩
              rw [first_primary hp hf] at hpr
              cases hpr
            | true =>
              have hm : u.frameCount % u.recurrence = 0 := by rw [h1]; omega
              simp only [hm, Bool.and_self, if_true]
              split
              · trivial
              · exact ⟨h0, fun _ => rfl⟩
          generalize countFrame u n true = r at hc
          cases r with
          | ub u => trivial
          | err u e => exact hc.1
          | ok w x =>
            obtain ⟨h0, h2⟩ := hc
            dsimp only [Res.andThen]
            refine Res.All.mono (P := KeepsRec w) ?_ (fun v hv => hv h0)
            refine rec_next (s := w) ?_ (fun v _ => rec_next (hashAndAdd_rec hs v n _ _) (fun z _ => ?_))
            · split
              · next hf => exact endOfGop_rec hs w ts rc (h2 (by simpa using hf))
              · exact id
            · show KeepsRec z _
              split <;> exact id
    show (plain (addNalu hs a d ts true rc)).All RecIs
    generalize addNalu hs a d ts true rc = r at this
    cases r <;> exact this
  unfold signStep at h
  generalize signCall hs { s with signed := none, got := [] } (.nalu d ts true rc) = r at h key
  cases r with
  | ok t b => cases h; exact key g hg
  | err t b => cases h; exact key g hg
  | ub u => cases h

/-- The first SEI generated after a reset has the recurrent data, as the first SEI of a session has. -/
def C91_statement : Prop :=
  ∀ (hs : Hashing) (codec : Codec) (oid : Bytes) (v : UInt8 × UInt8 × UInt8) (cs ds : List SCall) (s : Signer) (os : List Obs)
    (g : Gen), signRun hs (newSigner codec oid v) (cs ++ .reset :: ds) = .ok (s, os) → (∀ o ∈ os, o.rc = none) →
    ((os.drop cs.length).filterMap Obs.signed)[0]? = some g → g.e.recurrent = true

/-- A session with the interval `r`: a GOP, whose SEI is fetched, a reset and another GOP. -/
def againBefore (r : Nat) : List SCall :=
  [.set (.privateKey (some ([9, 9, 9], 72)) true), .set (.recurrence r),
   .nalu [0, 0, 0, 1, 0x65, 0x88, 0x84, 0x80] none true none,
   .nalu [0, 0, 0, 1, 0x65, 0x88, 0x85, 0x80] none true none,
   .getSei true none [.ok [1]]]

def againAfter : List SCall :=
  [.nalu [0, 0, 0, 1, 0x65, 0x88, 0x84, 0x80] none true none,
   .nalu [0, 0, 0, 1, 0x65, 0x88, 0x85, 0x80] none true none]

/-- Whether all calls succeed, and which SEIs have the recurrent data: those before the reset and those after. -/
def again (r : Nat) : Option (Bool × List Bool × List Bool) :=
  match signRun toyHashing (newSigner .h264 [0x60, 0x86] (2, 2, 0)) (againBefore r ++ .reset :: againAfter) with
  | .ok p => some (p.2.all fun o => o.rc.isNone, ((p.2.take 5).filterMap Obs.signed).map (·.e.recurrent),
      ((p.2.drop 5).filterMap Obs.signed).map (·.e.recurrent))
  | _ => none

/-- With the interval 1 the SEI after the reset has the data (`C91_partial`). -/
example : again 1 = some (true, [true], [true]) := by decide +kernel

/-- **C91**: false.  A reset does not set the number of frames back to zero (`signed_video_h26x_common.c` 1196-1227), so that with
an interval longer than one frame the first SEI of the next stream may come without public key, product information and
hash algorithm. -/
theorem C91_false : ¬ C91_statement := by
  intro h
  have hw : again 25 = some (true, [true], [false]) := by decide +kernel
  unfold again at hw
  split at hw
  · next p hp =>
    have hw := Option.some.inj hw
    have h1 := (Prod.mk.inj hw).1
    have h3 := (Prod.mk.inj (Prod.mk.inj hw).2).2
    cases hq : (p.2.drop 5).filterMap Obs.signed with
    | nil => rw [hq] at h3; cases h3
    | cons g gs =>
      have hr := h toyHashing .h264 [0x60, 0x86] (2, 2, 0) (againBefore 25) againAfter p.1 p.2 g hp
        (fun o ho => Option.isNone_iff_eq_none.1 (List.all_eq_true.1 h1 o ho))
        (by show ((p.2.drop 5).filterMap Obs.signed)[0]? = some g; rw [hq]; rfl)
      rw [hq] at h3
      have : g.e.recurrent = false := (List.cons.inj h3).1
      rw [hr] at this
      cases this
  · cases hw

end SV
