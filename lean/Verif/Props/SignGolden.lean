import Verif.Props.SignHist
import Verif.Proofs.SignCounter
import Verif.Props.SignSettings
/-! Golden SEIs are generated on request only, and a reset session can be set up again: C90. -/
namespace SV
open Spec

/-- The call asks for a golden SEI. -/
def Asks : SCall → Bool
  | .golden _ => true
  | _ => false

/-- The flag of a golden SEI is `b`, and so it is in the SEI generated by the present call, if any. -/
def GoldIs (b : Bool) (s : Signer) : Prop := s.golden = b ∧ ∀ g, s.signed = some g → g.o.golden = b

def KeepsGold (b : Bool) (s t : Signer) : Prop := GoldIs b s → GoldIs b t

section
variable {b : Bool}

theorem gold_next {α β : Type} {s : Signer} {r : Res Signer α} {f : Signer → α → Res Signer β} (h : r.All (KeepsGold b s))
    (g : ∀ t a, (f t a).All (KeepsGold b t)) : (r.andThen f).All (KeepsGold b s) := by
  cases r with
  | ok t a => exact Res.All.mono (g t a) (fun u hu hs => hu (h hs))
  | err t e => exact h
  | ub u => trivial

theorem updateHash_gold (s : Signer) (d : Bytes) : (updateHash s d).All (KeepsGold b s) := by
  unfold updateHash
  split <;> first | trivial | exact id

theorem ofOut_gold {α : Type} (s : Signer) (o : Out α) : (Res.ofOut s o).All (KeepsGold b s) := by
  cases o <;> first | trivial | exact id

theorem simplyHash_gold (hs : Hashing) (s : Signer) (d : Bytes) (f : Bool) : (simplyHash hs s d f).All (KeepsGold b s) := by
  unfold simplyHash
  split
  · exact ofOut_gold _ _
  · refine gold_next (updateHash_gold s d) (fun t _ => ?_)
    split <;> first | trivial | exact id

theorem hashAndAdd_gold (hs : Hashing) (s : Signer) (n : Nalu) (f l : Bool) : (hashAndAdd hs s n f l).All (KeepsGold b s) := by
  unfold hashAndAdd
  split
  · exact id
  · dsimp only
    generalize ht : (if (f && !l) = true then { s with secondary := .open [] } else s : Signer) = t
    have h0 : KeepsGold b s t := by subst ht; split <;> exact id
    clear ht
    have onErr : ∀ r : Res Signer Unit, r.All (KeepsGold b t) → (r.onErr fun s => { s with e := { s.e with hashList := none } }).All (KeepsGold b s) := by
      intro r hr
      cases r with
      | ok u a => exact fun h => hr (h0 h)
      | err u a => exact fun h => hr (h0 h)
      | ub u => trivial
    apply onErr
    split
    · exact updateHash_gold _ _
    · refine gold_next ?_ (fun u a => ?_)
      · split
        · exact simplyHash_gold _ _ _ _
        · split
          · exact gold_next (simplyHash_gold _ _ _ _) (fun u a => id)
          · exact gold_next (simplyHash_gold _ _ _ _) (fun u a => ofOut_gold _ _)
      · show KeepsGold b u _
        split <;> exact id

theorem generateSei_gold (hs : Hashing) (s : Signer) (rc : Option Rc) : (generateSei hs s rc).All (KeepsGold b s) := by
  unfold generateSei
  split
  · exact id
  dsimp only
  split
  · trivial
  split
  · trivial
  · exact id
  · next fake hp =>
    have h3 := hashAndAdd_gold (b := b) hs { s with e := (seiStart s.opts s.encNow).2 } fake true true
    generalize hashAndAdd hs { s with e := (seiStart s.opts s.encNow).2 } fake true true = r at h3
    cases r with
    | ub u => trivial
    | err u e => exact h3
    | ok u a =>
      cases rc with
      | some e => exact h3
      | none =>
        intro hb
        refine ⟨(h3 hb).1, fun g hg => ?_⟩
        cases hg
        exact hb.1

theorem prepare_gold (s : Signer) : (prepare s).All (KeepsGold b s) := by
  unfold prepare
  dsimp only
  repeat' split
  all_goals exact id

theorem addPayload_gold (s : Signer) (p : SeiSlot) : (addPayload s p).All (KeepsGold b s) := by
  unfold addPayload
  repeat' split
  all_goals first | trivial | exact id

theorem endOfGop_gold (hs : Hashing) (s : Signer) (ts : Option Int64) (rc : Option Rc) : (endOfGop hs s ts rc).All (KeepsGold b s) := by
  unfold endOfGop
  split
  · dsimp only
    have h0 : KeepsGold b s (stamp s ts) := by cases ts <;> exact id
    generalize stamp s ts = t at h0
    split
    · exact h0
    · trivial
    · next c h _ =>
      refine Res.All.mono (P := KeepsGold b t) ?_ (fun u hu hs => hu (h0 hs))
      refine gold_next (s := t) (generateSei_gold hs { t with primary := c, e := { t.e with gopHash := h } } rc) (fun u p => ?_)
      exact gold_next (addPayload_gold u p) (fun v a => id)
  · exact id

theorem addNalu_gold (hs : Hashing) (s : Signer) (d : Bytes) (ts : Option Int64) (l : Bool) (rc : Option Rc) :
    (addNalu hs s d ts l rc).All (KeepsGold b s) := by
  unfold addNalu
  split
  · exact id
  · refine gold_next ?_ (fun t p => ?_)
    · unfold nextPart
      repeat' split
      all_goals first | trivial | exact id
    · unfold addParsed
      refine gold_next (prepare_gold t) (fun t _ => ?_)
      split
      · exact id
      · refine gold_next ?_ (fun t _ => ?_)
        · unfold countFrame
          dsimp only
          repeat' split
          all_goals first | trivial | exact id
        · refine gold_next ?_ (fun t _ => ?_)
          · split
            · exact endOfGop_gold hs t ts rc
            · exact id
          · refine gold_next (hashAndAdd_gold hs t _ _ _) (fun u a => ?_)
            show KeepsGold b u _
            split <;> exact id

theorem fetch_gold {s t : Signer} (h : FetchInv s t) : KeepsGold b s t := by
  have := h.1
  unfold CompletedOnly at this
  rw [this]; exact id

theorem setting_gold (hs : Hashing) (s : Signer) (x : Setting) : (applySetting hs s x).All (KeepsGold b s) := by
  unfold applySetting
  dsimp only
  repeat' split
  all_goals first | trivial | exact id

theorem plain_gold {s : Signer} {r : Res Signer Unit} (h : r.All (KeepsGold b s)) : (plain r).All (KeepsGold b s) := by
  cases r <;> exact h

theorem signCall_gold (hs : Hashing) (s : Signer) (c : SCall) (hc : Asks c = false) : (signCall hs s c).All (KeepsGold b s) := by
  cases c with
  | nalu d ts l rc => exact plain_gold (addNalu_gold hs s d ts l rc)
  | endOfStream rc sigs =>
    refine plain_gold ?_
    unfold endOfStream
    refine gold_next (prepare_gold s) (fun t _ => ?_)
    refine gold_next (generateSei_gold hs t rc) (fun t p => ?_)
    exact gold_next (addPayload_gold t p) (fun t _ => (completeSeis_inv sigs t).mono fun u hu => fetch_gold hu)
  | golden rc => cases hc
  | getSei c p sigs => exact (getSei_inv s c p sigs).mono fun t ht => fetch_gold ht
  | prepend a b => exact (getPrepend_inv s a b).mono fun t ht => fetch_gold ht
  | set x => exact plain_gold (setting_gold hs s x)
  | reset => exact id

theorem goldenSei_gold (hs : Hashing) (s : Signer) (rc : Option Rc) (h0 : s.signed = none) :
    (goldenSei hs s rc).All (fun t => t.golden = false ∧ ∀ g, t.signed = some g → g.o.golden = true) := by
  unfold goldenSei
  dsimp only
  generalize ht : ({ s with golden := true, e := { s.e with recurrent := true, frameLevel := true } } : Signer) = t
  have hb : GoldIs true t := by
    subst ht
    refine ⟨rfl, fun g hg => ?_⟩
    rw [show s.signed = some g from hg] at h0
    cases h0
  have h : ((prepare t).andThen fun s _ => (generateSei hs s rc).andThen fun s p => addPayload s p).All (KeepsGold true t) :=
    gold_next (prepare_gold t) (fun u _ => gold_next (generateSei_gold hs u rc) (fun v p => addPayload_gold v p))
  split
  · next v a hr => rw [hr] at h; exact ⟨rfl, (h hb).2⟩
  · next v a hr => rw [hr] at h; exact ⟨rfl, (h hb).2⟩
  · trivial

theorem signStep_gold {hs : Hashing} {s t : Signer} {c : SCall} {o : Obs} (h : signStep hs s c = .ok (t, o))
    (h0 : s.golden = false) : t.golden = false ∧ ∀ g, o.signed = some g → g.o.golden = Asks c := by
  unfold signStep at h
  have h1 : (signCall hs { s with signed := none, got := [] } c).All
      (fun t => t.golden = false ∧ ∀ g, t.signed = some g → g.o.golden = Asks c) := by
    cases hc : Asks c with
    | false =>
      refine (signCall_gold (b := false) hs { s with signed := none, got := [] } c hc).mono fun u hu => hu ⟨h0, ?_⟩
      intro g hg; cases hg
    | true =>
      cases c with
      | golden rc =>
        have := goldenSei_gold hs { s with signed := none, got := [] } rc rfl
        show (plain (goldenSei hs { s with signed := none, got := [] } rc)).All _
        generalize goldenSei hs { s with signed := none, got := [] } rc = r at this
        cases r <;> exact this
      | _ => cases hc
  generalize signCall hs { s with signed := none, got := [] } c = r at h h1
  cases r with
  | ok t b => cases h; exact h1
  | err t b => cases h; exact h1
  | ub u => cases h

end

/-- **C90**: in every history of a session, with failures of the plugin and resets, the SEI that a call generates, if any, is
golden exactly if the call is the one that asks for a golden SEI; in
particular a request that fails does not make a later SEI golden. -/
theorem C90_golden (hs : Hashing) (codec : Codec) (oid : Bytes) (v : UInt8 × UInt8 × UInt8) (cs : List SCall) (s : Signer)
    (os : List Obs) (h : signRun hs (newSigner codec oid v) cs = .ok (s, os)) (k : Nat) (c : SCall) (o : Obs) (g : Gen)
    (hc : cs[k]? = some c) (ho : os[k]? = some o) (hg : o.signed = some g) :
    g.o.golden = true ↔ ∃ rc, c = .golden rc := by
  have key : ∀ (cs : List SCall) (a : Signer) (os : List Obs) (k : Nat), a.golden = false → signRun hs a cs = .ok (s, os) →
      cs[k]? = some c → os[k]? = some o → g.o.golden = Asks c := by
    intro cs
    induction cs with
    | nil => intro a os k _ _ hc; cases hc
    | cons x xs ih =>
      intro a os k h0 h hc ho
      obtain ⟨u, p, os', h1, h2, rfl⟩ := signRun_cons h
      have h3 := signStep_gold h1 h0
      cases k with
      | zero => cases hc; cases ho; exact h3.2 g hg
      | succ k => exact ih u os' k h3.1 h2 hc ho
  rw [key cs _ os k rfl h hc ho]
  cases c <;> simp [Asks]

/-- **C90**: after a reset, whatever happened before, the settings that signing had frozen can be changed again: the golden
SEI mode is accepted, and so is every hash algorithm that is known and has hashes of at most 64 bytes. -/
theorem C90_thawed (hs : Hashing) (s : Signer) (x : Setting) (hx : Frozen x)
    (hk : ∀ name, x = .hashAlgo name → ∃ id n, hs.algo name = some (id, n) ∧ 0 < n ∧ n ≤ 64) :
    ∃ t, signRun hs s [.reset, .set x] = .ok (t, [{ pending := s.idx }, { pending := s.idx }]) ∧
      (∀ m, x = .usingGolden m → t.usingGolden = m) ∧
      ∀ name id n, x = .hashAlgo name → hs.algo name = some (id, n) → t.e.oid = id ∧ t.e.hashSize = n := by
  cases x with
  | usingGolden m =>
    refine ⟨_, rfl, ?_, ?_⟩
    · intro m' h; cases h; rfl
    · intro _ _ _ h; cases h
  | hashAlgo name =>
    obtain ⟨id, n, h1, h2, h3⟩ := hk name rfl
    have h4 : ¬ (n = 0 ∨ n > 64) := by omega
    have hst : ∀ u : Signer, u.started = false → applySetting hs u (.hashAlgo name) = .ok { u with
            primary := .null, secondary := .open []
            e := { u.e with oid := id, hashSize := n, linkedHash := List.replicate n 0, gopHash := List.replicate n 0 }
            linkedNew := List.replicate n 0, ref := List.replicate n 0 } () := by
      intro u hu
      simp only [applySetting, hu, h1, if_neg h4]
      rfl
    refine ⟨{ ({ resetSigner { s with signed := none, got := [] } with signed := none, got := [] } : Signer) with
            primary := .null, secondary := .open []
            e := { (resetSigner { s with signed := none, got := [] }).e with oid := id, hashSize := n, linkedHash := List.replicate n 0, gopHash := List.replicate n 0 }
            linkedNew := List.replicate n 0, ref := List.replicate n 0 }, ?_, ?_, ?_⟩
    · have e1 : signStep hs s .reset = .ok (resetSigner { s with signed := none, got := [] }, { pending := s.idx }) := rfl
      have e2 := hst { resetSigner { s with signed := none, got := [] } with signed := none, got := [] } rfl
      simp only [signRun, e1, Out.bind_ok]
      unfold signStep signCall
      simp only [e2]
      rfl
    · intro _ h; cases h
    · intro nm i m h h'
      cases h
      rw [h1] at h'
      cases h'
      exact ⟨rfl, rfl⟩
  | _ => cases hx

/-- Two requests for golden SEIs, the first of which the plugin refuses, among NAL units, and a reset. -/
def goldCalls : List SCall :=
  [.set (.privateKey (some ([9, 9, 9], 72)) true),
   .golden (some .externalError),
   .nalu [0, 0, 0, 1, 0x65, 0x88, 0x84, 0x80] none true none,
   .nalu [0, 0, 0, 1, 0x65, 0x88, 0x85, 0x80] none true none,
   .getSei true none [.ok [1]],
   .golden none,
   .getSei true none [.ok [2, 3]],
   .reset,
   .endOfStream none [.ok [4, 4]]]

/-- Which calls generate a SEI, and whether it is golden. -/
def goldMarks (r : Out (Signer × List Obs)) : Option (List (Option Bool)) :=
  match r with
  | .ok p => some (p.2.map fun o => o.signed.map fun g => g.o.golden)
  | _ => none

/-- The hypotheses of `C90_golden` are met with SEIs of both kinds, also after a request that failed. -/
example : goldMarks (signRun toyHashing (newSigner .h264 [0x60, 0x86] (2, 2, 0)) goldCalls) =
    some [none, none, none, some false, none, some true, none, none, some false] := by decide +kernel

/-- A setting that signing froze (`C90_thawed`). -/
example : Frozen (.usingGolden true) ∧ ∀ name, Setting.usingGolden true = .hashAlgo name →
    ∃ id n, toyHashing.algo name = some (id, n) ∧ 0 < n ∧ n ≤ 64 := ⟨trivial, fun _ h => by cases h⟩

end SV
