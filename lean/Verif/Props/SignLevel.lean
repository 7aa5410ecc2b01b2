import Verif.Props.SignGolden
import Verif.Proofs.SignAdds
/-! The authenticity level set by the user and golden SEIs: C90. -/
namespace SV
open Spec

/-- The authenticity level is GOP, and so it is in the SEI generated by the present call, if any. -/
def LowIs (s : Signer) : Prop := s.e.frameLevel = false ∧ ∀ g, s.signed = some g → g.e.frameLevel = false

def KeepsLow (s t : Signer) : Prop := LowIs s → LowIs t

theorem seiStart_level (o : SeiOpts) (e : EncState) : (seiStart o e).2.frameLevel = e.frameLevel :=
  congrArg Prod.snd (seiStart_addKey o e)

theorem low_next {α β : Type} {s : Signer} {r : Res Signer α} {f : Signer → α → Res Signer β} (h : r.All (KeepsLow s))
    (g : ∀ t a, (f t a).All (KeepsLow t)) : (r.andThen f).All (KeepsLow s) := by
  cases r with
  | ok t a => exact Res.All.mono (g t a) (fun u hu hs => hu (h hs))
  | err t e => exact h
  | ub u => trivial

theorem updateHash_low (s : Signer) (d : Bytes) : (updateHash s d).All (KeepsLow s) := by
  unfold updateHash
  split <;> first | trivial | exact id

theorem ofOut_low {α : Type} (s : Signer) (o : Out α) : (Res.ofOut s o).All (KeepsLow s) := by
  cases o <;> first | trivial | exact id

theorem simplyHash_low (hs : Hashing) (s : Signer) (d : Bytes) (f : Bool) : (simplyHash hs s d f).All (KeepsLow s) := by
  unfold simplyHash
  split
  · exact ofOut_low _ _
  · refine low_next (updateHash_low s d) (fun t _ => ?_)
    split <;> first | trivial | exact id

theorem hashAndAdd_low (hs : Hashing) (s : Signer) (n : Nalu) (f l : Bool) : (hashAndAdd hs s n f l).All (KeepsLow s) := by
  unfold hashAndAdd
  split
  · exact id
  · dsimp only
    generalize ht : (if (f && !l) = true then { s with secondary := .open [] } else s : Signer) = t
    have h0 : KeepsLow s t := by subst ht; split <;> exact id
    clear ht
    have onErr : ∀ r : Res Signer Unit, r.All (KeepsLow t) → (r.onErr fun s => { s with e := { s.e with hashList := none } }).All (KeepsLow s) := by
      intro r hr
      cases r with
      | ok u a => exact fun h => hr (h0 h)
      | err u a => exact fun h => hr (h0 h)
      | ub u => trivial
    apply onErr
    split
    · exact updateHash_low _ _
    · refine low_next ?_ (fun u a => ?_)
      · split
        · exact simplyHash_low _ _ _ _
        · split
          · exact low_next (simplyHash_low _ _ _ _) (fun u a => id)
          · exact low_next (simplyHash_low _ _ _ _) (fun u a => ofOut_low _ _)
      · show KeepsLow u _
        split <;> exact id

theorem generateSei_low (hs : Hashing) (s : Signer) (rc : Option Rc) : (generateSei hs s rc).All (KeepsLow s) := by
  have hfl : (seiStart s.opts s.encNow).2.frameLevel = s.e.frameLevel := seiStart_level s.opts s.encNow
  unfold generateSei
  split
  · exact id
  dsimp only
  split
  · trivial
  split
  · trivial
  · exact fun hb => ⟨hfl.trans hb.1, hb.2⟩
  · next fake hp =>
    have h3 : (hashAndAdd hs { s with e := (seiStart s.opts s.encNow).2 } fake true true).All (KeepsLow s) :=
      (hashAndAdd_low hs { s with e := (seiStart s.opts s.encNow).2 } fake true true).mono
        fun u hu hb => hu ⟨hfl.trans hb.1, hb.2⟩
    generalize hashAndAdd hs { s with e := (seiStart s.opts s.encNow).2 } fake true true = r at h3
    cases r with
    | ub u => trivial
    | err u e => exact h3
    | ok u a =>
      cases rc with
      | some e => exact h3
      | none =>
        intro hb
        refine ⟨(h3 hb).1, fun g hg => ?_⟩
        cases hg
        exact hb.1

theorem prepare_low (s : Signer) : (prepare s).All (KeepsLow s) := by
  unfold prepare
  dsimp only
  repeat' split
  all_goals exact id

theorem addPayload_low (s : Signer) (p : SeiSlot) : (addPayload s p).All (KeepsLow s) := by
  unfold addPayload
  repeat' split
  all_goals first | trivial | exact id

theorem endOfGop_low (hs : Hashing) (s : Signer) (ts : Option Int64) (rc : Option Rc) : (endOfGop hs s ts rc).All (KeepsLow s) := by
  unfold endOfGop
  split
  · dsimp only
    have h0 : KeepsLow s (stamp s ts) := by cases ts <;> exact id
    generalize stamp s ts = t at h0
    split
    · exact h0
    · trivial
    · next c h _ =>
      refine Res.All.mono (P := KeepsLow t) ?_ (fun u hu hs => hu (h0 hs))
      refine low_next (s := t) (generateSei_low hs { t with primary := c, e := { t.e with gopHash := h } } rc) (fun u p => ?_)
      exact low_next (addPayload_low u p) (fun v a => id)
  · exact id

theorem addNalu_low (hs : Hashing) (s : Signer) (d : Bytes) (ts : Option Int64) (l : Bool) (rc : Option Rc) :
    (addNalu hs s d ts l rc).All (KeepsLow s) := by
  unfold addNalu
  split
  · exact id
  · refine low_next ?_ (fun t p => ?_)
    · unfold nextPart
      repeat' split
      all_goals first | trivial | exact id
    · unfold addParsed
      refine low_next (prepare_low t) (fun t _ => ?_)
      split
      · exact id
      · refine low_next ?_ (fun t _ => ?_)
        · unfold countFrame
          dsimp only
          repeat' split
          all_goals first | trivial | exact id
        · refine low_next ?_ (fun t _ => ?_)
          · split
            · exact endOfGop_low hs t ts rc
            · exact id
          · refine low_next (hashAndAdd_low hs t _ _ _) (fun u a => ?_)
            show KeepsLow u _
            split <;> exact id

theorem fetch_low {s t : Signer} (h : FetchInv s t) : KeepsLow s t := by
  have := h.1
  unfold CompletedOnly at this
  rw [this]; exact id

theorem setting_low (hs : Hashing) (s : Signer) (x : Setting) (hl : ∀ l, x ≠ .level l) : (applySetting hs s x).All (KeepsLow s) := by
  cases x with
  | level l => exact absurd rfl (hl l)
  | _ =>
    unfold applySetting
    dsimp only
    repeat' split
    all_goals first | trivial | exact id

theorem plain_low {s : Signer} {r : Res Signer Unit} (h : r.All (KeepsLow s)) : (plain r).All (KeepsLow s) := by
  cases r <;> exact h

theorem signCall_low (hs : Hashing) (s : Signer) (c : SCall) (hc : Asks c = false) (hl : ∀ l, c ≠ .set (.level l)) : (signCall hs s c).All (KeepsLow s) := by
  cases c with
  | nalu d ts l rc => exact plain_low (addNalu_low hs s d ts l rc)
  | endOfStream rc sigs =>
    refine plain_low ?_
    unfold endOfStream
    refine low_next (prepare_low s) (fun t _ => ?_)
    refine low_next (generateSei_low hs t rc) (fun t p => ?_)
    exact low_next (addPayload_low t p) (fun t _ => (completeSeis_inv sigs t).mono fun u hu => fetch_low hu)
  | golden rc => cases hc
  | getSei c p sigs => exact (getSei_inv s c p sigs).mono fun t ht => fetch_low ht
  | prepend a b => exact (getPrepend_inv s a b).mono fun t ht => fetch_low ht
  | set x => exact plain_low (setting_low hs s x fun l h => hl l (by rw [h]))
  | reset => exact id

theorem signStep_low {hs : Hashing} {s t : Signer} {c : SCall} {o : Obs} (h : signStep hs s c = .ok (t, o))
    (hc : Asks c = false) (hl : ∀ l, c ≠ .set (.level l)) (h0 : s.e.frameLevel = false) :
    t.e.frameLevel = false ∧ ∀ g, o.signed = some g → g.e.frameLevel = false := by
  unfold signStep at h
  have h1 : (signCall hs { s with signed := none, got := [] } c).All LowIs :=
    (signCall_low hs { s with signed := none, got := [] } c hc hl).mono fun u hu => hu ⟨h0, fun g hg => by cases hg⟩
  generalize signCall hs { s with signed := none, got := [] } c = r at h h1
  cases r with
  | ok t b => cases h; exact h1
  | err t b => cases h; exact h1
  | ub u => cases h

/-- The authenticity level GOP, once accepted, holds for all SEIs that are not golden until the user sets another. -/
def C90_level_statement : Prop :=
  ∀ (hs : Hashing) (s t u : Signer) (o : Obs) (cs : List SCall) (os : List Obs),
    signStep hs s (.set (.level 0)) = .ok (t, o) → signRun hs t cs = .ok (u, os) → (∀ c ∈ cs, ∀ l, c ≠ .set (.level l)) →
    ∀ o ∈ os, ∀ g, o.signed = some g → g.o.golden = false → g.e.frameLevel = false

/-- **C90**: in every session the authenticity level GOP holds for all SEIs from then on, through failures and resets, until
the user sets another one.  Missing: histories in which a golden SEI is requested, for which it is false
(`C90_level_false`). -/
theorem C90_level_partial (hs : Hashing) (s t u : Signer) (o : Obs) (cs : List SCall) (os : List Obs)
    (h1 : signStep hs s (.set (.level 0)) = .ok (t, o)) (h2 : signRun hs t cs = .ok (u, os))
    (hl : ∀ c ∈ cs, ∀ l, c ≠ .set (.level l)) (hg : ∀ c ∈ cs, ∀ rc, c ≠ .golden rc) :
    ∀ o ∈ os, ∀ g, o.signed = some g → g.e.frameLevel = false := by
  have key : ∀ (cs : List SCall) (a : Signer) (os : List Obs), a.e.frameLevel = false → signRun hs a cs = .ok (u, os) →
      (∀ c ∈ cs, ∀ l, c ≠ .set (.level l)) → (∀ c ∈ cs, ∀ rc, c ≠ .golden rc) →
      ∀ o ∈ os, ∀ g, o.signed = some g → g.e.frameLevel = false := by
    intro cs
    induction cs with
    | nil => intro a os _ h _ _ o ho; unfold signRun at h; cases h; cases ho
    | cons x xs ih =>
      intro a os h0 h hl hg o ho
      obtain ⟨v, p, os', h3, h4, rfl⟩ := signRun_cons h
      have hx : Asks x = false := by
        cases x with
        | golden rc => exact absurd rfl (hg _ (List.mem_cons_self ..) rc)
        | _ => rfl
      have h5 := signStep_low h3 hx (hl x (List.mem_cons_self ..)) h0
      rcases List.mem_cons.1 ho with rfl | ho
      · exact h5.2
      · exact ih v os' h5.1 h4 (fun c hc => hl c (List.mem_cons_of_mem _ hc)) (fun c hc => hg c (List.mem_cons_of_mem _ hc)) o ho
  refine key cs t os ?_ h2 hl hg
  have h1 : Out.ok (_, _) = Out.ok (t, o) := h1
  cases h1
  rfl

/-- A new session that has got a private key. -/
def levelStart : Signer :=
  match signStep toyHashing (newSigner .h264 [0x60, 0x86] (2, 2, 0)) (.set (.privateKey (some ([9, 9, 9], 72)) true)) with
  | .ok p => p.1
  | _ => newSigner .h264 [0x60, 0x86] (2, 2, 0)

/-- A request for a golden SEI that fails, and two intra pictures. -/
def levelCalls (gold : List SCall) : List SCall := gold ++
  [.nalu [0, 0, 0, 1, 0x65, 0x88, 0x84, 0x80] none true none,
   .nalu [0, 0, 0, 1, 0x65, 0x88, 0x85, 0x80] none true none]

/-- The levels of the SEIs that are generated and not golden. -/
def levels (gold : List SCall) : Option (List Bool) :=
  match signStep toyHashing levelStart (.set (.level 0)) with
  | .ok p =>
    match signRun toyHashing p.1 (levelCalls gold) with
    | .ok q => some ((q.2.filterMap Obs.signed).filterMap fun g => if g.o.golden then none else some g.e.frameLevel)
    | _ => none
  | _ => none

/-- The hypotheses of `C90_level_partial` are met by a run in which a SEI is generated. -/
example : levels [] = some [false] := by decide +kernel

/-- **C90**: false in general.  A request for a golden SEI, even if it fails, sets the authenticity level to frame and does not
set it back (`signed_video_h26x_sign.c` 759), so that the next ordinary SEI has the level frame. -/
theorem C90_level_false : ¬ C90_level_statement := by
  intro h
  have hw : levels [.golden (some .externalError)] = some [true] := by decide +kernel
  unfold levels at hw
  split at hw
  · next p hp =>
    split at hw
    · next q hq =>
      have hq' := h toyHashing levelStart p.1 q.1 p.2 _ q.2 hp hq (by
        intro c hc l he
        subst he
        simp [levelCalls] at hc)
      have hm : true ∈ (q.2.filterMap Obs.signed).filterMap fun g => if g.o.golden then none else some g.e.frameLevel := by
        rw [Option.some.inj hw]; exact List.mem_cons_self ..
      obtain ⟨g, hg, he⟩ := List.mem_filterMap.1 hm
      obtain ⟨o, ho, hs⟩ := List.mem_filterMap.1 hg
      split at he
      · cases he
      · next hgo =>
        have := hq' o ho g hs (by simpa using hgo)
        rw [this] at he
        cases he
    · cases hw
  · cases hw

end SV
