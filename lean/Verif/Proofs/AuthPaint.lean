import Verif.Proofs.AuthLoop
/-!
The verdict and the numbers of the report do not influence a round: they can be overwritten before it or after it.
-/
namespace SV

/-- Change the state an outcome carries. -/
def Res.paintR {σ α : Type} (f : σ → σ) : Res σ α → Res σ α
  | .ok s a => .ok (f s) a
  | .err s e => .err (f s) e
  | .ub u => .ub u

theorem Res.paintR_andThen {σ α β : Type} {f : σ → σ} {r : Res σ α} {g g' : σ → α → Res σ β}
    (h : ∀ s a, g' (f s) a = (g s a).paintR f) : (r.paintR f).andThen g' = (r.andThen g).paintR f := by
  cases r with
  | ok s a => exact h s a
  | err s e => rfl
  | ub u => rfl

theorem Res.paintR_andThen' {σ α β : Type} {f : σ → σ} {r r' : Res σ α} {g g' : σ → α → Res σ β}
    (hr : r' = r.paintR f) (h : ∀ s a, g' (f s) a = (g s a).paintR f) : r'.andThen g' = (r.andThen g).paintR f := by
  rw [hr]; exact Res.paintR_andThen h

theorem Res.paintR_ite {σ α : Type} {f : σ → σ} {c c' : Prop} [Decidable c] [Decidable c'] {x y x' y' : Res σ α} (h : c' ↔ c)
    (hx : x' = x.paintR f) (hy : y' = y.paintR f) : (if c' then x' else y') = (if c then x else y).paintR f := by
  by_cases hc : c
  · rw [if_pos hc, if_pos (h.mpr hc), hx]
  · rw [if_neg hc, if_neg fun g => hc (h.mp g), hy]

namespace Validator
set_option linter.unusedSimpArgs false

/-- Overwrite the verdict, the numbers of the latest validation, and the flag that there is one. -/
def paint (a : Auth) (e r p : Int) (h : Bool) (s : Validator) : Validator :=
  { s with
    flags := { s.flags with hasAuth := h }
    rep := { s.rep with latest := { s.rep.latest with auth := a, expected := e, received := r, pending := p } } }

variable {a : Auth} {e r p : Int} {h : Bool}

theorem paint_dec (s : Validator) : (s.paint a e r p h).dec = s.dec := rfl
theorem paint_list (s : Validator) : (s.paint a e r p h).list = s.list := rfl
theorem paint_d (s : Validator) : (s.paint a e r p h).d = s.d := rfl
theorem paint_key (s : Validator) : (s.paint a e r p h).key = s.key := rfl
theorem paint_latestGop (s : Validator) : (s.paint a e r p h).latestGop = s.latestGop := rfl
theorem paint_brk (s : Validator) : (s.paint a e r p h).brk = s.brk := rfl
theorem paint_gop (s : Validator) : (s.paint a e r p h).gop = s.gop := rfl
theorem paint_signing (s : Validator) : (s.paint a e r p h).flags.signing = s.flags.signing := rfl
theorem paint_first (s : Validator) : (s.paint a e r p h).flags.first = s.flags.first := rfl
theorem paint_linkedOk (s : Validator) : (s.paint a e r p h).linkedOk = s.linkedOk := rfl
theorem paint_gopHashOk (s : Validator) : (s.paint a e r p h).gopHashOk = s.gopHashOk := rfl

theorem decGeneral_paint (s : Validator) (mem : Bytes) (size : Nat) :
    (s.paint a e r p h).decGeneral mem size = (s.decGeneral mem size).paintR (paint a e r p h) := by
  unfold Validator.decGeneral
  simp only [paint_dec, paint_list, paint_d, paint_key, paint_latestGop, paint_brk]
  cases SV.decGeneral s.dec mem size with
  | ok d => rfl
  | ub u => rfl
  | err c =>
    by_cases hc : c = .authenticationError
    · subst hc
      dsimp only
      generalize (if size = 0 then none else some size) = o
      cases o with
      | none => rfl
      | some n =>
        cases mem.head? with
        | none => rfl
        | some v =>
          dsimp only
          by_cases hv : v ≥ 3
          · rw [if_pos hv, if_pos hv]
            cases SV.decGeneral s.dec mem (n - 1) <;> rfl
          · rw [if_neg hv, if_neg hv]
            generalize (if v = 1 then 10 else if (mem.getD 10 0) &&& 1 == 1 then 19 else 11) = k
            cases SV.decGeneral s.dec mem k <;> rfl
    · cases c <;> first | rfl | exact absurd rfl hc

theorem decPublicKey_paint (env : AuthEnv) (s : Validator) (mem : Bytes) (size : Nat) :
    (s.paint a e r p h).decPublicKey env mem size = (s.decPublicKey env mem size).paintR (paint a e r p h) := by
  unfold Validator.decPublicKey
  simp only [paint_dec, paint_list, paint_d, paint_key, paint_latestGop, paint_brk]
  cases SV.decPublicKey { env.crypto with keyOk := fun _ => true } s.dec mem size with
  | ok d =>
    dsimp only
    cases env.crypto.keyOk d.publicKey <;> rfl
  | err c => rfl
  | ub u => rfl

theorem decCrypto_paint (env : AuthEnv) (s : Validator) (mem : Bytes) (size : Nat) :
    (s.paint a e r p h).decCrypto env mem size = (s.decCrypto env mem size).paintR (paint a e r p h) := by
  unfold Validator.decCrypto
  cases rd8 mem with
  | err c => rfl
  | ub u => rfl
  | ok q =>
    obtain ⟨ver, m⟩ := q
    dsimp only
    cases rd8 m with
    | err c => rfl
    | ub u => rfl
    | ok q =>
      obtain ⟨n, m⟩ := q
      dsimp only
      by_cases h1 : ver = 0
      · rw [if_pos h1, if_pos h1]; rfl
      rw [if_neg h1, if_neg h1]
      by_cases h2 : n = 0
      · rw [if_pos h2, if_pos h2]; rfl
      rw [if_neg h2, if_neg h2]
      cases rdN n.toNat m with
      | err c => rfl
      | ub u => rfl
      | ok q =>
        obtain ⟨oid, m⟩ := q
        dsimp only
        simp only [paint_d, paint_gop, paint_signing, paint_first, paint_linkedOk, paint_gopHashOk]
        refine Res.paintR_andThen' ?_ fun t _ => ?_
        rotate_left
        · by_cases h3 : 2 + n.toNat = size
          · rw [if_pos h3, if_pos h3]; rfl
          · rw [if_neg h3, if_neg h3]; rfl
        refine Res.paintR_ite Iff.rfl rfl ?_
        cases env.crypto.oidHashSize oid <;> rfl

theorem decTag_paint (env : AuthEnv) (s : Validator) (t : UInt8) (mem : Bytes) (size : Nat) :
    (s.paint a e r p h).decTag env t mem size = (s.decTag env t mem size).paintR (paint a e r p h) := by
  unfold Validator.decTag
  by_cases h1 : t = tagGeneral
  · rw [if_pos h1, if_pos h1]; exact decGeneral_paint ..
  rw [if_neg h1, if_neg h1]
  by_cases h2 : t = tagPublicKey
  · rw [if_pos h2, if_pos h2]; exact decPublicKey_paint ..
  rw [if_neg h2, if_neg h2]
  by_cases h3 : t = tagCrypto
  · rw [if_pos h3, if_pos h3]; exact decCrypto_paint ..
  rw [if_neg h3, if_neg h3]
  simp only [paint_dec, paint_list, paint_d, paint_key, paint_latestGop, paint_brk]
  cases decValue env.crypto t s.dec mem size with
  | ok d => rfl
  | ub u => rfl
  | err c =>
    dsimp only
    unfold failed
    by_cases h4 : t = tagArbitrary
    · rw [if_pos h4, if_pos h4]; rfl
    rw [if_neg h4, if_neg h4]
    by_cases h5 : t = tagProductInfo
    · rw [if_pos h5, if_pos h5]
      cases productAt mem <;> rfl
    · rw [if_neg h5, if_neg h5]; rfl

theorem tlvLoop_paint (env : AuthEnv) (fuel : Nat) (s : Validator) (mem : Bytes) (size : Nat) :
    tlvLoop env fuel (s.paint a e r p h) mem size = (tlvLoop env fuel s mem size).paintR (paint a e r p h) := by
  induction fuel generalizing s mem size with
  | zero => rfl
  | succ fuel ih =>
    unfold tlvLoop
    by_cases h1 : size = 0
    · rw [if_pos h1, if_pos h1]; rfl
    rw [if_neg h1, if_neg h1]
    cases decHeader mem with
    | ub u => rfl
    | err c => rfl
    | ok q =>
      obtain ⟨t, n, k⟩ := q
      dsimp only
      rw [decTag_paint]
      exact Res.paintR_andThen fun s _ => ih s _ _

theorem detectLost_paint (env : AuthEnv) (s : Validator) :
    (s.paint a e r p h).detectLost env = (s.detectLost env).paintR (paint a e r p h) := by
  unfold detectLost
  dsimp only
  simp only [paint_dec, paint_list, paint_d, paint_key, paint_latestGop, paint_brk]
  generalize ((s.d.gopCounter.toNat : Int) - ((s.latestGop + 1).toNat : Int)) = diff
  cases add64 env.ov diff 9223372036854775807 with
  | ub u => rfl
  | err c => rfl
  | ok sum =>
    dsimp only
    generalize (if sum < 9223372036854775807 / 2 then Out.ok sum else Out.ok diff) = o
    cases o <;> rfl

theorem decodeSei_paint (env : AuthEnv) (s : Validator) (mem : Bytes) (size : Nat) :
    (s.paint a e r p h).decodeSei env mem size = (s.decodeSei env mem size).paintR (paint a e r p h) := by
  unfold decodeSei
  by_cases h1 : size = 0
  · rw [if_pos h1, if_pos h1]; rfl
  rw [if_neg h1, if_neg h1]
  have ht : (s.paint a e r p h).tlvDecode env mem size = (s.tlvDecode env mem size).paintR (paint a e r p h) := by
    unfold tlvDecode
    rw [if_neg h1, if_neg h1]
    exact tlvLoop_paint ..
  rw [ht]
  refine Res.paintR_andThen fun s _ => ?_
  rw [detectLost_paint]
  refine Res.paintR_andThen fun s _ => ?_
  show Res.ok (if s.gop.noEnd && s.gop.lost then _ else _) () = _
  cases s.gop.noEnd && s.gop.lost <;> rfl

theorem prepareGopHash_paint (env : AuthEnv) (s : Validator) (sei : Nat) :
    (s.paint a e r p h).prepareGopHash env sei = (s.prepareGopHash env sei).paintR (paint a e r p h) := by
  unfold prepareGopHash
  dsimp only
  by_cases h1 : s.primary = none ∧ s.d.hashSize > 64
  · rw [if_pos h1, if_pos (show (s.paint a e r p h).primary = none ∧ (s.paint a e r p h).d.hashSize > 64 from h1)]; rfl
  rw [if_neg h1, if_neg (show ¬ ((s.paint a e r p h).primary = none ∧ (s.paint a e r p h).d.hashSize > 64) from h1)]
  simp only [paint_dec, paint_list, paint_d, paint_key, paint_latestGop, paint_brk]
  cases gopLoop s.d.hashSize sei s.list 0 0 [] with
  | ub u => rfl
  | err c => rfl
  | ok q => rfl

theorem verifyHash_paint (env : AuthEnv) (s : Validator) :
    (s.paint a e r p h).verifyHash env = (s.verifyHash env).paintR (paint a e r p h) := by
  unfold verifyHash
  by_cases h1 : s.d.maxSignature = none ∨ s.d.signature = []
  · rw [if_pos h1, if_pos (show (s.paint a e r p h).d.maxSignature = none ∨ (s.paint a e r p h).d.signature = [] from h1)]; rfl
  rw [if_neg h1, if_neg (show ¬ ((s.paint a e r p h).d.maxSignature = none ∨ (s.paint a e r p h).d.signature = []) from h1)]
  simp only [paint_dec, paint_list, paint_d, paint_key, paint_latestGop, paint_brk]
  cases s.key <;> rfl

theorem decodeNext_paint (env : AuthEnv) (s : Validator) (x : Nat × Item) :
    (s.paint a e r p h).decodeNext env x = (s.decodeNext env x).paintR (paint a e r p h) := by
  unfold decodeNext
  cases x.2.decoded with
  | true => rfl
  | false =>
    rw [if_neg (by decide), if_neg (by decide)]
    dsimp only
    cases x.2.nalu with
    | none => rfl
    | some n =>
      dsimp only
      refine Eq.trans (congrArg (fun z => Res.andThen z _) (decodeSei_paint env
        { s with rep := { s.rep with latest := { s.rep.latest with keyChanged := false } } } n.tlvMem n.tlvSize)) ?_
      refine Res.paintR_andThen fun t _ => ?_
      by_cases h1 : s.d.hashSize > 64
      · rw [if_pos h1, if_pos (show (s.paint a e r p h).d.hashSize > 64 from h1)]; rfl
      · rw [if_neg h1, if_neg (show ¬ (s.paint a e r p h).d.hashSize > 64 from h1)]; rfl

theorem prepare_paint (env : AuthEnv) (s : Validator) :
    (s.paint a e r p h).prepare env = (s.prepare env).paintR (paint a e r p h) := by
  unfold prepare
  dsimp only
  refine Res.paintR_andThen' ?_ fun t _ => ?_
  rotate_left
  · show (if t.flags.signing && !t.d.hasPublicKey then Res.err (t.paint a e r p h) .notSupported
      else if t.gop.hasSei then (t.paint a e r p h).verifyHash env else .ok (t.paint a e r p h) ()) = _
    by_cases h1 : (t.flags.signing && !t.d.hasPublicKey) = true
    · rw [if_pos h1, if_pos h1]; rfl
    rw [if_neg h1, if_neg h1]
    by_cases h2 : t.gop.hasSei = true
    · rw [if_pos h2, if_pos h2]; exact verifyHash_paint env t
    · rw [if_neg h2, if_neg h2]; rfl
  simp only [paint_dec, paint_list, paint_d, paint_key, paint_latestGop, paint_brk]
  cases nextSei s.list with
  | none => rfl
  | some x =>
    dsimp only
    rw [decodeNext_paint]
    refine Res.paintR_andThen fun s _ => ?_
    rw [detectLost_paint]
    exact Res.paintR_andThen fun s _ => prepareGopHash_paint env s x.1

theorem updateLinkLoop_paint (s : Validator) (l : NList) :
    updateLinkLoop (s.paint a e r p h) l = match updateLinkLoop s l with
      | .ok t => .ok (t.paint a e r p h) | .err c => .err c | .ub u => .ub u := by
  induction l with
  | nil => rfl
  | cons x l ih =>
    unfold updateLinkLoop
    by_cases h1 : (!x.2.used) = true
    · rw [if_pos h1, if_pos h1]; exact ih
    rw [if_neg h1, if_neg h1]
    cases x.2.nalu with
    | none => rfl
    | some n =>
      dsimp only
      by_cases h2 : (!n.firstInGop) = true
      · rw [if_pos h2, if_pos h2]; exact ih
      rw [if_neg h2, if_neg h2]
      by_cases h3 : x.2.linked = true
      · rw [if_pos h3, if_pos h3]
      · rw [if_neg h3, if_neg h3]
        cases x.2.second <;> rfl

theorem withoutSei_paint (s : Validator) : (s.paint a e r p h).withoutSei = s.withoutSei.paintR (paint a e r p h) := by
  unfold withoutSei
  simp only [paint_dec, paint_list, paint_d, paint_key, paint_latestGop, paint_brk]
  cases markLoop s.list <;> rfl

theorem addMissing_paint (s : Validator) (n : Int) (app : Bool) (i : Nat) :
    (s.paint a e r p h).addMissing n app i = (s.addMissing n app i).paint a e r p h := by
  unfold addMissing
  by_cases h1 : n < 0
  · rw [if_pos h1, if_pos h1]
  · rw [if_neg h1, if_neg h1]; rfl

theorem withHashList_paint (s : Validator) (o : Bool) :
    (s.paint a e r p h).withHashList o = (s.withHashList o).paintR (paint a e r p h) := by
  unfold withHashList
  by_cases h1 : s.d.hashSize = 0
  · rw [if_pos h1, if_pos (show (s.paint a e r p h).d.hashSize = 0 from h1)]; rfl
  rw [if_neg h1, if_neg (show ¬ (s.paint a e r p h).d.hashSize = 0 from h1)]
  simp only [paint_dec, paint_list, paint_d, paint_key, paint_latestGop, paint_brk]
  cases nextSei s.list with
  | none => rfl
  | some x =>
    dsimp only
    cases hashListLoop s.d.hashSize (chunk s.d.hashSize s.d.hashList) x.1 s.list none { orderOk := o, brk := s.brk } with
    | ub u => rfl
    | err c => rfl
    | ok q =>
      obtain ⟨l, m⟩ := q
      dsimp only
      have key : ∀ (c1 c2 : Validator), c2 = c1.paint a e r p h →
          Res.ok { c2 with list := c2.list.set x.1 fun i => { i with status := .ok } }
            (true, ((chunk s.d.hashSize s.d.hashList).length : Int), (m.count : Int)) =
          (Res.ok { c1 with list := c1.list.set x.1 fun i => { i with status := .ok } }
            (true, ((chunk s.d.hashSize s.d.hashList).length : Int), (m.count : Int))).paintR (paint a e r p h) := by
        intro c1 c2 hc; subst hc; rfl
      refine key _ _ ?_
      have k1 : ∀ (b1 b2 : Validator), b2 = b1.paint a e r p h →
          (if m.latest ≠ m.compare then b2 else match m.lastUsed with
            | none => b2
            | some i => b2.addMissing (((chunk s.d.hashSize s.d.hashList).length : Int) - 1 - m.latest) true i) =
          paint a e r p h (if m.latest ≠ m.compare then b1 else match m.lastUsed with
            | none => b1
            | some i => b1.addMissing (((chunk s.d.hashSize s.d.hashList).length : Int) - 1 - m.latest) true i) := by
        intro b1 b2 hb; subst hb
        by_cases h2 : m.latest ≠ m.compare
        · rw [if_pos h2, if_pos h2]
        · rw [if_neg h2, if_neg h2]
          cases m.lastUsed with
          | none => rfl
          | some i => exact addMissing_paint ..
      refine k1 _ _ ?_
      by_cases h3 : m.latest = -1
      · rw [if_pos h3, if_pos h3]
        cases l with
        | nil => rfl
        | cons f t => exact addMissing_paint { s with list := f :: t, brk := m.brk } _ _ _
      · rw [if_neg h3, if_neg h3]; rfl

theorem setStatus_paint (s : Validator) (st : Status) (o : Option Nat) :
    (s.paint a e r p h).setStatus st o = (s.setStatus st o).paintR (paint a e r p h) := by
  unfold setStatus
  cases o with
  | none => rfl
  | some i =>
    dsimp only
    simp only [paint_dec, paint_list, paint_d, paint_key, paint_latestGop, paint_brk]
    cases setStatusLoop st s.list with
    | ub u => rfl
    | err c => rfl
    | ok q =>
      obtain ⟨l, k⟩ := q
      dsimp only
      by_cases h1 : statusAt l i = some .P
      · rw [if_pos h1, if_pos h1]
        by_cases h2 : s.verified = 1
        · rw [if_pos h2, if_pos (show (s.paint a e r p h).verified = 1 from h2)]; rfl
        · rw [if_neg h2, if_neg (show ¬ (s.paint a e r p h).verified = 1 from h2)]; rfl
      · rw [if_neg h1, if_neg h1]; rfl

theorem withSeiRest_paint (s : Validator) (st : Status) (o : Option Nat) (n : Int) :
    (s.paint a e r p h).withSeiRest st o n = (s.withSeiRest st o n).paintR (paint a e r p h) := by
  unfold withSeiRest
  dsimp only
  rw [setStatus_paint]
  refine Res.paintR_andThen fun t k => ?_
  simp only [paint_dec, paint_list, paint_d, paint_key, paint_latestGop, paint_brk]
  cases s.list.find? fun x => x.2.used with
  | none => rfl
  | some x =>
    dsimp only
    refine Res.paintR_ite Iff.rfl rfl ?_
    cases x.2.nalu with
    | none => rfl
    | some m => exact congrArg (fun z => Res.ok z _) (addMissing_paint ..)

theorem withSei_paint (s : Validator) : (s.paint a e r p h).withSei = s.withSei.paintR (paint a e r p h) := by
  unfold withSei
  dsimp only
  by_cases h1 : s.verified = 1
  · rw [if_pos h1, if_pos (show (s.paint a e r p h).verified = 1 from h1)]
    exact Res.paintR_ite Iff.rfl (withHashList_paint s s.linkedOk) (withSeiRest_paint s _ _ _)
  rw [if_neg h1, if_neg (show ¬ (s.paint a e r p h).verified = 1 from h1)]
  simp only [paint_dec, paint_list, paint_d, paint_key, paint_latestGop, paint_brk]
  cases (nextSei s.list).map (·.1) with
  | none => rfl
  | some i =>
    dsimp only
    by_cases h2 : s.verified = 0
    · rw [if_pos h2, if_pos (show (s.paint a e r p h).verified = 0 from h2)]
      exact withSeiRest_paint { s with list := s.list.set i fun i => { i with status := .N } } .N (some i) (-1)
    · rw [if_neg h2, if_neg (show ¬ (s.paint a e r p h).verified = 0 from h2)]
      refine Eq.trans (congrArg (fun z => Res.andThen z _)
        (withoutSei_paint { s with list := clearUsed (s.list.set i fun i => { i with status := .E }) })) ?_
      exact Res.paintR_andThen fun s b => rfl

theorem verifyGop_paint (s : Validator) : (s.paint a e r p h).verifyGop = s.verifyGop.paintR (paint a e r p h) := by
  unfold verifyGop
  refine Res.paintR_ite Iff.rfl ?_ ?_
  · exact Res.paintR_andThen' (withoutSei_paint s) fun s b => rfl
  · exact Res.paintR_andThen' (withSei_paint s) fun s b => rfl

end Validator
end SV
