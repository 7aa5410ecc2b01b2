import Verif.Model.Auth
/-! What the functions of the validator leave unchanged. -/
namespace SV

/-- A property of the state in which a function ends, with or without error. -/
def Res.Ends {σ α : Type} (P : σ → Prop) : Res σ α → Prop
  | .ok s _ => P s
  | .err s _ => P s
  | .ub _ => True

namespace Res.Ends
variable {σ α β : Type} {P Q : σ → Prop}

theorem mono {r : Res σ α} (h : r.Ends P) (hpq : ∀ s, P s → Q s) : r.Ends Q := by
  cases r with
  | ok s a => exact hpq s h
  | err s e => exact hpq s h
  | ub u => trivial

theorem andThen {r : Res σ α} {f : σ → α → Res σ β} (h : r.Ends P) (hpq : ∀ s, P s → Q s)
    (hf : ∀ s a, r = .ok s a → P s → (f s a).Ends Q) : (r.andThen f).Ends Q := by
  cases r with
  | ok s a => exact hf s a rfl h
  | err s e => exact hpq s h
  | ub u => trivial

theorem andThen' {r : Res σ α} {f : σ → α → Res σ β} (h : r.Ends P) (hf : ∀ s a, r = .ok s a → P s → (f s a).Ends P) :
    (r.andThen f).Ends P := andThen h (fun _ h => h) hf

theorem of_ok {r : Res σ α} {s : σ} {a : α} (h : r.Ends P) (e : r = .ok s a) : P s := by rw [e] at h; exact h

theorem of_err {r : Res σ α} {s : σ} {e : Rc} (h : r.Ends P) (he : r = .err s e) : P s := by rw [he] at h; exact h

end Res.Ends

namespace Validator

/-- The effect of a decoder: the state of the decoders, the digest, the key and three members of the report. -/
structure Decoded (s s' : Validator) : Prop where
  codec : s'.codec = s.codec
  list : s'.list = s.list
  brk : s'.brk = s.brk
  buddies : s'.buddies = s.buddies
  hasRef : s'.hasRef = s.hasRef
  primary : s'.primary = s.primary
  computed : s'.computed = s.computed
  linked : s'.linked = s.linked
  verified : s'.verified = s.verified
  sigHash : s'.sigHash = s.sigHash
  latestGop : s'.latestGop = s.latestGop
  synced : s'.synced = s.synced
  gop : s'.gop = s.gop
  flags : s'.flags = s.flags
  hasReport : s'.hasReport = s.hasReport
  started : s'.started = s.started
  legacy : s'.legacy = s.legacy
  acc : s'.rep.acc = s.rep.acc
  thisVersion : s'.rep.thisVersion = s.rep.thisVersion
  latest : ∃ k h t, s'.rep.latest = { s.rep.latest with keyChanged := k, hasTs := h, ts := t }

theorem Decoded.refl (s : Validator) : Decoded s s :=
  ⟨rfl, rfl, rfl, rfl, rfl, rfl, rfl, rfl, rfl, rfl, rfl, rfl, rfl, rfl, rfl, rfl, rfl, rfl, rfl, _, _, _, rfl⟩

theorem Decoded.trans {a b c : Validator} (h : Decoded a b) (g : Decoded b c) : Decoded a c := by
  obtain ⟨k, h1, t, e⟩ := h.latest
  obtain ⟨k', h1', t', e'⟩ := g.latest
  exact ⟨g.codec.trans h.codec, g.list.trans h.list, g.brk.trans h.brk, g.buddies.trans h.buddies,
    g.hasRef.trans h.hasRef, g.primary.trans h.primary, g.computed.trans h.computed, g.linked.trans h.linked,
    g.verified.trans h.verified, g.sigHash.trans h.sigHash, g.latestGop.trans h.latestGop, g.synced.trans h.synced,
    g.gop.trans h.gop, g.flags.trans h.flags, g.hasReport.trans h.hasReport, g.started.trans h.started,
    g.legacy.trans h.legacy, g.acc.trans h.acc, g.thisVersion.trans h.thisVersion, k', h1', t', by rw [e', e]⟩

theorem Decoded.put (s : Validator) (d : DecState) : Decoded s (s.put d) :=
  ⟨rfl, rfl, rfl, rfl, rfl, rfl, rfl, rfl, rfl, rfl, rfl, rfl, rfl, rfl, rfl, rfl, rfl, rfl, rfl, _, _, _, rfl⟩

theorem Decoded.putVersion (s : Validator) : Decoded s s.putVersion :=
  ⟨rfl, rfl, rfl, rfl, rfl, rfl, rfl, rfl, rfl, rfl, rfl, rfl, rfl, rfl, rfl, rfl, rfl, rfl, rfl, _, _, _, rfl⟩

theorem Decoded.withD (s : Validator) (d : DecState) : Decoded s { s with d := d } :=
  ⟨rfl, rfl, rfl, rfl, rfl, rfl, rfl, rfl, rfl, rfl, rfl, rfl, rfl, rfl, rfl, rfl, rfl, rfl, rfl, _, _, _, rfl⟩

theorem Decoded.withDT (s : Validator) (d : DecState) (t : Bytes) : Decoded s { s with d := d, typ := t } :=
  ⟨rfl, rfl, rfl, rfl, rfl, rfl, rfl, rfl, rfl, rfl, rfl, rfl, rfl, rfl, rfl, rfl, rfl, rfl, rfl, _, _, _, rfl⟩

theorem Decoded.withKey (s : Validator) (k : Option Bytes) : Decoded s { s with key := k } :=
  ⟨rfl, rfl, rfl, rfl, rfl, rfl, rfl, rfl, rfl, rfl, rfl, rfl, rfl, rfl, rfl, rfl, rfl, rfl, rfl, _, _, _, rfl⟩

theorem decGeneral_decoded (s : Validator) (mem : Bytes) (size : Nat) : (s.decGeneral mem size).Ends (Decoded s) := by
  have hp : ∀ d, Decoded s (s.put d).putVersion := fun d => (Decoded.put s d).trans (Decoded.putVersion _)
  unfold Validator.decGeneral
  split
  · exact hp _
  · trivial
  · split
    · split
      · split
        · exact hp _
        · exact Decoded.refl s
      · split
        · exact hp _
        · exact Decoded.refl s
    · exact Decoded.refl s
  · exact Decoded.refl s

theorem decPublicKey_decoded (env : AuthEnv) (s : Validator) (mem : Bytes) (size : Nat) :
    (s.decPublicKey env mem size).Ends (Decoded s) := by
  unfold Validator.decPublicKey
  split
  · split
    · exact (Decoded.put s _).trans (Decoded.withKey _ _)
    · exact Decoded.put s _
  · exact Decoded.refl s
  · trivial

theorem decCrypto_decoded (env : AuthEnv) (s : Validator) (mem : Bytes) (size : Nat) :
    (s.decCrypto env mem size).Ends (Decoded s) := by
  unfold Validator.decCrypto
  split
  · split
    · split
      · exact Decoded.refl s
      · split
        · exact Decoded.refl s
        · split
          · dsimp only
            refine Res.Ends.andThen' (P := Decoded s) ?_ ?_
            · split
              · exact Decoded.refl s
              · split
                · exact Decoded.withD s _
                · exact Decoded.withDT s _ _
            · intro t _ _ ht
              have := ht.trans (Decoded.withD t { t.d with hashAlgoKnown := true })
              split <;> exact this
          · exact Decoded.refl s
          · trivial
    · exact Decoded.refl s
    · trivial
  · exact Decoded.refl s
  · trivial

/-- A decoder that fails has changed the arbitrary data and the product information only. -/
theorem failed_eq (s : Validator) (t : UInt8) (mem : Bytes) :
    ∃ a p, s.failed t mem = { s with d := { s.d with arbitrary := a, product := p } } := by
  unfold failed
  split
  · exact ⟨[], s.d.product, rfl⟩
  · split
    · cases productAt mem with
      | some p => exact ⟨s.d.arbitrary, p, rfl⟩
      | none => exact ⟨s.d.arbitrary, s.d.product, rfl⟩
    · exact ⟨s.d.arbitrary, s.d.product, rfl⟩

theorem decTag_decoded (env : AuthEnv) (s : Validator) (t : UInt8) (mem : Bytes) (size : Nat) :
    (s.decTag env t mem size).Ends (Decoded s) := by
  unfold decTag
  split
  · exact decGeneral_decoded s mem size
  · split
    · exact decPublicKey_decoded env s mem size
    · split
      · exact decCrypto_decoded env s mem size
      · split
        · exact Decoded.withD s _
        · obtain ⟨a, p, h⟩ := failed_eq s t mem
          rw [h]
          exact Decoded.withD s _
        · trivial

theorem tlvLoop_decoded (env : AuthEnv) (fuel : Nat) (s : Validator) (mem : Bytes) (size : Nat) :
    (Validator.tlvLoop env fuel s mem size).Ends (Decoded s) := by
  induction fuel generalizing s mem size with
  | zero => exact Decoded.refl s
  | succ fuel ih =>
    unfold Validator.tlvLoop
    split
    · exact Decoded.refl s
    · split
      · trivial
      · exact Decoded.refl s
      · rename_i t n h _
        refine Res.Ends.andThen' (decTag_decoded env s t (mem.drop h) n) ?_
        intro u _ _ hu
        exact (ih u _ _).mono fun v hv => hu.trans hv

theorem tlvDecode_decoded (env : AuthEnv) (s : Validator) (mem : Bytes) (size : Nat) :
    (s.tlvDecode env mem size).Ends (Decoded s) := by
  unfold Validator.tlvDecode
  split
  · exact Decoded.refl s
  · exact tlvLoop_decoded env _ _ _ _

theorem optLoop_decoded (env : AuthEnv) (fuel : Nat) (s : Validator) (f : Bool) (mem : Bytes) (size : Nat) :
    (Validator.optLoop env fuel s f mem size).Ends (Decoded s) := by
  induction fuel generalizing s f mem size with
  | zero => exact Decoded.refl s
  | succ fuel ih =>
    unfold Validator.optLoop
    split
    · exact Decoded.refl s
    · split
      · trivial
      · exact Decoded.refl s
      · split
        · trivial
        · rename_i t n h _ _
          split
          · exact ih _ _ _ _
          · have hd := decTag_decoded env s t (mem.drop h) n
            split
            · trivial
            · rename_i e; exact hd.of_err e
            · rename_i e; exact (ih _ _ _ _).mono fun v hv => (hd.of_ok e).trans hv

theorem findOptional_decoded (env : AuthEnv) (s : Validator) (mem : Bytes) (size : Nat) :
    (s.findOptional env mem size).Ends (Decoded s) := by
  unfold findOptional
  split
  · exact Decoded.refl s
  · exact optLoop_decoded env _ _ _ _ _

theorem recurrentLoop_decoded (env : AuthEnv) (l : NList) (s : Validator) : (recurrentLoop env l s).Ends (Decoded s) := by
  induction l generalizing s with
  | nil => exact Decoded.refl s
  | cons x r ih =>
    unfold recurrentLoop
    split
    · split
      · refine Res.Ends.andThen' (findOptional_decoded env s _ _) ?_
        intro u f _ hu
        split
        · exact hu
        · exact (ih u).mono fun v hv => hu.trans hv
      · exact ih s
    · exact ih s

theorem recurrentDecoded_decoded (env : AuthEnv) (s : Validator) : (s.recurrentDecoded env).Ends (Decoded s) := by
  unfold recurrentDecoded
  split
  · exact Decoded.refl s
  · exact recurrentLoop_decoded env _ _

end Validator
end SV
