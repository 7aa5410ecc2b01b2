import Verif.Proofs.AuthVouch
import Verif.Proofs.AuthKeyInv
/-! The hash algorithm of a validating session. -/
namespace SV
namespace Validator

section Tags
variable {env : AuthEnv} {P : Validator → Prop} (hP : ∀ s t mem size, P s → (decTag env s t mem size).Ends P)
include hP

theorem tlvLoop_ends (k : Nat) {s : Validator} (h : P s) (mem : Bytes) (size : Nat) : (tlvLoop env k s mem size).Ends P := by
  induction k generalizing s mem size with
  | zero => exact h
  | succ k ih =>
    unfold tlvLoop
    split
    · exact h
    · split
      · trivial
      · exact h
      · exact Res.Ends.andThen' (hP _ _ _ _ h) fun u _ _ hu => ih hu _ _

theorem tlvDecode_ends {s : Validator} (h : P s) (mem : Bytes) (size : Nat) : (s.tlvDecode env mem size).Ends P := by
  unfold tlvDecode
  split
  · exact h
  · exact tlvLoop_ends hP _ h _ _

theorem optLoop_ends (k : Nat) {s : Validator} (f : Bool) (h : P s) (mem : Bytes) (size : Nat) :
    (optLoop env k s f mem size).Ends P := by
  induction k generalizing s f mem size with
  | zero => exact h
  | succ k ih =>
    unfold optLoop
    split
    · exact h
    · split
      · trivial
      · exact h
      · split
        · trivial
        · split
          · exact ih f h _ _
          · rename_i t n hd _ _ _
            have := hP s t (mem.drop hd) n h
            generalize s.decTag env t (mem.drop hd) n = r at this
            cases r with
            | ub u => trivial
            | err u c => exact this
            | ok u _ => exact ih true this _ _

theorem findOptional_ends {s : Validator} (h : P s) (mem : Bytes) (size : Nat) : (s.findOptional env mem size).Ends P := by
  unfold findOptional
  split
  · exact h
  · exact optLoop_ends hP _ _ h _ _

theorem recurrentLoop_ends (l : NList) {s : Validator} (h : P s) : (recurrentLoop env l s).Ends P := by
  induction l generalizing s with
  | nil => exact h
  | cons x r ih =>
    unfold recurrentLoop
    split
    · split
      · refine Res.Ends.andThen' (findOptional_ends hP h _ _) fun t f _ ht => ?_
        split
        · exact ht
        · exact ih ht
      · exact ih h
    · exact ih h

theorem recurrentDecoded_ends {s : Validator} (h : P s) : (s.recurrentDecoded env).Ends P := by
  unfold recurrentDecoded
  split
  · exact h
  · exact recurrentLoop_ends hP _ h

end Tags

/-- The hash algorithm is one of `T`, with hashes of size `N`, and is known if it was known before. -/
structure Alg (T : List Bytes) (N : Nat) (k : Bool) (s : Validator) : Prop where
  size : s.d.hashSize = N
  typ : s.typ ∈ T
  prim : ∀ p, s.primary = some p → p ∈ T
  known : k = true → s.d.hashAlgoKnown = true

/-- The library knows the hash algorithms `T` only, all with hashes of size `N`. -/
structure Algs (env : AuthEnv) (T : List Bytes) (N : Nat) : Prop where
  oids : ∀ o n, env.crypto.oidHashSize o = some n → n = N ∧ o ∈ T
  dflt : env.oid ∈ T
  len : ∀ t ∈ T, ∀ b, (env.H t b).length = N
  pos : 0 < N
  le : N ≤ 64

variable {env : AuthEnv} {T : List Bytes} {N : Nat} {k : Bool}

theorem Alg.same {s t : Validator} (h : Alg T N k s) (e1 : t.d.hashSize = s.d.hashSize) (e2 : t.typ = s.typ) (e3 : t.primary = s.primary)
    (e4 : t.d.hashAlgoKnown = s.d.hashAlgoKnown) : Alg T N k t :=
  ⟨e1.trans h.size, e2 ▸ h.typ, fun p hp => h.prim p (e3 ▸ hp), fun hk => e4.trans (h.known hk)⟩

theorem decTag_alg (he : Algs env T N) (s : Validator) (t : UInt8) (mem : Bytes) (size : Nat) (h : Alg T N k s) :
    (s.decTag env t mem size).Ends (Alg T N k) := by
  unfold Validator.decTag
  split
  · have put : ∀ d, (∃ n, SV.decGeneral s.dec mem n = .ok d) → Alg T N k (s.put d).putVersion := by
      rintro d ⟨n, hd⟩
      have e := decGeneral_frame hd
      exact h.same (show d.hashSize = _ by rw [e]; rfl) rfl rfl (show d.hashAlgoKnown = _ by rw [e]; rfl)
    unfold Validator.decGeneral
    split
    · rename_i d h; exact put d ⟨_, h⟩
    · trivial
    · split
      · split
        · split
          · rename_i h; exact put _ ⟨_, h⟩
          · exact h
        · split
          · rename_i h; exact put _ ⟨_, h⟩
          · exact h
      · exact h
    · exact h
  rename_i h1
  split
  · unfold Validator.decPublicKey
    split
    · rename_i d hd
      have e := (decPublicKey_frame hd).1
      split
      · exact h.same (show d.hashSize = _ by rw [e]; rfl) rfl rfl (show d.hashAlgoKnown = _ by rw [e]; rfl)
      · exact h.same (show d.hashSize = _ by rw [e]; rfl) rfl rfl (show d.hashAlgoKnown = _ by rw [e]; rfl)
    · exact h
    · trivial
  rename_i h2
  split
  · unfold Validator.decCrypto
    split
    · split
      · split
        · exact h
        split
        · exact h
        split
        · dsimp only
          refine Res.Ends.andThen' (P := Alg T N k) ?_ fun t _ _ ht => ?_
          · split
            · exact h
            · split
              · exact h.same rfl rfl rfl rfl
              · rename_i hs ho
                obtain ⟨e1, e2⟩ := he.oids _ _ ho
                exact ⟨e1, e2, h.prim, h.known⟩
          · split
            · exact ⟨ht.size, ht.typ, ht.prim, fun _ => rfl⟩
            · exact ⟨ht.size, ht.typ, ht.prim, fun _ => rfl⟩
        · exact h
        · trivial
      · exact h
      · trivial
    · exact h
    · trivial
  rename_i h7
  split
  · rename_i d hd
    have e := (decValue_frame h1 h2 h7 hd).1
    exact h.same (show d.hashSize = _ by rw [e]; rfl) rfl rfl (show d.hashAlgoKnown = _ by rw [e]; rfl)
  · obtain ⟨a, p, hf⟩ := failed_eq s t mem
    rw [hf]
    exact h.same rfl rfl rfl rfl
  · trivial

theorem detectLost_alg (s : Validator) (h : Alg T N k s) : (s.detectLost env).Ends (Alg T N k) := by
  unfold detectLost
  dsimp only
  split
  · trivial
  · exact h
  · split
    · trivial
    · exact h
    · exact h.same rfl rfl rfl rfl

theorem decodeSei_alg (he : Algs env T N) {s : Validator} (h : Alg T N k s) (mem : Bytes) (size : Nat) :
    (s.decodeSei env mem size).Ends (Alg T N k) := by
  unfold decodeSei
  split
  · trivial
  · refine Res.Ends.andThen' (tlvDecode_ends (decTag_alg he) h _ _) fun t _ _ ht => ?_
    refine Res.Ends.andThen' (detectLost_alg t ht) fun u _ _ hu => ?_
    show Alg T N k (if _ then _ else _)
    split
    · exact hu.same rfl rfl rfl rfl
    · exact hu

theorem decodeNext_alg (he : Algs env T N) {s : Validator} (h : Alg T N k s) (x : Nat × Item) : (s.decodeNext env x).Ends (Alg T N k) := by
  unfold decodeNext
  split
  · exact h
  · dsimp only
    split
    · trivial
    · refine Res.Ends.andThen' (decodeSei_alg he (s := { s with rep := { s.rep with latest := { s.rep.latest with keyChanged := false } } })
        (h.same rfl rfl rfl rfl) _ _) fun t _ _ ht => ?_
      split
      · trivial
      · exact ht.same rfl rfl rfl rfl

theorem prepareGopHash_alg {s : Validator} (h : Alg T N k s) (a : Nat) : (s.prepareGopHash env a).Ends (Alg T N k) := by
  unfold prepareGopHash
  split
  · exact h.same rfl rfl rfl rfl
  · have hp : ∀ p, some (s.primary.getD s.typ) = some p → p ∈ T := by
      intro p hp
      rw [← Option.some.inj hp]
      cases hq : s.primary with
      | none => exact h.typ
      | some q => exact h.prim q hq
    dsimp only
    split
    · trivial
    · exact ⟨h.size, h.typ, hp, h.known⟩
    · exact ⟨h.size, h.typ, hp, h.known⟩

theorem prepare_alg (he : Algs env T N) {s : Validator} (h : Alg T N k s) : (s.prepare env).Ends (Alg T N k) := by
  unfold prepare
  dsimp only
  refine Res.Ends.andThen' (P := Alg T N k) ?_ fun t _ _ ht => ?_
  · split
    · exact h
    · refine Res.Ends.andThen' (decodeNext_alg he h _) fun t _ _ ht => ?_
      refine Res.Ends.andThen' (detectLost_alg t ht) fun u _ _ hu => ?_
      exact prepareGopHash_alg hu _
  · split
    · exact ht
    · split
      · unfold verifyHash
        split
        · exact ht.same rfl rfl rfl rfl
        · split
          · exact ht.same rfl rfl rfl rfl
          · exact ht.same rfl rfl rfl rfl
      · exact ht

theorem round_alg (he : Algs env T N) {s : Validator} (h : Alg T N k s) : (s.round env).Ends (Alg T N k) := by
  unfold round
  have hb : Alg T N k s.begin := by
    unfold Validator.begin
    split
    · exact h
    · exact h.same rfl rfl rfl rfl
  refine Res.Ends.andThen' (prepare_alg he hb) fun t _ _ ht => ?_
  split
  · trivial
  · exact ht
  · rename_i v hv
    have hv : Alg T N k v := by
      rcases updateLinkLoop_eq hv with e | ⟨lk, a, e⟩
      · rw [e]; exact ht
      · rw [e]; exact ht.same rfl rfl rfl rfl
    refine Res.Ends.andThen' (P := Alg T N k) ?_ fun u _ _ hu => hu.same rfl rfl rfl rfl
    unfold conduct
    split
    · unfold validate
      refine Res.Ends.andThen' (P := Alg T N k) ((verifyGop_listed v).mono fun w hw => ?_) fun w p _ hw => hw.same rfl rfl rfl rfl
      have e : w = _ := hw
      rw [e]
      exact hv.same rfl rfl rfl rfl
    · exact hv.same rfl rfl rfl rfl

end Validator
end SV
