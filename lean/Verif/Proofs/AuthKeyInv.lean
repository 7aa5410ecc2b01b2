import Verif.Proofs.AuthRep
/-! The public key of a validating session: where it is written, and how it relates to what has been decoded. -/
namespace SV

/-- The members of the decoder state that `decode_general` does not write. -/
def GenFrame (d d' : DecState) : Prop :=
  d' = { d with gopCounter := d'.gopCounter, numSent := d'.numSent, codeVersion := d'.codeVersion,
                hasTimestamp := d'.hasTimestamp, timestamp := d'.timestamp, latestHasTimestamp := d'.latestHasTimestamp,
                latestTimestamp := d'.latestTimestamp, linkedHash := d'.linkedHash, gopHash := d'.gopHash }

theorem decGeneral_frame {d d' : DecState} {mem : Bytes} {size : Nat} (h : SV.decGeneral d mem size = .ok d') :
    GenFrame d d' := by
  simp only [SV.decGeneral] at h
  obtain ⟨⟨v, m⟩, _, h⟩ := Out.bind_eq_ok h
  dsimp only at h
  split at h
  · cases h
  obtain ⟨⟨cnt, m⟩, _, h⟩ := Out.bind_eq_ok h
  obtain ⟨⟨num, m⟩, _, h⟩ := Out.bind_eq_ok h
  obtain ⟨⟨v0, m⟩, _, h⟩ := Out.bind_eq_ok h
  obtain ⟨⟨v1, m⟩, _, h⟩ := Out.bind_eq_ok h
  obtain ⟨⟨v2, m⟩, _, h⟩ := Out.bind_eq_ok h
  obtain ⟨⟨e, m, rd⟩, h1, h⟩ := Out.bind_eq_ok h
  dsimp only at h h1
  have he : GenFrame d e := by
    split at h1
    · obtain ⟨⟨fl, m⟩, _, h1⟩ := Out.bind_eq_ok h1
      dsimp only at h1
      split at h1
      · obtain ⟨⟨ts, m⟩, _, h1⟩ := Out.bind_eq_ok h1
        cases h1; rfl
      · cases h1; rfl
    · cases h1; rfl
  split at h
  · split at h
    · cases h
    · obtain ⟨⟨lh, m⟩, _, h⟩ := Out.bind_eq_ok h
      dsimp only at h
      split at h
      · cases h
      · obtain ⟨⟨gh, m⟩, _, h⟩ := Out.bind_eq_ok h
        dsimp only at h
        split at h
        · cases h
          unfold GenFrame at he ⊢
          rw [he]
        · cases h
  · split at h
    · cases h; exact he
    · cases h

/-- A decoder other than those for the GENERAL, PUBLIC KEY and CRYPTO INFO tags. -/
theorem decValue_frame {env : CryptoEnv} {t : UInt8} {d d' : DecState} {mem : Bytes} {size : Nat} (h1 : t ≠ 1) (h2 : t ≠ 2)
    (h7 : t ≠ 7) (h : decValue env t d mem size = .ok d') :
    d' = { d with product := d'.product, arbitrary := d'.arbitrary, hashList := d'.hashList, signature := d'.signature,
                  maxSignature := d'.maxSignature, encodingStatus := d'.encodingStatus, hashType := d'.hashType } ∧
    (t ≠ 5 → d'.signature = d.signature ∧ d'.maxSignature = d.maxSignature ∧ d'.encodingStatus = d.encodingStatus ∧
      d'.hashType = d.hashType) ∧ (t ≠ 4 → d'.hashList = d.hashList) := by
  unfold decValue at h
  rw [if_neg h1, if_neg h2] at h
  split at h
  · unfold SV.decProduct at h
    obtain ⟨⟨v, m⟩, _, h⟩ := Out.bind_eq_ok h
    dsimp only at h
    split at h
    · cases h
    obtain ⟨⟨a, m, n⟩, _, h⟩ := Out.bind_eq_ok h
    obtain ⟨⟨a, m, n⟩, _, h⟩ := Out.bind_eq_ok h
    obtain ⟨⟨a, m, n⟩, _, h⟩ := Out.bind_eq_ok h
    obtain ⟨⟨a, m, n⟩, _, h⟩ := Out.bind_eq_ok h
    obtain ⟨⟨a, m, n⟩, _, h⟩ := Out.bind_eq_ok h
    dsimp only at h
    split at h
    · cases h; exact ⟨rfl, fun _ => ⟨rfl, rfl, rfl, rfl⟩, fun _ => rfl⟩
    · cases h
  split at h
  · rename_i h4
    unfold SV.decHashList at h
    obtain ⟨⟨v, m⟩, _, h⟩ := Out.bind_eq_ok h
    dsimp only at h
    split at h
    · cases h
    split at h
    · cases h
    obtain ⟨⟨l, m⟩, _, h⟩ := Out.bind_eq_ok h
    cases h
    exact ⟨rfl, fun _ => ⟨rfl, rfl, rfl, rfl⟩, fun h => absurd h4 h⟩
  split at h
  · rename_i h5
    unfold SV.decSignature at h
    obtain ⟨⟨v, m⟩, _, h⟩ := Out.bind_eq_ok h
    obtain ⟨⟨v1, m⟩, _, h⟩ := Out.bind_eq_ok h
    obtain ⟨⟨v2, m⟩, _, h⟩ := Out.bind_eq_ok h
    obtain ⟨⟨v3, m⟩, _, h⟩ := Out.bind_eq_ok h
    dsimp only at h
    split at h
    · cases h
    split at h
    · cases h
    split at h
    · cases h
    split at h
    · cases h
    split at h
    · cases h
    obtain ⟨⟨l, m⟩, _, h⟩ := Out.bind_eq_ok h
    cases h
    exact ⟨rfl, fun h => absurd h5 h, fun _ => rfl⟩
  split at h
  · unfold SV.decArbitrary at h
    obtain ⟨⟨v, m⟩, _, h⟩ := Out.bind_eq_ok h
    dsimp only at h
    split at h
    · cases h
    split at h
    · cases h
    obtain ⟨⟨l, m⟩, _, h⟩ := Out.bind_eq_ok h
    dsimp only at h
    split at h
    · cases h
      exact ⟨rfl, fun _ => ⟨rfl, rfl, rfl, rfl⟩, fun _ => rfl⟩
    · cases h
  split at h
  · cases h
  · cases h

/-- What the decoder of the public key does when it accepts any key. -/
theorem decPublicKey_frame {c : CryptoEnv} {d d' : DecState} {mem : Bytes} {size : Nat}
    (h : SV.decPublicKey { c with keyOk := fun _ => true } d mem size = .ok d') :
    d' = { d with publicKey := d'.publicKey, hasPublicKey := true, keyChanged := d'.keyChanged } ∧
    d'.keyChanged = (d.keyChanged || (d.hasPublicKey && (d'.publicKey !=
      (if d.publicKey.length = d'.publicKey.length then d.publicKey else List.replicate d'.publicKey.length 0)))) := by
  unfold SV.decPublicKey at h
  obtain ⟨⟨v, m⟩, _, h⟩ := Out.bind_eq_ok h
  dsimp only at h
  generalize (if v < 2 then (size + 65534) % 65536 else (size + 65535) % 65536) = n at h
  split at h
  · cases h
  split at h
  · cases h
  generalize (if v < 2 then 2 else 1) = sk at h
  obtain ⟨⟨k, m'⟩, hk, h⟩ := Out.bind_eq_ok h
  simp only [Bool.not_true, Bool.false_eq_true, if_false] at h
  split at h
  · cases h
    refine ⟨rfl, ?_⟩
    have : k.length = n := by
      generalize (if v < 2 then skipN 1 m else m) = m0 at hk
      unfold rdN at hk
      split at hk
      · rename_i hle
        cases hk
        rw [List.length_take]; omega
      · cases hk
    dsimp only
    rw [this]
  · cases h

namespace Validator

/-- The public key and what is known about it are the same. -/
structure SameKey (s t : Validator) : Prop where
  key : t.key = s.key
  pub : t.d.publicKey = s.d.publicKey
  has : t.d.hasPublicKey = s.d.hasPublicKey
  flag : t.rep.latest.keyChanged = s.rep.latest.keyChanged

theorem SameKey.rfl {s : Validator} : SameKey s s := ⟨Eq.refl _, Eq.refl _, Eq.refl _, Eq.refl _⟩
theorem SameKey.trans {s t u : Validator} (h : SameKey s t) (g : SameKey t u) : SameKey s u :=
  ⟨g.key.trans h.key, g.pub.trans h.pub, g.has.trans h.has, g.flag.trans h.flag⟩

theorem decGeneral_key (s : Validator) (mem : Bytes) (size : Nat) : (s.decGeneral mem size).Ends (SameKey s) := by
  have put : ∀ d, (∃ n, SV.decGeneral s.dec mem n = .ok d) → SameKey s (s.put d).putVersion := by
    rintro d ⟨n, h⟩
    have e := decGeneral_frame h
    exact ⟨rfl, show d.publicKey = _ by rw [e]; rfl, show d.hasPublicKey = _ by rw [e]; rfl, show d.keyChanged = _ by rw [e]; rfl⟩
  unfold Validator.decGeneral
  split
  · rename_i d h; exact put d ⟨_, h⟩
  · trivial
  · split
    · split
      · split
        · rename_i h; exact put _ ⟨_, h⟩
        · exact .rfl
      · split
        · rename_i h; exact put _ ⟨_, h⟩
        · exact .rfl
    · exact .rfl
  · exact .rfl

theorem decCrypto_key (env : AuthEnv) (s : Validator) (mem : Bytes) (size : Nat) : (s.decCrypto env mem size).Ends (SameKey s) := by
  unfold Validator.decCrypto
  split
  · split
    · split
      · exact .rfl
      split
      · exact .rfl
      split
      · dsimp only
        refine Res.Ends.andThen' (P := SameKey s) ?_ fun t _ _ ht => ?_
        · split
          · exact .rfl
          · split
            · exact ⟨rfl, rfl, rfl, rfl⟩
            · exact ⟨rfl, rfl, rfl, rfl⟩
        · split
          · exact ⟨ht.key, ht.pub, ht.has, ht.flag⟩
          · exact ⟨ht.key, ht.pub, ht.has, ht.flag⟩
      · exact .rfl
      · trivial
    · exact .rfl
    · trivial
  · exact .rfl
  · trivial

/-- Decoding a TLV that is not a public key. -/
theorem decTag_key (env : AuthEnv) (s : Validator) (t : UInt8) (mem : Bytes) (size : Nat) (ht : t ≠ tagPublicKey) :
    (s.decTag env t mem size).Ends (SameKey s) := by
  unfold Validator.decTag
  split
  · exact decGeneral_key s mem size
  rename_i h1
  split
  · exact decCrypto_key env s mem size
  rename_i h7
  split
  · rename_i d h
    have e := (decValue_frame h1 ht h7 h).1
    refine ⟨rfl, ?_, ?_, rfl⟩
    · show d.publicKey = _; rw [e]; rfl
    · show d.hasPublicKey = _; rw [e]; rfl
  · obtain ⟨a, p, h⟩ := failed_eq s t mem
    rw [h]
    exact ⟨rfl, rfl, rfl, rfl⟩
  · trivial

/-- Decoding a public key. -/
theorem decTag_publicKey (env : AuthEnv) (s : Validator) (mem : Bytes) (size : Nat) :
    s.decTag env tagPublicKey mem size = s.decPublicKey env mem size := by
  unfold Validator.decTag
  rw [if_neg (by decide), if_pos rfl]

theorem decPublicKey_ok {env : AuthEnv} {s t : Validator} {mem : Bytes} {size : Nat} (h : s.decPublicKey env mem size = .ok t ()) :
    t.key = some t.d.publicKey ∧ t.d.hasPublicKey = true ∧ env.crypto.keyOk t.d.publicKey = true ∧
    t.rep.latest.keyChanged = (s.rep.latest.keyChanged || (s.d.hasPublicKey && (t.d.publicKey !=
      (if s.d.publicKey.length = t.d.publicKey.length then s.d.publicKey else List.replicate t.d.publicKey.length 0)))) := by
  unfold Validator.decPublicKey at h
  cases hd : SV.decPublicKey { env.crypto with keyOk := fun _ => true } s.dec mem size with
  | ub u => rw [hd] at h; cases h
  | err e => rw [hd] at h; cases h
  | ok d =>
    rw [hd] at h
    dsimp only at h
    obtain ⟨e1, e2⟩ := decPublicKey_frame hd
    split at h
    · rename_i hk
      cases h
      refine ⟨rfl, ?_, hk, e2⟩
      show d.hasPublicKey = true
      rw [e1]
    · cases h

theorem decPublicKey_err {env : AuthEnv} {s t : Validator} {mem : Bytes} {size : Nat} {c : Rc} (h : s.decPublicKey env mem size = .err t c) :
    t = s ∨ env.crypto.keyOk t.d.publicKey = false := by
  unfold Validator.decPublicKey at h
  cases hd : SV.decPublicKey { env.crypto with keyOk := fun _ => true } s.dec mem size with
  | ub u => rw [hd] at h; cases h
  | err e => rw [hd] at h; cases h; exact .inl rfl
  | ok d =>
    rw [hd] at h
    dsimp only at h
    split at h
    · cases h
    · rename_i hk
      cases h
      refine .inr ?_
      show env.crypto.keyOk d.publicKey = false
      simpa using hk

/-- The key that signatures are verified with is the one that was decoded, except that a key that cannot be used does
not replace it. -/
def KeyInv (env : AuthEnv) (s : Validator) : Prop :=
  s.d.hasPublicKey = true → s.key = some s.d.publicKey ∨ env.crypto.keyOk s.d.publicKey = false

theorem SameKey.inv {env : AuthEnv} {s t : Validator} (h : SameKey s t) (hk : KeyInv env s) : KeyInv env t := by
  unfold KeyInv
  rw [h.has, h.key, h.pub]; exact hk

theorem decTag_inv {env : AuthEnv} {s : Validator} (h : KeyInv env s) (t : UInt8) (mem : Bytes) (size : Nat) :
    (s.decTag env t mem size).Ends (KeyInv env) := by
  by_cases ht : t = tagPublicKey
  · subst ht
    rw [decTag_publicKey]
    cases hr : s.decPublicKey env mem size with
    | ub u => trivial
    | ok u _ => exact fun _ => .inl (decPublicKey_ok hr).1
    | err u c =>
      rcases decPublicKey_err hr with e | e
      · rw [e]; exact h
      · exact fun _ => .inr e
  · exact (decTag_key env s t mem size ht).mono fun u hu => hu.inv h

theorem tlvLoop_inv {env : AuthEnv} (k : Nat) {s : Validator} (h : KeyInv env s) (mem : Bytes) (size : Nat) :
    (tlvLoop env k s mem size).Ends (KeyInv env) := by
  induction k generalizing s mem size with
  | zero => exact h
  | succ k ih =>
    unfold tlvLoop
    split
    · exact h
    · split
      · trivial
      · exact h
      · exact Res.Ends.andThen' (decTag_inv h _ _ _) fun u _ _ hu => ih hu _ _

theorem optLoop_inv {env : AuthEnv} (k : Nat) {s : Validator} (f : Bool) (h : KeyInv env s) (mem : Bytes) (size : Nat) :
    (optLoop env k s f mem size).Ends (KeyInv env) := by
  induction k generalizing s f mem size with
  | zero => exact h
  | succ k ih =>
    unfold optLoop
    split
    · exact h
    · split
      · trivial
      · exact h
      · split
        · trivial
        · split
          · exact ih f h _ _
          · rename_i t n hd _ _ _
            have := decTag_inv h (env := env) t (mem.drop hd) n
            generalize s.decTag env t (mem.drop hd) n = r at this
            cases r with
            | ub u => trivial
            | err u c => exact this
            | ok u _ => exact ih true this _ _

theorem findOptional_inv {env : AuthEnv} {s : Validator} (h : KeyInv env s) (mem : Bytes) (size : Nat) :
    (s.findOptional env mem size).Ends (KeyInv env) := by
  unfold findOptional
  split
  · exact h
  · exact optLoop_inv _ _ h _ _

theorem recurrentLoop_inv {env : AuthEnv} (l : NList) {s : Validator} (h : KeyInv env s) :
    (recurrentLoop env l s).Ends (KeyInv env) := by
  induction l generalizing s with
  | nil => exact h
  | cons x r ih =>
    unfold recurrentLoop
    split
    · split
      · refine Res.Ends.andThen' (findOptional_inv h _ _) fun t f _ ht => ?_
        split
        · exact ht
        · exact ih ht
      · exact ih h
    · exact ih h

theorem tlvDecode_inv {env : AuthEnv} {s : Validator} (h : KeyInv env s) (mem : Bytes) (size : Nat) :
    (s.tlvDecode env mem size).Ends (KeyInv env) := by
  unfold tlvDecode
  split
  · exact h
  · exact tlvLoop_inv _ h _ _

theorem detectLost_key (env : AuthEnv) (s : Validator) : (s.detectLost env).Ends (SameKey s) := by
  unfold detectLost
  dsimp only
  split
  · trivial
  · exact .rfl
  · split
    · trivial
    · exact .rfl
    · exact ⟨rfl, rfl, rfl, rfl⟩

theorem decodeSei_inv {env : AuthEnv} {s : Validator} (h : KeyInv env s) (mem : Bytes) (size : Nat) :
    (s.decodeSei env mem size).Ends (KeyInv env) := by
  unfold decodeSei
  split
  · trivial
  · refine Res.Ends.andThen' (tlvDecode_inv h _ _) fun t _ _ ht => ?_
    refine Res.Ends.andThen' ((detectLost_key env t).mono fun v hv => hv.inv ht) fun u _ _ hu => ?_
    show KeyInv env (if _ then _ else _)
    split
    · exact hu
    · exact hu

theorem prepareGopHash_key (env : AuthEnv) (s : Validator) (a : Nat) : (s.prepareGopHash env a).Ends (SameKey s) := by
  unfold prepareGopHash
  split
  · exact ⟨rfl, rfl, rfl, rfl⟩
  · dsimp only
    split
    · trivial
    · exact ⟨rfl, rfl, rfl, rfl⟩
    · exact ⟨rfl, rfl, rfl, rfl⟩

theorem verifyHash_key (env : AuthEnv) (s : Validator) : (s.verifyHash env).Ends (SameKey s) := by
  unfold verifyHash
  split
  · exact ⟨rfl, rfl, rfl, rfl⟩
  · split
    · exact ⟨rfl, rfl, rfl, rfl⟩
    · exact ⟨rfl, rfl, rfl, rfl⟩

theorem decodeNext_inv {env : AuthEnv} {s : Validator} (h : KeyInv env s) (x : Nat × Item) :
    (s.decodeNext env x).Ends (KeyInv env) := by
  unfold decodeNext
  split
  · exact h
  · dsimp only
    split
    · trivial
    · refine Res.Ends.andThen' (decodeSei_inv (s := { s with rep := { s.rep with latest := { s.rep.latest with keyChanged := false } } }) h _ _)
        fun t _ _ ht => ?_
      split
      · trivial
      · exact ht

theorem prepare_inv {env : AuthEnv} {s : Validator} (h : KeyInv env s) : (s.prepare env).Ends (KeyInv env) := by
  unfold prepare
  dsimp only
  refine Res.Ends.andThen' (P := KeyInv env) ?_ fun t _ _ ht => ?_
  · split
    · exact h
    · refine Res.Ends.andThen' (decodeNext_inv h _) fun t _ _ ht => ?_
      refine Res.Ends.andThen' ((detectLost_key env t).mono fun v hv => hv.inv ht) fun u _ _ hu => ?_
      exact (prepareGopHash_key env u _).mono fun v hv => hv.inv hu
  · split
    · exact ht
    · split
      · exact (verifyHash_key env t).mono fun v hv => hv.inv ht
      · exact ht

theorem updateLink_key {u v : Validator} (h : updateLinkLoop u u.list = .ok v) : SameKey u v := by
  rcases updateLinkLoop_eq h with e | ⟨lk, a, e⟩
  · rw [e]; exact .rfl
  · rw [e]; exact ⟨rfl, rfl, rfl, rfl⟩

theorem listed_key {s t : Validator} (h : Listed s t) : SameKey s t :=
  ⟨by rw [show t = _ from h], by rw [show t = _ from h], by rw [show t = _ from h], by rw [h.rep]⟩

theorem round_inv {env : AuthEnv} {s : Validator} (h : KeyInv env s) : (s.round env).Ends (KeyInv env) := by
  unfold round
  have hb : KeyInv env s.begin := by
    unfold Validator.begin
    split
    · exact h
    · exact h
  refine Res.Ends.andThen' (prepare_inv hb) fun t _ _ ht => ?_
  split
  · trivial
  · exact ht
  · rename_i v hv
    have hv := (updateLink_key hv).inv ht
    refine Res.Ends.andThen' (P := KeyInv env) ?_ fun u _ _ hu => hu
    unfold conduct
    split
    · unfold validate
      exact Res.Ends.andThen' ((verifyGop_listed v).mono fun w hw => (listed_key hw).inv hv) fun w p _ hw => hw
    · exact hv

theorem hashed_key {s t : Validator} (h : Hashed s t) : SameKey s t := by
  rw [h.eq]; exact ⟨rfl, rfl, rfl, rfl⟩

/-- The key in use belongs to what has been decoded, after any calls. -/
theorem key_inv (env : AuthEnv) : CallInv env fun _ => KeyInv env where
  misc _ s s' hm h := by unfold Misc at hm; rw [hm]; exact h
  round _ _ h := round_inv h
  recurrent _ s h := by
    unfold recurrentDecoded
    split
    · exact h
    · exact recurrentLoop_inv _ h
  known _ _ h := h
  golden _ s a n data h _ _ := by
    unfold prepareGolden
    refine Res.Ends.andThen' (decodeSei_inv h _ _) fun t _ _ ht => ?_
    dsimp only
    split
    · trivial
    · rename_i x _
      refine Res.Ends.andThen' (P := KeyInv env) ((hashItem_hashed env _ x).mono fun u hu => (hashed_key hu).inv ht) fun u _ _ hu => ?_
      split
      · trivial
      · split
        · trivial
        · exact prepare_inv hu
  hash _ s x h _ := (hashItem_hashed env s x).mono fun t ht => (hashed_key ht).inv h
  noKey _ _ _ := fun h => by cases h
  mark _ _ _ _ h _ _ := h
  append _ _ _ _ h _ := h
  update _ _ _ _ _ _ _ h _ _ _ _ _ := h
  copy _ _ _ _ _ h _ _ _ := h
  clean _ _ h := h
  reset _ _ h := h
  key _ s k h hk := by
    unfold setPublicKey
    rw [if_neg hk]
    split
    · exact h
    · split
      · exact h
      · dsimp only
        split
        · exact fun _ => .inl rfl
        · rename_i hn
          exact fun _ => .inr (by simpa using hn)

end Validator
end SV
