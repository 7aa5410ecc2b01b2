import Verif.Proofs.AuthAlgo
import Verif.Proofs.ProductTlv
import Verif.Spec.SigSize
/-! The room for the signature in a validating session. -/
namespace SV
open Spec
namespace Validator

theorem decSignature_room {d d' : DecState} {mem : Bytes} {size : Nat} (h : SV.decSignature d mem size = .ok d') :
    5 ≤ size ∧ d'.maxSignature = some (size - 5) ∧ d.maxSignature.getD (size - 5) = size - 5 := by
  unfold SV.decSignature at h
  obtain ⟨⟨v, m⟩, _, h⟩ := Out.bind_eq_ok h
  obtain ⟨⟨v1, m⟩, _, h⟩ := Out.bind_eq_ok h
  obtain ⟨⟨v2, m⟩, _, h⟩ := Out.bind_eq_ok h
  obtain ⟨⟨v3, m⟩, _, h⟩ := Out.bind_eq_ok h
  dsimp only at h
  split at h
  · cases h
  split at h
  · cases h
  split at h
  · cases h
  rename_i h5
  split at h
  · cases h
  split at h
  · cases h
  rename_i hg
  obtain ⟨⟨l, m⟩, _, h⟩ := Out.bind_eq_ok h
  cases h
  exact ⟨by omega, rfl, Decidable.not_not.1 hg⟩

theorem decTag_signature (env : AuthEnv) (s : Validator) (mem : Bytes) (size : Nat) :
    s.decTag env 5 mem size = match SV.decSignature s.dec mem size with
    | .ok d => .ok { s with d := { d with keyChanged := s.d.keyChanged, latestHasTimestamp := s.d.latestHasTimestamp,
                                           latestTimestamp := s.d.latestTimestamp } } ()
    | .err e => .err (s.failed 5 mem) e
    | .ub u => .ub u := by
  unfold Validator.decTag
  rw [if_neg (by decide), if_neg (by decide), if_neg (by decide)]
  rfl

/-- A signature that is decoded has the room that is remembered. -/
theorem decTag_room {env : AuthEnv} {s t : Validator} {mem : Bytes} {size : Nat} (h : s.decTag env 5 mem size = .ok t ()) :
    t.d.maxSignature = some (size - 5) ∧ s.d.maxSignature.getD (size - 5) = size - 5 := by
  rw [decTag_signature] at h
  split at h
  · rename_i d hd
    obtain ⟨_, e1, e2⟩ := decSignature_room hd
    cases h
    exact ⟨e1, e2⟩
  · cases h
  · cases h

/-- The room for the signature is `n`. -/
def Room (n : Nat) (s : Validator) : Prop := s.d.maxSignature = some n

variable {n : Nat} {env : AuthEnv}

theorem Room.same {s t : Validator} (h : Room n s) (e : t.d.maxSignature = s.d.maxSignature) : Room n t := e.trans h

theorem decTag_keeps (s : Validator) (t : UInt8) (mem : Bytes) (size : Nat) (h : Room n s) :
    (s.decTag env t mem size).Ends (Room n) := by
  by_cases h5 : t = 5
  · subst h5
    rw [decTag_signature]
    split
    · rename_i d hd
      obtain ⟨_, e1, e2⟩ := decSignature_room hd
      have e3 : s.dec.maxSignature = some n := h
      rw [e3] at e2
      have e2 : n = size - 5 := e2
      rw [e2]
      exact e1
    · obtain ⟨a, p, hf⟩ := failed_eq s 5 mem
      rw [hf]
      exact h
    · trivial
  unfold Validator.decTag
  split
  · have put : ∀ d, (∃ n, SV.decGeneral s.dec mem n = .ok d) → Room n (s.put d).putVersion := by
      rintro d ⟨n, hd⟩
      have e := decGeneral_frame hd
      exact h.same (show d.maxSignature = _ by rw [e]; rfl)
    unfold Validator.decGeneral
    split
    · rename_i d h; exact put d ⟨_, h⟩
    · trivial
    · split
      · split
        · split
          · rename_i h; exact put _ ⟨_, h⟩
          · exact h
        · split
          · rename_i h; exact put _ ⟨_, h⟩
          · exact h
      · exact h
    · exact h
  rename_i h1
  split
  · unfold Validator.decPublicKey
    split
    · rename_i d hd
      have e := (decPublicKey_frame hd).1
      split
      · exact h.same (show d.maxSignature = _ by rw [e]; rfl)
      · exact h.same (show d.maxSignature = _ by rw [e]; rfl)
    · exact h
    · trivial
  rename_i h2
  split
  · unfold Validator.decCrypto
    split
    · split
      · split
        · exact h
        split
        · exact h
        split
        · dsimp only
          refine Res.Ends.andThen' (P := Room n) ?_ fun t _ _ ht => ?_
          · split
            · exact h
            · split
              · exact h
              · exact h
          · split
            · exact ht
            · exact ht
        · exact h
        · trivial
      · exact h
      · trivial
    · exact h
    · trivial
  rename_i h7
  split
  · rename_i d hd
    have e := ((decValue_frame h1 h2 h7 hd).2.1 h5).2.1
    exact h.same e
  · obtain ⟨a, p, hf⟩ := failed_eq s t mem
    rw [hf]
    exact h
  · trivial

theorem sigRooms_succ (k : Nat) (mem : Bytes) (size : Nat) : sigRooms (k + 1) mem size =
    if size = 0 then []
    else match mem with
      | t :: a :: m =>
        if t = 0 ∨ t = 1 ∨ t = 7 then sigRooms k (m.drop a.toNat) (size - 2 - a.toNat)
        else match m with
          | b :: m =>
            let n := a.toNat * 256 + b.toNat
            (if t = 5 then [n - 5] else []) ++ sigRooms k (m.drop n) (size - 3 - n)
          | [] => []
      | _ => [] := by
  conv => lhs; unfold sigRooms
  rfl

theorem rooms_walk {mem m' : Bytes} (hm : m' <+: mem) {t : UInt8} {n h : Nat} (e : decHeader mem = .ok (t, n, h)) (k size : Nat) (hs : size ≠ 0) :
    sigRooms (k + 1) m' size = [] ∨
    sigRooms (k + 1) m' size = (if t = 5 then [n - 5] else []) ++ sigRooms k ((m'.drop h).drop n) (size - h - n) := by
  obtain ⟨z, rfl⟩ := hm
  rw [sigRooms_succ, if_neg hs]
  cases m' with
  | nil => exact .inl rfl
  | cons t' m =>
    cases m with
    | nil => exact .inl rfl
    | cons a m =>
      unfold decHeader at e
      simp only [List.cons_append, rd8_cons, Out.bind_ok] at e
      split at e
      · cases e
      · rename_i ht
        have ht : (getTuple t').tag = t' := Decidable.not_not.1 ht
        have hlen := getTuple_len ht
        split at e
        · rename_i h2
          have hn := hlen.1 h2
          dsimp only
          rw [if_neg hn]
          cases m with
          | nil => exact .inl rfl
          | cons b m =>
            right
            simp only [List.cons_append, rd16] at e
            cases e
            have hb : ((a.toUInt16 <<< 8) + b.toUInt16).toNat = a.toNat * 256 + b.toNat := by
              have := a.toNat_lt
              have := b.toNat_lt
              simp [Nat.shiftLeft_eq]
              omega
            rw [hb]
            simp
        · rename_i h2
          have hn : t' = 0 ∨ t' = 1 ∨ t' = 7 := Decidable.not_not.1 fun h => h2 (hlen.2 h)
          right
          cases e
          dsimp only
          rw [if_pos hn, if_neg (by rcases hn with h | h | h <;> rw [h] <;> decide)]
          rfl

/-- When all records of the TLV data are decoded, all signatures have the room that is remembered. -/
theorem tlvLoop_room (k : Nat) : ∀ (s t : Validator) {mem m' : Bytes} (size : Nat), m' <+: mem →
    tlvLoop env k s mem size = .ok t () → ∀ m ∈ sigRooms k m' size, Room m t := by
  induction k with
  | zero => intro s t mem m' size _ _ m hm; cases hm
  | succ k ih =>
    intro s t mem m' size hp e m hm
    unfold tlvLoop at e
    split at e
    · rename_i hs
      unfold sigRooms at hm
      rw [if_pos hs] at hm
      cases hm
    · rename_i hs
      split at e
      · cases e
      · cases e
      · rename_i tg n h eh
        cases hd : s.decTag env tg (mem.drop h) n with
        | ub u => rw [hd] at e; cases e
        | err u c => rw [hd] at e; cases e
        | ok u x =>
          rw [hd] at e
          have e : tlvLoop env k u ((mem.drop h).drop n) (size - h - n) = .ok t () := e
          rcases rooms_walk hp eh k size hs with hw | hw
          · rw [hw] at hm; cases hm
          · rw [hw] at hm
            rcases List.mem_append.1 hm with hl | hl
            · split at hl
              · rename_i h5
                subst h5
                have hl : m = n - 5 := by simpa using hl
                have hu : Room m u := by rw [hl]; exact (decTag_room hd).1
                have := tlvLoop_ends (fun s t mem size => decTag_keeps (n := m) (env := env) s t mem size) k hu ((mem.drop h).drop n) (size - h - n)
                rw [e] at this
                exact this
              · cases hl
            · exact ih u t _ (drop_prefix (drop_prefix hp h) n) e m hl

theorem detectLost_room {s : Validator} (h : Room n s) : (s.detectLost env).Ends (Room n) := by
  unfold detectLost
  dsimp only
  split
  · trivial
  · exact h
  · split
    · trivial
    · exact h
    · exact h

theorem decodeSei_keeps {s : Validator} (h : Room n s) (mem : Bytes) (size : Nat) : (s.decodeSei env mem size).Ends (Room n) := by
  unfold decodeSei
  split
  · trivial
  · refine Res.Ends.andThen' (tlvDecode_ends decTag_keeps h _ _) fun t _ _ ht => ?_
    refine Res.Ends.andThen' (detectLost_room ht) fun u _ _ hu => ?_
    show Room n (if _ then _ else _)
    split
    · exact hu
    · exact hu

/-- A SEI with another room for the signature cannot be decoded. -/
theorem decodeSei_other {s t : Validator} (h : Room n s) {x : Nalu} (hx : OtherRoom x n) (e : s.decodeSei env x.tlvMem x.tlvSize = .ok t ()) :
    False := by
  unfold decodeSei at e
  split at e
  · cases e
  · rename_i hs
    obtain ⟨m, hm, hne⟩ := hx
    unfold tlvDecode at e
    rw [if_neg hs] at e
    cases hd : tlvLoop env x.tlvSize s x.tlvMem x.tlvSize with
    | ub u => rw [hd] at e; cases e
    | err u c => rw [hd] at e; cases e
    | ok u y =>
      have h1 := tlvLoop_room (env := env) x.tlvSize s u x.tlvSize (List.take_prefix _ _) hd m hm
      have h2 := tlvLoop_ends (fun s t mem size => decTag_keeps (n := n) (env := env) s t mem size) x.tlvSize h x.tlvMem x.tlvSize
      rw [hd] at h2
      exact hne (Option.some.inj (h1.symm.trans h2))

theorem decodeNext_keeps {s : Validator} (h : Room n s) (x : Nat × Item) : (s.decodeNext env x).Ends (Room n) := by
  unfold decodeNext
  split
  · exact h
  · dsimp only
    split
    · trivial
    · refine Res.Ends.andThen' (decodeSei_keeps (s := { s with rep := { s.rep with latest := { s.rep.latest with keyChanged := false } } })
        h _ _) fun t _ _ ht => ?_
      split
      · trivial
      · exact ht

theorem prepareGopHash_keeps {s : Validator} (h : Room n s) (a : Nat) : (s.prepareGopHash env a).Ends (Room n) := by
  unfold prepareGopHash
  split
  · exact h
  · dsimp only
    split
    · trivial
    · exact h
    · exact h

theorem prepare_keeps {s : Validator} (h : Room n s) : (s.prepare env).Ends (Room n) := by
  unfold prepare
  dsimp only
  refine Res.Ends.andThen' (P := Room n) ?_ fun t _ _ ht => ?_
  · split
    · exact h
    · refine Res.Ends.andThen' (decodeNext_keeps h _) fun t _ _ ht => ?_
      refine Res.Ends.andThen' (detectLost_room ht) fun u _ _ hu => ?_
      exact prepareGopHash_keeps hu _
  · split
    · exact ht
    · split
      · unfold verifyHash
        split
        · exact ht
        · split
          · exact ht
          · exact ht
      · exact ht

theorem round_keeps {s : Validator} (h : Room n s) : (s.round env).Ends (Room n) := by
  unfold round
  have hb : Room n s.begin := by
    unfold Validator.begin
    split
    · exact h
    · exact h
  refine Res.Ends.andThen' (prepare_keeps hb) fun t _ _ ht => ?_
  split
  · trivial
  · exact ht
  · rename_i v hv
    have hv : Room n v := by
      rcases updateLinkLoop_eq hv with e | ⟨lk, a, e⟩
      · rw [e]; exact ht
      · rw [e]; exact ht
    refine Res.Ends.andThen' (P := Room n) ?_ fun u _ _ hu => hu
    unfold conduct
    split
    · unfold validate
      refine Res.Ends.andThen' (P := Room n) ((verifyGop_listed v).mono fun w hw => ?_) fun w p _ hw => hw
      have e : w = _ := hw
      rw [e]
      exact hv
    · exact hv

/-- The room for the signature stays what it is, whatever calls are made. -/
theorem room_inv (env : AuthEnv) (n : Nat) : CallInv env fun _ => Room n where
  misc _ s s' hm h := by unfold Misc at hm; rw [hm]; exact h
  round _ _ h := round_keeps h
  recurrent _ s h := recurrentDecoded_ends decTag_keeps h
  known _ _ h := h
  golden _ s a x data h _ _ := by
    unfold prepareGolden
    refine Res.Ends.andThen' (decodeSei_keeps h _ _) fun t _ _ ht => ?_
    dsimp only
    split
    · trivial
    · rename_i x _
      refine Res.Ends.andThen' (P := Room n) ((hashItem_hashed env _ x).mono fun u hu => by rw [hu.eq]; exact ht) fun u _ _ hu => ?_
      split
      · trivial
      · split
        · trivial
        · exact prepare_keeps hu
  hash _ s x h _ := (hashItem_hashed env s x).mono fun t ht => by rw [ht.eq]; exact h
  noKey _ _ h := h
  mark _ _ _ _ h _ _ := h
  append _ _ _ _ h _ := h
  update _ _ _ _ _ _ _ h _ _ _ _ _ := h
  copy _ _ _ _ _ h _ _ _ := h
  clean _ _ h := h
  reset _ _ h := h
  key _ s k h hk := by
    unfold setPublicKey
    rw [if_neg hk]
    split
    · exact h
    · split
      · exact h
      · dsimp only
        split
        · exact h
        · exact h

end Validator
end SV
