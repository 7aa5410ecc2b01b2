import Verif.Model.Legacy
import Verif.Proofs.AuthFrame
/-! What the functions of the session for the older format leave unchanged. -/
namespace SV
namespace Legacy
open Validator (Decoded)

theorem decTag_decoded (env : AuthEnv) (v : Validator) (t : UInt8) (mem : Bytes) (size : Nat) :
    (decTag env v t mem size).Ends (Decoded v) := by
  unfold decTag
  split
  · split
    · split
      · exact Decoded.refl v
      · exact Validator.decGeneral_decoded v mem size
    · exact Decoded.refl v
    · trivial
  · exact Validator.decTag_decoded env v t mem size

theorem tlvLoop_decoded (env : AuthEnv) (fuel : Nat) (s : Validator) (mem : Bytes) (size : Nat) :
    (tlvLoop env fuel s mem size).Ends (Decoded s) := by
  induction fuel generalizing s mem size with
  | zero => exact Decoded.refl s
  | succ fuel ih =>
    unfold tlvLoop
    split
    · exact Decoded.refl s
    · split
      · trivial
      · exact Decoded.refl s
      · rename_i t n h _
        refine Res.Ends.andThen' (decTag_decoded env s t (mem.drop h) n) ?_
        intro u _ _ hu
        exact (ih u _ _).mono fun v hv => hu.trans hv

theorem tlvDecode_decoded (env : AuthEnv) (s : Validator) (mem : Bytes) (size : Nat) :
    (tlvDecode env s mem size).Ends (Decoded s) := by
  unfold tlvDecode
  split
  · exact Decoded.refl s
  · exact tlvLoop_decoded env _ _ _ _

theorem optLoop_decoded (env : AuthEnv) (fuel : Nat) (s : Validator) (f : Bool) (mem : Bytes) (size : Nat) :
    (optLoop env fuel s f mem size).Ends (Decoded s) := by
  induction fuel generalizing s f mem size with
  | zero => exact Decoded.refl s
  | succ fuel ih =>
    unfold optLoop
    split
    · exact Decoded.refl s
    · split
      · trivial
      · exact Decoded.refl s
      · split
        · trivial
        · rename_i t n h _ _
          split
          · exact ih _ _ _ _
          · have hd := decTag_decoded env s t (mem.drop h) n
            split
            · trivial
            · rename_i e; exact hd.of_err e
            · rename_i e; exact (ih _ _ _ _).mono fun v hv => (hd.of_ok e).trans hv

theorem findOptional_decoded (env : AuthEnv) (s : Validator) (mem : Bytes) (size : Nat) :
    (findOptional env s mem size).Ends (Decoded s) := by
  unfold findOptional
  split
  · exact Decoded.refl s
  · exact optLoop_decoded env _ _ _ _ _

theorem recurrentLoop_decoded (env : AuthEnv) (l : LList) (s : Validator) : (recurrentLoop env l s).Ends (Decoded s) := by
  induction l generalizing s with
  | nil => exact Decoded.refl s
  | cons x r ih =>
    unfold recurrentLoop
    split
    · trivial
    · split
      · split
        · refine Res.Ends.andThen' (findOptional_decoded env s _ _) ?_
          intro u f _ hu
          split
          · exact hu
          · exact (ih u).mono fun v hv => hu.trans hv
        · exact ih s
      · exact ih s

theorem onV_ends {α : Type} {P : Validator → Prop} (s : Legacy) {r : Res Validator α} (h : r.Ends P) :
    (s.onV r).Ends fun t => t = { s with v := t.v } ∧ P t.v := by
  cases r with
  | ok v a => exact ⟨rfl, h⟩
  | err v e => exact ⟨rfl, h⟩
  | ub u => trivial

theorem recurrentDecoded_frame (env : AuthEnv) (s : Legacy) :
    (s.recurrentDecoded env).Ends fun t => t = { s with v := t.v } ∧ Decoded s.v t.v := by
  unfold recurrentDecoded
  split
  · exact ⟨rfl, Decoded.refl _⟩
  · exact onV_ends s (recurrentLoop_decoded env _ _)

theorem hashNalu_frame {env : AuthEnv} {v : Validator} {n : Nalu} {p : Validator × Bytes} (h : v.hashNalu env n = .ok p) :
    ∃ b r, p.1 = { v with buddies := b, hasRef := r } := by
  unfold Validator.hashNalu at h
  cases hd : v.digest env n.hashable with
  | err e => rw [hd] at h; cases h
  | ub u => rw [hd] at h; cases h
  | ok x =>
    rw [hd] at h
    dsimp only [bind, Out.bind] at h
    split at h
    · cases h; exact ⟨_, _, rfl⟩
    · split at h
      · cases h; exact ⟨_, _, rfl⟩
      · generalize hg : v.digest env _ = y at h
        cases y with
        | err e => cases h
        | ub u => cases h
        | ok y => cases h; exact ⟨_, _, rfl⟩

/-- The effect of hashing an item: hashes of the item at an address, and the reference. -/
def HashedAt (a : Nat) (s t : Legacy) : Prop :=
  ∃ b r f, t = { s with v := { s.v with buddies := b, hasRef := r }, list := s.list.set a f } ∧
    ∀ i : LItem, ∃ h g, f i = { i with hash := h, second := g }

theorem set_id (l : LList) (a : Nat) : l.set a (fun i => i) = l := by
  unfold LList.set
  rw [List.map_congr_left (g := id)]
  · simp
  · intro x _; split <;> rfl

theorem set_set (l : LList) (a : Nat) (f g : LItem → LItem) : (l.set a f).set a g = l.set a fun i => g (f i) := by
  unfold LList.set
  rw [List.map_map]
  apply List.map_congr_left
  intro x _
  by_cases h : x.1 = a <;> simp [h]

theorem hashItem_frame (env : AuthEnv) (s : Legacy) (a : Nat) (n : Nalu) : (s.hashItem env a n).Ends (HashedAt a s) := by
  have h0 : HashedAt a s s := ⟨s.v.buddies, s.v.hasRef, fun i => i, by rw [set_id], fun i => ⟨i.hash, i.second, rfl⟩⟩
  unfold hashItem
  split
  · exact h0
  · split
    · trivial
    · exact h0
    · rename_i v h hv
      obtain ⟨b, r, e⟩ := hashNalu_frame hv
      dsimp only at e
      subst e
      have h1 : HashedAt a s { s with v := { s.v with buddies := b, hasRef := r }, list := s.list.set a fun i => { i with hash := ovl h i.hash } } :=
        ⟨b, r, _, rfl, fun i => ⟨_, i.second, rfl⟩⟩
      dsimp only
      split
      · split
        · trivial
        · exact ⟨b, false, _, rfl, fun i => ⟨_, i.second, rfl⟩⟩
        · rename_i v' h' hv'
          obtain ⟨b', r', e'⟩ := hashNalu_frame hv'
          dsimp only at e'
          subst e'
          refine ⟨b', r', fun i => { i with hash := ovl h i.hash, second := some h' }, ?_, fun i => ⟨_, _, rfl⟩⟩
          dsimp only
          rw [set_set]
      · exact h1

/-- The effect of preparing a validation on the state without the list. -/
structure Prep (s t : Legacy) : Prop where
  codec : t.v.codec = s.v.codec
  flags : t.v.flags = s.v.flags
  synced : t.v.synced = s.v.synced
  acc : t.v.rep.acc = s.v.rep.acc
  thisVersion : t.v.rep.thisVersion = s.v.rep.thisVersion
  latest : ∃ k h ts, t.v.rep.latest = { s.v.rep.latest with keyChanged := k, hasTs := h, ts := ts }
  brk : t.brk = s.brk

theorem Prep.refl (s : Legacy) : Prep s s := ⟨rfl, rfl, rfl, rfl, rfl, ⟨_, _, _, rfl⟩, rfl⟩

theorem Prep.trans {a b c : Legacy} (h : Prep a b) (g : Prep b c) : Prep a c := by
  obtain ⟨k, h1, t, e⟩ := h.latest
  obtain ⟨k', h1', t', e'⟩ := g.latest
  exact ⟨g.codec.trans h.codec, g.flags.trans h.flags, g.synced.trans h.synced, g.acc.trans h.acc,
    g.thisVersion.trans h.thisVersion, ⟨k', h1', t', by rw [e', e]⟩, g.brk.trans h.brk⟩

theorem Prep.of_decoded {s t : Legacy} (h : Decoded s.v t.v) (hb : t.brk = s.brk) : Prep s t :=
  ⟨h.codec, h.flags, h.synced, h.acc, h.thisVersion, h.latest, hb⟩

theorem decodeSei_prep (env : AuthEnv) (s : Legacy) (mem : Bytes) (size : Nat) : (s.decodeSei env mem size).Ends (Prep s) := by
  unfold decodeSei
  split
  · trivial
  · refine Res.Ends.andThen' (P := Prep s) ((onV_ends s (tlvDecode_decoded env s.v mem size)).mono fun t h => ?_) (fun t _ _ h => ?_)
    · exact Prep.of_decoded h.2 (by rw [h.1])
    · exact ⟨h.codec, h.flags, h.synced, h.acc, h.thisVersion, h.latest, h.brk⟩

theorem decodeNext_prep (env : AuthEnv) (s : Legacy) (x : Nat × LItem) : (s.decodeNext env x).Ends (Prep s) := by
  unfold decodeNext
  split
  · exact Prep.refl s
  · dsimp only
    split
    · trivial
    · refine Res.Ends.andThen' (decodeSei_prep env s _ _) (fun t _ _ h => ?_)
      have h' : ∀ l g, Prep s { t with list := l, v := { t.v with sigHash := g } } := fun l g =>
        ⟨h.codec, h.flags, h.synced, h.acc, h.thisVersion, h.latest, h.brk⟩
      split
      · split
        · trivial
        · exact h' _ _
      · exact h' _ t.v.sigHash

theorem computeGop_prep (env : AuthEnv) (s : Legacy) (x : Nat × LItem) : (s.computeGop env x).Ends (Prep s) := by
  unfold computeGop
  dsimp only
  split
  · trivial
  · exact ⟨rfl, rfl, rfl, rfl, rfl, ⟨_, _, _, rfl⟩, rfl⟩
  · exact ⟨rfl, rfl, rfl, rfl, rfl, ⟨_, _, _, rfl⟩, rfl⟩

theorem hashNext_prep (env : AuthEnv) (s : Legacy) (x : Nat × LItem) (hs : Nat) : (s.hashNext env x hs).Ends (Prep s) := by
  unfold hashNext
  split
  · refine Res.Ends.andThen' (computeGop_prep env s x) (fun t _ _ h => ?_)
    split
    · trivial
    · exact ⟨h.codec, h.flags, h.synced, h.acc, h.thisVersion, h.latest, h.brk⟩
  · exact Prep.refl s

theorem verifyHash_prep (env : AuthEnv) (s : Legacy) : (s.verifyHash env).Ends (Prep s) := by
  unfold verifyHash Validator.verifyHash
  split
  · exact ⟨rfl, rfl, rfl, rfl, rfl, ⟨_, _, _, rfl⟩, rfl⟩
  · split
    · exact ⟨rfl, rfl, rfl, rfl, rfl, ⟨_, _, _, rfl⟩, rfl⟩
    · exact ⟨rfl, rfl, rfl, rfl, rfl, ⟨_, _, _, rfl⟩, rfl⟩

/-- The decoding and hashing at the start of `prepare`. -/
def readNext (env : AuthEnv) (s : Legacy) : Res Legacy Unit :=
  match nextSei s.list with
  | none => .ok s ()
  | some x => (s.decodeNext env x).andThen fun t _ => t.hashNext env x s.v.d.hashSize

theorem readNext_prep (env : AuthEnv) (s : Legacy) : (s.readNext env).Ends (Prep s) := by
  unfold readNext
  split
  · exact Prep.refl s
  · exact Res.Ends.andThen' (decodeNext_prep env s _) (fun t _ _ h => (hashNext_prep env t _ _).mono fun w g => h.trans g)

/-- The check of the signature at the end of `prepare`. -/
def checkNext (env : AuthEnv) (s : Legacy) : Res Legacy Unit :=
  if s.v.flags.signing && !s.v.d.hasPublicKey then .err s .notSupported
  else if s.v.gop.hasSei then s.verifyHash env
  else match s.list with
    | [] => .ub .nullDeref
    | f :: _ =>
      match f.2.nalu with
      | none => .ub .nullDeref
      | some n => if n.golden then s.verifyHash env else .ok s ()

theorem prepare_eq (env : AuthEnv) (s : Legacy) : s.prepare env = (s.readNext env).andThen fun t _ => t.checkNext env := rfl

theorem checkNext_prep (env : AuthEnv) (s : Legacy) : (s.checkNext env).Ends (Prep s) := by
  unfold checkNext
  split
  · exact Prep.refl s
  · split
    · exact verifyHash_prep env s
    · split
      · trivial
      · split
        · trivial
        · split
          · exact verifyHash_prep env s
          · exact Prep.refl s

theorem prepare_prep (env : AuthEnv) (s : Legacy) : (s.prepare env).Ends (Prep s) := by
  rw [prepare_eq]
  exact Res.Ends.andThen' (readNext_prep env s) (fun t _ _ h => (checkNext_prep env t).mono fun w g => h.trans g)

/-- The signature of a SEI is checked with the key, and the result stored. -/
theorem checkNext_verified {env : AuthEnv} {s t : Legacy} (h : s.checkNext env = .ok t ()) :
    t = s ∨ ∃ k, s.v.key = some k ∧
      t = { s with v := { s.v with verified := env.verify k s.v.d.signature (buf s.v.d.hashSize s.v.sigHash) } } := by
  have hv : ∀ {w}, s.verifyHash env = .ok w () → ∃ k, s.v.key = some k ∧
      w = { s with v := { s.v with verified := env.verify k s.v.d.signature (buf s.v.d.hashSize s.v.sigHash) } } := by
    intro w hw
    unfold verifyHash Validator.verifyHash at hw
    split at hw
    · cases hw
    · split at hw
      · cases hw
      · rename_i k hk; cases hw; exact ⟨k, hk, rfl⟩
  unfold checkNext at h
  split at h
  · cases h
  · split at h
    · exact .inr (hv h)
    · split at h
      · cases h
      · split at h
        · cases h
        · split at h
          · exact .inr (hv h)
          · cases h; exact .inl rfl

theorem decodeNext_verified (env : AuthEnv) (s : Legacy) (x : Nat × LItem) : (s.decodeNext env x).Ends fun t => t.v.verified = s.v.verified := by
  unfold decodeNext
  split
  · rfl
  · dsimp only
    split
    · trivial
    · refine Res.Ends.andThen' (P := fun (t : Legacy) => t.v.verified = s.v.verified) ?_ (fun t _ _ h => ?_)
      · unfold decodeSei
        split
        · trivial
        · exact Res.Ends.andThen' ((onV_ends s (tlvDecode_decoded env s.v _ _)).mono fun t h => h.2.verified) (fun t _ _ h => h)
      · split
        · split
          · trivial
          · exact h
        · exact h

theorem readNext_verified (env : AuthEnv) (s : Legacy) : (s.readNext env).Ends fun t => t.v.verified = s.v.verified := by
  unfold readNext
  split
  · rfl
  · refine Res.Ends.andThen' (decodeNext_verified env s _) (fun t _ _ h => ?_)
    unfold hashNext
    split
    · refine Res.Ends.andThen' (P := fun (w : Legacy) => w.v.verified = s.v.verified) ?_ (fun w _ _ g => ?_)
      · unfold computeGop
        dsimp only
        split
        · trivial
        · exact h
        · exact h
      · split
        · trivial
        · exact g
    · exact h

theorem prepare_verified {env : AuthEnv} {s t : Legacy} (h : s.prepare env = .ok t ()) (hv : t.v.verified = 1) :
    s.v.verified = 1 ∨ ∃ k, t.v.key = some k ∧ env.verify k t.v.d.signature (buf t.v.d.hashSize t.v.sigHash) = 1 := by
  rw [prepare_eq] at h
  obtain ⟨u, _, h1, h2⟩ := Res.andThen_eq_ok h
  have hu := (readNext_verified env s).of_ok h1
  rcases checkNext_verified h2 with rfl | ⟨k, hk, rfl⟩
  · exact .inl (hu ▸ hv)
  · exact .inr ⟨k, hk, hv⟩

end Legacy
end SV
