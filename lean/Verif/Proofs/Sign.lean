import Verif.Model.Sign
/-! Lemmas on the signing session: which members the functions touch, and the shape of the SEI buffer. -/
namespace SV

/-! ### Undefined behaviour of the parser -/

/-- The only undefined behaviour of a function is a read outside of its input, and it returns no error. -/
structure OnlyOverread {α : Type} (o : Out α) : Prop where
  ub : ∀ u, o = .ub u → u = .overread
  noErr : ∀ e, o ≠ .err e

theorem onlyOverread_ok {α : Type} (a : α) : OnlyOverread (.ok a : Out α) := ⟨fun _ h => (nomatch h), fun _ h => (nomatch h)⟩
theorem onlyOverread_ub {α : Type} : OnlyOverread (.ub .overread : Out α) :=
  ⟨fun _ h => by cases h; rfl, fun _ h => (nomatch h)⟩

theorem onlyOverread_bind {α β : Type} {o : Out α} {f : α → Out β} (h : OnlyOverread o)
    (hf : ∀ a, OnlyOverread (f a)) : OnlyOverread (o >>= f) := by
  cases o with
  | ok a => exact hf a
  | err e => exact absurd rfl (h.noErr e)
  | ub u => exact ⟨fun v hv => by cases hv; exact h.ub u rfl, fun _ hv => (nomatch hv)⟩

theorem onlyOverread_rd8 (m : Bytes) : OnlyOverread (rd8 m) := by
  cases m <;> first | exact onlyOverread_ok _ | exact onlyOverread_ub

theorem onlyOverread_rdN (n : Nat) (m : Bytes) : OnlyOverread (rdN n m) := by
  unfold rdN; split <;> first | exact onlyOverread_ok _ | exact onlyOverread_ub

theorem onlyOverread_psf (m : Bytes) : OnlyOverread (payloadSizeField m) := by
  induction m with
  | nil => exact onlyOverread_ub
  | cons b m ih =>
    unfold payloadSizeField; split
    · exact onlyOverread_bind ih (fun _ => onlyOverread_ok _)
    · exact onlyOverread_ok _

theorem onlyOverread_header (c : Codec) (m : Bytes) : OnlyOverread (parseHeader c m) := by
  unfold parseHeader
  repeat' split
  all_goals first | exact onlyOverread_ok _ | exact onlyOverread_ub

theorem onlyOverread_removeEpb (n : Nalu) (m : Bytes) (off : Nat) : OnlyOverread (removeEpb n m off) := by
  unfold removeEpb
  repeat' split
  all_goals first
    | exact onlyOverread_ok _
    | exact onlyOverread_ub
    | (dsimp only; repeat' split) <;> first | exact onlyOverread_ok _ | exact onlyOverread_ub

theorem onlyOverread_sei (c : Codec) (a : Bool) (n : Nalu) (m : Bytes) (l : UInt8) :
    OnlyOverread (parseSei c a n m l) := by
  unfold parseSei
  refine onlyOverread_bind (onlyOverread_rd8 _) (fun p => ?_)
  dsimp only
  split
  · refine onlyOverread_bind (onlyOverread_psf _) (fun q => ?_)
    refine onlyOverread_bind (onlyOverread_rdN _ _) (fun r => ?_)
    exact onlyOverread_removeEpb _ _ _
  · exact onlyOverread_ok _

theorem onlyOverread_trim (d : Bytes) : OnlyOverread (trimmedLen d) := by
  unfold trimmedLen; dsimp only; split <;> first | exact onlyOverread_ok _ | exact onlyOverread_ub

theorem onlyOverread_parse (d : Bytes) (c : Codec) (t a : Bool) : OnlyOverread (parseNalu d c t a) := by
  unfold parseNalu
  split
  · exact onlyOverread_ok _
  · refine onlyOverread_bind (onlyOverread_header _ _) (fun p => ?_)
    dsimp only
    refine onlyOverread_bind ?_ (fun k => ?_)
    · split
      · exact onlyOverread_trim _
      · exact onlyOverread_ok _
    · split
      · exact onlyOverread_sei _ _ _ _ _
      · exact onlyOverread_ok _
  · exact onlyOverread_ub

/-! ### Predicates on outcomes -/

/-- Undefined behaviour that has nothing to do with the SEI buffer. -/
def OtherUb (u : Ub) : Prop := u = .overflow ∨ u = .overread ∨ u = .intOverflow

namespace Res
variable {σ α β : Type}

/-- Every session that comes out satisfies `P`, and undefined behaviour is not one of the SEI buffer. -/
def Sat (P : σ → Prop) : Res σ α → Prop
  | ok s _ => P s
  | err s _ => P s
  | ub u => OtherUb u

theorem Sat.andThen {P Q : σ → Prop} {r : Res σ α} {f : σ → α → Res σ β} (h : r.Sat P)
    (hf : ∀ s a, r = ok s a → P s → (f s a).Sat Q) (he : ∀ s, P s → Q s) : (r.andThen f).Sat Q := by
  cases r with
  | ok s a => exact hf s a rfl h
  | err s e => exact he s h
  | ub u => exact h

theorem Sat.mono {P Q : σ → Prop} {r : Res σ α} (h : r.Sat P) (hq : ∀ s, P s → Q s) : r.Sat Q := by
  cases r with
  | ok s a => exact hq s h
  | err s e => exact hq s h
  | ub u => exact h

theorem Sat.onErr {P : σ → Prop} {r : Res σ α} {g : σ → σ} (h : r.Sat P) (hg : ∀ s, P s → P (g s)) :
    (r.onErr g).Sat P := by
  cases r with
  | ok s a => exact h
  | err s e => exact hg s h
  | ub u => exact h

end Res

/-! ### The hash functions do not touch the SEI buffer -/

/-- The SEI buffer and the observations are the same. -/
structure SameBuf (s s' : Signer) : Prop where
  buf : s'.buf = s.buf
  idx : s'.idx = s.idx
  completed : s'.completed = s.completed
  got : s'.got = s.got
  signed : s'.signed = s.signed

theorem SameBuf.refl (s : Signer) : SameBuf s s := ⟨rfl, rfl, rfl, rfl, rfl⟩
theorem SameBuf.trans {a b c : Signer} (h : SameBuf a b) (g : SameBuf b c) : SameBuf a c :=
  ⟨g.buf.trans h.buf, g.idx.trans h.idx, g.completed.trans h.completed, g.got.trans h.got, g.signed.trans h.signed⟩

theorem updateHash_same (s : Signer) (d : Bytes) : (updateHash s d).Sat (SameBuf s) := by
  unfold updateHash
  cases h : s.secondary.update d with
  | ok c => exact ⟨rfl, rfl, rfl, rfl, rfl⟩
  | err e => exact SameBuf.refl s
  | ub u =>
    unfold Ctx.update at h
    split at h
    · cases h
    · split at h <;> cases h

theorem ofOut_hashData_same (H : Bytes → Bytes) (s t : Signer) (h : SameBuf s t) (d : Bytes) :
    (Res.ofOut t (hashData H d)).Sat (SameBuf s) := by
  unfold hashData; split <;> exact h

theorem simplyHash_same (hs : Hashing) (s : Signer) (d : Bytes) (f : Bool) :
    (simplyHash hs s d f).Sat (SameBuf s) := by
  unfold simplyHash
  split
  · exact ofOut_hashData_same _ _ _ (SameBuf.refl s) _
  · refine (updateHash_same s d).andThen (fun t a _ ht => ?_) (fun _ h => h)
    unfold Ctx.final
    split
    · next h => split at h <;> cases h <;> exact ⟨ht.buf, ht.idx, ht.completed, ht.got, ht.signed⟩
    · exact ht
    · next h => split at h <;> cases h

theorem hashAndAdd_same (hs : Hashing) (s : Signer) (n : Nalu) (f l : Bool) :
    (hashAndAdd hs s n f l).Sat (SameBuf s) := by
  unfold hashAndAdd
  split
  · exact SameBuf.refl s
  · dsimp only
    refine Res.Sat.onErr ?_ (fun t ht => ⟨ht.buf, ht.idx, ht.completed, ht.got, ht.signed⟩)
    generalize hs' : (if (f && !l) = true then { s with secondary := Ctx.open [] } else s) = t
    have ht : SameBuf s t := by
      subst hs'; split
      · exact ⟨rfl, rfl, rfl, rfl, rfl⟩
      · exact SameBuf.refl s
    split
    · exact (updateHash_same t _).mono (fun _ h => ht.trans h)
    · refine Res.Sat.andThen (P := SameBuf s) ?_ (fun u h _ hu => ?_) (fun _ h => h)
      · split
        · exact (simplyHash_same _ _ _ _).mono (fun _ h => ht.trans h)
        · split
          · unfold hashAndCopyToRef
            refine (simplyHash_same hs t n.hashable f).andThen (fun v h _ hv => ?_) (fun _ h => ht.trans h)
            have := ht.trans hv
            exact ⟨this.buf, this.idx, this.completed, this.got, this.signed⟩
          · unfold hashWithReference
            refine (simplyHash_same hs t n.hashable f).andThen (fun v h _ hv => ?_) (fun _ h => ht.trans h)
            exact ofOut_hashData_same _ _ _ (ht.trans hv) _
      · show SameBuf s _
        have : SameBuf s (checkAndCopy { u with naluHash := h } h) := ⟨hu.buf, hu.idx, hu.completed, hu.got, hu.signed⟩
        split
        · exact this
        · exact ⟨this.buf, this.idx, this.completed, this.got, this.signed⟩

end SV
