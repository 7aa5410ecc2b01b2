import Verif.Proofs.Sign
import Verif.Proofs.SeiParse
import Verif.Spec.Sign
/-! The SEI buffer as a queue: what every call of the signing API does to it. -/
namespace SV
open Spec

/-! ### Generation -/

end SV
namespace SV.Spec

/-- The slot of a generated SEI. -/
def _root_.SV.Gen.slot (g : Gen) : SeiSlot :=
  ⟨.live (allocSize g.o.codec (payloadSizeRaw g.o (applyFallback g.o g.e))) (startCode4 ++ g.doc), (seiStart g.o g.e).1.reg, 0⟩

/-- The slot of a completed SEI. -/
def Done.slot (d : Done) : SeiSlot :=
  ⟨.live (allocSize d.g.o.codec (payloadSizeRaw d.g.o (applyFallback d.g.o d.g.e))) d.bytes,
    (seiStart d.g.o d.g.e).1.reg, d.bytes.length⟩

end SV.Spec
namespace SV
open Spec

/-- The hash of what is written to a SEI. -/
def docHash (hs : Hashing) (s : Signer) : Bytes := hs.H s.e.oid (seiStart s.opts s.encNow).1.bytes

/-- Assumptions on the hash functions in use: the length of the hashes is the hash size. -/
def HashLen (hs : Hashing) (s : Signer) : Prop := ∀ x, (hs.H s.e.oid x).length = s.e.hashSize

/-- The session can be written to a SEI. -/
structure SFits (hs : Hashing) (s : Signer) : Prop where
  fits : Fits s.encNow
  cap : s.listCap ≤ hashListCap
  pos : 1 ≤ s.e.hashSize
  len : HashLen hs s
  ref : s.ref.length = s.e.hashSize
  new : s.linkedNew.length = s.e.hashSize

/-- Parsing an unfinished SEI gives its own bytes to be hashed. -/
theorem fakeParse {e : EncState} (h : Fits e) (o : SeiOpts) (f : Nalu)
    (hf : parseNalu (startCode4 ++ (seiStart o e).1.bytes) o.codec false true = .ok f) :
    f.hashable = (seiStart o e).1.bytes ∧ f.gopSei = true ∧ f.isHashable = true := by
  have hst := (seiStart_eq h o).1
  have hp := payloadSize_eq h h o rfl
  generalize hn : payloadSizeRaw o (applyFallback o e) = n at *
  have hl := seiHead_length o n
  generalize hY : (writeBytes o.epb ⟨0x2e, 0x30⟩ (frames (seiItems o e))).1 = Y at *
  have hf' := parseNalu_sei o n Y false (by simp)
  rw [hst, hf'] at hf
  generalize (startCode4 ++ (seiHead o n ++ Y)).getD ((startCode4 ++ (seiHead o n ++ Y)).length - 1) 0 = last at hf
  have hdrop : (seiHead o n ++ Y).drop (headerLen o.codec + 1 + (n / 255 + 1) + 16) = reservedByte o :: Y := by
    have : headerLen o.codec + 1 + (n / 255 + 1) + 16 = (seiHeader o.codec ++ sizeField n ++ uuid).length := by
      have h2 : (seiHead o n).length = (seiHeader o.codec ++ sizeField n ++ uuid).length + 1 := by
        simp only [seiHead, List.length_append, List.length_singleton]
      omega
    rw [this, seiHead, List.append_assoc (_ ++ uuid), List.drop_left, List.singleton_append]
  unfold removeEpb at hf
  rw [hdrop] at hf
  have hi : (!(seiInfo o n Y last).isHashable || !(seiInfo o n Y last).gopSei || decide ((seiInfo o n Y last).valid ≤ 0))
      = false := rfl
  rw [hi, if_neg (by decide)] at hf
  rw [hst]
  dsimp only at hf
  split at hf
  · cases hf; exact ⟨rfl, rfl, rfl⟩
  · next hpos =>
    split at hf
    · cases hf
    · split at hf
      · cases hf; exact ⟨rfl, rfl, rfl⟩
      · next hne =>
        exfalso
        have hepb : o.epb = false := by
          have := (reserved_bits o).1
          cases ho : o.epb
          · rfl
          · rw [ho] at this; exact absurd this hne
        rw [hepb, writeBytes_false] at hY
        subst hY
        apply hpos
        simp only [seiInfo, List.length_append, hl]
        split <;> omega

/-- `hash_and_add` on a SEI. -/
theorem hashAndAdd_sei (hs : Hashing) (s : Signer) (n : Nalu) (h1 : n.gopSei = true) (h2 : n.isHashable = true)
    (h3 : n.hashable ≠ []) :
    hashAndAdd hs s n true true = .ok (checkAndCopy { s with naluHash := hs.H s.e.oid n.hashable } (hs.H s.e.oid n.hashable)) () := by
  simp [hashAndAdd, h1, h2, simplyHash, hashData, h3]

theorem doc_ne {e : EncState} (h : Fits e) (o : SeiOpts) : (seiStart o e).1.bytes ≠ [] := by
  intro hc
  have := congrArg List.length ((seiStart_eq h o).1.symm.trans hc)
  rw [List.length_append, seiHead_length] at this
  simp at this

theorem afterWrite_general (e : EncState) (t : UInt8) (h : e.hashType = 1) :
    afterWrite e t = { e with gopCounter := if t = 1 then e.gopCounter + 1 else e.gopCounter } := by
  unfold afterWrite tagGeneral
  split
  · rfl
  · split <;> (cases e; simp_all)

theorem afterWrites_id {e : EncState} (ts : List UInt8) (h : e.hashType = 1) (hts : ∀ t ∈ ts, t ≠ 1) :
    afterWrites e ts = e := by
  induction ts with
  | nil => rfl
  | cons t ts ih =>
    have ht := hts t (by simp)
    unfold afterWrites
    rw [afterWrite_general e t h, if_neg ht, ih (fun u hu => hts u (by simp [hu]))]
    split <;> rfl

theorem afterWrites_mand {e : EncState} (h : e.hashType = 1) :
    afterWrites e mandatoryTags = { e with gopCounter := e.gopCounter + 1 } := by
  have h1 : tagSelected e 1 = true := rfl
  have h2 : valueBytes e 1 ≠ [] := by show valGeneral e ≠ []; simp [valGeneral]
  show afterWrites e (1 :: [4, 6]) = _
  unfold afterWrites
  rw [if_pos ⟨h1, h2⟩, afterWrite_general e 1 h]
  exact afterWrites_id _ h (by decide)

/-- The state after writing a SEI: the hash list is dropped if it did not fit, and the counter is increased unless it is
a golden SEI. -/
theorem seiAfter_eq {e : EncState} (o : SeiOpts) (h : e.hashType = 1) :
    seiAfter o e = { applyFallback o e with gopCounter := if o.golden then e.gopCounter else e.gopCounter + 1 } := by
  have hf : (applyFallback o e).hashType = 1 := by unfold applyFallback; split <;> exact h
  have hc : (applyFallback o e).gopCounter = e.gopCounter := by unfold applyFallback; split <;> rfl
  have h1 : afterWrites (applyFallback o e) (optTags o) = applyFallback o e :=
    afterWrites_id _ hf (by unfold optTags; split <;> decide)
  have h2 : afterWrites (applyFallback o e) (mandTags o) =
      { applyFallback o e with gopCounter := if o.golden then e.gopCounter else e.gopCounter + 1 } := by
    unfold mandTags
    cases o.golden
    · simp only [Bool.false_eq_true, if_false]
      rw [afterWrites_mand hf, hc]
    · simp only [if_true]
      rw [afterWrites_id [] hf (by simp), ← hc]
  unfold seiAfter
  rw [h1, h2]
  exact afterWrites_id _ hf (by unfold vendorTags; split <;> decide)

/-- What `generate_sei_nalu` leaves behind, apart from the buffer. -/
def afterGen (hs : Hashing) (s : Signer) : Signer :=
  let t := checkAndCopy { s with e := (seiStart s.opts s.encNow).2, naluHash := docHash hs s } (docHash hs s)
  { t with
    e := { s.e with
      hashType := 1, gopCounter := if s.golden then s.e.gopCounter else s.e.gopCounter + 1
      numNalus := 0, hashList := some [], timestamp := none }
    hasRef := false }

theorem generateSei_eq (hs : Hashing) (s : Signer) (rc : Option Rc) (h : Fits s.encNow) :
    (maxSeis ≤ s.idx ∧ generateSei hs s rc = .err s .notSupported) ∨
    (s.idx < maxSeis ∧ ((∃ u, OtherUb u ∧ generateSei hs s rc = .ub u) ∨
      (∃ e, parseNalu (startCode4 ++ (seiStart s.opts s.encNow).1.bytes) s.codec false true = .err e ∧
        generateSei hs s rc = .err { s with e := (seiStart s.opts s.encNow).2 } e) ∨
      (∃ e, rc = some e ∧ generateSei hs s rc = .err (afterGen hs s) e) ∨
      (rc = none ∧ generateSei hs s rc = .ok { afterGen hs s with signed := some ⟨s.opts, s.encNow, docHash hs s⟩ }
        (Gen.slot ⟨s.opts, s.encNow, docHash hs s⟩)))) := by
  by_cases hi : maxSeis ≤ s.idx
  · exact .inl ⟨hi, by simp [generateSei, hi]⟩
  · refine .inr ⟨by omega, ?_⟩
    unfold generateSei
    rw [if_neg hi]
    dsimp only
    split
    · exact .inl ⟨_, .inl rfl, rfl⟩
    · cases hp : parseNalu (startCode4 ++ (seiStart s.opts s.encNow).1.bytes) s.codec false true with
      | ub u => exact .inl ⟨u, .inr (.inl ((onlyOverread_parse _ _ _ _).ub _ hp)), rfl⟩
      | err e => exact .inr (.inl ⟨e, rfl, rfl⟩)
      | ok f =>
        obtain ⟨h1, h2, h3⟩ := fakeParse h s.opts f hp
        dsimp only
        have hoid : (seiStart s.opts s.encNow).2.oid = s.e.oid := by
          rw [(seiStart_eq h s.opts).2.2, seiAfter_eq _ rfl]
          unfold applyFallback; split <;> rfl
        have key : ∀ t : Signer, t = checkAndCopy { s with e := (seiStart s.opts s.encNow).2, naluHash := docHash hs s } (docHash hs s) →
            { t with e := { t.e with numNalus := 0, hashList := some [], timestamp := none }, hasRef := false } = afterGen hs s := by
          intro t ht
          have he : t.e = { (seiStart s.opts s.encNow).2 with hashList := t.e.hashList } := by rw [ht]; rfl
          have he2 : { t.e with numNalus := 0, hashList := some [], timestamp := none } =
              { s.e with
                hashType := 1, gopCounter := if s.golden then s.e.gopCounter else s.e.gopCounter + 1
                numNalus := 0, hashList := some [], timestamp := none } := by
            rw [he, (seiStart_eq h s.opts).2.2, seiAfter_eq _ rfl]
            unfold applyFallback
            split <;> rfl
          rw [he2, ht]; rfl
        rw [hashAndAdd_sei hs _ f h2 h3 (by rw [h1]; exact doc_ne h s.opts)]
        simp only [Res.andThen_ok]
        rw [h1, hoid]
        cases rc with
        | some e =>
          refine .inr (.inr (.inl ⟨e, rfl, ?_⟩))
          exact congrArg (fun t => Res.err t e) (key _ rfl)
        | none =>
          refine .inr (.inr (.inr ⟨rfl, ?_⟩))
          have := key _ rfl
          rw [← this]
          rfl

end SV
