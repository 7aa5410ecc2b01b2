import Verif.Proofs.OldStream
import Verif.Proofs.FlowTlv
import Verif.Spec.Old
/-! Validation of an undisturbed stream of the older format: what the TLVs of a SEI tell. -/
namespace SV
open Spec
namespace Old
open Legacy
open Validator (Scene Knows Half HasKey HasAlg decTag_other decTag_tellsKey decTag_crypto)

variable {Γ : Scene} {i : Info}

/-- A tag and its value in a SEI of the stream. -/
structure Says (Γ : Scene) (i : Info) (p : UInt8 × Bytes) : Prop where
  lib : Lib p.1
  ne : p.2 ≠ []
  noList : Γ.lists = false → p.1 ≠ 4
  old : p.1 = 1 → ∃ s : OldSei, p.2 = s.general ∧ s.e.gopCounter = i.counter ∧ s.e.numNalus = i.num
  from_ : p.1 ≠ 1 → ∃ e : EncState, Fits e ∧ p.2 = valueBytes e p.1 ∧
    (p.1 = 2 → e.publicKey = some Γ.key ∧ e.addPublicKey = true) ∧
    (p.1 = 5 → e.signature = i.signature ∧ e.maxSignature = Γ.maxSig ∧ e.hashType = i.typ) ∧
    (p.1 = 7 → e.oid = Γ.oid) ∧
    (p.1 = 4 → e.hashList = some i.list)

theorem general_length (s : OldSei) : s.general.length = 10 + (if s.timed then (if s.e.timestamp.isSome then 9 else 1) else 0) := by
  unfold OldSei.general
  cases s.timed <;> cases s.e.timestamp <;> simp [be32, be16, be64]

theorem Says.len {p : UInt8 × Bytes} (h : Says Γ i p) : Known p.1 ∧ p.2.length ≤ maxLen p.1 := by
  refine ⟨lib_known h.lib, ?_⟩
  by_cases h1 : p.1 = 1
  · obtain ⟨s, e, -⟩ := h.old h1
    rw [e, general_length, h1]
    have : maxLen 1 = 255 := by decide
    rw [this]
    split
    · split <;> omega
    · omega
  · obtain ⟨e, hf, hv, -⟩ := h.from_ h1
    exact hv ▸ maxLen_ok hf (lib_known h.lib)

/-- The general tag. -/
theorem decGeneral_old (s : OldSei) (v : Validator) (m : Bytes) :
    ∃ d', Legacy.decTag Γ.env v 1 (s.general ++ m) s.general.length = .ok (v.put d').putVersion () ∧ d'.gopCounter = s.e.gopCounter ∧ d'.numSent = s.e.numNalus ∧
      (∃ a b c e f g, d' = { v.dec with gopCounter := s.e.gopCounter, numSent := s.e.numNalus, codeVersion := a, hasTimestamp := b, timestamp := c, latestHasTimestamp := e, latestTimestamp := f, keyChanged := g } ∧ g = v.dec.keyChanged) := by
  have hl := general_length s
  unfold Legacy.decTag
  rw [if_pos (by decide)]
  cases ht : s.timed with
  | false =>
    have hg : s.general = 1 :: (be32 s.e.gopCounter ++ (be16 s.e.numNalus ++ [s.e.codeVersion.1, s.e.codeVersion.2.1, s.e.codeVersion.2.2])) := by
      unfold OldSei.general; rw [ht]; simp
    rw [ht] at hl
    simp only [Bool.false_eq_true, if_false, Nat.add_zero] at hl
    have hd : SV.decGeneral v.dec (s.general ++ m) s.general.length = .ok { v.dec with gopCounter := s.e.gopCounter, numSent := s.e.numNalus, codeVersion := s.e.codeVersion } := by
      rw [hl, hg]
      have e1 : ((1 : UInt8) < 1) = False := by decide
      have e2 : ((1 : UInt8) > 3) = False := by decide
      have e3 : ((1 : UInt8) ≥ 2) = False := by decide
      have e4 : ((1 : UInt8) ≥ 3) = False := by decide
      simp only [SV.decGeneral, List.cons_append, List.nil_append, List.append_assoc, rd8_cons, Out.bind_ok, rd32_be32, rd16_be16, e1, e2, e3, e4, decide_false, Bool.or_self, Bool.false_eq_true, if_false, if_true]
    have h2 : rd8 (s.general ++ m) = .ok (1, s.general.tail ++ m) := by rw [hg]; rfl
    rw [h2]
    dsimp only
    rw [if_neg (by decide)]
    unfold Validator.decGeneral
    rw [hd]
    exact ⟨_, rfl, rfl, rfl, _, _, _, _, _, _, rfl, rfl⟩
  | true =>
    cases hs : s.e.timestamp with
    | none =>
      have hg : s.general = 2 :: (be32 s.e.gopCounter ++ (be16 s.e.numNalus ++ [s.e.codeVersion.1, s.e.codeVersion.2.1, s.e.codeVersion.2.2, 0])) := by
        unfold OldSei.general; rw [ht, hs]; simp
      rw [ht, hs] at hl
      simp only [if_true, Option.isSome_none, Bool.false_eq_true, if_false] at hl
      have hd : SV.decGeneral v.dec (s.general ++ m) s.general.length =
          .ok { v.dec with gopCounter := s.e.gopCounter, numSent := s.e.numNalus, codeVersion := s.e.codeVersion, hasTimestamp := false, latestHasTimestamp := false } := by
        rw [hl, hg]
        have e1 : ((2 : UInt8) < 1) = False := by decide
        have e2 : ((2 : UInt8) > 3) = False := by decide
        have e3 : ((2 : UInt8) ≥ 2) = True := by decide
        have e4 : ((2 : UInt8) ≥ 3) = False := by decide
        have e5 : ((0 : UInt8) &&& 1 == 1) = false := by decide
        simp only [SV.decGeneral, List.cons_append, List.nil_append, List.append_assoc, rd8_cons, Out.bind_ok, rd32_be32, rd16_be16, e1, e2, e3, e4, decide_false, Bool.or_self, Bool.false_eq_true, if_false, if_true, e5]
      have h2 : rd8 (s.general ++ m) = .ok (2, s.general.tail ++ m) := by rw [hg]; rfl
      rw [h2]
      dsimp only
      rw [if_neg (by decide)]
      unfold Validator.decGeneral
      rw [hd]
      exact ⟨_, rfl, rfl, rfl, _, _, _, _, _, _, rfl, rfl⟩
    | some t =>
      have hg : s.general = 2 :: (be32 s.e.gopCounter ++ (be16 s.e.numNalus ++ (s.e.codeVersion.1 :: s.e.codeVersion.2.1 :: s.e.codeVersion.2.2 :: 1 :: be64 t.toUInt64))) := by
        unfold OldSei.general; rw [ht, hs]; simp
      rw [ht, hs] at hl
      simp only [if_true, Option.isSome_some] at hl
      have hd : SV.decGeneral v.dec (s.general ++ m) s.general.length =
          .ok { v.dec with gopCounter := s.e.gopCounter, numSent := s.e.numNalus, codeVersion := s.e.codeVersion, hasTimestamp := true, latestHasTimestamp := true, timestamp := t, latestTimestamp := t } := by
        rw [hl, hg]
        have e1 : ((2 : UInt8) < 1) = False := by decide
        have e2 : ((2 : UInt8) > 3) = False := by decide
        have e3 : ((2 : UInt8) ≥ 2) = True := by decide
        have e4 : ((2 : UInt8) ≥ 3) = False := by decide
        have e5 : ((1 : UInt8) &&& 1 == 1) = true := by decide
        simp only [SV.decGeneral, List.cons_append, List.nil_append, List.append_assoc, rd8_cons, Out.bind_ok, rd32_be32, rd16_be16, rd64_be64, e1, e2, e3, e4, decide_false, Bool.or_self, Bool.false_eq_true, if_false, if_true, e5,
          toInt64_toUInt64]
      have h2 : rd8 (s.general ++ m) = .ok (2, s.general.tail ++ m) := by rw [hg]; rfl
      rw [h2]
      dsimp only
      rw [if_neg (by decide)]
      unfold Validator.decGeneral
      rw [hd]
      exact ⟨_, rfl, rfl, rfl, _, _, _, _, _, _, rfl, rfl⟩

/-- The parts of what a SEI tells. -/
def ToldGeneral (i : Info) (d : DecState) : Prop := d.gopCounter = i.counter ∧ d.numSent = i.num
def ToldSignature (i : Info) (d : DecState) : Prop := d.signature = i.signature ∧ d.maxSignature ≠ none ∧ d.hashType = i.typ
def ToldList (i : Info) (d : DecState) : Prop := d.hashList = i.list

/-- One tag, for a validator that knows algorithm and key. -/
theorem knows_step (hR : Γ.Reads) {s : Validator} (h : Knows Γ s) {t : UInt8} {v : Bytes} (hp : Says Γ i (t, v)) (m : Bytes) :
    ∃ s', Legacy.decTag Γ.env s t (v ++ m) v.length = .ok s' () ∧ Knows Γ s' ∧ (t = 1 ∨ ToldGeneral i s.d → ToldGeneral i s'.d) ∧
      (t = 5 ∨ ToldSignature i s.d → ToldSignature i s'.d) ∧ (t = 4 ∨ ToldList i s.d → ToldList i s'.d) := by
  obtain ⟨hlib, hne, hnl, ho, hfr⟩ := hp
  dsimp only at hlib hne hnl ho hfr
  by_cases t1 : t = 1
  · subst t1
    obtain ⟨o, rfl, o1, o2⟩ := ho rfl
    obtain ⟨d', e1, e2, e3, a, b, c, e, f, g, e4, e5⟩ := decGeneral_old (Γ := Γ) o s m
    refine ⟨_, e1, ?_, fun _ => ⟨e2.trans o1, e3.trans o2⟩, ?_, ?_⟩
    · subst e4
      refine ⟨h.known, h.size, h.typ, h.oid, h.has, h.pub, h.key, ?_, h.max, h.noList⟩
      show g = false
      rw [e5]; exact h.same
    · subst e4
      intro hx
      exact hx.resolve_left (by decide)
    · subst e4
      intro hx
      exact hx.resolve_left (by decide)
  have hdt : Legacy.decTag Γ.env s t (v ++ m) v.length = s.decTag Γ.env t (v ++ m) v.length := by
    unfold Legacy.decTag
    exact if_neg t1
  rw [hdt]
  obtain ⟨e, hf, hv, h2, h5, h7, h4⟩ := hfr t1
  subst hv
  simp only [Lib, List.mem_cons, List.not_mem_nil, or_false] at hlib
  by_cases ht : t = 3 ∨ t = 4 ∨ t = 5 ∨ t = 6
  · obtain ⟨d', g0, g1, g2, g3, g4, g5, g6, g7, g8, g9, g10, g11, g12⟩ := decTag_other (Γ := Γ) s hf ht hne (fun hx => by rw [(h5 hx).2.1]; exact h.max) m
    refine ⟨_, g0, ⟨g2.trans h.known, g3.trans h.size, h.typ, g4.trans h.oid, g5.trans h.has, g6.trans h.pub, h.key, h.same, ?_, fun hx => (g9 (hnl hx)).trans (h.noList hx)⟩, ?_, ?_, ?_⟩
    · show d'.maxSignature = none ∨ d'.maxSignature = some Γ.maxSig
      by_cases h' : t = 5
      · rw [(g8 h').1, (h5 h').2.1]; exact .inr rfl
      · rw [(g7 h').1]; exact h.max
    · intro hx
      have hx := hx.resolve_left t1
      exact ⟨g1.counter.trans hx.1, g1.num.trans hx.2⟩
    · intro hx
      by_cases h' : t = 5
      · exact ⟨(g8 h').2.trans (h5 h').1, by show d'.maxSignature ≠ none; rw [(g8 h').1]; simp, (g12 h').trans (h5 h').2.2⟩
      · have hx := hx.resolve_left h'
        exact ⟨(g7 h').2.trans hx.1, by show d'.maxSignature ≠ none; rw [(g7 h').1]; exact hx.2.1, (g11 h').trans hx.2.2⟩
    · intro hx
      show d'.hashList = i.list
      by_cases h' : t = 4
      · exact Option.some.inj ((g10 h').symm.trans (h4 h'))
      · rw [g9 h']; exact hx.resolve_left h'
  · have ht' : t = 2 ∨ t = 7 := by
      rcases hlib with h | h | h | h | h | h | h <;> simp [h] at ht t1 ⊢
    rcases ht' with rfl | rfl
    · obtain ⟨a1, a2⟩ := h2 rfl
      refine ⟨_, decTag_tellsKey s hf a1 a2 hR.key m, ⟨h.known, h.size, h.typ, h.oid, rfl, rfl, rfl, ?_, h.max, h.noList⟩, fun hx => hx.resolve_left (by decide), fun hx => hx.resolve_left (by decide), fun hx => hx.resolve_left (by decide)⟩
      show (s.rep.latest.keyChanged || (s.d.hasPublicKey && (Γ.key != if s.d.publicKey.length = Γ.key.length then s.d.publicKey else List.replicate Γ.key.length 0))) = false
      rw [h.same, h.has, h.pub, if_pos rfl]
      simp
    · have a1 := h7 rfl
      have hn : e.oid ≠ [] := by
        intro hc
        apply hne
        show valCrypto e = []
        simp [valCrypto, hc]
      have := decTag_crypto (Γ := Γ) s hf hn (by rw [a1]; exact hR.oid) m
      rw [if_pos (by rw [a1, h.oid])] at this
      exact ⟨_, this, ⟨rfl, h.size, h.typ, h.oid, h.has, h.pub, h.key, h.same, h.max, h.noList⟩, fun hx => hx.resolve_left (by decide), fun hx => hx.resolve_left (by decide), fun hx => hx.resolve_left (by decide)⟩

/-- All tags. -/
theorem knows_all (hR : Γ.Reads) (rest : Bytes) (l : List (UInt8 × Bytes)) (hl : ∀ p ∈ l, Says Γ i p) : ∀ (s : Validator) (fuel : Nat), (frames l).length ≤ fuel →
    Knows Γ s → ∃ s', Legacy.tlvLoop Γ.env fuel s (frames l ++ rest) (frames l).length = .ok s' () ∧ Knows Γ s' ∧
      ((∃ p ∈ l, p.1 = 1) ∨ ToldGeneral i s.d → ToldGeneral i s'.d) ∧ ((∃ p ∈ l, p.1 = 5) ∨ ToldSignature i s.d → ToldSignature i s'.d) ∧
      ((∃ p ∈ l, p.1 = 4) ∨ ToldList i s.d → ToldList i s'.d) := by
  induction l with
  | nil =>
    intro s fuel _ h
    refine ⟨s, ?_, h, ?_, ?_, ?_⟩
    · cases fuel <;> simp [Legacy.tlvLoop, frames]
    all_goals
      rintro (⟨p, hp, -⟩ | h)
      · cases hp
      · exact h
  | cons p l ih =>
    intro s fuel hfu h
    obtain ⟨t, v⟩ := p
    have hp := hl (t, v) (List.mem_cons_self ..)
    obtain ⟨hk, hv⟩ : Known t ∧ v.length ≤ maxLen t := hp.len
    have hlen := frame_length hk v
    simp only [frames_cons, List.length_append] at hfu ⊢
    obtain ⟨fuel, rfl⟩ : ∃ f, fuel = f + 1 := ⟨fuel - 1, by omega⟩
    obtain ⟨e1, e2⟩ := decHeader_frame hk hv (frames l ++ rest)
    obtain ⟨s1, a1, a2, a3, a4, a5⟩ := knows_step hR h hp (frames l ++ rest)
    obtain ⟨s2, b1, b2, b3, b4, b5⟩ := ih (fun q hq => hl q (List.mem_cons_of_mem _ hq)) s1 fuel (by omega) a2
    refine ⟨s2, ?_, b2, ?_, ?_, ?_⟩
    · rw [List.append_assoc]
      unfold Legacy.tlvLoop
      rw [if_neg (by omega), e1]
      dsimp only
      rw [e2, a1, Res.andThen_ok, List.drop_left]
      have hsz : (frame t v).length + (frames l).length - (1 + (getTuple t).lenBytes) - v.length =
          (frames l).length := by omega
      rw [hsz]
      exact b1
    · rintro (⟨q, hq, e⟩ | hg)
      · rcases List.mem_cons.1 hq with rfl | hq
        · exact b3 (.inr (a3 (.inl e)))
        · exact b3 (.inl ⟨q, hq, e⟩)
      · exact b3 (.inr (a3 (.inr hg)))
    · rintro (⟨q, hq, e⟩ | hg)
      · rcases List.mem_cons.1 hq with rfl | hq
        · exact b4 (.inr (a4 (.inl e)))
        · exact b4 (.inl ⟨q, hq, e⟩)
      · exact b4 (.inr (a4 (.inr hg)))
    · rintro (⟨q, hq, e⟩ | hg)
      · rcases List.mem_cons.1 hq with rfl | hq
        · exact b5 (.inr (a5 (.inl e)))
        · exact b5 (.inl ⟨q, hq, e⟩)
      · exact b5 (.inr (a5 (.inr hg)))

theorem frames_ne {l : List (UInt8 × Bytes)} (hl : ∀ p ∈ l, Says Γ i p) (hne : l ≠ []) : (frames l).length ≠ 0 := by
  cases l with
  | nil => exact absurd rfl hne
  | cons p l =>
    have := frame_length (hl p (List.mem_cons_self ..)).len.1 p.2
    rw [frames_cons, List.length_append]; omega

/-- A SEI tells its contents. -/
theorem tells_of (hR : Γ.Reads) (l : List (UInt8 × Bytes)) (hl : ∀ p ∈ l, Says Γ i p) (h1 : ∃ p ∈ l, p.1 = 1) (h5 : ∃ p ∈ l, p.1 = 5)
    (h4 : i.typ = 1 → ∃ p ∈ l, p.1 = 4) : Tells Γ i (frames l) (frames l).length := by
  intro s h
  obtain ⟨s', a1, a2, a3, a4, a5⟩ := knows_all hR [] l hl s _ (Nat.le_refl _) h
  have g := a3 (.inl h1)
  have k := a4 (.inl h5)
  refine ⟨s', ?_, a2, g.1, g.2, k.2.2, k.1, k.2.1, fun hx => a5 (.inl (h4 hx))⟩
  unfold Legacy.tlvDecode
  rw [List.append_nil] at a1
  rw [if_neg (frames_ne hl (by obtain ⟨p, hp, -⟩ := h1; exact List.ne_nil_of_mem hp)), a1]

/-- All tags of the first SEI. -/
theorem half_all (hR : Γ.Reads) (rest : Bytes) (l : List (UInt8 × Bytes)) (hl : ∀ p ∈ l, Says Γ i p) : ∀ (s : Validator) (fuel : Nat) (f : Bool), (frames l).length ≤ fuel →
    Half Γ s → ∃ s' f', Validator.optLoop Γ.env fuel s f (frames l ++ rest) (frames l).length = .ok s' f' ∧ Half Γ s' ∧
      ((∃ p ∈ l, p.1 = 2) ∨ HasKey Γ s → HasKey Γ s') ∧ ((∃ p ∈ l, p.1 = 2) ∨ f = true → f' = true) := by
  induction l with
  | nil =>
    intro s fuel f _ h
    refine ⟨s, f, ?_, h, ?_, ?_⟩
    · cases fuel <;> simp [Validator.optLoop, frames]
    all_goals
      rintro (⟨p, hp, -⟩ | h)
      · cases hp
      · exact h
  | cons p l ih =>
    intro s fuel f hfu h
    obtain ⟨t, v⟩ := p
    have hp := hl (t, v) (List.mem_cons_self ..)
    obtain ⟨hk, hv⟩ : Known t ∧ v.length ≤ maxLen t := hp.len
    have hlen := frame_length hk v
    simp only [frames_cons, List.length_append] at hfu ⊢
    obtain ⟨fuel, rfl⟩ : ∃ f, fuel = f + 1 := ⟨fuel - 1, by omega⟩
    obtain ⟨e1, e2⟩ := decHeader_frame hk hv (frames l ++ rest)
    have hsz : (frame t v).length + (frames l).length - (1 + (getTuple t).lenBytes) - v.length = (frames l).length := by omega
    have hlib := hp.lib
    simp only [Lib, List.mem_cons, List.not_mem_nil, or_false] at hlib
    have h9 : ¬ t ≥ 9 := by rcases hlib with h | h | h | h | h | h | h <;> (rw [h]; decide)
    have go : Validator.optLoop Γ.env (fuel + 1) s f (frame t v ++ frames l ++ rest) ((frame t v).length + (frames l).length) =
        if (getTuple t).alwaysPresent then Validator.optLoop Γ.env fuel s f (frames l ++ rest) (frames l).length
        else match s.decTag Γ.env t (v ++ (frames l ++ rest)) v.length with
          | .ub u => .ub u
          | .err s _ => .ok s f
          | .ok s _ => Validator.optLoop Γ.env fuel s true (frames l ++ rest) (frames l).length := by
      rw [List.append_assoc]
      conv => lhs; unfold Validator.optLoop
      rw [if_neg (by omega), e1]
      dsimp only
      rw [if_neg h9, e2, List.drop_left, hsz]
      rfl
    rw [go]
    by_cases ha : (getTuple t).alwaysPresent = true
    · rw [if_pos ha]
      have hn : t ≠ 2 := by rintro rfl; simp [getTuple] at ha
      obtain ⟨s2, f2, b1, b2, b3, b5⟩ := ih (fun q hq => hl q (List.mem_cons_of_mem _ hq)) s fuel f (by omega) h
      refine ⟨s2, f2, b1, b2, ?_, ?_⟩
      · rintro (⟨q, hq, e⟩ | hg)
        · rcases List.mem_cons.1 hq with rfl | hq
          · exact absurd e hn
          · exact b3 (.inl ⟨q, hq, e⟩)
        · exact b3 (.inr hg)
      · rintro (⟨q, hq, e⟩ | hg)
        · rcases List.mem_cons.1 hq with rfl | hq
          · exact absurd e hn
          · exact b5 (.inl ⟨q, hq, e⟩)
        · exact b5 (.inr hg)
    · rw [if_neg ha]
      have ht : t = 2 ∨ t = 3 ∨ t = 7 := by
        rcases hlib with h | h | h | h | h | h | h <;> simp [h, getTuple] at ha ⊢
      have hsp : Validator.Speaks Γ ⟨0, 0, [], [], [], [], i.list⟩ (t, v) := by
        have h1 : t ≠ 1 := by rcases ht with rfl | rfl | rfl <;> decide
        obtain ⟨e, a1, a2, a3, a4, a5, a6⟩ := hp.from_ h1
        exact ⟨hp.lib, hp.ne, hp.noList, e, a1, a2, fun hx => absurd hx h1, a3, (by rintro rfl; rcases ht with h | h | h <;> cases h), a5, a6⟩
      obtain ⟨s1, a1, a2, a3, -⟩ := Validator.half_step hR h hsp ht (frames l ++ rest)
      obtain ⟨s2, f2, b1, b2, b3, b5⟩ := ih (fun q hq => hl q (List.mem_cons_of_mem _ hq)) s1 fuel true (by omega) a2
      rw [a1]
      refine ⟨s2, f2, b1, b2, ?_, fun _ => b5 (.inr rfl)⟩
      rintro (⟨q, hq, e⟩ | hg)
      · rcases List.mem_cons.1 hq with rfl | hq
        · exact b3 (.inr (a3 (.inl e)))
        · exact b3 (.inl ⟨q, hq, e⟩)
      · exact b3 (.inr (a3 (.inr hg)))

/-- A SEI with the public key tells it; the algorithm is the one that a new session starts with. -/
theorem tellsFirst_of (hR : Γ.Reads) (ho : Γ.oid = Γ.env.oid) (rest : Bytes) (l : List (UInt8 × Bytes)) (hl : ∀ p ∈ l, Says Γ i p) (h2 : ∃ p ∈ l, p.1 = 2) :
    Validator.TellsFirst Γ (frames l ++ rest) (frames l).length := by
  intro s h hk
  have hh : Half Γ s := ⟨h.noList, h.same, h.max, .inl hk, by
    rcases h.left with ⟨-, ha⟩ | ⟨⟨hc, -, -⟩, -⟩
    · exact ha
    · rw [hk] at hc; cases hc⟩
  obtain ⟨s', f', a1, a2, a3, a5⟩ := half_all hR rest l hl s _ false (Nat.le_refl _) hh
  obtain ⟨k1, k2, k3⟩ := a3 (.inl h2)
  have hal : HasAlg Γ s' := by
    rcases a2.alg with ⟨b1, b2, b3⟩ | hx
    · exact ⟨b1.trans ho.symm, b2.trans ho.symm, b3.trans (hR.default ho).symm⟩
    · exact hx
  obtain ⟨g1, g2, g3⟩ := hal
  refine ⟨s', ?_, ⟨rfl, g3, g2, g1, k1, k2, k3, a2.same, a2.max, a2.noList⟩⟩
  unfold Validator.findOptional
  rw [if_neg (frames_ne hl (by obtain ⟨p, hp, -⟩ := h2; exact List.ne_nil_of_mem hp)), a1, a5 (.inl h2)]

end Old
end SV
