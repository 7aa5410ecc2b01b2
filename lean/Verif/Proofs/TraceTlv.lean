import Verif.Proofs.FlowSigner
import Verif.Proofs.AuthContent
/-! What decoding a SEI does to the hash list and the GOP hash, for a validator in any state. -/
namespace SV
open Spec

/-- What a signing session told in one of its SEIs: the GOP hash, the hash list if there is one, and the signed part of the SEI. -/
structure Src where
  gop : Bytes
  list : Option Bytes
  doc : Bytes

namespace Validator
variable {env : AuthEnv}

/-- Only tag 4 writes the hash list. -/
theorem decTag_keepsList (s : Validator) {t : UInt8} (mem : Bytes) (size : Nat) (ht : t ≠ 4) :
    (s.decTag env t mem size).Ends fun u => u.d.hashList = s.d.hashList := by
  unfold Validator.decTag
  split
  · have put : ∀ d, (∃ n, SV.decGeneral s.dec mem n = .ok d) → ((s.put d).putVersion).d.hashList = s.d.hashList := by
      rintro d ⟨n, hd⟩
      have e := decGeneral_frame hd
      show d.hashList = _
      rw [e]; rfl
    unfold Validator.decGeneral
    split
    · rename_i d h; exact put d ⟨_, h⟩
    · trivial
    · split
      · split
        · split
          · rename_i h; exact put _ ⟨_, h⟩
          · rfl
        · split
          · rename_i h; exact put _ ⟨_, h⟩
          · rfl
      · rfl
    · rfl
  rename_i h1
  split
  · unfold Validator.decPublicKey
    split
    · rename_i d hd
      have e := (decPublicKey_frame hd).1
      split
      · show d.hashList = _; rw [e]; rfl
      · show d.hashList = _; rw [e]; rfl
    · rfl
    · trivial
  rename_i h2
  split
  · unfold Validator.decCrypto
    split
    · split
      · split
        · rfl
        split
        · rfl
        split
        · dsimp only
          refine Res.Ends.andThen' (P := fun u : Validator => u.d.hashList = s.d.hashList) ?_ fun t _ _ ht => ?_
          · split
            · rfl
            · split <;> rfl
          · split
            · exact ht
            · exact ht
        · rfl
        · trivial
      · rfl
      · trivial
    · rfl
    · trivial
  rename_i h7
  split
  · rename_i d hd
    exact (decValue_frame h1 h2 h7 hd).2.2 ht
  · obtain ⟨a, p, hf⟩ := Validator.failed_eq s t mem
    rw [hf]
    rfl
  · trivial

/-- Only tag 1 writes the GOP hash. -/
theorem decTag_keepsGop (s : Validator) {t : UInt8} (mem : Bytes) (size : Nat) (ht : t ≠ 1) :
    (s.decTag env t mem size).Ends fun u => u.d.gopHash = s.d.gopHash := by
  unfold Validator.decTag
  rw [if_neg (show ¬ t = tagGeneral from ht)]
  split
  · unfold Validator.decPublicKey
    split
    · rename_i d hd
      have e := (decPublicKey_frame hd).1
      have e' : d.gopHash = s.d.gopHash := by rw [e]; rfl
      split
      · exact ovl_self _ _ e'
      · exact ovl_self _ _ e'
    · rfl
    · trivial
  rename_i h2
  split
  · unfold Validator.decCrypto
    split
    · split
      · split
        · rfl
        split
        · rfl
        split
        · dsimp only
          refine Res.Ends.andThen' (P := fun u : Validator => u.d.gopHash = s.d.gopHash) ?_ fun t _ _ ht => ?_
          · split
            · rfl
            · split <;> rfl
          · split
            · exact ht
            · exact ht
        · rfl
        · trivial
      · rfl
      · trivial
    · rfl
    · trivial
  rename_i h7
  split
  · rename_i d hd
    have e := (decValue_frame ht h2 h7 hd).1
    show d.gopHash = _
    rw [e]; rfl
  · obtain ⟨a, p, hf⟩ := Validator.failed_eq s t mem
    rw [hf]
    rfl
  · trivial

/-- A tag and its value as written for a SEI with the GOP hash and the hash list of `g`. -/
structure Says (N : Nat) (g : Src) (p : UInt8 × Bytes) : Prop where
  known : Known p.1
  len : p.2.length ≤ maxLen p.1
  general : p.1 = 1 → ∃ e, Fits e ∧ p.2 = valueBytes e 1 ∧ e.gopHash = g.gop ∧ e.hashSize = N
  hashes : p.1 = 4 → ∃ e l, Fits e ∧ p.2 = valueBytes e 4 ∧ e.hashList = some l ∧ l ≠ [] ∧ e.frameLevel = true ∧ g.list = some l

theorem says_general {N : Nat} {g : Src} {v : Bytes} (h : Says N g (1, v)) (s : Validator) (m : Bytes) :
    ∃ t, s.decTag env 1 (v ++ m) v.length = .ok t () ∧ buf N t.d.gopHash = g.gop ∧ t.d.hashList = s.d.hashList := by
  obtain ⟨e, hf, hv, hg, hN⟩ := h.general rfl
  dsimp only at hv
  subst hv
  refine ⟨_, decTag_general (Γ := { env := env, codec := .h264, size := 0, oid := [], key := [], maxSig := 0, sent := true, base := 0, lists := true, full := none }) s hf m, ?_, rfl⟩
  show buf N (ovl e.gopHash s.d.gopHash) = _
  rw [ovl_of_length (hf.gop.trans hN), hg]

theorem says_list {N : Nat} {g : Src} {v : Bytes} (h : Says N g (4, v)) (s : Validator) (m : Bytes) :
    ∃ t, s.decTag env 4 (v ++ m) v.length = .ok t () ∧ t.d.gopHash = s.d.gopHash ∧ g.list = some t.d.hashList := by
  obtain ⟨e, l, hf, hv, hl, hne, hfl, hg⟩ := h.hashes rfl
  dsimp only at hv
  subst hv
  have : decValue env.crypto 4 s.dec (valueBytes e 4 ++ m) (valueBytes e 4).length = .ok { s.dec with hashList := l } := by
    rw [← valueSize_eq hf]; exact decHashList_ok hf hl hne hfl s.dec m
  refine ⟨{ s with d := { s.d with hashList := l } }, ?_, rfl, hg⟩
  unfold decTag
  rw [if_neg (by decide), if_neg (by decide), if_neg (by decide), this]
  rfl

/-- What decoding a SEI of a signing session may do. -/
def DoesAs (N : Nat) (g : Src) (one four : Prop) (s : Validator) (r : Res Validator Unit) : Prop :=
  r.Ends (fun t => t.d.hashList = s.d.hashList ∨ g.list = some t.d.hashList) ∧
  ∀ t, r = .ok t () → (one ∨ buf N s.d.gopHash = g.gop → buf N t.d.gopHash = g.gop) ∧
    (four ∨ g.list = some s.d.hashList → g.list = some t.d.hashList)

theorem tlvLoop_told {N : Nat} {g : Src} (rest : Bytes) (l : List (UInt8 × Bytes)) (hl : ∀ p ∈ l, Says N g p) : ∀ (s : Validator) (fuel : Nat),
    (frames l).length ≤ fuel →
    DoesAs N g (∃ p ∈ l, p.1 = 1) (∃ p ∈ l, p.1 = 4) s (tlvLoop env fuel s (frames l ++ rest) (frames l).length) := by
  induction l with
  | nil =>
    intro s fuel _
    have : tlvLoop env fuel s (frames [] ++ rest) (frames []).length = .ok s () := by cases fuel <;> simp [tlvLoop, frames]
    rw [this]
    refine ⟨.inl rfl, fun t ht => ?_⟩
    cases ht
    refine ⟨?_, ?_⟩
    · rintro (⟨p, hp, -⟩ | h)
      · cases hp
      · exact h
    · rintro (⟨p, hp, -⟩ | h)
      · cases hp
      · exact h
  | cons p l ih =>
    intro s fuel hfu
    obtain ⟨t, v⟩ := p
    have hp := hl (t, v) (List.mem_cons_self ..)
    have hlen : (frame t v).length = 1 + (getTuple t).lenBytes + v.length := frame_length hp.known v
    simp only [frames_cons, List.length_append] at hfu ⊢
    obtain ⟨fuel, rfl⟩ : ∃ f, fuel = f + 1 := ⟨fuel - 1, by omega⟩
    obtain ⟨e1, e2⟩ := decHeader_frame hp.known hp.len (frames l ++ rest)
    have hsz : (frame t v).length + (frames l).length - (1 + (getTuple t).lenBytes) - v.length = (frames l).length := by omega
    have go : tlvLoop env (fuel + 1) s (frame t v ++ frames l ++ rest) ((frame t v).length + (frames l).length) =
        (s.decTag env t (v ++ (frames l ++ rest)) v.length).andThen fun s _ => tlvLoop env fuel s (frames l ++ rest) (frames l).length := by
      rw [List.append_assoc]
      conv => lhs; unfold tlvLoop
      rw [if_neg (by omega), e1]
      dsimp only
      rw [e2, List.drop_left, hsz]
    rw [go]
    have ih' := fun s => ih (fun q hq => hl q (List.mem_cons_of_mem _ hq)) s fuel (by omega)
    have h1 : (s.decTag env t (v ++ (frames l ++ rest)) v.length).Ends (fun u => u.d.hashList = s.d.hashList ∨ g.list = some u.d.hashList) := by
      by_cases h4 : t = 4
      · subst h4
        obtain ⟨u, hu, -, hu2⟩ := says_list (env := env) hp s (frames l ++ rest)
        rw [hu]; exact .inr hu2
      · exact (decTag_keepsList s _ _ h4).mono fun u hu => .inl hu
    refine ⟨Res.Ends.andThen' h1 fun u _ _ hu => ?_, ?_⟩
    · refine (ih' u).1.mono fun w hw => ?_
      rcases hw with hw | hw
      · rw [hw]; exact hu
      · exact .inr hw
    · intro w hw
      obtain ⟨u, _, hu, hw⟩ := Res.andThen_eq_ok hw
      obtain ⟨k1, k2⟩ := (ih' u).2 w hw
      refine ⟨fun hc => k1 ?_, fun hc => k2 ?_⟩
      · by_cases ht : t = 1
        · subst ht
          obtain ⟨u', hu', hu2, -⟩ := says_general (env := env) hp s (frames l ++ rest)
          rw [hu] at hu'
          cases hu'
          exact .inr hu2
        · have := (decTag_keepsGop (env := env) s (v ++ (frames l ++ rest)) v.length ht).of_ok hu
          rcases hc with ⟨q, hq, e⟩ | hc
          · rcases List.mem_cons.1 hq with rfl | hq
            · exact absurd e ht
            · exact .inl ⟨q, hq, e⟩
          · exact .inr (this ▸ hc)
      · by_cases ht : t = 4
        · subst ht
          obtain ⟨u', hu', -, hu2⟩ := says_list (env := env) hp s (frames l ++ rest)
          rw [hu] at hu'
          cases hu'
          exact .inr hu2
        · have := (decTag_keepsList (env := env) s (v ++ (frames l ++ rest)) v.length ht).of_ok hu
          rcases hc with ⟨q, hq, e⟩ | hc
          · rcases List.mem_cons.1 hq with rfl | hq
            · exact absurd e ht
            · exact .inl ⟨q, hq, e⟩
          · exact .inr (this ▸ hc)

/-- Decoding behaves as with a SEI of a signing session. -/
def Behaves (env : AuthEnv) (N : Nat) (mem : Bytes) (size : Nat) (g : Src) : Prop :=
  ∀ s : Validator, (s.tlvDecode env mem size).Ends (fun t => t.d.hashList = s.d.hashList ∨ g.list = some t.d.hashList) ∧
    ∀ t, s.tlvDecode env mem size = .ok t () → buf N t.d.gopHash = g.gop ∧ ∀ l, g.list = some l → t.d.hashList = l

theorem behaves_of {N : Nat} {g : Src} (rest : Bytes) {l : List (UInt8 × Bytes)} (hl : ∀ p ∈ l, Says N g p) (h1 : ∃ p ∈ l, p.1 = 1)
    (h4 : g.list ≠ none → ∃ p ∈ l, p.1 = 4) : Behaves env N (frames l ++ rest) (frames l).length g := by
  intro s
  obtain ⟨k1, k2⟩ := tlvLoop_told (env := env) rest l hl s _ (Nat.le_refl _)
  unfold tlvDecode
  split
  · exact ⟨.inl rfl, fun t ht => by cases ht⟩
  · refine ⟨k1, fun t ht => ?_⟩
    obtain ⟨g1, g2⟩ := k2 t ht
    refine ⟨g1 (.inl h1), fun l' hl' => ?_⟩
    have := g2 (.inl (h4 (by rw [hl']; simp)))
    rw [hl'] at this
    exact (Option.some.inj this).symm

/-! ### Other SEIs -/

/-- The tags of TLV data, found by walking over tag, length and value: one byte of length for the tags 0, 1 and 7, two for others. -/
def _root_.SV.Spec.tlvTags : Nat → Bytes → Nat → List UInt8
  | 0, _, _ => []
  | k + 1, mem, size =>
    if size = 0 then []
    else match mem with
      | t :: a :: m =>
        if t = 0 ∨ t = 1 ∨ t = 7 then t :: tlvTags k (m.drop a.toNat) (size - 2 - a.toNat)
        else match m with
          | b :: m => t :: tlvTags k (m.drop (a.toNat * 256 + b.toNat)) (size - 3 - (a.toNat * 256 + b.toNat))
          | [] => [t]
      | [t] => [t]
      | [] => []

/-- TLV data without hash list. -/
def _root_.SV.Spec.NoList (mem : Bytes) (size : Nat) : Prop := 4 ∉ tlvTags size mem size

theorem getTuple_len {t : UInt8} (h : (getTuple t).tag = t) : ((getTuple t).lenBytes = 2 ↔ ¬ (t = 0 ∨ t = 1 ∨ t = 7)) := by
  unfold getTuple at h ⊢
  repeat' split at h
  all_goals first
    | (subst h; decide)
    | (rename_i h1 h2 h3 h4 h5 h6 h7 h8
       dsimp only at h
       subst h; decide)
    | (subst_vars; decide)

theorem decHeader_walk {mem m' : Bytes} (hm : m' <+: mem) {t : UInt8} {n h : Nat} (e : decHeader m' = .ok (t, n, h)) (k size : Nat) (hs : size ≠ 0) :
    tlvTags (k + 1) mem size = t :: tlvTags k ((mem.drop h).drop n) (size - h - n) := by
  obtain ⟨z, rfl⟩ := hm
  unfold decHeader at e
  cases m' with
  | nil => cases e
  | cons t' m =>
    simp only [rd8_cons] at e
    dsimp only [bind, Out.bind] at e
    split at e
    · cases e
    · rename_i ht
      have ht : (getTuple t').tag = t' := Decidable.not_not.1 ht
      have hlen := getTuple_len ht
      split at e
      · rename_i h2
        have hn := hlen.1 h2
        cases m with
        | nil => cases e
        | cons a m =>
          cases m with
          | nil => cases e
          | cons b m =>
            simp only [rd16] at e
            cases e
            simp only [List.cons_append]
            conv => lhs; unfold tlvTags
            rw [if_neg hs]
            dsimp only
            rw [if_neg hn]
            have hb : ((a.toUInt16 <<< 8) + b.toUInt16).toNat = a.toNat * 256 + b.toNat := by
              have := a.toNat_lt
              have := b.toNat_lt
              simp [Nat.shiftLeft_eq]
              omega
            rw [hb]
            simp
      · rename_i h2
        have hn : t' = 0 ∨ t' = 1 ∨ t' = 7 := Decidable.not_not.1 fun h => h2 (hlen.2 h)
        cases m with
        | nil => cases e
        | cons a m =>
          simp only [rd8_cons] at e
          cases e
          simp only [List.cons_append]
          conv => lhs; unfold tlvTags
          rw [if_neg hs]
          dsimp only
          rw [if_pos hn]
          simp

theorem tlvLoop_quiet (k : Nat) : ∀ (s : Validator) {mem m' : Bytes} (size : Nat), m' <+: mem → 4 ∉ tlvTags k mem size →
    (tlvLoop env k s m' size).Ends fun t => t.d.hashList = s.d.hashList := by
  induction k with
  | zero => intro s mem m' size _ _; rfl
  | succ k ih =>
    intro s mem m' size hm hq
    unfold tlvLoop
    split
    · rfl
    · rename_i hs
      split
      · trivial
      · rfl
      · rename_i t n h e
        rw [decHeader_walk hm e k size hs, List.mem_cons, not_or] at hq
        refine Res.Ends.andThen' (decTag_keepsList s _ _ fun h => hq.1 h.symm) fun u _ _ hu => ?_
        exact (ih u _ (by obtain ⟨z, rfl⟩ := hm; rw [List.drop_append, List.drop_append]; exact ⟨_, rfl⟩) hq.2).mono fun w hw => hw.trans hu

/-- Decoding does not change the hash list. -/
def Quiet (env : AuthEnv) (mem : Bytes) (size : Nat) : Prop :=
  ∀ s : Validator, (s.tlvDecode env mem size).Ends fun t => t.d.hashList = s.d.hashList

theorem quiet_of {mem m' : Bytes} {size : Nat} (h : NoList mem size) (hm : m' <+: mem) : Quiet env m' size := by
  intro s
  unfold tlvDecode
  split
  · rfl
  · exact tlvLoop_quiet _ s _ hm h

end Validator
end SV
