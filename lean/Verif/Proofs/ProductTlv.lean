import Verif.Spec.Product
import Verif.Proofs.TraceTlv
/-! Product information that is decoded is that of a record of a SEI. -/
namespace SV
open Spec

theorem rdStr_ok {m s : Bytes} (h : rdStr m = .ok s) : 0 ∉ s ∧ s ++ [0] <+: m := by
  induction m generalizing s with
  | nil => cases h
  | cons b m ih =>
    unfold rdStr at h
    split at h
    · rename_i hb
      cases h
      have : b = 0 := by simpa using hb
      subst this
      exact ⟨by simp, ⟨m, rfl⟩⟩
    · rename_i hb
      cases hr : rdStr m with
      | ok t =>
        rw [hr] at h
        cases h
        obtain ⟨h1, h2⟩ := ih hr
        refine ⟨?_, ?_⟩
        · rw [List.mem_cons, not_or]
          exact ⟨fun e => hb (by rw [← e]; rfl), h1⟩
        · exact (List.prefix_cons_inj _).2 h2
      | err e => rw [hr] at h; cases h
      | ub u => rw [hr] at h; cases h

theorem decStr_ok {mem s m : Bytes} {n : Nat} (h : decStr mem = .ok (s, m, n)) :
    ∃ sz m', mem = sz :: m' ∧ 0 ∉ s ∧ s ++ [0] <+: m' ∧ m = m'.drop sz.toNat := by
  unfold decStr at h
  cases mem with
  | nil => cases h
  | cons sz m' =>
    simp only [rd8_cons] at h
    dsimp only [bind, Out.bind] at h
    cases h1 : rdStr m' with
    | err e => rw [h1] at h; cases h
    | ub u => rw [h1] at h; cases h
    | ok t =>
    rw [h1] at h
    cases h
    obtain ⟨h3, h4⟩ := rdStr_ok h1
    exact ⟨sz, m', rfl, h3, h4, rfl⟩

theorem Texts.of_prefix {l : List Bytes} {m m' : Bytes} (h : Texts l m) (hm : m <+: m') : Texts l m' := by
  induction l generalizing m m' with
  | nil => trivial
  | cons s l ih =>
    obtain ⟨sz, r, rfl, h1, h2, h3⟩ := h
    obtain ⟨z, rfl⟩ := hm
    refine ⟨sz, r ++ z, rfl, h1, h2.trans (List.prefix_append _ _), ih h3 ?_⟩
    rw [List.drop_append]
    exact List.prefix_append _ _

theorem IsProduct.of_prefix {v v' : Bytes} {p : ProductInfo} (h : IsProduct v p) (hv : v <+: v') : IsProduct v' p := by
  obtain ⟨ver, m, hw, fw, sn, mf, ad, rfl, h1, h2, h3⟩ := h
  obtain ⟨z, rfl⟩ := hv
  exact ⟨ver, m ++ z, hw, fw, sn, mf, ad, rfl, h1, Texts.of_prefix h2 (List.prefix_append _ _), h3⟩

theorem decProduct_is {d d' : DecState} {mem : Bytes} {size : Nat} (h : SV.decProduct d mem size = .ok d') : IsProduct mem d'.product := by
  unfold SV.decProduct at h
  cases mem with
  | nil => cases h
  | cons ver m =>
    simp only [rd8_cons] at h
    dsimp only [bind, Out.bind] at h
    split at h
    · cases h
    rename_i hver
    obtain ⟨⟨hw, m1, n1⟩, e1, h⟩ := Out.bind_eq_ok h
    obtain ⟨⟨fw, m2, n2⟩, e2, h⟩ := Out.bind_eq_ok h
    obtain ⟨⟨sn, m3, n3⟩, e3, h⟩ := Out.bind_eq_ok h
    obtain ⟨⟨mf, m4, n4⟩, e4, h⟩ := Out.bind_eq_ok h
    obtain ⟨⟨ad, m5, n5⟩, e5, h⟩ := Out.bind_eq_ok h
    dsimp only at h
    split at h
    · cases h
      obtain ⟨s1, r1, q1, a1, b1, c1⟩ := decStr_ok e1
      obtain ⟨s2, r2, q2, a2, b2, c2⟩ := decStr_ok e2
      obtain ⟨s3, r3, q3, a3, b3, c3⟩ := decStr_ok e3
      obtain ⟨s4, r4, q4, a4, b4, c4⟩ := decStr_ok e4
      obtain ⟨s5, r5, q5, a5, b5, c5⟩ := decStr_ok e5
      refine ⟨ver, m, hw, fw, sn, mf, ad, rfl, hver, ?_, rfl⟩
      exact ⟨s1, r1, q1, a1, b1, s2, r2, c1 ▸ q2, a2, b2, s3, r3, c2 ▸ q3, a3, b3, s4, r4, c3 ▸ q4, a4, b4, s5, r5, c4 ▸ q5, a5, b5, trivial⟩
    · cases h

namespace Validator

theorem productAt_is {mem : Bytes} {p : ProductInfo} (h : productAt mem = some p) : IsProduct mem p := by
  unfold productAt at h
  cases mem with
  | nil => cases h
  | cons ver m =>
    simp only [rd8_cons] at h
    split at h
    · cases h
    rename_i hver
    split at h
    · rename_i q h'
      cases h
      obtain ⟨⟨hw, m1, n1⟩, e1, h⟩ := Out.bind_eq_ok h'
      obtain ⟨⟨fw, m2, n2⟩, e2, h⟩ := Out.bind_eq_ok h
      obtain ⟨⟨sn, m3, n3⟩, e3, h⟩ := Out.bind_eq_ok h
      obtain ⟨⟨mf, m4, n4⟩, e4, h⟩ := Out.bind_eq_ok h
      obtain ⟨⟨ad, m5, n5⟩, e5, h⟩ := Out.bind_eq_ok h
      cases h
      obtain ⟨s1, r1, q1, a1, b1, c1⟩ := decStr_ok e1
      obtain ⟨s2, r2, q2, a2, b2, c2⟩ := decStr_ok e2
      obtain ⟨s3, r3, q3, a3, b3, c3⟩ := decStr_ok e3
      obtain ⟨s4, r4, q4, a4, b4, c4⟩ := decStr_ok e4
      obtain ⟨s5, r5, q5, a5, b5, c5⟩ := decStr_ok e5
      refine ⟨ver, m, hw, fw, sn, mf, ad, rfl, hver, ?_, rfl⟩
      exact ⟨s1, r1, q1, a1, b1, s2, r2, c1 ▸ q2, a2, b2, s3, r3, c2 ▸ q3, a3, b3, s4, r4, c3 ▸ q4, a4, b4, s5, r5, c4 ▸ q5, a5, b5, trivial⟩
    · cases h

theorem decValue_product {env : CryptoEnv} {t : UInt8} {d d' : DecState} {mem : Bytes} {size : Nat} (h1 : t ≠ 1) (h2 : t ≠ 2)
    (h7 : t ≠ 7) (h : decValue env t d mem size = .ok d') : d'.product = d.product ∨ t = 3 ∧ IsProduct mem d'.product := by
  unfold decValue at h
  rw [if_neg h1, if_neg h2] at h
  split at h
  · rename_i ht
    exact .inr ⟨ht, decProduct_is h⟩
  refine .inl ?_
  split at h
  · unfold SV.decHashList at h
    obtain ⟨⟨v, m⟩, _, h⟩ := Out.bind_eq_ok h
    dsimp only at h
    split at h
    · cases h
    split at h
    · cases h
    obtain ⟨⟨l, m⟩, _, h⟩ := Out.bind_eq_ok h
    cases h
    rfl
  split at h
  · unfold SV.decSignature at h
    obtain ⟨⟨v, m⟩, _, h⟩ := Out.bind_eq_ok h
    obtain ⟨⟨v1, m⟩, _, h⟩ := Out.bind_eq_ok h
    obtain ⟨⟨v2, m⟩, _, h⟩ := Out.bind_eq_ok h
    obtain ⟨⟨v3, m⟩, _, h⟩ := Out.bind_eq_ok h
    dsimp only at h
    split at h
    · cases h
    split at h
    · cases h
    split at h
    · cases h
    split at h
    · cases h
    split at h
    · cases h
    obtain ⟨⟨l, m⟩, _, h⟩ := Out.bind_eq_ok h
    cases h
    rfl
  split at h
  · unfold SV.decArbitrary at h
    obtain ⟨⟨v, m⟩, _, h⟩ := Out.bind_eq_ok h
    dsimp only at h
    split at h
    · cases h
    split at h
    · cases h
    obtain ⟨⟨l, m⟩, _, h⟩ := Out.bind_eq_ok h
    dsimp only at h
    split at h
    · cases h; rfl
    · cases h
  split at h
  · cases h
  · cases h

/-- The product information is kept, or it is that of the record. -/
theorem decTag_product (env : AuthEnv) (s : Validator) (t : UInt8) (mem : Bytes) (size : Nat) :
    (s.decTag env t mem size).Ends fun u => u.d.product = s.d.product ∨ t = 3 ∧ IsProduct mem u.d.product := by
  have keep : ∀ {r : Res Validator Unit}, r.Ends (fun u => u.d.product = s.d.product) →
      r.Ends fun u => u.d.product = s.d.product ∨ t = 3 ∧ IsProduct mem u.d.product := fun h => h.mono fun _ h => .inl h
  unfold Validator.decTag
  split
  · have put : ∀ d, (∃ n, SV.decGeneral s.dec mem n = .ok d) → ((s.put d).putVersion).d.product = s.d.product := by
      rintro d ⟨n, hd⟩
      have e := decGeneral_frame hd
      show d.product = _
      rw [e]; rfl
    refine keep ?_
    unfold Validator.decGeneral
    split
    · rename_i d h; exact put d ⟨_, h⟩
    · trivial
    · split
      · split
        · split
          · rename_i h; exact put _ ⟨_, h⟩
          · rfl
        · split
          · rename_i h; exact put _ ⟨_, h⟩
          · rfl
      · rfl
    · rfl
  rename_i h1
  split
  · refine keep ?_
    unfold Validator.decPublicKey
    split
    · rename_i d hd
      have e := (decPublicKey_frame hd).1
      split
      · show d.product = _; rw [e]; rfl
      · show d.product = _; rw [e]; rfl
    · rfl
    · trivial
  rename_i h2
  split
  · refine keep ?_
    unfold Validator.decCrypto
    split
    · split
      · split
        · rfl
        split
        · rfl
        split
        · dsimp only
          refine Res.Ends.andThen' (P := fun u : Validator => u.d.product = s.d.product) ?_ fun t _ _ ht => ?_
          · split
            · rfl
            · split <;> rfl
          · split
            · exact ht
            · exact ht
        · rfl
        · trivial
      · rfl
      · trivial
    · rfl
    · trivial
  rename_i h7
  split
  · rename_i d hd
    have := decValue_product h1 h2 h7 hd
    exact this
  · show (s.failed t mem).d.product = _ ∨ _
    unfold failed
    split
    · exact .inl rfl
    · split
      · rename_i ht
        cases hp : productAt mem with
        | some p => exact .inr ⟨ht, productAt_is hp⟩
        | none => exact .inl rfl
      · exact .inl rfl
  · trivial

/-- Some record of the TLV data is product information that says `p`. -/
def Found (mem : Bytes) (size : Nat) (k : Nat) (p : ProductInfo) : Prop := ∃ v, (3, v) ∈ records k mem size ∧ IsProduct v p

theorem records_walk {mem m' : Bytes} (hm : m' <+: mem) {t : UInt8} {n h : Nat} (e : decHeader m' = .ok (t, n, h)) (k size : Nat) (hs : size ≠ 0) :
    records (k + 1) mem size = (t, mem.drop h) :: records k ((mem.drop h).drop n) (size - h - n) := by
  obtain ⟨z, rfl⟩ := hm
  unfold decHeader at e
  cases m' with
  | nil => cases e
  | cons t' m =>
    simp only [rd8_cons] at e
    dsimp only [bind, Out.bind] at e
    split at e
    · cases e
    · rename_i ht
      have ht : (getTuple t').tag = t' := Decidable.not_not.1 ht
      have hlen := getTuple_len ht
      split at e
      · rename_i h2
        have hn := hlen.1 h2
        cases m with
        | nil => cases e
        | cons a m =>
          cases m with
          | nil => cases e
          | cons b m =>
            simp only [rd16] at e
            cases e
            simp only [List.cons_append]
            conv => lhs; unfold records
            rw [if_neg hs]
            dsimp only
            rw [if_neg hn]
            have hb : ((a.toUInt16 <<< 8) + b.toUInt16).toNat = a.toNat * 256 + b.toNat := by
              have := a.toNat_lt
              have := b.toNat_lt
              simp [Nat.shiftLeft_eq]
              omega
            rw [hb]
            simp
      · rename_i h2
        have hn : t' = 0 ∨ t' = 1 ∨ t' = 7 := Decidable.not_not.1 fun h => h2 (hlen.2 h)
        cases m with
        | nil => cases e
        | cons a m =>
          simp only [rd8_cons] at e
          cases e
          simp only [List.cons_append]
          conv => lhs; unfold records
          rw [if_neg hs]
          dsimp only
          rw [if_pos hn]
          simp

theorem drop_prefix {a b : Bytes} (h : a <+: b) (n : Nat) : a.drop n <+: b.drop n := by
  obtain ⟨z, rfl⟩ := h
  rw [List.drop_append]
  exact List.prefix_append _ _

theorem tlvLoop_product (env : AuthEnv) (k : Nat) : ∀ (s : Validator) {mem m' : Bytes} (size : Nat), m' <+: mem →
    (tlvLoop env k s m' size).Ends fun t => t.d.product = s.d.product ∨ Found mem size k t.d.product := by
  induction k with
  | zero => intro s mem m' size _; exact .inl rfl
  | succ k ih =>
    intro s mem m' size hm
    unfold tlvLoop
    split
    · exact .inl rfl
    · rename_i hs
      split
      · trivial
      · exact .inl rfl
      · rename_i t n h e
        have hw := records_walk hm e k size hs
        have hd : m'.drop h <+: mem.drop h := drop_prefix hm h
        refine Res.Ends.andThen' (P := fun u : Validator => u.d.product = s.d.product ∨ Found mem size (k + 1) u.d.product)
          ((decTag_product env s t _ _).mono fun u hu => ?_) fun u _ _ hu => ?_
        · refine hu.imp id fun ⟨ht, hp⟩ => ⟨mem.drop h, ?_, IsProduct.of_prefix hp hd⟩
          rw [hw, ht]; exact List.mem_cons_self
        · refine (ih u (mem := (mem.drop h).drop n) _ (drop_prefix hd n)).mono fun w hw' => ?_
          rcases hw' with e | ⟨v, h1, h2⟩
          · rw [e]; exact hu
          · exact .inr ⟨v, by rw [hw]; exact List.mem_cons_of_mem _ h1, h2⟩

theorem tlvDecode_product (env : AuthEnv) (s : Validator) {mem m' : Bytes} (size : Nat) (hm : m' <+: mem) :
    (s.tlvDecode env m' size).Ends fun t => t.d.product = s.d.product ∨ Found mem size size t.d.product := by
  unfold tlvDecode
  split
  · exact .inl rfl
  · exact tlvLoop_product env _ s _ hm

theorem optLoop_product (env : AuthEnv) (k : Nat) : ∀ (s : Validator) (f : Bool) {mem m' : Bytes} (size : Nat), m' <+: mem →
    (optLoop env k s f m' size).Ends fun t => t.d.product = s.d.product ∨ Found mem size k t.d.product := by
  induction k with
  | zero => intro s f mem m' size _; exact .inl rfl
  | succ k ih =>
    intro s f mem m' size hm
    unfold optLoop
    split
    · exact .inl rfl
    · rename_i hs
      split
      · trivial
      · exact .inl rfl
      · rename_i t n h e
        have hw := records_walk hm e k size hs
        have hd : m'.drop h <+: mem.drop h := drop_prefix hm h
        have more : ∀ {u w : Validator}, (u.d.product = s.d.product ∨ Found mem size (k + 1) u.d.product) →
            (w.d.product = u.d.product ∨ Found ((mem.drop h).drop n) (size - h - n) k w.d.product) →
            (w.d.product = s.d.product ∨ Found mem size (k + 1) w.d.product) := by
          intro u w hu hw'
          rcases hw' with e | ⟨v, h1, h2⟩
          · rw [e]; exact hu
          · exact .inr ⟨v, by rw [hw]; exact List.mem_cons_of_mem _ h1, h2⟩
        split
        · trivial
        split
        · exact (ih s f _ (drop_prefix hd n)).mono fun w hw' => more (.inl rfl) hw'
        · have h1 := (decTag_product env s t (m'.drop h) n).mono (Q := fun u => u.d.product = s.d.product ∨ Found mem size (k + 1) u.d.product)
            fun u hu => hu.imp id fun ⟨ht, hp⟩ => ⟨mem.drop h, by rw [hw, ht]; exact List.mem_cons_self, IsProduct.of_prefix hp hd⟩
          generalize s.decTag env t (m'.drop h) n = r at h1
          cases r with
          | ub u => trivial
          | err u c => exact h1
          | ok u _ => exact (ih u true _ (drop_prefix hd n)).mono fun w hw' => more h1 hw'

theorem findOptional_product (env : AuthEnv) (s : Validator) {mem m' : Bytes} (size : Nat) (hm : m' <+: mem) :
    (s.findOptional env m' size).Ends fun t => t.d.product = s.d.product ∨ Found mem size size t.d.product := by
  unfold findOptional
  split
  · exact .inl rfl
  · exact optLoop_product env _ s _ _ hm

end Validator
end SV
