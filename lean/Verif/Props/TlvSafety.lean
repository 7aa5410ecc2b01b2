import Verif.Props.Tlv
/-! C11: memory safety of TLV decoding.  False in general; witnesses, and the conditions under which it holds. -/
namespace SV
open Spec

/-- No undefined behaviour. -/
def Defined {α : Type} (o : Out α) : Prop := ∀ u, o ≠ .ub u

/-- The full statement of **C11** for TLV decoding. -/
def C11_statement : Prop :=
  ∀ (env : CryptoEnv) (d : DecState) (mem : Bytes), Defined (tlvDecode env d mem mem.length)

/-- **C11** is false: a TLV with tag 0 makes the validator call a NULL pointer. -/
theorem C11_null_decoder (env : CryptoEnv) (d : DecState) (rest : Bytes) :
    tlvDecode env d (0 :: 0 :: rest) (2 + rest.length) = .ub .nullCall := by
  obtain ⟨k, hk⟩ : ∃ k, 2 + rest.length = k + 1 := ⟨1 + rest.length, by omega⟩
  rw [tlvDecode, if_neg (by omega), hk]
  rfl

/-- **C11** is false: a length that exceeds the data makes the validator read outside of it. -/
theorem C11_overread (env : CryptoEnv) (d : DecState) :
    tlvDecode env d [6, 1, 0, 1, 7] 5 = .ub .overread := rfl

/-- **C11** is false: a general tag of 151 bytes overflows the 64 byte buffers of the hashes. -/
theorem C11_buffer_overflow (env : CryptoEnv) (d : DecState) (l : Bytes) (hl : l.length = 140) (rest : Bytes)
    (n : Nat) (hn : n ≠ 0) :
    tlvDecode env d ([1, 151, 3, 0, 0, 0, 1, 0, 1, 2, 0, 0, 0] ++ l ++ rest) n = .ub .overflow := by
  obtain ⟨k, rfl⟩ := Nat.exists_eq_succ_of_ne_zero hn
  rw [tlvDecode, if_neg hn]
  have hh : decHeader ([1, 151, 3, 0, 0, 0, 1, 0, 1, 2, 0, 0, 0] ++ l ++ rest) = .ok (1, 151, 2) := rfl
  have hrd : rdN 70 (l ++ rest) = .ok ((l ++ rest).take 70, (l ++ rest).drop 70) := by
    rw [rdN, if_pos (by rw [List.length_append]; omega)]
  have hd : decGeneral d (3 :: 0 :: 0 :: 0 :: 1 :: 0 :: 1 :: 2 :: 0 :: 0 :: 0 :: (l ++ rest)) 151 = .ub .overflow := by
    simp only [decGeneral, rd8_cons, Out.bind_ok, rd32, rd16]
    have e1 : ((3 : UInt8) < 1) = False := by decide
    have e2 : ((3 : UInt8) > 3) = False := by decide
    have e3 : ((3 : UInt8) ≥ 2) = True := by decide
    have e4 : ((3 : UInt8) ≥ 3) = True := by decide
    have e5 : ((0 : UInt8) &&& 1 == 1) = false := by decide
    simp only [e1, e2, e3, e4, e5, decide_false, Bool.or_self, Bool.false_eq_true, if_false, if_true, Out.bind_ok]
    rw [if_neg (by decide)]
    have : (151 - 11) / 2 = 70 := rfl
    rw [this, hrd]
    simp only [Out.bind_ok]
    rw [if_pos (by decide)]
  have hv : decValue env 1 d (List.drop 2 ([1, 151, 3, 0, 0, 0, 1, 0, 1, 2, 0, 0, 0] ++ l ++ rest)) 151 =
      .ub .overflow := by
    exact hd
  simp only [tlvLoop, hh, Out.bind_ok, if_neg (Nat.succ_ne_zero k), hv, Out.bind_ub]

/-- **C11** is false: a product info string without NUL is read beyond the data. -/
theorem C11_unterminated_string (env : CryptoEnv) (d : DecState) :
    tlvDecode env d [3, 0, 4, 1, 2, 65, 66] 7 = .ub .overread := rfl

/-- **C11** is false: a vendor tag makes the search for optional tags index a table of nine rows with 129. -/
theorem C11_table_index (env : CryptoEnv) (d : DecState) (rest : Bytes) :
    findOptional env d (129 :: 0 :: 0 :: rest) (3 + rest.length) = .ub .oobIndex := by
  obtain ⟨k, hk⟩ : ∃ k, 3 + rest.length = k + 1 := ⟨2 + rest.length, by omega⟩
  rw [findOptional, if_neg (by omega), hk]
  rfl

theorem C11_statement_false : ¬ C11_statement := fun h =>
  h ⟨fun _ => none, fun _ => false⟩ {} [0, 0] .nullCall (C11_null_decoder _ _ [])

theorem Defined.ok {α : Type} (a : α) : Defined (.ok a : Out α) := fun _ h => nomatch h
theorem Defined.err {α : Type} (e : Rc) : Defined (.err e : Out α) := fun _ h => nomatch h

theorem Defined.bind {α β : Type} {o : Out α} {f : α → Out β} (ho : Defined o)
    (hf : ∀ a, o = .ok a → Defined (f a)) : Defined (o >>= f) := by
  cases o with
  | ok a => exact hf a rfl
  | err e => exact Defined.err e
  | ub u => exact absurd rfl (ho u)

theorem rdN_ok {n : Nat} {m : Bytes} (h : n ≤ m.length) : rdN n m = .ok (m.take n, m.drop n) := by
  rw [rdN, if_pos h]

theorem rdStr_defined {s : Bytes} (h : (0 : UInt8) ∈ s) (m : Bytes) : ∃ x, rdStr (s ++ m) = .ok x := by
  induction s with
  | nil => simp at h
  | cons b s ih =>
    by_cases hb : b = 0
    · exact ⟨[], by simp [rdStr, hb]⟩
    · obtain ⟨x, hx⟩ := ih (by simpa [Ne.symm hb] using h)
      exact ⟨b :: x, by simp [rdStr, hb, hx, Out.bind]⟩

theorem decStr_string {a : Bytes} (h : IsString a) (m : Bytes) : ∃ x n, decStr (a ++ m) = .ok (x, m, n) := by
  obtain ⟨n, s, rfl, hl, h0⟩ := h
  obtain ⟨x, hx⟩ := rdStr_defined h0 m
  refine ⟨x, 1 + n.toNat, ?_⟩
  have : (s ++ m).drop n.toNat = m := by rw [← hl]; simp
  simp [decStr, hx, skipN, this]

theorem decGeneral_defined {v : Bytes} (h : WellSized 1 v) (d : DecState) (m : Bytes) :
    Defined (decGeneral d (v ++ m) v.length) := by
  obtain ⟨h1, h2, h3⟩ := h
  obtain ⟨ver, c0, c1, c2, c3, n0, n1, v0, v1, v2, fl, w, rfl⟩ :
      ∃ ver c0 c1 c2 c3 n0 n1 v0 v1 v2 fl w,
        v = ver :: c0 :: c1 :: c2 :: c3 :: n0 :: n1 :: v0 :: v1 :: v2 :: fl :: w := by
    match v, h1 with
    | a :: b :: c :: d :: e :: f :: g :: h :: i :: j :: k :: w, _ =>
      exact ⟨a, b, c, d, e, f, g, h, i, j, k, w, rfl⟩
  simp only [List.getD_cons_succ, List.getD_cons_zero] at h3
  simp only [decGeneral, List.cons_append, rd8_cons, Out.bind_ok, rd32, rd16]
  split
  · exact Defined.err _
  · have hw : (fl &&& 1) = 1 → 8 ≤ w.length := fun hf => by
      have := h3 hf; simp only [List.length_cons] at this; omega
    have hlen : (ver :: c0 :: c1 :: c2 :: c3 :: n0 :: n1 :: v0 :: v1 :: v2 :: fl :: w).length =
        11 + w.length := by simp only [List.length_cons]; omega
    rw [hlen] at h2 ⊢
    have fin : ∀ (dd : DecState) (mm : Bytes) (rd : Nat), rd ≤ 11 + w.length → 10 ≤ rd →
        11 + w.length - rd ≤ mm.length → (11 + w.length - rd) / 2 ≤ 64 →
        Defined (if ver ≥ 3 then
          if 11 + w.length < rd then Out.ub Ub.overread
          else
            (rdN ((11 + w.length - rd) / 2) mm) >>= fun x =>
              if (11 + w.length - rd) / 2 > 64 then Out.ub Ub.overflow
              else (rdN ((11 + w.length - rd) / 2) x.2) >>= fun y =>
                if rd + 2 * ((11 + w.length - rd) / 2) = 11 + w.length then
                  Out.ok { dd with linkedHash := x.1, gopHash := y.1 }
                else Out.err Rc.authenticationError
        else if rd = 11 + w.length then Out.ok dd else Out.err Rc.authenticationError) := by
      intro dd mm rd hr1 hr0 hr2 hr3
      split
      · rw [if_neg (by omega), rdN_ok (by omega)]
        simp only [Out.bind_ok]
        rw [if_neg (by omega), rdN_ok (by rw [List.length_drop]; omega)]
        simp only [Out.bind_ok]
        split
        · exact Defined.ok _
        · exact Defined.err _
      · split
        · exact Defined.ok _
        · exact Defined.err _
    by_cases hv2 : ver ≥ 2
    · simp only [hv2, if_true]
      by_cases hf : fl &&& 1 = 1
      · have h8 := hw hf
        obtain ⟨t0, t1, t2, t3, t4, t5, t6, t7, w', rfl⟩ :
            ∃ t0 t1 t2 t3 t4 t5 t6 t7 w', w = t0 :: t1 :: t2 :: t3 :: t4 :: t5 :: t6 :: t7 :: w' := by
          match w, h8 with
          | a :: b :: c :: d :: e :: f :: g :: h :: w, _ => exact ⟨a, b, c, d, e, f, g, h, w, rfl⟩
        simp only [hf, beq_self_eq_true, if_true, List.cons_append, rd64, Out.bind_ok]
        apply fin
        · simp only [List.length_cons]; omega
        · omega
        · simp only [List.length_cons, List.length_append]; omega
        · simp only [List.length_cons] at h2 ⊢; omega
      · have hfb : (fl &&& 1 == 1) = false := by simpa using hf
        simp only [hfb, Bool.false_eq_true, if_false, Out.bind_ok]
        apply fin
        · omega
        · omega
        · simp only [List.length_append]; omega
        · omega
    · simp only [hv2, if_false, Out.bind_ok]
      have hv3 : ¬ ver ≥ 3 := by
        intro h
        apply hv2
        have h' := UInt8.le_iff_toNat_le.1 h
        apply UInt8.le_iff_toNat_le.2
        have e3 : (3 : UInt8).toNat = 3 := rfl
        have e2 : (2 : UInt8).toNat = 2 := rfl
        omega
      simp only [hv3, if_false]
      split
      · exact Defined.ok _
      · exact Defined.err _

theorem decValue_defined (env : CryptoEnv) {t : UInt8} {v : Bytes} (h : WellSized t v) (hv : v.length ≤ 65535)
    (d : DecState) (m : Bytes) : Defined (decValue env t d (v ++ m) v.length) := by
  unfold decValue
  split
  · rename_i ht; subst ht; exact decGeneral_defined h d m
  split
  · rename_i ht; subst ht
    change 2 ≤ v.length at h
    match v, h with
    | a :: b :: w, _ =>
      simp only [List.length_cons] at hv
      simp only [decPublicKey, List.cons_append, rd8_cons, Out.bind_ok, List.length_cons]
      by_cases hv2 : a < 2
      · have hn : (w.length + 1 + 1 + 65534) % 65536 = w.length := by omega
        simp only [hv2, if_true, hn, skipN, List.drop_succ_cons, List.drop_zero]
        rw [rdN_append]
        simp only [Out.bind_ok]
        repeat' split
        all_goals first | exact Defined.ok _ | exact Defined.err _
      · have hn : (w.length + 1 + 1 + 65535) % 65536 = w.length + 1 := by omega
        simp only [hv2, if_false, hn]
        rw [rdN_ok (by simp only [List.length_cons, List.length_append]; omega)]
        simp only [Out.bind_ok]
        repeat' split
        all_goals first | exact Defined.ok _ | exact Defined.err _
  split
  · rename_i ht; subst ht
    obtain ⟨ver, a, b, c, dd, e, rfl, ha, hb, hc, hd, he⟩ := h
    have e1 := fun m => decStr_string ha m
    simp only [decProduct, List.cons_append, rd8_cons, Out.bind_ok, List.append_assoc]
    split
    · exact Defined.err _
    · obtain ⟨x1, n1, h1⟩ := decStr_string ha (b ++ (c ++ (dd ++ (e ++ m))))
      obtain ⟨x2, n2, h2⟩ := decStr_string hb (c ++ (dd ++ (e ++ m)))
      obtain ⟨x3, n3, h3⟩ := decStr_string hc (dd ++ (e ++ m))
      obtain ⟨x4, n4, h4⟩ := decStr_string hd (e ++ m)
      obtain ⟨x5, n5, h5⟩ := decStr_string he m
      simp only [h1, h2, h3, h4, h5, Out.bind_ok]
      split
      · exact Defined.ok _
      · exact Defined.err _
  split
  · rename_i ht; subst ht
    change 1 ≤ v.length at h
    match v, h with
    | a :: w, _ =>
      simp only [decHashList, List.cons_append, rd8_cons, Out.bind_ok, List.length_cons, Nat.add_sub_cancel]
      split
      · exact Defined.err _
      · split
        · exact Defined.err _
        · rw [rdN_append]; exact Defined.ok _
  split
  · rename_i ht; subst ht
    change 5 ≤ v.length at h
    match v, h with
    | a :: b :: c :: x :: y :: w, _ =>
      simp only [decSignature, List.cons_append, rd8_cons, Out.bind_ok, List.length_cons, rd16]
      have hn : w.length + 1 + 1 + 1 + 1 + 1 - 5 = w.length := by omega
      rw [hn, rdN_append]
      repeat' split
      all_goals first | exact Defined.ok _ | exact Defined.err _
  split
  · rename_i ht; subst ht
    change 1 ≤ v.length at h
    match v, h with
    | a :: w, _ =>
      simp only [List.length_cons] at hv
      have hn : (w.length + 1 + 65535) % 65536 = w.length := by omega
      simp only [decArbitrary, List.cons_append, rd8_cons, Out.bind_ok, List.length_cons, hn]
      rw [rdN_append]
      repeat' split
      all_goals first | exact Defined.ok _ | exact Defined.err _
  split
  · rename_i ht; subst ht
    obtain ⟨h1, h2⟩ : 2 ≤ v.length ∧ 2 + (v.getD 1 0).toNat ≤ v.length := h
    match v, h1 with
    | a :: b :: w, _ =>
      simp only [List.getD_cons_succ, List.getD_cons_zero, List.length_cons] at h2
      simp only [decCrypto, List.cons_append, rd8_cons, Out.bind_ok]
      rw [rdN_ok (by rw [List.length_append]; omega)]
      simp only [Out.bind_ok]
      repeat' split
      all_goals first | exact Defined.ok _ | exact Defined.err _
  · exfalso
    rename_i h1 h2 h3 h4 h5 h6 h7
    simp [WellSized, h1, h2, h3, h4, h5, h6, h7] at h

/-- **C11**, the part that holds: data that consists of complete TLVs whose values are well sized is decoded without
undefined behaviour, whatever the content, the state of the session, and what follows the data in memory. -/
theorem C11_well_framed_partial (env : CryptoEnv) (d : DecState) (l : List (UInt8 × Bytes)) (hne : l ≠ [])
    (hl : ∀ p ∈ l, Known p.1 ∧ p.2.length ≤ maxLen p.1 ∧ WellSized p.1 p.2) (rest : Bytes) :
    Defined (tlvDecode env d (encodeAll l ++ rest) (encodeAll l).length) := by
  rw [C10_sequence env d l hne (fun p hp => ⟨(hl p hp).1, (hl p hp).2.1⟩)]
  clear hne
  induction l generalizing d with
  | nil => exact Defined.ok _
  | cons p l ih =>
    obtain ⟨h1, h2, h3⟩ := hl p (by simp)
    obtain ⟨t, v⟩ := p
    refine Defined.bind (decValue_defined env h3 (Nat.le_trans h2 ?_) d _) ?_
    · unfold maxLen; split <;> omega
    · intro d' _
      exact ih d' (fun p hp => hl p (by simp [hp]))

example : Defined (tlvDecode exampleEnv {} (encodeAll [(6, [1, 2, 3]), (5, [9, 9, 9, 9, 9])])
    (encodeAll [(6, [1, 2, 3]), (5, [9, 9, 9, 9, 9])]).length) := by
  have := C11_well_framed_partial exampleEnv {} [(6, [1, 2, 3]), (5, [9, 9, 9, 9, 9])] (by simp) (by
    intro p hp
    simp only [List.mem_cons, List.not_mem_nil, or_false] at hp
    rcases hp with rfl | rfl
    · refine ⟨by simp [Known], by decide, ?_⟩; show 1 ≤ 3; decide
    · refine ⟨by simp [Known], by decide, ?_⟩; show 5 ≤ 5; decide) []
  simpa using this

/-- What the library itself encodes is well sized, except that a general tag with a timestamp and hashes of more than
60 bytes is longer than the bound used here. -/
theorem C11_own_output {e : EncState} (h : Fits e) (hs : e.hashSize ≤ 60) (hs4 : 4 ≤ e.hashSize) {t : UInt8}
    (ht : Lib t) (hv : valueBytes e t ≠ []) : WellSized t (valueBytes e t) := by
  have hlen := valueSize_eq h t
  simp only [Lib, List.mem_cons, List.not_mem_nil, or_false] at ht
  rcases ht with ht | ht | ht | ht | ht | ht | ht <;> subst ht
  · change sizeGeneral e = (valGeneral e).length at hlen
    change 11 ≤ (valGeneral e).length ∧ (valGeneral e).length ≤ 11 + 129 ∧
      (((valGeneral e).getD 10 0) &&& 1 = 1 → 19 ≤ (valGeneral e).length)
    rw [← hlen]
    unfold sizeGeneral
    refine ⟨by omega, by split <;> omega, fun _ => by split <;> omega⟩
  · change sizePublicKey e = (valPublicKey e).length at hlen
    change valPublicKey e ≠ [] at hv
    change 2 ≤ (valPublicKey e).length
    unfold valPublicKey at *
    split at hv
    · rename_i k hk _
      have := h.key k hk
      simp only [List.length_cons]; omega
    · exact absurd rfl hv
  · change ∃ ver a b c d f, valProduct e.product = ver :: (a ++ b ++ c ++ d ++ f) ∧ _
    have str : ∀ s, IsString (valStr s) := by
      intro s
      rw [valStr_eq]
      refine ⟨_, _, rfl, ?_, by simp⟩
      have := strSize_le s
      rw [UInt8.toNat_ofNat', Nat.mod_eq_of_lt (by omega), strSize_eq]; simp
    exact ⟨1, valStr _, valStr _, valStr _, valStr _, valStr _, by
      simp only [valProduct, List.cons_append, List.nil_append]; rfl, str _, str _, str _, str _, str _⟩
  · change valHashList e ≠ [] at hv
    exact List.length_pos_iff.2 hv
  · change 5 ≤ (valSignature e).length
    rw [← sizeSignature_eq h]; unfold sizeSignature; omega
  · change valArbitrary e ≠ [] at hv
    exact List.length_pos_iff.2 hv
  · change valCrypto e ≠ [] at hv
    change 2 ≤ (valCrypto e).length ∧ 2 + ((valCrypto e).getD 1 0).toNat ≤ (valCrypto e).length
    have := h.oid
    unfold valCrypto at *
    split at hv
    · exact absurd rfl hv
    · rename_i h0
      rw [if_neg h0]
      simp only [List.length_cons, List.getD_cons_succ, List.getD_cons_zero, UInt8.toNat_ofNat']
      omega

/-- **C11**: a signature that is accepted lies within its tag: the number of signature bytes that will be used is the
announced one, and at most what remains of the tag after its five byte head (the rest is padding). -/
theorem C11_signature_in_tag (d d' : DecState) (v st ht a b : UInt8) (rest : Bytes) (size : Nat)
    (h : decSignature d (v :: st :: ht :: a :: b :: rest) size = .ok d') :
    a.toNat * 256 + b.toNat ≤ size - 5 ∧ d'.signature = rest.take (a.toNat * 256 + b.toNat) ∧
      d'.signature.length = a.toNat * 256 + b.toNat ∧ d'.maxSignature = some (size - 5) := by
  have hz : ((a.toUInt16 <<< 8) + b.toUInt16).toNat = a.toNat * 256 + b.toNat := by
    have h1 := a.toNat_lt
    have h2 := b.toNat_lt
    simp [UInt16.toNat_add, UInt16.toNat_shiftLeft, Nat.shiftLeft_eq]
    omega
  simp only [decSignature, rd8_cons, Out.bind_ok, rd16, hz] at h
  by_cases h1 : v = 0
  · rw [if_pos h1] at h; cases h
  rw [if_neg h1] at h
  by_cases h2 : ht ≥ 2
  · rw [if_pos h2] at h; cases h
  rw [if_neg h2] at h
  by_cases h3 : size < 5
  · rw [if_pos h3] at h; cases h
  rw [if_neg h3] at h
  by_cases h4 : size - 5 < a.toNat * 256 + b.toNat
  · rw [if_pos h4] at h; cases h
  rw [if_neg h4] at h
  by_cases h5 : d.maxSignature.getD (size - 5) ≠ size - 5
  · rw [if_pos h5] at h; cases h
  rw [if_neg h5] at h
  by_cases h6 : size - 5 ≤ rest.length
  · rw [rdN, if_pos h6] at h
    simp only [Out.bind_ok, Out.ok.injEq] at h
    subst h
    simp only [List.take_take, List.length_take]
    refine ⟨by omega, ?_, by omega, trivial⟩
    rw [Nat.min_eq_left (by omega)]
  · rw [rdN, if_neg h6] at h
    cases h

example : ∃ d', decSignature {} [1, 1, 1, 0, 2, 7, 8, 9] 8 = .ok d' ∧ d'.signature = [7, 8] := ⟨_, rfl, by decide⟩

end SV
