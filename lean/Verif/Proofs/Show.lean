import Verif.Model.Show
import Verif.Spec.Show
import Verif.Proofs.ProductTlv
import Verif.Proofs.AuthAlgo
/-! What is printed for a SEI. -/
namespace SV
open Spec Validator

theorem fields_walk {mem : Bytes} {t : UInt8} {n h : Nat} (e : decHeader mem = .ok (t, n, h)) (k size : Nat) (hs : size ≠ 0) :
    fields (k + 1) mem size = (t, (mem.drop h).take n) :: fields k ((mem.drop h).drop n) (size - h - n) := by
  unfold decHeader at e
  cases mem with
  | nil => cases e
  | cons t' m =>
    simp only [rd8_cons] at e
    dsimp only [bind, Out.bind] at e
    split at e
    · cases e
    · rename_i ht
      have ht : (getTuple t').tag = t' := Decidable.not_not.1 ht
      have hlen := getTuple_len ht
      split at e
      · rename_i h2
        have hn := hlen.1 h2
        cases m with
        | nil => cases e
        | cons a m =>
          cases m with
          | nil => cases e
          | cons b m =>
            simp only [rd16] at e
            cases e
            conv => lhs; unfold fields
            rw [if_neg hs]
            dsimp only
            rw [if_neg hn]
            have hb : ((a.toUInt16 <<< 8) + b.toUInt16).toNat = a.toNat * 256 + b.toNat := by
              have := a.toNat_lt
              have := b.toNat_lt
              simp [Nat.shiftLeft_eq]
              omega
            rw [hb]
            simp
      · rename_i h2
        have hn : t' = 0 ∨ t' = 1 ∨ t' = 7 := Decidable.not_not.1 fun h => h2 (hlen.2 h)
        cases m with
        | nil => cases e
        | cons a m =>
          simp only [rd8_cons] at e
          cases e
          conv => lhs; unfold fields
          rw [if_neg hs]
          dsimp only
          rw [if_pos hn]
          simp

/-- A record that is not about the hash algorithm keeps the algorithm. -/
theorem decTag_algo {env : AuthEnv} {s s' : Validator} {t : UInt8} {mem : Bytes} {size : Nat} (h7 : t ≠ 7)
    (h : s.decTag env t mem size = .ok s' ()) : s'.d.hashSize = s.d.hashSize ∧ s'.d.oid = s.d.oid := by
  unfold Validator.decTag at h
  split at h
  · unfold Validator.decGeneral at h
    split at h
    · rename_i d hd
      have e := decGeneral_frame hd
      cases h
      exact ⟨show d.hashSize = _ by rw [e]; rfl, show d.oid = _ by rw [e]; rfl⟩
    · cases h
    · split at h
      · split at h
        · split at h <;> cases h
        · split at h <;> cases h
      · cases h
    · cases h
  rename_i h1
  split at h
  · unfold Validator.decPublicKey at h
    split at h
    · rename_i d hd
      have e := (decPublicKey_frame hd).1
      split at h
      · cases h
        exact ⟨show d.hashSize = _ by rw [e]; rfl, show d.oid = _ by rw [e]; rfl⟩
      · cases h
    · cases h
    · cases h
  rename_i h2
  rw [if_neg (show t ≠ tagCrypto from h7)] at h
  split at h
  · rename_i d hd
    have e := (decValue_frame h1 h2 h7 hd).1
    cases h
    exact ⟨show d.hashSize = _ by rw [e]; rfl, show d.oid = _ by rw [e]; rfl⟩
  · cases h
  · cases h

/-- A record about the hash algorithm sets it to the OID in its value. -/
theorem decTag_newAlgo {env : AuthEnv} {s s' : Validator} {mem : Bytes} {size : Nat} (hi : env.crypto.oidHashSize s.d.oid = some s.d.hashSize)
    (h : s.decTag env 7 mem size = .ok s' ()) :
    s'.d.oid = (mem.take size).drop 2 ∧ env.crypto.oidHashSize s'.d.oid = some s'.d.hashSize := by
  unfold Validator.decTag at h
  rw [if_neg (by decide), if_neg (by decide), if_pos (by decide)] at h
  unfold Validator.decCrypto at h
  cases mem with
  | nil => cases h
  | cons a mem =>
    cases mem with
    | nil => cases h
    | cons n mem =>
      simp only [rd8_cons] at h
      split at h
      · cases h
      split at h
      · cases h
      unfold rdN at h
      by_cases hl : n.toNat ≤ mem.length
      · rw [if_pos hl] at h
        dsimp only at h
        have fin : ∀ {v : Validator}, (if 2 + n.toNat = size then Res.ok { v with d := { v.d with hashAlgoKnown := true } } ()
            else Res.err { v with d := { v.d with hashAlgoKnown := true } } Rc.authenticationError) = Res.ok s' () →
            2 + n.toNat = size ∧ s'.d.oid = v.d.oid ∧ s'.d.hashSize = v.d.hashSize := by
          intro v hv
          split at hv
          · cases hv; exact ⟨by assumption, rfl, rfl⟩
          · cases hv
        have val : 2 + n.toNat = size → ((a :: n :: mem).take size).drop 2 = mem.take n.toNat := by
          rintro rfl
          rw [Nat.add_comm]
          simp
        split at h
        · rename_i ho
          obtain ⟨h1, h2, h3⟩ := fin h
          rw [val h1, h2, h3]
          exact ⟨ho.symm, hi⟩
        · split at h
          · cases h
          · rename_i hs ho
            obtain ⟨h1, h2, h3⟩ := fin h
            rw [val h1, h2, h3]
            exact ⟨rfl, ho⟩
      · rw [if_neg hl] at h
        cases h

/-- A hash list that has been decoded is the value of the record without its first byte. -/
theorem decTag_hashList {env : AuthEnv} {s s' : Validator} {mem : Bytes} {size : Nat} (h : s.decTag env 4 mem size = .ok s' ()) :
    s'.d.hashList = (mem.take size).drop 1 ∧ s'.d.hashList.length ≤ hashListCap ∧ s'.d.hashSize = s.d.hashSize := by
  unfold Validator.decTag at h
  rw [if_neg (by decide), if_neg (by decide), if_neg (by decide)] at h
  split at h
  · rename_i d hd
    have e := (decValue_frame (by decide) (by decide) (by decide) hd).1
    cases h
    unfold decValue at hd
    rw [if_neg (by decide), if_neg (by decide), if_neg (by decide), if_pos rfl] at hd
    unfold decHashList at hd
    obtain ⟨⟨v, m⟩, hv, hd⟩ := Out.bind_eq_ok hd
    dsimp only at hd
    split at hd
    · cases hd
    split at hd
    · cases hd
    rename_i hc
    obtain ⟨⟨l, m'⟩, hl, hd⟩ := Out.bind_eq_ok hd
    cases hd
    cases mem with
    | nil => cases hv
    | cons b mem =>
      simp only [rd8_cons] at hv
      cases hv
      unfold rdN at hl
      split at hl
      · cases hl
        simp only [Bool.or_eq_true, decide_eq_true_eq, not_or] at hc
        refine ⟨?_, ?_, rfl⟩
        · cases size with
          | zero => exact absurd rfl hc.1
          | succ n => simp
        · simp only [List.length_take]; omega
      · cases hl
  · cases h
  · cases h

theorem hashLines_ok {hs : Nat} {arr : Bytes} {n : Nat} (h0 : 0 < hs) (hd : hs ∣ arr.length) (hn : n ≤ arr.length) (k : Nat) :
    ∀ i, hs ∣ i → n ≤ i + k → i < n + hs → ∃ ls, hashLines hs arr n k i = .ok ls ∧ (∀ l ∈ ls, l.length = hs) ∧
      ∃ j, n ≤ j ∧ j < n + hs ∧ j ≤ max i arr.length ∧ i ≤ j ∧ ls.flatten = (arr.drop i).take (j - i) := by
  induction k with
  | zero =>
    intro i _ h1 h2
    exact ⟨[], rfl, by simp, i, by omega, h2, by omega, Nat.le_refl _, by simp⟩
  | succ k ih =>
    intro i hi h1 h2
    unfold hashLines
    by_cases hc : i ≥ n
    · rw [if_pos hc]
      exact ⟨[], rfl, by simp, i, hc, h2, by omega, Nat.le_refl _, by simp⟩
    rw [if_neg hc]
    have hle : i + hs ≤ arr.length := by
      obtain ⟨a, rfl⟩ := hi
      obtain ⟨b, hb⟩ := hd
      rw [hb]
      have : hs * a < hs * b := by omega
      have := Nat.lt_of_mul_lt_mul_left this
      calc hs * a + hs = hs * (a + 1) := by rw [Nat.mul_add, Nat.mul_one]
        _ ≤ hs * b := Nat.mul_le_mul_left _ this
    rw [if_neg (by omega)]
    obtain ⟨ls, e, hl, j, h3, h4, h5, h6, h7⟩ := ih (i + hs) (Nat.dvd_add hi (Nat.dvd_refl _)) (by omega) (by omega)
    rw [e]
    refine ⟨_, rfl, ?_, j, h3, h4, by omega, by omega, ?_⟩
    · intro l hm
      cases hm with
      | head => simp only [List.length_take, List.length_drop]; omega
      | tail _ hm => exact hl l hm
    · rw [List.flatten_cons, h7, ← List.drop_drop]
      have : j - i = hs + (j - (i + hs)) := by omega
      rw [this, List.take_add]

theorem hashLines_over {hs : Nat} {arr : Bytes} (h0 : 0 < hs) (hd : ¬ hs ∣ arr.length) (k : Nat) :
    ∀ i, hs ∣ i → arr.length ≤ i + k → i < arr.length → hashLines hs arr arr.length k i = .ub .overread := by
  induction k with
  | zero => intro i _ h1 h2; omega
  | succ k ih =>
    intro i hi h1 h2
    unfold hashLines
    rw [if_neg (by omega)]
    by_cases hc : i + hs > arr.length
    · rw [if_pos hc]
    · have hi' : hs ∣ i + hs := Nat.dvd_add hi (Nat.dvd_refl _)
      have : i + hs ≠ arr.length := fun e => hd (e ▸ hi')
      rw [if_neg hc, ih (i + hs) hi' (by omega) (by omega)]

theorem printList_ok {hs : Nat} {l : Bytes} (h0 : 0 < hs) (h64 : hs ≤ 64) (hd : hs ∣ hashListCap) (hl : l.length ≤ hashListCap) :
    ∃ ls, printList hs l = .ok ls ∧ Lists hs l ls := by
  have hb : (buf hashListCap l).length = hashListCap := by simp only [buf, List.length_take, List.length_append, List.length_replicate]; omega
  unfold printList
  rw [if_neg (by omega), if_neg (by omega)]
  obtain ⟨ls, e, h1, j, h2, h3, h4, -, h5⟩ := hashLines_ok (arr := buf hashListCap l) (n := l.length) h0 (by rw [hb]; exact hd) (by rw [hb]; exact hl)
    l.length 0 (Nat.dvd_zero _) (by omega) (by omega)
  rw [hb] at h4
  rw [Nat.sub_zero, List.drop_zero] at h5
  refine ⟨ls, e, h1, ?_, ?_⟩
  · rw [h5]
    unfold buf
    rw [List.take_take, List.take_append]
    have : min j hashListCap = j := by omega
    rw [this, List.take_of_length_le (by omega : l.length ≤ j)]
    exact List.prefix_append _ _
  · rw [h5, List.length_take, hb]; omega

/-- What a row says. -/
def Row.says (r : Row) : UInt8 × Bytes × List Bytes := (r.tag, r.value, r.lines)

theorem axisMaker_eq : axisMaker = axisText := by decide

theorem showRow_ok {env : AuthEnv} (hz : SizesFit env.crypto.oidHashSize) {vendor : Bool} {s s' : Validator} {t : UInt8} {mem : Bytes} {n : Nat}
    (h : s.decTag env t mem n = .ok s' ()) (hi : env.crypto.oidHashSize s.d.oid = some s.d.hashSize)
    (hv : vendor = true → t = 2 → s'.d.product.manufacturer ≠ some axisText) :
    ∃ ls, showRow vendor t (mem.take n) s' = .ok ⟨t, mem.take n, ls⟩ ∧
      (if t = 4 then Lists s.d.hashSize ((mem.take n).drop 1) ls else ls = []) := by
  unfold showRow
  rw [if_neg (by rintro ⟨h1, h2, h3⟩; exact hv h1 h2 (axisMaker_eq ▸ h3))]
  by_cases h4 : t = 4
  · subst h4
    obtain ⟨e1, e2, e3⟩ := decTag_hashList h
    obtain ⟨z1, z2, z3⟩ := hz _ _ hi
    rw [if_pos rfl, e3]
    obtain ⟨ls, e, hl⟩ := printList_ok z1 z2 z3 e2
    rw [e]
    exact ⟨ls, rfl, by rw [if_pos rfl, ← e1]; exact hl⟩
  · rw [if_neg h4]
    exact ⟨[], rfl, by rw [if_neg h4]⟩

/-- The first `k` records can be decoded, and the next one cannot. -/
def Stops (env : AuthEnv) (s : Validator) (mem : Bytes) (size k : Nat) : Prop :=
  (∃ v, Validator.tlvLoop env k s mem size = .ok v ()) ∧ ∃ v c, Validator.tlvLoop env (k + 1) s mem size = .err v c

theorem tlvLoop_walk {env : AuthEnv} {s s' : Validator} {mem : Bytes} {t : UInt8} {n h : Nat} (e : decHeader mem = .ok (t, n, h))
    (hr : s.decTag env t (mem.drop h) n = .ok s' ()) (k : Nat) {size : Nat} (hs : size ≠ 0) :
    Validator.tlvLoop env (k + 1) s mem size = Validator.tlvLoop env k s' ((mem.drop h).drop n) (size - h - n) := by
  conv => lhs; unfold Validator.tlvLoop
  rw [if_neg hs, e]
  dsimp only
  rw [hr]
  rfl

theorem showLoop_spec {env : AuthEnv} (hz : SizesFit env.crypto.oidHashSize) (vendor : Bool) (k : Nat) : ∀ (s : Validator) (mem : Bytes) (size : Nat),
    env.crypto.oidHashSize s.d.oid = some s.d.hashSize →
    (vendor = true → KeyFirst (records k mem size) ∧ (s.d.product.manufacturer = some axisText → ∀ r ∈ records k mem size, r.1 ≠ 2)) →
    match Validator.tlvLoop env k s mem size with
    | .ub u => showLoop env vendor k s mem size = .ub u
    | .err _ _ => ∃ rs, showLoop env vendor k s mem size = .ok rs ∧ (rs.map fun r => (r.tag, r.value)) <+: fields k mem size ∧
        Shown env.crypto.oidHashSize s.d.hashSize (rs.map Row.says) ∧ Stops env s mem size rs.length
    | .ok _ _ => ∃ rs, showLoop env vendor k s mem size = .ok rs ∧ (rs.map fun r => (r.tag, r.value)) = fields k mem size ∧
        Shown env.crypto.oidHashSize s.d.hashSize (rs.map Row.says) := by
  induction k with
  | zero => intro s mem size _ _; exact ⟨[], rfl, rfl, trivial⟩
  | succ k ih =>
    intro s mem size hi hv
    unfold Validator.tlvLoop showLoop
    by_cases hs : size = 0
    · rw [if_pos hs, if_pos hs]
      exact ⟨[], rfl, by simp [fields, hs], trivial⟩
    rw [if_neg hs, if_neg hs]
    cases e : decHeader mem with
    | ub u => rfl
    | err c => exact ⟨[], rfl, List.nil_prefix, trivial, ⟨s, rfl⟩, s, c, by simp only [List.length_nil, Validator.tlvLoop]; rw [if_neg hs, e]⟩
    | ok r =>
      obtain ⟨t, n, h⟩ := r
      dsimp only
      rw [fields_walk e k size hs]
      rw [records_walk (List.prefix_refl _) e k size hs] at hv
      cases hr : s.decTag env t (mem.drop h) n with
      | ub u => rfl
      | err u c =>
        refine ⟨[], rfl, List.nil_prefix, trivial, ⟨s, rfl⟩, u, c, ?_⟩
        simp only [List.length_nil, Validator.tlvLoop]
        rw [if_neg hs, e]
        dsimp only
        rw [hr]
        rfl
      | ok s' x =>
        have hp := decTag_product env s t (mem.drop h) n
        rw [hr] at hp
        have hp : s'.d.product = s.d.product ∨ t = 3 ∧ IsProduct (mem.drop h) s'.d.product := hp
        obtain ⟨ls, e1, e2⟩ := showRow_ok (vendor := vendor) hz hr hi (by
          intro h1 h2 h3
          rcases hp with hp | ⟨hp, -⟩
          · rw [hp] at h3
            exact (hv h1).2 h3 _ List.mem_cons_self h2
          · rw [h2] at hp; cases hp)
        have hi' : env.crypto.oidHashSize s'.d.oid = some s'.d.hashSize ∧
            s'.d.hashSize = (if t = 7 then (env.crypto.oidHashSize (((mem.drop h).take n).drop 2)).getD s.d.hashSize else s.d.hashSize) := by
          by_cases h7 : t = 7
          · subst h7
            obtain ⟨a, b⟩ := decTag_newAlgo hi hr
            rw [if_pos rfl, ← a, b]
            exact ⟨rfl, rfl⟩
          · obtain ⟨a, b⟩ := decTag_algo h7 hr
            rw [if_neg h7, a, b]
            exact ⟨hi, rfl⟩
        have hv' : vendor = true → KeyFirst (records k ((mem.drop h).drop n) (size - h - n)) ∧
            (s'.d.product.manufacturer = some axisText → ∀ r ∈ records k ((mem.drop h).drop n) (size - h - n), r.1 ≠ 2) := by
          intro h1
          obtain ⟨a, b⟩ := hv h1
          obtain ⟨a1, a2⟩ := List.pairwise_cons.1 a
          refine ⟨a2, fun hm r hr' => ?_⟩
          rcases hp with hp | ⟨ht, hp⟩
          · exact b (hp ▸ hm) r (List.mem_cons_of_mem _ hr')
          · exact a1 r hr' ⟨ht, _, hp, hm⟩
        have := ih s' ((mem.drop h).drop n) (size - h - n) hi'.1 hv'
        rw [hi'.2] at this
        dsimp only [Res.andThen]
        rw [e1]
        dsimp only
        cases hl : Validator.tlvLoop env k s' ((mem.drop h).drop n) (size - h - n) with
        | ub u => rw [hl] at this; dsimp only at this; rw [this]
        | err u c =>
          rw [hl] at this
          obtain ⟨rs, f1, f2, f3, f4, f5⟩ := this
          rw [f1]
          refine ⟨_, rfl, (List.prefix_cons_inj _).2 f2, ⟨e2, f3⟩, ?_⟩
          unfold Stops
          rw [List.length_cons, tlvLoop_walk e hr _ hs, tlvLoop_walk e hr _ hs]
          exact ⟨f4, f5⟩
        | ok u x =>
          rw [hl] at this
          obtain ⟨rs, f1, f2, f3⟩ := this
          rw [f1]
          exact ⟨_, rfl, by rw [List.map_cons, f2], e2, f3⟩

end SV
