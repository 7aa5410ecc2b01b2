import Verif.Spec.Axis
import Verif.Proofs.AuthFrame
import Verif.Proofs.AuthCall
import Verif.Props.AuthDemo
/-! The vendor code of Axis (C52, C53, C55, C56). -/
namespace SV
open Spec

/-! ### The attestation report -/

theorem attBytes_length {r : AttReport} (h : AttOk r) : (attBytes r).length = 23 + r.signature.length := by
  simp only [attBytes, List.length_append, h.header, h.version, h.objectId, h.timestamp, List.length_cons, List.length_nil]

theorem u8_toNat (n : Nat) (h : n < 256) : (UInt8.ofNat n).toNat = n := by
  rw [UInt8.toNat_ofNat']; omega

theorem drop_getD (m : Bytes) (n : Nat) (h : n < m.length) : m.drop n = m.getD n 0 :: m.drop (n + 1) := by
  rw [List.drop_eq_getElem_cons h, List.getD_eq_getElem?_getD, List.getElem?_eq_getElem h]; rfl

theorem drop_split (m : Bytes) (n k : Nat) : m.drop n = (m.drop n).take k ++ m.drop (n + k) := by
  rw [← List.drop_drop, List.take_append_drop]

/-- A byte string that starts with members of given sizes. -/
theorem split_att (m : Bytes) (h : 24 ≤ m.length) :
    m = m.take 2 ++ (m.drop 2).take 2 ++ (m.drop 4).take 4 ++ [m.getD 8 0] ++ (m.drop 9).take 12 ++ [m.getD 21 0, m.getD 22 0] ++ m.drop 23 := by
  conv => lhs; rw [← List.take_append_drop 2 m, drop_split m 2 2, drop_split m 4 4, drop_getD m 8 (by omega), drop_split m 9 12,
    drop_getD m 21 (by omega), drop_getD m 22 (by omega)]
  simp only [List.append_assoc, List.cons_append, List.nil_append]

/-- **C52 (1).** An attestation is accepted exactly if it is an attestation report with one item and nothing after it; the
members read are those of this report, and nothing else of the handle changes. -/
theorem C52_parsed_exactly (a a' : Axis) (m : Bytes) (hm : a.attestation = some m) (hl : m.length < 256) :
    a.deserialize = .ok a' () ↔ ∃ r, AttOk r ∧ m = attBytes r ∧ a' = { a with report := r } := by
  constructor
  · intro h
    unfold Axis.deserialize at h
    rw [hm] at h
    dsimp only at h
    by_cases h1 : m.length < 24
    · rw [if_pos h1] at h; cases h
    rw [if_neg h1] at h
    by_cases h2 : m.getD 8 0 ≠ 1
    · rw [if_pos h2] at h; cases h
    rw [if_neg h2] at h
    by_cases h3 : 23 + ((m.getD 21 0).toNat * 256 + (m.getD 22 0).toNat) ≠ m.length
    · rw [if_pos h3] at h; cases h
    rw [if_neg h3] at h
    by_cases h4 : (m.getD 21 0).toNat * 256 + (m.getD 22 0).toNat > 512
    · rw [if_pos h4] at h; cases h
    rw [if_neg h4] at h
    cases h
    have h2' : m.getD 8 0 = 1 := Classical.byContradiction h2
    have h3' : 23 + ((m.getD 21 0).toNat * 256 + (m.getD 22 0).toNat) = m.length := Classical.byContradiction h3
    have hs : ((m.drop 23).take ((m.getD 21 0).toNat * 256 + (m.getD 22 0).toNat)) = m.drop 23 :=
      List.take_of_length_le (by rw [List.length_drop]; omega)
    refine ⟨_, ?_, ?_, by rw [hm]⟩
    · constructor
      · dsimp only; rw [List.length_take]; omega
      · dsimp only; rw [List.length_take, List.length_drop]; omega
      · dsimp only; rw [List.length_take, List.length_drop]; omega
      · dsimp only; rw [h2']; rfl
      · dsimp only; rw [List.length_take, List.length_drop]; omega
      · dsimp only; rw [hs]
        intro h
        have := congrArg List.length h
        rw [List.length_drop, List.length_nil] at this; omega
      · dsimp only; rw [hs, List.length_drop]; omega
    · have e := split_att m (by omega)
      unfold attBytes
      dsimp only
      rw [hs, show (m.drop 23).length = (m.getD 21 0).toNat * 256 + (m.getD 22 0).toNat by rw [List.length_drop]; omega]
      have hb := (m.getD 22 0).toNat_lt
      rw [show ((m.getD 21 0).toNat * 256 + (m.getD 22 0).toNat) / 256 = (m.getD 21 0).toNat by omega,
        show ((m.getD 21 0).toNat * 256 + (m.getD 22 0).toNat) % 256 = (m.getD 22 0).toNat by omega,
        UInt8.ofNat_toNat, UInt8.ofNat_toNat, ← h2']
      exact e
  · rintro ⟨r, hr, rfl, rfl⟩
    have hlen := attBytes_length hr
    obtain ⟨header, version, objectId, listLength, timestamp, signature⟩ := r
    obtain ⟨k1, k2, k3, k4, k5, k6, k7⟩ := hr
    dsimp only at k1 k2 k3 k4 k5 k6 k7 hlen
    have hsl : 0 < signature.length := List.length_pos_iff.mpr k6
    match header, k1 with
    | [x0, x1], _ =>
    match version, k2 with
    | [x2, x3], _ =>
    match objectId, k3 with
    | [x4, x5, x6, x7], _ =>
    match timestamp, k5 with
    | [t0, t1, t2, t3, t4, t5, t6, t7, t8, t9, t10, t11], _ =>
    have e : attBytes ⟨[x0, x1], [x2, x3], [x4, x5, x6, x7], listLength, [t0, t1, t2, t3, t4, t5, t6, t7, t8, t9, t10, t11], signature⟩ =
      x0 :: x1 :: x2 :: x3 :: x4 :: x5 :: x6 :: x7 :: 1 :: t0 :: t1 :: t2 :: t3 :: t4 :: t5 :: t6 :: t7 :: t8 :: t9 :: t10 :: t11 ::
        UInt8.ofNat (signature.length / 256) :: UInt8.ofNat (signature.length % 256) :: signature := rfl
    unfold Axis.deserialize
    rw [hm]
    dsimp only
    rw [if_neg (by omega), e]
    simp only [List.getD_cons_succ, List.getD_cons_zero]
    rw [u8_toNat (signature.length / 256) (by omega), u8_toNat (signature.length % 256) (by omega),
      show signature.length / 256 * 256 + signature.length % 256 = signature.length by omega]
    rw [if_neg (by simp), if_neg (by simp only [List.length_cons]; omega), if_neg (by omega)]
    simp only [List.drop_succ_cons, List.drop_zero, List.take_length]
    subst k4
    rfl

/-- An attestation of at most 255 bytes is never copied beyond its buffer. -/
theorem C52_no_overflow (a : Axis) (m : Bytes) (hm : a.attestation = some m) (hl : m.length < 256) (u : Ub) :
    a.deserialize ≠ .ub u := by
  intro h
  unfold Axis.deserialize at h
  rw [hm] at h
  dsimp only at h
  split at h
  · cases h
  split at h
  · cases h
  split at h
  · cases h
  split at h
  · omega
  · cases h

/-! ### What every function does to the handle -/

/-- `EVP_DigestVerify` returns 1 for success and no larger value. -/
def AxEnv.VerifyOk (env : AxEnv) : Prop := ∀ k s d, env.verify k s d ≤ 1

theorem int32_01 (v : Int32) (h0 : ¬ v < 0) (h1 : v ≤ 1) : v = 0 ∨ v = 1 := by
  rw [Int32.lt_iff_toInt_lt] at h0
  rw [Int32.le_iff_toInt_le] at h1
  have e0 : (0 : Int32).toInt = 0 := rfl
  have e1 : (1 : Int32).toInt = 1 := rfl
  rw [e0] at h0; rw [e1] at h1
  have : v.toInt = 0 ∨ v.toInt = 1 := by omega
  rcases this with h | h
  · left; exact Int32.toInt_inj.mp (by rw [h, e0])
  · right; exact Int32.toInt_inj.mp (by rw [h, e1])

/-- The members of the handle that belong together. -/
structure Axis.Inv (a : Axis) : Prop where
  att : ∀ m, a.attestation = some m → 0 < m.length ∧ m.length < 256
  chip : a.chip.length = 18
  val : a.validation = -1 ∨ a.validation = 0 ∨ a.validation = 1
  serial : a.serial.length < 20

/-- How the handle may change. -/
structure Axis.Step (a b : Axis) : Prop where
  att : ∀ m, a.attestation = some m → b.attestation = some m
  chain : ∀ c, a.chain = some c → b.chain = some c
  zero : a.validation = 0 → b.validation = 0
  inv : a.Inv → b.Inv

theorem Axis.Step.refl (a : Axis) : a.Step a := ⟨fun _ h => h, fun _ h => h, fun h => h, fun h => h⟩

theorem Axis.Step.trans {a b c : Axis} (h : a.Step b) (k : b.Step c) : a.Step c :=
  ⟨fun m e => k.att m (h.att m e), fun m e => k.chain m (h.chain m e), fun e => k.zero (h.zero e), fun e => k.inv (h.inv e)⟩

namespace Axis

theorem scanChip_length (env : AxEnv) (pos chip : Bytes) : (scanChip env pos chip).length = 18 := by
  simp [scanChip]

theorem readChain_step (env : AxEnv) (a : Axis) (chain : Bytes) : (a.readChain env chain).Ends (a.Step ·) := by
  have r := Axis.Step.refl a
  have key : ∀ pos, a.Step { a with chip := scanChip env pos a.chip } := fun pos =>
    ⟨fun _ h => h, fun _ h => h, fun h => h, fun h => ⟨h.att, scanChip_length env pos a.chip, h.val, h.serial⟩⟩
  unfold readChain
  dsimp only
  split
  · exact r
  split
  · exact r
  split
  · trivial
  split
  · exact r
  split
  · exact r
  split
  · exact r
  split
  · exact r
  split
  · exact key _
  split
  · exact key _
  split
  · exact key _
  rename_i sn _ _
  by_cases hs : cstr sn ≠ a.serial ∧ (cstr sn).length ≥ 20
  · rw [if_pos hs]; trivial
  rw [if_neg hs]
  have key2 : ∀ pos, a.Step { a with chip := scanChip env pos a.chip, serial := cstr sn } := fun pos =>
    ⟨fun _ h => h, fun _ h => h, fun h => h, fun h => ⟨h.att, scanChip_length env pos a.chip, h.val, by
      dsimp only
      by_cases e : cstr sn = a.serial
      · rw [e]; exact h.serial
      · exact Nat.lt_of_not_le fun h' => hs ⟨e, h'⟩⟩⟩
  split
  · exact key2 _
  split
  · exact key2 _
  · exact key2 _

theorem verifyChain_step (env : AxEnv) (a : Axis) : (a.verifyChain env).Ends (a.Step ·) := by
  unfold verifyChain
  split
  · exact Axis.Step.refl a
  · rename_i c _
    have h := readChain_step env a c
    split
    · rename_i e; rw [e] at h
      exact ⟨h.att, h.chain, h.zero, fun i => ⟨(h.inv i).att, (h.inv i).chip, (h.inv i).val, (h.inv i).serial⟩⟩
    · rename_i e; rw [e] at h
      exact ⟨h.att, h.chain, h.zero, fun i => ⟨(h.inv i).att, (h.inv i).chip, (h.inv i).val, (by decide : serialUnknown.length < 20)⟩⟩
    · trivial

theorem deserialize_step (a : Axis) : a.deserialize.Ends (a.Step ·) := by
  have key : ∀ r, a.Step { a with report := r } := fun r =>
    ⟨fun _ h => h, fun _ h => h, fun h => h, fun h => ⟨h.att, h.chip, h.val, h.serial⟩⟩
  unfold deserialize
  split
  · exact Axis.Step.refl a
  split
  · exact Axis.Step.refl a
  split
  · exact Axis.Step.refl a
  dsimp only
  split
  · exact key _
  split
  · trivial
  · exact key _

theorem verifyKey_step {env : AxEnv} (hv : env.VerifyOk) (a : Axis) (live : Option (Nat × Bytes)) :
    (a.verifyKey env live).Ends (a.Step ·) := by
  unfold verifyKey
  split
  · exact Axis.Step.refl a
  split
  · exact Axis.Step.refl a
  split
  · trivial
  split
  · trivial
  split
  · exact Axis.Step.refl a
  split
  · exact Axis.Step.refl a
  dsimp only
  split
  · exact Axis.Step.refl a
  · rename_i hlt
    refine ⟨fun _ h => h, fun _ h => h, fun h => ?_, fun h => ⟨h.att, h.chip, ?_, h.serial⟩⟩
    · dsimp only; rw [h]; exact Int32.zero_and
    · dsimp only
      rcases int32_01 _ hlt (hv _ _ _) with e | e <;> rw [e] <;> rcases h.val with v | v | v <;> rw [v] <;> decide

theorem supplemental_step {env : AxEnv} (hv : env.VerifyOk) (a : Axis) (live : Option (Nat × Bytes)) :
    (a.supplemental env live).Ends (a.Step ·) := by
  have h : ((a.verifyChain env).andThen fun a _ => a.deserialize.andThen fun a _ => a.verifyKey env live).Ends (a.Step ·) := by
    refine (verifyChain_step env a).andThen' fun b _ _ h1 => ?_
    refine ((deserialize_step b).mono fun c h2 => h1.trans h2).andThen' fun c _ _ h2 => ?_
    exact (verifyKey_step hv c live).mono fun d h3 => h2.trans h3
  unfold supplemental
  split
  · rename_i e; rw [e] at h
    exact ⟨h.att, h.chain, fun _ => rfl, fun i => ⟨(h.inv i).att, (h.inv i).chip, Or.inr (Or.inl rfl), (by decide : serialUnknown.length < 20)⟩⟩
  · exact h

theorem setKey_step (env : AxEnv) (a : Axis) (p : Nat) (k : Bytes) (c : Bool) : (a.setKey env p k c).Ends (a.Step ·) := by
  unfold setKey
  split
  · exact Axis.Step.refl a
  rename_i h0
  have key : ∀ (b : Axis) q v, b = a ∨ b = { a with validation := 0 } → (v = b.validation ∨ v = 0) →
      a.Step { b with pub := q, validation := v } := by
    intro b q v hb hv
    rcases hb with rfl | rfl
    · refine ⟨fun _ h => h, fun _ h => h, fun h => absurd h h0, fun h => ⟨h.att, h.chip, ?_, h.serial⟩⟩
      rcases hv with rfl | rfl
      · exact h.val
      · exact Or.inr (Or.inl rfl)
    · refine ⟨fun _ h => h, fun _ h => h, fun h => absurd h h0, fun h => ⟨h.att, h.chip, ?_, h.serial⟩⟩
      rcases hv with rfl | rfl <;> exact Or.inr (Or.inl rfl)
  have hb : (if (c && a.pub.isSome) = true then { a with validation := 0 } else a) = a ∨
      (if (c && a.pub.isSome) = true then { a with validation := 0 } else a) = { a with validation := 0 } := by
    split
    · exact Or.inr rfl
    · exact Or.inl rfl
  dsimp only
  generalize (if (c && a.pub.isSome) = true then { a with validation := 0 } else a) = b at hb
  split
  · exact key b _ 0 hb (Or.inr rfl)
  split
  · exact key b _ 0 hb (Or.inr rfl)
  split
  · exact key b _ b.validation hb (Or.inl rfl)
  · exact key b _ 0 hb (Or.inr rfl)

theorem rdN_ok {n : Nat} {m x r : Bytes} (h : rdN n m = .ok (x, r)) : n ≤ m.length ∧ x = m.take n ∧ r = m.drop n := by
  unfold rdN at h
  split at h
  · cases h; exact ⟨by assumption, rfl, rfl⟩
  · cases h

theorem decode_step (a : Axis) (mem : Bytes) (size : Nat) : (a.decode mem size).Ends (a.Step ·) := by
  have r := Axis.Step.refl a
  unfold decode
  split
  · trivial
  · exact r
  split
  · exact r
  split
  · trivial
  · exact r
  split
  · exact r
  rename_i n m _ hn
  dsimp only
  refine Res.Ends.andThen' (P := (a.Step ·)) ?_ fun b _ _ hb => ?_
  · split
    · split
      · exact r
      split
      · trivial
      · exact r
      split
      · exact r
      · exact r
    · rename_i ha
      split
      · trivial
      · exact r
      · rename_i x y e
        obtain ⟨h1, h2, _⟩ := rdN_ok e
        refine ⟨fun m hm => (by rw [ha] at hm; cases hm), fun _ h => h, fun h => h, fun h => ⟨?_, h.chip, h.val, h.serial⟩⟩
        intro m hm
        cases hm
        have hl : x.length = n.toNat := by rw [h2, List.length_take]; omega
        have := n.toNat_lt
        have : n.toNat ≠ 0 := fun h => hn (UInt8.toNat_inj.mp h)
        omega
  · split
    · exact hb
    split
    · trivial
    · exact hb
    split
    · rename_i hc
      exact ⟨hb.att, fun c h => (nomatch hc.symm.trans (hb.chain c h)), hb.zero, fun i => ⟨(hb.inv i).att, (hb.inv i).chip, (hb.inv i).val, (hb.inv i).serial⟩⟩
    · split
      · trivial
      split
      · exact hb
      · exact hb

theorem setAttestation_step (a : Axis) (att : Option Bytes) (n : UInt8) (chain : Option Bytes) :
    (a.setAttestation att n chain).Ends (a.Step ·) := by
  have r := Axis.Step.refl a
  unfold setAttestation
  split
  · exact r
  split
  · exact r
  rename_i h2
  dsimp only
  refine Res.Ends.andThen' (P := (a.Step ·)) ?_ fun b _ _ hb => ?_
  · split
    · exact r
    · rename_i m0
      split
      · exact r
      · rename_i ha
        have ha : a.attestation = none := Classical.byContradiction ha
        split
        · trivial
        · exact r
        · rename_i x y e
          obtain ⟨h3, h4, _⟩ := rdN_ok e
          refine ⟨fun m hm => (by rw [ha] at hm; cases hm), fun _ h => h, fun h => h, fun h => ⟨?_, h.chip, h.val, h.serial⟩⟩
          intro m hm
          cases hm
          have hl : x.length = n.toNat := by rw [h4, List.length_take]; omega
          have := n.toNat_lt
          have : n.toNat ≠ 0 := fun h => h2 (Or.inl ⟨by simp, UInt8.toNat_inj.mp h⟩)
          omega
  · split
    · exact hb
    split
    · exact hb
    · rename_i hc
      have hc : b.chain = none := Classical.byContradiction hc
      split
      · exact r
      · exact ⟨hb.att, fun c h => (nomatch hc.symm.trans (hb.chain c h)), hb.zero, fun i => ⟨(hb.inv i).att, (hb.inv i).chip, (hb.inv i).val, (hb.inv i).serial⟩⟩

end Axis

/-! ### Histories -/

namespace AxSession

theorem decProduct_ax (s : AxSession) (mem : Bytes) (size : Nat) :
    (s.decProduct mem size).Ends fun t => t.ax = s.ax ∧ t.addr = s.addr ∧ t.brk = s.brk ∧ t.v.key = s.v.key := by
  unfold decProduct
  split
  · trivial
  · exact ⟨rfl, rfl, rfl, rfl⟩
  split
  · exact ⟨rfl, rfl, rfl, rfl⟩
  dsimp only
  split
  · trivial
  · exact ⟨rfl, rfl, rfl, rfl⟩
  · split <;> exact ⟨rfl, rfl, rfl, rfl⟩

theorem event_step {env : AxEnv} (hv : env.VerifyOk) (s : AxSession) (e : AxEvent) : (s.event env e).Ends fun t => s.ax.Step t.ax := by
  have r := Axis.Step.refl s.ax
  cases e with
  | newSei => exact r
  | value t mem size =>
    unfold event decTag
    dsimp only
    split
    · unfold decPublicKey
      split
      · trivial
      · exact r
      · dsimp only
        split
        · have h := fun k c => Axis.setKey_step env s.ax s.brk k c
          split
          · trivial
          · rename_i e; exact (Res.Ends.of_err (P := (s.ax.Step ·)) (h _ _) e : s.ax.Step _)
          · rename_i e; exact (Res.Ends.of_ok (P := (s.ax.Step ·)) (h _ _) e : s.ax.Step _)
        · exact r
    split
    · exact (decProduct_ax s mem size).mono fun t h => by rw [h.1]; exact r
    split
    · have h := Axis.decode_step s.ax mem size
      split
      · trivial
      · rename_i e; rw [e] at h; exact h
      · rename_i e; rw [e] at h; exact h
    · split
      · trivial
      · exact r
      · exact r
  | userKey k =>
    unfold event userKey
    dsimp only
    split
    · trivial
    · exact r
    · exact r
  | attestation m n c =>
    unfold event
    dsimp only
    have h := Axis.setAttestation_step s.ax m n c
    split
    · trivial
    · rename_i e; rw [e] at h; exact h
    · rename_i e; rw [e] at h; exact h
  | check =>
    unfold event check
    dsimp only
    split
    · exact r
    · have h := Axis.supplemental_step hv s.ax s.live
      split
      · trivial
      · rename_i e; rw [e] at h; exact h
      · rename_i e; rw [e] at h
        split
        · trivial
        · exact h
  | clear => exact r

theorem run_step {env : AxEnv} (hv : env.VerifyOk) (es : List AxEvent) : ∀ (s t : AxSession) (os : List (Option Rc)),
    s.run env es = .ok (t, os) → s.ax.Step t.ax := by
  induction es with
  | nil => intro s t os h; cases h; exact Axis.Step.refl _
  | cons e es ih =>
    intro s t os h
    have he := event_step hv s e
    unfold run at h
    split at h
    · cases h
    · rename_i s1 rc e1
      rw [e1] at he
      obtain ⟨⟨t', os'⟩, h1, h2⟩ := Out.bind_eq_ok h
      cases h2
      exact Axis.Step.trans he (ih _ _ _ h1)
    · rename_i s1 rc e1
      rw [e1] at he
      obtain ⟨⟨t', os'⟩, h1, h2⟩ := Out.bind_eq_ok h
      cases h2
      exact Axis.Step.trans he (ih _ _ _ h1)

end AxSession

/-- **C52 (2).** An attestation and a certificate chain that are stored stay the same in every further history of the
session. -/
theorem C52_never_replaced {env : AxEnv} (hv : env.VerifyOk) (es : List AxEvent) (s t : AxSession) (os : List (Option Rc))
    (h : s.run env es = .ok (t, os)) :
    (∀ m, s.ax.attestation = some m → t.ax.attestation = some m) ∧ (∀ c, s.ax.chain = some c → t.ax.chain = some c) :=
  ⟨(AxSession.run_step hv es s t os h).att, (AxSession.run_step hv es s t os h).chain⟩

theorem Axis.inv_new : ({} : Axis).Inv :=
  ⟨fun m h => (nomatch h), rfl, Or.inl rfl, by decide⟩

/-- **C52 (3).** A record is accepted only if it consists of the version, an attestation with its size and certificates,
filling the value exactly.  The attestation is the stored one afterwards, and the certificates are the stored ones or,
if there were some before, a beginning of them. -/
theorem C52_record (a a' : Axis) (mem : Bytes) (size : Nat) (h : a.decode mem size = .ok a' ()) :
    ∃ att chain rest stored, mem = axisRecord att chain ++ rest ∧ size = (axisRecord att chain).length ∧
      0 < att.length ∧ att.length < 256 ∧ chain ≠ [] ∧ a' = { a with attestation := some att, chain := some stored } ∧
      (∀ m, a.attestation = some m → att = m) ∧ (a.chain = none → stored = chain) ∧
      ∀ c, a.chain = some c → stored = c ∧ chain <+: c ++ [0] := by
  unfold Axis.decode at h
  cases mem with
  | nil => cases h
  | cons v m =>
  dsimp only [rd8] at h
  by_cases hv : v ≠ 1
  · rw [if_pos hv] at h; cases h
  rw [if_neg hv] at h
  have hv : v = 1 := Classical.byContradiction hv
  cases m with
  | nil => cases h
  | cons n m =>
  dsimp only at h
  by_cases hn : n = 0
  · rw [if_pos hn] at h; cases h
  rw [if_neg hn] at h
  obtain ⟨b, u, h1, h2⟩ := Res.andThen_eq_ok h
  have hb : n.toNat ≤ m.length ∧ b = { a with attestation := some (m.take n.toNat) } ∧ ∀ x, a.attestation = some x → m.take n.toNat = x := by
    split at h1
    · rename_i x hx
      by_cases hl : x.length ≠ n.toNat
      · rw [if_pos hl] at h1; cases h1
      rw [if_neg hl] at h1
      split at h1
      · cases h1
      · cases h1
      · rename_i y z e
        obtain ⟨k1, k2, _⟩ := Axis.rdN_ok e
        split at h1
        · rename_i exy
          cases h1
          refine ⟨k1, ?_, ?_⟩
          · rw [← k2, exy, ← hx]
          · intro x' hx'; rw [hx] at hx'; cases hx'; rw [← k2, exy]
        · cases h1
    · rename_i hx
      split at h1
      · cases h1
      · cases h1
      · rename_i y z e
        obtain ⟨k1, k2, _⟩ := Axis.rdN_ok e
        cases h1
        exact ⟨k1, by rw [k2], fun x hx' => (nomatch hx.symm.trans hx')⟩
  obtain ⟨k1, rfl, k3⟩ := hb
  by_cases hs : size ≤ n.toNat + 2
  · rw [if_pos hs] at h2; cases h2
  rw [if_neg hs] at h2
  have hn0 : n.toNat ≠ 0 := fun h => hn (UInt8.toNat_inj.mp h)
  have hn1 := n.toNat_lt
  have hl : (m.take n.toNat).length = n.toNat := by rw [List.length_take]; omega
  split at h2
  · cases h2
  · cases h2
  rename_i c z e
  obtain ⟨j1, j2, _⟩ := Axis.rdN_ok e
  have hcl : c.length = size - n.toNat - 2 := by rw [j2, List.length_take]; omega
  have hmem : v :: n :: m = axisRecord (m.take n.toNat) c ++ (m.drop n.toNat).drop (size - n.toNat - 2) := by
    unfold axisRecord
    rw [hl, UInt8.ofNat_toNat, hv, j2]
    simp only [List.cons_append, List.append_assoc, List.take_append_drop]
  have hsize : size = (axisRecord (m.take n.toNat) c).length := by
    unfold axisRecord
    simp only [List.length_cons, List.length_append, hl, hcl]; omega
  have hne : c ≠ [] := fun h => by rw [h, List.length_nil] at hcl; omega
  split at h2
  · rename_i hc
    cases h2
    exact ⟨_, c, _, c, hmem, hsize, by omega, by omega, hne, rfl, fun x hx => k3 x hx, fun _ => rfl, fun c' hc' => (nomatch hc.symm.trans hc')⟩
  · rename_i d hd
    split at h2
    · cases h2
    split at h2
    · rename_i hle heq
      cases h2
      refine ⟨_, c, _, d, hmem, hsize, by omega, by omega, hne, ?_, fun x hx => k3 x hx, fun hc => (nomatch hc.symm.trans hd), fun c' hc' => ?_⟩
      · rw [← hd]
      · have : c' = d := Option.some.inj (hc'.symm.trans hd)
        rw [this]
        exact ⟨rfl, ⟨(d ++ [0]).drop c.length, by conv => rhs; rw [← List.take_append_drop c.length (d ++ [0]), heq]⟩⟩
    · cases h2

/-! ### Searching -/

theorem strstr_some {p : Bytes} : ∀ {h q : Bytes}, strstr p h = some q → p <+: q ∧ q <:+ h := by
  intro h
  induction h with
  | nil =>
    intro q e
    unfold strstr at e
    split at e
    · cases e; rename_i hp; rw [hp]; exact ⟨List.prefix_refl _, List.suffix_refl _⟩
    · cases e
  | cons b r ih =>
    intro q e
    unfold strstr at e
    split at e
    · rename_i hp; cases e; exact ⟨List.isPrefixOf_iff_prefix.mp hp, List.suffix_refl _⟩
    · obtain ⟨h1, h2⟩ := ih e
      exact ⟨h1, h2.trans (List.suffix_cons _ _)⟩

/-- The first occurrence. -/
theorem strstr_first {p : Bytes} : ∀ (u q : Bytes), p <+: q → (∀ v, v ++ p <+: u ++ q → u.length ≤ v.length) → p ≠ [] →
    strstr p (u ++ q) = some q := by
  intro u
  induction u with
  | nil =>
    intro q hp _ hne
    cases q with
    | nil => exact absurd (List.prefix_nil.mp hp) hne
    | cons b r =>
      show strstr p (b :: r) = _
      unfold strstr
      rw [if_pos (List.isPrefixOf_iff_prefix.mpr hp)]
  | cons x u ih =>
    intro q hp hf hne
    show strstr p (x :: (u ++ q)) = _
    unfold strstr
    rw [if_neg]
    · refine ih q hp (fun v hv => ?_) hne
      have := hf (x :: v) (by
        obtain ⟨w, hw⟩ := hv
        exact ⟨w, by simp only [List.cons_append, hw]⟩)
      simpa using this
    · intro h
      have := hf [] (List.isPrefixOf_iff_prefix.mp h)
      simp at this

theorem cstr_eq {b : Bytes} (h : 0 ∉ b) : cstr b = b := by
  unfold cstr
  induction b with
  | nil => rfl
  | cons x r ih =>
    rw [List.takeWhile_cons_of_pos (by simpa using fun e : x = 0 => h (by rw [e]; exact List.mem_cons_self)), ih fun e => h (List.mem_cons_of_mem _ e)]

/-- The marker that begins a certificate in the PEM format. -/
def Spec.certStart : Bytes := "-----BEGIN CERTIFICATE-----".toList.map fun c => UInt8.ofNat c.toNat

theorem certStart_eq : Spec.certStart = beginCert := by decide

/-- A chain of three certificates in the PEM format, as a device has it: each begins with the marker, the marker begins
nowhere else before the end of the second one, and the chain has no NUL. -/
structure Spec.PemChain (c1 c2 c3 : Bytes) : Prop where
  first : Spec.certStart <+: c1
  second : Spec.certStart <+: c2
  third : Spec.certStart <+: c3
  nul : 0 ∉ c1 ++ c2 ++ c3
  only : ∀ u, u ++ Spec.certStart <+: c1 ++ c2 ++ c3 → u.length < (c1 ++ c2).length → u = [] ∨ u = c1

theorem untrustedSize_eq {c1 c2 c3 : Bytes} (h : Spec.PemChain c1 c2 c3) :
    Axis.untrustedSize (c1 ++ c2 ++ c3) = (c1 ++ c2).length := by
  obtain ⟨h1, h2, h3, h4, h5⟩ := h
  rw [certStart_eq] at h1 h2 h3
  simp only [certStart_eq] at h5
  have hne : beginCert ≠ [] := by decide
  have l1 : 0 < c1.length := Nat.lt_of_lt_of_le (by decide) h1.length_le
  have l2 : 0 < c2.length := Nat.lt_of_lt_of_le (by decide) h2.length_le
  match c1, l1 with
  | x1 :: r1, _ =>
  match c2, l2 with
  | x2 :: r2, _ =>
  unfold Axis.untrustedSize
  rw [cstr_eq h4]
  have e1 : strstr beginCert (x1 :: r1 ++ x2 :: r2 ++ c3) = some (x1 :: r1 ++ x2 :: r2 ++ c3) :=
    strstr_first [] _ (h1.trans ⟨x2 :: r2 ++ c3, by simp⟩) (fun v _ => Nat.zero_le _) hne
  have e2 : strstr beginCert (r1 ++ (x2 :: r2 ++ c3)) = some (x2 :: r2 ++ c3) := by
    refine strstr_first r1 _ (h2.trans (List.prefix_append _ _)) (fun v hv => Nat.le_of_not_lt fun hlt => ?_) hne
    have := h5 (x1 :: v) (by
      obtain ⟨w, hw⟩ := hv
      exact ⟨w, by simp only [List.cons_append, hw, List.append_assoc]⟩) (by simp; omega)
    rcases this with e | e
    · cases e
    · have := congrArg List.length e; simp at this; omega
  have e3 : strstr beginCert (r2 ++ c3) = some c3 := by
    refine strstr_first r2 _ h3 (fun v hv => Nat.le_of_not_lt fun hlt => ?_) hne
    have := h5 (x1 :: r1 ++ x2 :: v) (by
      obtain ⟨w, hw⟩ := hv
      exact ⟨w, by simp only [List.cons_append, hw, List.append_assoc]⟩) (by simp; omega)
    rcases this with e | e
    · cases e
    · have := congrArg List.length e; simp at this
  have : Axis.findCert 3 (x1 :: r1 ++ x2 :: r2 ++ c3) = some c3 := by
    show (match strstr beginCert (x1 :: r1 ++ x2 :: r2 ++ c3) with | none => none | some q => Axis.findCert 2 (q.drop 1)) = _
    rw [e1]
    show (match strstr beginCert ((x1 :: r1 ++ x2 :: r2 ++ c3).drop 1) with | none => none | some q => Axis.findCert 1 (q.drop 1)) = _
    rw [show (x1 :: r1 ++ x2 :: r2 ++ c3).drop 1 = r1 ++ (x2 :: r2 ++ c3) by simp, e2]
    exact e3
  rw [this]
  simp only [List.length_append]
  omega

/-- **C52 (4).** What a device encodes with a chain of three certificates is decoded by a new session to the attestation and
to the two certificates other than the root. -/
theorem C52_roundtrip (a : Axis) (att c1 c2 c3 rest : Bytes) (ha : a.attestation = some att) (hl : 0 < att.length ∧ att.length < 256)
    (hc : a.chain = some (c1 ++ c2 ++ c3)) (hp : Spec.PemChain c1 c2 c3) :
    Axis.decode {} (a.encode ++ rest) a.encode.length = .ok { attestation := some att, chain := some (c1 ++ c2) } () := by
  have he : a.encode = axisRecord att (c1 ++ c2) := by
    unfold Axis.encode
    rw [ha, hc]
    dsimp only
    rw [untrustedSize_eq hp, List.take_append_of_le_length (Nat.le_refl _), List.take_length]
    rfl
  have hlen : (axisRecord att (c1 ++ c2)).length = att.length + (c1 ++ c2).length + 2 := by
    unfold axisRecord; simp only [List.length_cons, List.length_append]
  have hpos : 0 < (c1 ++ c2).length := by
    have : 0 < c1.length := Nat.lt_of_lt_of_le (by decide) hp.first.length_le
    rw [List.length_append]; omega
  rw [he, hlen]
  have hn : (UInt8.ofNat att.length).toNat = att.length := u8_toNat _ hl.2
  unfold Axis.decode axisRecord
  generalize c1 ++ c2 = c at *
  dsimp only [List.cons_append, rd8]
  rw [if_neg (by decide), if_neg (fun h => by rw [h] at hn; simp at hn; omega), hn]
  have e1 : rdN att.length (att ++ c ++ rest) = .ok (att, c ++ rest) := by
    unfold rdN
    rw [if_pos (by simp), List.append_assoc, List.take_append_of_le_length (Nat.le_refl _), List.take_length,
      List.drop_append_of_le_length (Nat.le_refl _), List.drop_length, List.nil_append]
  have e2 : rdN (att.length + c.length + 2 - att.length - 2) ((att ++ c ++ rest).drop att.length) = .ok (c, rest) := by
    rw [show att.length + c.length + 2 - att.length - 2 = c.length by omega, List.append_assoc,
      List.drop_append_of_le_length (Nat.le_refl _), List.drop_length, List.nil_append]
    unfold rdN
    rw [if_pos (by simp), List.take_append_of_le_length (Nat.le_refl _), List.take_length,
      List.drop_append_of_le_length (Nat.le_refl _), List.drop_length, List.nil_append]
  rw [e1]
  dsimp only [Res.andThen_ok]
  rw [if_neg (by omega), e2]

/-- **C52 does not hold for a shorter chain.** If the certificate chain of the device has fewer than three certificates,
for example because the root has been left out, the record is written without any certificate, and no session accepts
it. -/
theorem C52_short_chain_false (a : Axis) (att c rest : Bytes) (ha : a.attestation = some att) (hl : 0 < att.length ∧ att.length < 256)
    (hc : a.chain = some c) (hp : Axis.findCert 3 (cstr c) = none) (b b' : Axis) :
    a.encode ≠ [] ∧ b.decode (a.encode ++ rest) a.encode.length ≠ .ok b' () := by
  have he : a.encode = axisRecord att [] := by
    unfold Axis.encode
    rw [ha, hc]
    dsimp only
    unfold Axis.untrustedSize
    rw [hp]
    rfl
  refine ⟨by rw [he]; simp [axisRecord], fun h => ?_⟩
  obtain ⟨att', c', rest', stored, h1, h2, h3, h4, h5, -⟩ := C52_record b b' _ _ h
  rw [he] at h1 h2
  have k1 : UInt8.ofNat att.length = UInt8.ofNat att'.length := by
    unfold axisRecord at h1
    exact (List.cons.inj (List.cons.inj h1).2).1
  have k2 := congrArg UInt8.toNat k1
  rw [u8_toNat _ hl.2, u8_toNat _ h4] at k2
  unfold axisRecord at h2
  simp only [List.length_cons, List.length_append, List.length_nil] at h2
  exact h5 (List.length_eq_zero_iff.mp (by omega))

/-! ### The verdict about the key -/

theorem attested_eq (env : AxEnv) (point chip ts : Bytes) (h1 : point.length = 65) (h2 : chip.length = 18) (h3 : ts.length = 12) :
    Axis.signedData env point chip ts = attested env point chip ts := by
  unfold Axis.signedData attested field
  rw [h1, h2, h3]
  simp only [List.append_assoc, List.cons_append, List.nil_append]
  rfl

theorem readChain_ok {env : AxEnv} {a a' : Axis} {chain k : Bytes} (h : a.readChain env chain = .ok a' k) :
    ∃ c rest name chip serial, env.pem (cstr chain) = c :: rest ∧ rest.length ≤ 1 ∧ env.chainOk (c :: rest) = true ∧
      c.ec = true ∧ c.key = some k ∧ c.name = some name ∧ edgeVault <:+: name ∧ c.serial.map cstr = some serial ∧
      chip.length = 18 ∧ chip.take 4 = [0x04, 0x00, 0x50, 0x01] ∧ a' = { a with chip := chip, serial := serial } := by
  unfold Axis.readChain at h
  dsimp only at h
  by_cases h1 : (List.take 3 (env.pem (cstr chain))).length > 2
  · rw [if_pos h1] at h; cases h
  rw [if_neg h1] at h
  have ht : List.take 3 (env.pem (cstr chain)) = env.pem (cstr chain) := by
    rw [List.length_take] at h1
    exact List.take_of_length_le (by omega)
  rw [ht] at h h1
  by_cases h2 : (!env.chainOk (env.pem (cstr chain))) = true
  · rw [if_pos h2] at h; cases h
  rw [if_neg h2] at h
  split at h
  · cases h
  rename_i c rest hc
  rw [hc] at h1 h2
  split at h
  · cases h
  rename_i cn hcn
  split at h
  · cases h
  split at h
  · cases h
  rename_i p hp
  split at h
  · cases h
  split at h
  · cases h
  rename_i hchip
  split at h
  · cases h
  rename_i sn hsn
  split at h
  · cases h
  split at h
  · cases h
  split at h
  · cases h
  rename_i k' hk
  split at h
  · rename_i hec
    cases h
    obtain ⟨i1, i2⟩ := strstr_some hp
    have : edgeVault <:+: cn := by
      have j1 : edgeVault <:+: cstr cn := i1.isInfix.trans i2.isInfix
      exact j1.trans (List.takeWhile_prefix _).isInfix
    refine ⟨c, rest, cn, _, cstr sn, hc, ?_, ?_, hec, hk, hcn, this, ?_, Axis.scanChip_length env _ _, Classical.byContradiction hchip, rfl⟩
    · simp only [List.length_cons] at h1; omega
    · simpa using h2
    · rw [hsn]; rfl
  · cases h

/-- **C53 (1).** In every state that a session can reach, a check that gives OK has verified everything: the chain and the
attestation stored, with the serial number of the product information, prove the key that is in use. -/
theorem C53_ok {env : AxEnv} (hv : env.VerifyOk) (c : Codec) (es : List AxEvent) (s t : AxSession) (os : List (Option Rc))
    (hr : AxSession.run env { v := newValidator env.auth c } es = .ok (s, os)) (hax : s.isAxis = true)
    (h : s.event env .check = .ok t ()) (ho : t.verdict = .ok) :
    ∃ chain att serial key, t.ax.chain = some chain ∧ t.ax.attestation = some att ∧ t.v.d.product.serialNumber = some serial ∧
      t.v.key = some key ∧ KeyProven env chain att serial key := by
  have hi : s.ax.Inv := (AxSession.run_step hv es _ _ _ hr).inv Axis.inv_new
  unfold AxSession.event AxSession.check at h
  dsimp only at h
  rw [hax] at h
  simp only [Bool.not_true, Bool.false_eq_true, if_false] at h
  split at h
  · cases h
  · cases h
  rename_i b _ hs
  split at h
  · cases h
  rename_i sn hsn
  cases h
  have hver : (if sn ≠ b.serial then KeyVal.notOk else if b.validation = 1 then .ok else if b.validation = 0 then .notOk else .notFeasible) = .ok := ho
  split at hver
  · cases hver
  rename_i hserial
  have hserial : sn = b.serial := Classical.byContradiction hserial
  split at hver
  · rename_i hval
    unfold Axis.supplemental at hs
    split at hs
    · cases hs
      exact absurd (show (0 : Int32) = 1 from hval) (by decide)
    · obtain ⟨a1, _, e1, hs⟩ := Res.andThen_eq_ok hs
      obtain ⟨a2, _, e2, e3⟩ := Res.andThen_eq_ok hs
      unfold Axis.verifyChain at e1
      split at e1
      · cases e1
      rename_i chain hchain
      split at e1
      · rename_i a0 ak e0
        cases e1
        obtain ⟨crt, rest, name, chip, serial, p1, p2, p3, p4, p5, p6, p7, p8, p9, p10, rfl⟩ := readChain_ok e0
        cases hatt : s.ax.attestation with
        | none => unfold Axis.deserialize at e2; dsimp only at e2; rw [hatt] at e2; cases e2
        | some att =>
          have hpe := fun ha => (C52_parsed_exactly _ _ att ha (hi.att att hatt).2).mp e2
          obtain ⟨r, r1, r2, rfl⟩ := hpe hatt
          unfold Axis.verifyKey at e3
          dsimp only at e3
          split at e3
          · cases e3
          rename_i p _
          split at e3
          · cases e3
          rename_i q key hlive
          by_cases hpq : p ≠ q
          · rw [if_pos hpq] at e3; cases e3
          rw [if_neg hpq] at e3
          by_cases hpt : (env.keyPoint key).length ≠ 65
          · rw [if_pos hpt] at e3; cases e3
          rw [if_neg hpt] at e3
          by_cases hhd : (env.keyPoint key).head? ≠ some 4
          · rw [if_pos hhd] at e3; cases e3
          rw [if_neg hhd] at e3
          have hpt := Classical.byContradiction hpt
          have hhd := Classical.byContradiction hhd
          split at e3
          · cases e3
          rename_i hlt
          cases e3
          dsimp only at hval hserial
          have hone : env.verify ak r.signature (Axis.signedData env (env.keyPoint key) chip r.timestamp) = 1 := by
            rcases int32_01 _ hlt (hv _ _ _) with e | e
            · rw [e] at hval
              rcases hi.val with v | v | v <;> rw [v] at hval <;> exact absurd hval (by decide)
            · exact e
          rw [attested_eq env _ _ _ hpt p9 r1.timestamp] at hone
          have hkey : s.v.key = some key := by
            unfold AxSession.live at hlive
            cases hk : s.v.key with
            | none => rw [hk] at hlive; cases hlive
            | some k => rw [hk] at hlive; cases hlive; rfl
          refine ⟨chain, att, sn, key, hchain, hatt, hsn, hkey, ?_⟩
          exact ⟨crt, rest, ak, name, r, chip, p1, p2, p3, p4, p5, p6, p7, by rw [hserial]; exact p8, r1, r2, p9, p10, hpt, hhd, hone⟩
      · cases e1
      · cases e1
  · split at hver <;> cases hver

/-- **C53 (2).** Once the vendor has found the key to be invalid, no later check gives OK. -/
theorem C53_never_recovers {env : AxEnv} (hv : env.VerifyOk) (es : List AxEvent) (s t u : AxSession) (os : List (Option Rc))
    (h0 : s.ax.validation = 0) (hr : s.run env es = .ok (t, os)) (hax : t.isAxis = true) (h : t.event env .check = .ok u ()) :
    u.verdict = .notOk := by
  have h1 : t.ax.validation = 0 := (AxSession.run_step hv es _ _ _ hr).zero h0
  unfold AxSession.event AxSession.check at h
  dsimp only at h
  rw [hax] at h
  simp only [Bool.not_true, Bool.false_eq_true, if_false] at h
  split at h
  · cases h
  · cases h
  rename_i b _ e
  have h2 : b.validation = 0 := ((Axis.supplemental_step hv t.ax t.live).of_ok (P := (t.ax.Step ·)) e).zero h1
  split at h
  · cases h
  cases h
  show (if _ then KeyVal.notOk else if _ then .ok else if _ then .notOk else .notFeasible) = .notOk
  split
  · rfl
  · rw [h2]; rfl

/-- **C53 (3).** If a SEI brings another key while the vendor has one, the key is invalid from then on. -/
theorem C53_changed_key {env : AxEnv} (s t : AxSession) (mem : Bytes) (size : Nat) (hp : s.ax.pub.isSome = true)
    (h : s.event env (.value tagPublicKey mem size) = .ok t ()) (hax : t.isAxis = true) (hc : t.v.rep.latest.keyChanged = true) :
    t.ax.validation = 0 := by
  unfold AxSession.event AxSession.decTag at h
  dsimp only at h
  rw [if_pos rfl] at h
  unfold AxSession.decPublicKey at h
  split at h
  · cases h
  · cases h
  rename_i v _ _
  dsimp only at h
  split at h
  · split at h
    · cases h
    · cases h
    · rename_i a _ e
      cases h
      dsimp only at hc ⊢
      unfold Axis.setKey at e
      split at e
      · rename_i h0; cases e; exact h0
      · rw [hc, hp] at e
        simp only [Bool.and_self, if_true] at e
        split at e
        · cases e; rfl
        · split at e
          · cases e
          · split at e
            · cases e; rfl
            · cases e
  · rename_i hn
    cases h
    exact absurd hax hn

/-! ### A concrete device -/

/-- A hexadecimal digit. -/
def hexDigit (b : UInt8) : Option UInt8 :=
  if 48 ≤ b ∧ b ≤ 57 then some (b - 48) else if 97 ≤ b ∧ b ≤ 102 then some (b - 87) else none

/-- Certificates are not parsed but are given; the key of the device is `[1]`, which is the only one attested. -/
def axDemo : AxEnv :=
  { auth := toyEnv
    pem := fun c => if c = [45] then [⟨some (chipMarker ++ [48, 52, 48, 48, 53, 48, 48, 49] ++ List.replicate 28 48), some [65, 66], some [7], true⟩] else []
    chainOk := fun l => l.length = 1
    scan := fun b => match b with
      | x :: y :: _ => match hexDigit x, hexDigit y with | some x, some y => some (x * 16 + y) | _, _ => none
      | _ => none
    sha256 := fun _ => List.replicate 32 0
    verify := fun _ sig data => if sig = [9] ∧ data.getD 40 0 = 1 then 1 else 0
    keyEc := fun _ => true
    keyGroup := fun _ => some p256Name
    keyPoint := fun k => 4 :: List.replicate 64 (k.headD 0) }

theorem axDemo_verify : axDemo.VerifyOk := by
  intro k s d
  show (if _ then (1 : Int32) else 0) ≤ 1
  split <;> decide

/-- Product information with a serial number and the manufacturer Axis. -/
def demoProduct (serial : Bytes) : AxEvent :=
  let v := [1, 1, 0, 1, 0, UInt8.ofNat (serial.length + 1)] ++ serial ++ [0, 23] ++ axisName ++ [0, 1, 0]
  .value tagProductInfo v v.length

def demoKey (k : Bytes) : AxEvent := .value tagPublicKey (2 :: k) (k.length + 1)

def demoAtt : Bytes := attBytes { listLength := 1, signature := [9] }

def demoRecord : AxEvent := .value tagAxis (axisRecord demoAtt [45]) (axisRecord demoAtt [45]).length

/-- The verdict and the error codes of a history. -/
def demoRun (es : List AxEvent) : Option (KeyVal × List (Option Rc)) :=
  match AxSession.run axDemo { v := newValidator toyEnv .h264 } es with
  | .ok (s, os) => some (s.verdict, os)
  | _ => none

/-- The hypotheses of `C53_ok` are met by a stream of the device. -/
example : demoRun [.newSei, demoProduct [65, 66], demoKey [1], demoRecord, .check] =
    some (.ok, [none, none, none, none, none]) := by decide +kernel

/-- The attested key, but another serial number. -/
example : demoRun [.newSei, demoProduct [65, 67], demoKey [1], demoRecord, .check] =
    some (.notOk, [none, none, none, none, none]) := by decide +kernel

/-- Another key. -/
example : demoRun [.newSei, demoProduct [65, 66], demoKey [2], demoRecord, .check] =
    some (.notOk, [none, none, none, none, none]) := by decide +kernel

/-- The attestation report of the device can be parsed. -/
example : ∃ a, Axis.deserialize { attestation := some demoAtt } = .ok a () :=
  ⟨_, (C52_parsed_exactly { attestation := some demoAtt } _ demoAtt rfl (by decide)).mpr
    ⟨_, ⟨rfl, rfl, rfl, rfl, rfl, by decide, by decide⟩, rfl, rfl⟩⟩

/-- Three certificates. -/
example : Spec.PemChain (beginCert ++ [65]) (beginCert ++ [66]) (beginCert ++ [67]) := by
  have := certStart_eq
  refine ⟨List.prefix_append _ _, List.prefix_append _ _, List.prefix_append _ _, by decide, ?_⟩
  have key : ∀ n, n < 56 → beginCert <+: ((beginCert ++ [65]) ++ (beginCert ++ [66]) ++ (beginCert ++ [67])).drop n → n = 0 ∨ n = 28 := by
    decide
  intro u hu hl
  have hp : u <+: (beginCert ++ [65]) ++ (beginCert ++ [66]) ++ (beginCert ++ [67]) := (List.prefix_append _ _).trans hu
  have hd := key u.length hl (by
    obtain ⟨w, hw⟩ := hu
    rw [← hw, List.append_assoc, List.drop_append_of_le_length (Nat.le_refl _), List.drop_length, List.nil_append]
    exact List.prefix_append _ _)
  rcases hd with e | e
  · left; exact List.length_eq_zero_iff.mp e
  · right
    rw [List.prefix_iff_eq_take.mp hp, e]
    decide

/-- **C55 does not hold (1): a freed key is used.** The vendor keeps the address of the key context of the session.  A new
context is made for every key received, and the old one is freed, but the vendor does not take the new address once it has
found the key to be invalid.  So the second SEI of a stream with a valid attestation of another device makes the check
read freed memory. -/
theorem C55_invalid_key_false :
    AxSession.run axDemo { v := newValidator toyEnv .h264 }
      [.newSei, demoProduct [65, 66], demoKey [2], demoRecord, .check, .newSei, demoProduct [65, 66], demoKey [2], demoRecord, .check] =
    .ub .useAfterFree := by decide +kernel

/-- Product information of another manufacturer. -/
def demoOther : AxEvent := .value tagProductInfo [1, 1, 0, 1, 0, 1, 0, 1, 0, 1, 0] 11

/-- **C55 does not hold (2).** The vendor is not told of a new key either while the product information names another
manufacturer. -/
theorem C55_other_manufacturer_false :
    AxSession.run axDemo { v := newValidator toyEnv .h264 }
      [.newSei, demoProduct [65, 66], demoKey [1], demoRecord, .check, .newSei, demoOther, demoKey [1], .check, .newSei,
        demoProduct [65, 66], .check] = .ub .useAfterFree := by decide +kernel

/-- The vendor has no key or the live one. -/
def AxSession.Live (s : AxSession) : Prop := ∀ p, s.ax.pub = some p → ∃ k, s.live = some (p, k)

/-- The event is harmless for the address that the vendor has: a new key is given to the vendor. -/
def AxSession.Told (s : AxSession) : AxEvent → Prop
  | .value t _ _ => t = tagPublicKey → s.isAxis = true ∧ s.ax.validation ≠ 0
  | .userKey _ => s.ax.pub = none
  | _ => True

namespace AxSession

theorem decPublicKey_product {env : CryptoEnv} {d d' : DecState} {mem : Bytes} {size : Nat}
    (h : SV.decPublicKey env d mem size = .ok d') : d'.product = d.product := by
  unfold SV.decPublicKey at h
  generalize (size + 65534) % 65536 = n1 at h
  generalize (size + 65535) % 65536 = n2 at h
  obtain ⟨⟨v, m⟩, _, h⟩ := Out.bind_eq_ok h
  dsimp only at h
  generalize (if v < 2 then n1 else n2) = n at h
  generalize (if v < 2 then skipN 1 m else m) = m1 at h
  generalize (if v < 2 then 2 else 1) = sk at h
  split at h
  · cases h
  split at h
  · cases h
  obtain ⟨⟨k, m'⟩, _, h⟩ := Out.bind_eq_ok h
  dsimp only at h
  split at h
  · cases h
  split at h
  · cases h; rfl
  · cases h

theorem v_decPublicKey {env : AuthEnv} {v : Validator} {mem : Bytes} {size : Nat} :
    match v.decPublicKey env mem size with
    | .ok v' _ => v'.key ≠ none ∧ v'.d.product = v.d.product
    | .err v' _ => v'.key = v.key
    | .ub _ => True := by
  unfold Validator.decPublicKey
  cases h : SV.decPublicKey { env.crypto with keyOk := fun _ => true } v.dec mem size with
  | ok d =>
    dsimp only
    have hp : d.product = v.dec.product := decPublicKey_product h
    cases hk : env.crypto.keyOk d.publicKey with
    | true => rw [if_pos rfl]; exact ⟨by simp, hp⟩
    | false => rw [if_neg (by decide)]; rfl
  | err e => rfl
  | ub u => trivial

theorem v_decTag_key {env : AuthEnv} {v : Validator} {t : UInt8} {mem : Bytes} {size : Nat} (ht : t ≠ tagPublicKey) :
    (v.decTag env t mem size).Ends fun v' => v'.key = v.key := by
  unfold Validator.decTag
  split
  · unfold Validator.decGeneral
    split
    · exact rfl
    · trivial
    · split
      · split
        · split <;> exact rfl
        · split <;> exact rfl
      · exact rfl
    · exact rfl
  split
  · unfold Validator.decCrypto
    split
    · split
      · split
        · exact rfl
        split
        · exact rfl
        split
        · dsimp only
          refine Res.Ends.andThen' (P := fun v' : Validator => v'.key = v.key) ?_ fun w _ _ hw => ?_
          · split
            · exact rfl
            · split <;> exact rfl
          · split <;> exact hw
        · exact rfl
        · trivial
      · exact rfl
      · trivial
    · exact rfl
    · trivial
  · split
    · exact rfl
    · obtain ⟨a, p, h⟩ := Validator.failed_eq v t mem
      rw [h]
      exact rfl
    · trivial

theorem Live.of_same {s t : AxSession} (h : s.Live) (h1 : t.ax.pub = s.ax.pub) (h2 : t.addr = s.addr) (h3 : t.v.key = s.v.key) :
    t.Live := by
  intro p hp
  rw [h1] at hp
  obtain ⟨k, hk⟩ := h p hp
  exact ⟨k, by unfold live at *; rw [h3, h2]; exact hk⟩

/-- The functions of the vendor other than `setKey` keep the address. -/
theorem readChain_pub (env : AxEnv) (a : Axis) (chain : Bytes) : (a.readChain env chain).Ends fun b => b.pub = a.pub := by
  unfold Axis.readChain
  dsimp only
  split
  · exact rfl
  split
  · exact rfl
  split
  · trivial
  split
  · exact rfl
  split
  · exact rfl
  split
  · exact rfl
  split
  · exact rfl
  split
  · exact rfl
  split
  · exact rfl
  split
  · exact rfl
  split
  · trivial
  split
  · exact rfl
  split
  · exact rfl
  · exact rfl

theorem supplemental_pub (env : AxEnv) (a : Axis) (live : Option (Nat × Bytes)) : (a.supplemental env live).Ends fun b => b.pub = a.pub := by
  have h : ((a.verifyChain env).andThen fun a _ => a.deserialize.andThen fun a _ => a.verifyKey env live).Ends fun b => b.pub = a.pub := by
    refine Res.Ends.andThen' (P := fun b : Axis => b.pub = a.pub) ?_ fun b _ _ h1 => ?_
    · unfold Axis.verifyChain
      split
      · exact rfl
      · rename_i c _
        have h := readChain_pub env a c
        split
        · rename_i e; rw [e] at h; exact h
        · rename_i e; rw [e] at h; exact h
        · trivial
    · refine Res.Ends.andThen' (P := fun b : Axis => b.pub = a.pub) ?_ fun c _ _ h2 => ?_
      · unfold Axis.deserialize
        split
        · exact h1
        split
        · exact h1
        split
        · exact h1
        dsimp only
        split
        · exact h1
        split
        · trivial
        · exact h1
      · unfold Axis.verifyKey
        split
        · exact h2
        split
        · exact h2
        split
        · trivial
        split
        · trivial
        split
        · exact h2
        split
        · exact h2
        dsimp only
        split
        · exact h2
        · exact h2
  unfold Axis.supplemental
  split
  · rename_i e; rw [e] at h; exact h
  · exact h

theorem decode_pub (a : Axis) (mem : Bytes) (size : Nat) : (a.decode mem size).Ends fun b => b.pub = a.pub := by
  unfold Axis.decode
  split
  · trivial
  · exact rfl
  split
  · exact rfl
  split
  · trivial
  · exact rfl
  split
  · exact rfl
  dsimp only
  refine Res.Ends.andThen' (P := fun b : Axis => b.pub = a.pub) ?_ fun b _ _ hb => ?_
  · split
    · split
      · exact rfl
      split
      · trivial
      · exact rfl
      split <;> exact rfl
    · split
      · trivial
      · exact rfl
      · exact rfl
  · split
    · exact hb
    split
    · trivial
    · exact hb
    split
    · exact hb
    · split
      · trivial
      split <;> exact hb

theorem setAttestation_pub (a : Axis) (att : Option Bytes) (n : UInt8) (chain : Option Bytes) :
    (a.setAttestation att n chain).Ends fun b => b.pub = a.pub := by
  unfold Axis.setAttestation
  split
  · exact rfl
  split
  · exact rfl
  dsimp only
  refine Res.Ends.andThen' (P := fun b : Axis => b.pub = a.pub) ?_ fun b _ _ hb => ?_
  · split
    · exact rfl
    · split
      · exact rfl
      split
      · trivial
      · exact rfl
      · exact rfl
  · split
    · exact hb
    split
    · exact hb
    split
    · exact rfl
    · exact hb

theorem event_live {env : AxEnv} (s : AxSession) (e : AxEvent) (hl : s.Live) (ht : s.Told e) : (s.event env e).Ends Live := by
  cases e with
  | newSei => exact hl.of_same rfl rfl rfl
  | clear => exact hl.of_same rfl rfl rfl
  | userKey k =>
    have ht : s.ax.pub = none := ht
    unfold event userKey
    dsimp only
    split
    · trivial
    · intro p hp; exact (nomatch ht.symm.trans hp)
    · intro p hp; exact (nomatch ht.symm.trans hp)
  | attestation m n c =>
    unfold event
    dsimp only
    have h := setAttestation_pub s.ax m n c
    split
    · trivial
    · rename_i e; rw [e] at h; exact hl.of_same h rfl rfl
    · rename_i e; rw [e] at h; exact hl.of_same h rfl rfl
  | check =>
    unfold event check
    dsimp only
    split
    · exact hl
    · have h := supplemental_pub env s.ax s.live
      split
      · trivial
      · rename_i e; rw [e] at h; exact hl.of_same h rfl rfl
      · rename_i e; rw [e] at h
        split
        · trivial
        · exact hl.of_same h rfl rfl
  | value t mem size =>
    have ht : t = tagPublicKey → s.isAxis = true ∧ s.ax.validation ≠ 0 := ht
    unfold event decTag
    dsimp only
    split
    · rename_i hk
      obtain ⟨hax, hval⟩ := ht hk
      unfold decPublicKey
      have hv := @v_decPublicKey env.auth s.v mem size
      split
      · trivial
      · rename_i e; rw [e] at hv; exact hl.of_same rfl rfl hv
      · rename_i v _ e
        rw [e] at hv
        dsimp only at hv ⊢
        have hlive : ∀ a : Axis, (a.pub = some s.brk ∨ a.pub = none) → Live { v := v, ax := a, addr := s.brk, brk := s.brk + 1 } := by
          intro a ha p hp
          have hp : a.pub = some p := hp
          rcases ha with ha | ha
          · rw [ha] at hp; cases hp
            cases hk : v.key with
            | none => exact absurd hk hv.1
            | some k => exact ⟨k, by unfold live; dsimp only; rw [hk]; rfl⟩
          · exact (nomatch ha.symm.trans hp)
        have hax' : isAxis { v := v, ax := s.ax, addr := s.brk, brk := s.brk + 1 } = true := by
          unfold isAxis at *; dsimp only; rw [hv.2]; exact hax
        rw [if_pos hax']
        have hset : (Axis.setKey env s.ax s.brk (v.key.getD []) v.rep.latest.keyChanged).Ends fun a => a.pub = some s.brk ∨ a.pub = none := by
          unfold Axis.setKey
          rw [if_neg hval]
          dsimp only
          split
          · exact Or.inl rfl
          split
          · exact Or.inr rfl
          split
          · exact Or.inl rfl
          · exact Or.inr rfl
        split
        · trivial
        · rename_i e2; rw [e2] at hset; exact hlive _ hset
        · rename_i e2; rw [e2] at hset; exact hlive _ hset
    · rename_i hk
      split
      · exact (decProduct_ax s mem size).mono fun t h => hl.of_same (by rw [h.1]) h.2.1 h.2.2.2
      split
      · have h := decode_pub s.ax mem size
        split
        · trivial
        · rename_i e; rw [e] at h; exact hl.of_same h rfl rfl
        · rename_i e; rw [e] at h; exact hl.of_same h rfl rfl
      · have h := @v_decTag_key env.auth s.v t mem size hk
        split
        · trivial
        · rename_i e; rw [e] at h; exact hl.of_same rfl rfl h
        · rename_i e; rw [e] at h; exact hl.of_same rfl rfl h

/-- A history in which the vendor is told of every new key. -/
def AllTold (env : AxEnv) : AxSession → List AxEvent → Prop
  | _, [] => True
  | s, e :: es => s.Told e ∧
    match s.event env e with
    | .ok t _ => AllTold env t es
    | .err t _ => AllTold env t es
    | .ub _ => True

theorem run_live {env : AxEnv} (es : List AxEvent) : ∀ (s t : AxSession) (os : List (Option Rc)), s.Live → s.AllTold env es →
    s.run env es = .ok (t, os) → t.Live := by
  induction es with
  | nil => intro s t os hl _ h; cases h; exact hl
  | cons e es ih =>
    intro s t os hl ha h
    have he := event_live (env := env) s e hl ha.1
    have ha2 := ha.2
    unfold run at h
    split at h
    · cases h
    · rename_i e1
      rw [e1] at he ha2
      obtain ⟨⟨t', os'⟩, h1, h2⟩ := Out.bind_eq_ok h
      cases h2
      exact ih _ _ _ he ha2 h1
    · rename_i e1
      rw [e1] at he ha2
      obtain ⟨⟨t', os'⟩, h1, h2⟩ := Out.bind_eq_ok h
      cases h2
      exact ih _ _ _ he ha2 h1

end AxSession

/-- **C55 as far as it holds.** If every new key is given to the vendor, the check never reads a freed key: that is the
case as long as the product information names Axis whenever a key arrives, the user sets a key only before that, and the
key has not been found invalid. -/
theorem C55_live_partial {env : AxEnv} (c : Codec) (es : List AxEvent) (s : AxSession) (os : List (Option Rc))
    (ha : AxSession.AllTold env { v := newValidator env.auth c } es)
    (hr : AxSession.run env { v := newValidator env.auth c } es = .ok (s, os)) : s.event env .check ≠ .ub .useAfterFree := by
  have hl : s.Live := AxSession.run_live es _ _ _ (fun p hp => nomatch (show (none : Option Nat) = some p from hp)) ha hr
  unfold AxSession.event AxSession.check
  dsimp only
  split
  · exact fun h => by cases h
  · have key : s.ax.supplemental env s.live ≠ .ub .useAfterFree := by
      unfold Axis.supplemental
      have key2 : ((s.ax.verifyChain env).andThen fun a _ => a.deserialize.andThen fun a _ => a.verifyKey env s.live) ≠ .ub .useAfterFree := by
        unfold Axis.verifyChain
        split
        · exact fun h => by cases h
        rename_i chain _
        have hp := AxSession.readChain_pub env s.ax chain
        have hu : s.ax.readChain env chain ≠ .ub .useAfterFree := by
          unfold Axis.readChain
          dsimp only
          repeat' (split; · exact fun h => by cases h)
          all_goals exact fun h => by cases h
        split
        · rename_i a k e
          rw [e] at hp
          have hp : a.pub = s.ax.pub := hp
          show (Axis.deserialize { a with md := some k }).andThen (fun a _ => a.verifyKey env s.live) ≠ _
          unfold Axis.deserialize
          dsimp only
          have fin : ∀ r, Axis.verifyKey env { a with md := some k, report := r } s.live ≠ .ub .useAfterFree := by
            intro r
            unfold Axis.verifyKey
            dsimp only
            rw [hp]
            split
            · exact fun h => by cases h
            rename_i p hpub
            obtain ⟨key, hk⟩ := hl p hpub
            rw [hk]
            dsimp only
            rw [if_neg (fun h => h rfl)]
            repeat' (split; · exact fun h => by cases h)
            all_goals exact fun h => by cases h
          split
          · exact fun h => by cases h
          split
          · exact fun h => by cases h
          split
          · exact fun h => by cases h
          split
          · exact fun h => by cases h
          split
          · exact fun h => by cases h
          · exact fin _
        · exact fun h => by cases h
        · rename_i e; intro h; cases h; exact hu e
      split
      · exact fun h => by cases h
      · exact key2
    split
    · rename_i e; intro h; cases h; exact key e
    · exact fun h => by cases h
    · split
      · exact fun h => by cases h
      · exact fun h => by cases h

instance (s : AxSession) : (e : AxEvent) → Decidable (s.Told e)
  | .value t _ _ => inferInstanceAs (Decidable (t = tagPublicKey → s.isAxis = true ∧ s.ax.validation ≠ 0))
  | .userKey _ => inferInstanceAs (Decidable (s.ax.pub = none))
  | .newSei => isTrue trivial
  | .attestation _ _ _ => isTrue trivial
  | .check => isTrue trivial
  | .clear => isTrue trivial

def allToldDec (env : AxEnv) : (es : List AxEvent) → (s : AxSession) → Decidable (s.AllTold env es)
  | [], _ => isTrue trivial
  | e :: es, s => @instDecidableAnd _ _ inferInstance
    (match s.event env e with
      | .ok t _ => allToldDec env es t
      | .err t _ => allToldDec env es t
      | .ub _ => isTrue trivial)

instance (env : AxEnv) (s : AxSession) (es : List AxEvent) : Decidable (s.AllTold env es) := allToldDec env es s

/-- A history of the device with two SEIs in which the vendor is told of every key. -/
example : AxSession.AllTold axDemo { v := newValidator toyEnv .h264 }
    [.newSei, demoProduct [65, 66], demoKey [1], demoRecord, .check, .newSei, demoProduct [65, 66], demoKey [1], demoRecord, .check] := by
  decide +kernel

/-! ### Refused records -/

/-- **C56 does not hold: a refused record leaves a trace.** A record without certificates is refused, but its attestation
has been stored, and the record of the device is refused from then on. -/
theorem C56_stored_false : demoRun [.value tagAxis [1, 1, 5] 3, .newSei, demoProduct [65, 66], demoKey [1], demoRecord] =
    some (.notFeasible, [some .authenticationError, none, none, none, some .notSupported]) := by decide +kernel

/-- **C56 does not hold (2): bytes after the record are stored.** The size of the attestation is not compared with the size
of the record before it is copied: what follows in memory becomes the attestation. -/
theorem C56_beyond_false : Axis.decode {} [1, 4, 7, 8, 9, 10] 3 =
    .err { attestation := some [7, 8, 9, 10] } .authenticationError := rfl

/-- **C56 does not hold (3): memory outside of the NAL unit is read**, by a record of one byte, or of three bytes at the end
of the memory. -/
theorem C56_overread_false : Axis.decode {} [1] 1 = .ub .overread ∧ Axis.decode {} [1, 4, 7] 3 = .ub .overread := ⟨rfl, rfl⟩

/-- **C56 as far as it holds.** Once an attestation is stored, a refused record changes nothing. -/
theorem C56_refused_partial (a b : Axis) (mem : Bytes) (size : Nat) (e : Rc) (ha : a.attestation ≠ none)
    (h : a.decode mem size = .err b e) : b = a := by
  unfold Axis.decode at h
  split at h
  · cases h
  · cases h; rfl
  split at h
  · cases h; rfl
  split at h
  · cases h
  · cases h; rfl
  split at h
  · cases h; rfl
  dsimp only at h
  split at h
  · split at h
    · cases h; rfl
    split at h
    · cases h
    · cases h; rfl
    split at h
    · rw [Res.andThen_ok] at h
      split at h
      · cases h; rfl
      split at h
      · cases h
      · cases h; rfl
      split at h
      · cases h
      · split at h
        · cases h
        split at h
        · cases h
        · cases h; rfl
    · cases h; rfl
  · rename_i hn; exact absurd hn ha

end SV
