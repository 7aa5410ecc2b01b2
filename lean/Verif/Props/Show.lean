import Verif.Proofs.Show
import Verif.Props.AuthDemo
/-! C89: printing a SEI. -/
namespace SV.Props
open Spec Validator

/-- The full claim: a SEI that can be decoded without undefined behaviour can be printed without it. -/
def C89_statement : Prop :=
  ∀ (env : AuthEnv) (vendor : Bool) (c : Codec) (data : Bytes) (n : Nalu), env.crypto.oidHashSize env.oid = some 32 →
    parseNalu data c true true = .ok n → n.gopSei = true →
    (∀ u, Validator.tlvDecode env (newValidator env c) n.tlvMem n.tlvSize ≠ .ub u) → ∃ rs, showSei env vendor c data = .ok rs

/-- C89 for hash sizes that fill the hash list and, with the code of Axis, for SEIs without vendor record and without key after
product information that names Axis. All records are printed if all can be decoded, otherwise those before the first that
cannot (one round of `tlvLoop` is one record); hash lists are shown hash by hash. Missing are other hash sizes and other orders, for which the claim is false, and
vendor records, which the model does not decode. -/
theorem C89_partial (env : AuthEnv) (vendor : Bool) (c : Codec) (data : Bytes) (n : Nalu) (hz : SizesFit env.crypto.oidHashSize)
    (known : env.crypto.oidHashSize env.oid = some 32) (hp : parseNalu data c true true = .ok n) (hg : n.gopSei = true)
    (hv : vendor = true → KeyFirst (records n.tlvSize n.tlvMem n.tlvSize) ∧ ∀ r ∈ records n.tlvSize n.tlvMem n.tlvSize, r.1 ≠ 129) :
    match Validator.tlvDecode env (newValidator env c) n.tlvMem n.tlvSize with
    | .ub u => showSei env vendor c data = .ub u
    | .err _ _ => ∃ rs, showSei env vendor c data = .ok rs ∧ (rs.map fun r => (r.tag, r.value)) <+: fields n.tlvSize n.tlvMem n.tlvSize ∧
        Shown env.crypto.oidHashSize 32 (rs.map fun r => (r.tag, r.value, r.lines)) ∧
        (n.tlvSize ≠ 0 → (∃ v, Validator.tlvLoop env rs.length (newValidator env c) n.tlvMem n.tlvSize = .ok v ()) ∧
          ∃ v e, Validator.tlvLoop env (rs.length + 1) (newValidator env c) n.tlvMem n.tlvSize = .err v e)
    | .ok _ _ => ∃ rs, showSei env vendor c data = .ok rs ∧ (rs.map fun r => (r.tag, r.value)) = fields n.tlvSize n.tlvMem n.tlvSize ∧
        Shown env.crypto.oidHashSize 32 (rs.map fun r => (r.tag, r.value, r.lines)) := by
  have h := showLoop_spec hz vendor n.tlvSize (newValidator env c) n.tlvMem n.tlvSize known fun h => ⟨(hv h).1, fun e => by cases e⟩
  have e : showSei env vendor c data = showLoop env vendor n.tlvSize (newValidator env c) n.tlvMem n.tlvSize := by
    unfold showSei
    split
    · rename_i hd
      subst hd
      cases hp
      cases hg
    · rw [hp]
      dsimp only
      rw [if_pos hg]
  rw [e]
  unfold Validator.tlvDecode
  by_cases h0 : n.tlvSize = 0
  · rw [if_pos h0, h0]
    exact ⟨[], rfl, List.nil_prefix, trivial, fun h => absurd rfl h⟩
  · rw [if_neg h0]
    generalize Validator.tlvLoop env n.tlvSize (newValidator env c) n.tlvMem n.tlvSize = r at h
    cases r with
    | ub u => exact h
    | ok v x => exact h
    | err v e =>
      obtain ⟨rs, h1, h2, h3, h4⟩ := h
      exact ⟨rs, h1, h2, h3, fun _ => h4⟩

/-- A full hash list is read beyond its array if its hashes do not fill the array, like those of SHA-224. -/
theorem C89_notFilled (hs : Nat) (list : Bytes) (h0 : 0 < hs) (h64 : hs ≤ 64) (hd : ¬ hs ∣ 64 * 300) (hl : list.length = 64 * 300) :
    printList hs list = .ub .overread := by
  have hb : buf hashListCap list = list := by
    unfold buf
    rw [List.take_append_of_le_length (by rw [hl]; exact Nat.le_refl _), List.take_of_length_le (by rw [hl]; exact Nat.le_refl _)]
  unfold printList
  rw [if_neg (by omega), if_neg (by omega), hb]
  exact hashLines_over h0 (hl ▸ hd) _ 0 (Nat.dvd_zero _) (by omega) (by omega)

example : ¬ (28 ∣ 64 * 300) := by decide

/-! Witnesses. -/

/-- An H.264 SEI with TLV data. -/
def plainSei (tlv : Bytes) : Bytes := [0, 0, 0, 1, 0x06, 5, UInt8.ofNat (17 + tlv.length)] ++ uuid ++ [0] ++ tlv ++ [0x80]

/-- Product information that names Axis. -/
def axisProduct : Bytes := [3, 0, 33, 1, 1, 0, 1, 0, 1, 0, 23] ++ axisText ++ [0, 1, 0]

def shortKey : Bytes := [2, 0, 4, 2, 0x4b, 0x45, 0x59]

/-- A list with two hashes of 32 bytes. -/
def twoHashes : Bytes := [4, 0, 65, 1] ++ List.replicate 32 0xaa ++ List.replicate 32 0xbb

/-- The OID 61 87 is well formed, but there is no such digest. -/
def oddEnv : AuthEnv :=
  { toyEnv with crypto := ⟨fun o => if o = [0x60, 0x86] then some 32 else if o = [0x61, 0x87] then some (2 ^ 64 - 1) else none, fun k => k != []⟩ }

def oddAlgo : Bytes := [7, 4, 1, 2, 0x61, 0x87, 4, 0, 3, 1, 0xaa, 0xbb]

/-- The parsed NAL unit is a SEI of the library, and is decoded without undefined behaviour. -/
def decodes (env : AuthEnv) (data : Bytes) : Bool :=
  match parseNalu data .h264 true true with
  | .ok n => n.gopSei && match Validator.tlvDecode env (newValidator env .h264) n.tlvMem n.tlvSize with
    | .ok _ _ => true
    | _ => false
  | _ => false

theorem decodes_spec {env : AuthEnv} {data : Bytes} (h : decodes env data = true) : ∃ n, parseNalu data .h264 true true = .ok n ∧
    n.gopSei = true ∧ ∃ v, Validator.tlvDecode env (newValidator env .h264) n.tlvMem n.tlvSize = .ok v () := by
  unfold decodes at h
  split at h
  · rename_i n hn
    rw [Bool.and_eq_true] at h
    refine ⟨n, hn, h.1, ?_⟩
    have := h.2
    split at this
    · rename_i v _ hv; exact ⟨v, hv⟩
    · cases this
  · cases h

set_option maxRecDepth 100000

theorem false_of {env : AuthEnv} {vendor : Bool} {data : Bytes} {u : Ub} (known : env.crypto.oidHashSize env.oid = some 32)
    (h : decodes env data = true) (hu : showSei env vendor .h264 data = .ub u) : ¬ C89_statement := by
  intro hc
  obtain ⟨n, h1, h2, v, h3⟩ := decodes_spec h
  obtain ⟨rs, h4⟩ := hc env vendor .h264 data n known h1 h2 (by rw [h3]; intro u e; cases e)
  rw [hu] at h4
  cases h4

/-- A test on an outcome. -/
def shows (o : Out (List Row)) (p : List Row → Bool) (q : Ub → Bool) : Bool :=
  match o with
  | .ok rs => p rs
  | .err _ => false
  | .ub u => q u

theorem shows_ub {o : Out (List Row)} {u : Ub} (h : shows o (fun _ => false) (fun x => decide (x = u)) = true) : o = .ub u := by
  cases o with
  | ok => cases h
  | err => cases h
  | ub x => rw [of_decide_eq_true h]

theorem shows_ok {o : Out (List Row)} {p : List Row → Bool} (h : shows o p (fun _ => false) = true) : ∃ rs, o = .ok rs ∧ p rs = true := by
  cases o with
  | ok rs => exact ⟨rs, rfl, h⟩
  | err => cases h
  | ub x => cases h

/-- The key after product information that names Axis: `latest_validation` is NULL. -/
theorem C89_axis : showSei toyEnv true .h264 (plainSei (axisProduct ++ shortKey)) = .ub .nullDeref := shows_ub (by decide +kernel)

/-- A hash algorithm without digest before a hash list. -/
theorem C89_noDigest : showSei oddEnv false .h264 (plainSei oddAlgo) = .ub .overread := shows_ub (by decide +kernel)

theorem C89_false : ¬ C89_statement := false_of (env := toyEnv) rfl (by decide +kernel) C89_axis

/-- Also without vendor code. -/
theorem C89_false' : ¬ C89_statement := false_of (env := oddEnv) rfl (by decide +kernel) C89_noDigest

/-- The hypotheses of `C89_partial` are met by a SEI with a key, then product information of Axis, then a hash list. -/
example : ∃ n, parseNalu (plainSei (shortKey ++ axisProduct ++ twoHashes)) .h264 true true = .ok n ∧ n.gopSei = true ∧
    (KeyFirst (records n.tlvSize n.tlvMem n.tlvSize) ∧ ∀ r ∈ records n.tlvSize n.tlvMem n.tlvSize, r.1 ≠ 129) ∧
    SizesFit toyEnv.crypto.oidHashSize ∧
    ∃ rs, showSei toyEnv true .h264 (plainSei (shortKey ++ axisProduct ++ twoHashes)) = .ok rs ∧ rs.length = 3 ∧
      (rs.map Row.lines).flatten = [List.replicate 32 0xaa, List.replicate 32 0xbb] := by
  have hr : ∀ n, parseNalu (plainSei (shortKey ++ axisProduct ++ twoHashes)) .h264 true true = .ok n →
      (records n.tlvSize n.tlvMem n.tlvSize).map Prod.fst = [2, 3, 4] := by
    intro n hn
    have : (match parseNalu (plainSei (shortKey ++ axisProduct ++ twoHashes)) .h264 true true with
      | .ok n => decide ((records n.tlvSize n.tlvMem n.tlvSize).map Prod.fst = [2, 3, 4])
      | _ => true) = true := by decide +kernel
    rw [hn] at this
    exact of_decide_eq_true this
  obtain ⟨n, h1, h2, -⟩ := decodes_spec (env := toyEnv) (data := plainSei (shortKey ++ axisProduct ++ twoHashes)) (by decide +kernel)
  have hr := hr n h1
  refine ⟨n, h1, h2, ⟨?_, ?_⟩, ?_, ?_⟩
  · have : ((records n.tlvSize n.tlvMem n.tlvSize).map Prod.fst).Pairwise fun a b => a = 3 → b ≠ 2 := by rw [hr]; decide
    exact (List.pairwise_map.1 this).imp fun h ⟨h3, _⟩ => h h3
  · intro r hm h
    have : r.1 ∈ (records n.tlvSize n.tlvMem n.tlvSize).map Prod.fst := List.mem_map_of_mem hm
    rw [hr, h] at this
    revert this
    decide
  · intro o k h
    simp only [toyEnv] at h
    split at h
    · cases h; decide
    · cases h
  · obtain ⟨rs, e, h⟩ := shows_ok (o := showSei toyEnv true .h264 (plainSei (shortKey ++ axisProduct ++ twoHashes)))
      (p := fun rs => decide (rs.length = 3 ∧ (rs.map Row.lines).flatten = [List.replicate 32 0xaa, List.replicate 32 0xbb])) (by decide +kernel)
    exact ⟨rs, e, of_decide_eq_true h⟩

end SV.Props
