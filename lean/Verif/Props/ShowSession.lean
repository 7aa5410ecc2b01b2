import Verif.Props.ShowOwn
import Verif.Props.SignHist
/-! C89 for the SEIs of a signing session. -/
namespace SV.Props
open Spec Validator

/-- Lines that show a list of whole hashes are the hashes of the list. -/
theorem C89_wholeHashes {size : Nat} {list : Bytes} {lines : List Bytes} (h : Lists size list lines) (hd : size ∣ list.length) :
    lines.flatten = list := by
  have hl : ∀ ls : List Bytes, (∀ l ∈ ls, l.length = size) → ls.flatten.length = size * ls.length := by
    intro ls
    induction ls with
    | nil => intro _; rfl
    | cons a ls ih =>
      intro h
      rw [List.flatten_cons, List.length_append, ih fun l hl => h l (List.mem_cons_of_mem _ hl), h a List.mem_cons_self, List.length_cons, Nat.mul_add, Nat.mul_one, Nat.add_comm]
  have h1 := hl lines h.each
  have h2 := h.tight
  have h3 := h.all.length_le
  obtain ⟨a, ha⟩ := hd
  have : lines.length = a := by
    rw [h1, ha] at h2 h3
    have hpos : 0 < size := by
      rcases Nat.eq_zero_or_pos size with h0 | h0
      · subst h0; simp at h2
      · exact h0
    have h4 := Nat.le_of_mul_le_mul_left h3 hpos
    have h5 : size * lines.length < size * (a + 1) := by rw [Nat.mul_add, Nat.mul_one]; exact h2
    have h6 := Nat.lt_of_mul_lt_mul_left h5
    omega
  exact (h.all.eq_of_length (by rw [h1, ha, this])).symm

example : Lists 2 [1, 2, 3, 4] [[1, 2], [3, 4]] ∧ 2 ∣ [1, 2, 3, 4].length :=
  ⟨⟨by decide, by decide, by decide⟩, by decide⟩

/-- **C89 for whole sessions that sign.** Every SEI that an undisturbed session hands out is printed completely. -/
theorem C89_session_partial {hs : Hashing} {codec : Codec} {oid : Bytes} {v : UInt8 × UInt8 × UInt8} {setup : List Setting}
    {cs : List SCall} {s : Signer} {os : List Obs} (h : Undisturbed hs codec oid v setup cs s os)
    (env : AuthEnv) (vendor : Bool) (hz : SizesFit env.crypto.oidHashSize) (known : env.crypto.oidHashSize env.oid = some 32)
    (hc : CryptoOk env.crypto s.e) (b : Bytes) (hb : b ∈ delivered os) :
    ∃ n rs, parseNalu b codec true true = .ok n ∧ showSei env vendor codec b = .ok rs ∧
      (rs.flatMap fun r => frame r.tag r.value) = n.tlvMem.take n.tlvSize ∧
      Shown env.crypto.oidHashSize 32 (rs.map fun r => (r.tag, r.value, r.lines)) := by
  obtain ⟨s0, h1, h2, h3, h4⟩ := h.told (L := False) (fun hx => hx.elim)
  obtain ⟨k, hk⟩ := List.getElem?_of_mem hb
  obtain ⟨g, e, a1, a2, a3, a4, a5, a6⟩ := h4 k b hk
  obtain ⟨gop, nxt, b1, b2, b3, b4⟩ := h3.gens k g a1
  have hsm := h3.cur.part.same
  have hcg : CryptoOk env.crypto g.e := by
    refine ⟨?_, ?_⟩
    · rw [b4.key, ← hsm.key]; exact hc.key
    · rw [b4.oid, b4.hashSize, ← hsm.oid, ← hsm.hashSize]; exact hc.oid
  have hco : g.o.codec = codec := b4.codec.trans h1.codec
  have := C89_own_partial env vendor g.o g.e e hz known b4.fits a3 (a4.trans b4.maxSig.symm) (b4.vendor.trans h1.vendor) hcg
  rw [hco] at this
  rw [a2]
  exact this

/-- The session of C34 hands out SEIs, and a receiver understands them. -/
example : ∃ s os b, Undisturbed toyHashing .h264 [0x60, 0x86] (2, 2, 0) histSetup histCalls s os ∧ CryptoOk histEnv s.e ∧ b ∈ delivered os := by
  obtain ⟨s, os, h1, h2, -, -, -, -, h7, -⟩ := histSession
  exact ⟨s, os, (delivered os)[1], h1, h2, List.getElem_mem _⟩

end SV.Props
