import Verif.Proofs.SignParts
import Verif.Props.SignHist
/-! A NAL unit may be given for signing in parts: C37. -/
namespace SV
open Spec

/-- The calls that give a NAL unit in parts: `d0`, then `mids`, then `z`. -/
def partCalls (d0 : Bytes) (mids : List Bytes) (z : Bytes) (ts : Option Int64) (rc : Option Rc) : List SCall :=
  .nalu d0 ts false rc :: (mids.map fun d => .nalu d ts false rc) ++ [.nalu z ts true rc]

/-- **C37**: let a NAL unit (not a SEI) be cut into parts, the first of which contains the start code, the header and a byte
more, the last of which is not only zeros and none of which is empty.  If the session, in whatever state between two NAL
units, accepts it as a whole, then it accepts all parts, the observation of the last part is that of the whole, and the
session afterwards is the same, with the GOP hash, the hash list, the counters and the SEIs, except for the context
for hashing parts and the description of the latest NAL unit. -/
theorem C37_parts (hs : Hashing) (s t : Signer) (d0 : Bytes) (mids : List Bytes) (z : Bytes) (ts : Option Int64)
    (rc : Option Rc) (o : Obs) (hl : s.lastIsLast = true) (h4 : 4 ≤ d0.length) (hh : hdr s.codec + 1 ≤ (body d0).length)
    (hm : ∀ d ∈ mids, d ≠ []) (hz : ∃ b ∈ z, b ≠ 0)
    (hsei : ¬ SeiType s.codec ((body d0).getD 0 0) ((body d0).getD 1 0))
    (h : signStep hs s (.nalu (d0 ++ mids.flatten ++ z) ts true rc) = .ok (t, o)) (ho : o.rc = none) :
    ∃ t' os, signRun hs s (partCalls d0 mids z ts rc) = .ok (t', os ++ [o]) ∧
      (∀ x ∈ os, x = { pending := s.idx }) ∧
      t' = { t with secondary := t'.secondary, lastNalu := t'.lastNalu, lastIsLast := true } := by
  have hd0 : d0 ≠ [] := by rintro rfl; simp at h4
  have hzn : z ≠ [] := by rintro rfl; obtain ⟨b, hb, -⟩ := hz; cases hb
  have hw : d0 ++ mids.flatten ++ z ≠ [] := by simp [hd0]
  -- the whole NAL unit is parsed and the session is ready
  have hparse : ∃ m, parseNalu (d0 ++ mids.flatten ++ z) s.codec true false = .ok m ∧ ¬ m.valid < 0 ∧ Prepared s := by
    rw [signStep_nalu] at h
    unfold addNalu at h
    rw [if_neg hw] at h
    unfold nextPart at h
    rw [if_pos hl] at h
    dsimp only at h
    cases hp : parseNalu (d0 ++ mids.flatten ++ z) s.codec true false with
    | err e => exact absurd hp ((onlyOverread_parse _ _ _ _).noErr e)
    | ub u => rw [hp] at h; cases h
    | ok m =>
      rw [hp] at h
      simp only [Res.andThen_ok] at h
      unfold addParsed at h
      generalize hu : ({ s with signed := none, got := [], lastNalu := m, lastIsLast := true } : Signer) = u at h
      cases hpr : prepare u with
      | err v e => rw [hpr] at h; cases h; cases ho
      | ub v => rw [hpr] at h; cases h
      | ok v a =>
        obtain ⟨h1, -⟩ := prepare_ok hpr
        refine ⟨m, rfl, ?_, ?_⟩
        · intro hv
          rw [hpr] at h
          simp only [Res.andThen_ok] at h
          rw [if_pos hv] at h
          cases h; cases ho
        · subst hu; exact ⟨h1.plugin, h1.free⟩
  obtain ⟨m, hp, hv, hprep⟩ := hparse
  have hns : m.ntype ≠ .sei := by
    obtain ⟨ty, v, prim, size, p1, p2, p3, p4⟩ := parse_shape _ _ _ _ _ hw hp
    obtain ⟨-, -, q3, -⟩ := header_spec _ _ _ _ _ p1
    rw [p3]
    intro hx
    apply hsei
    have := q3.1 hx
    rw [List.append_assoc, body_append _ _ h4] at this
    have hlen : 2 ≤ (body d0).length := by cases hc : s.codec <;> rw [hc] at hh <;> simp [hdr] at hh <;> omega
    match hb : body d0, hlen with
    | x :: y :: r, _ => rw [hb] at this; exact this
  obtain ⟨k, k1, k2, k3, k4, k5, k6⟩ := parse_first s.codec d0 mids.flatten z m h4 hh hz hp hns
  have hbne : body d0 ≠ [] := by intro hx; rw [hx] at hh; simp at hh
  obtain ⟨t1, s1, m1⟩ := step_first hs s _ d0 ts rc hl k4 hv hprep hd0 hbne
  obtain ⟨t2, os, s2, m2, m3⟩ := run_mids hs s { m with hashable := body d0 } ts rc hv hprep mids t1 (body d0) m1 hm
  obtain ⟨c, n, s3⟩ := step_last hs s t2 t m (body d0) (body d0 ++ mids.flatten) z _ k ts rc o m2 hl hw hp k1 k2 hzn
    (by rw [k5]) k6 h ho
  refine ⟨t.w c n true, { pending := s.idx } :: os, ?_, ?_, rfl⟩
  · unfold partCalls
    have e1 : signRun hs t2 [.nalu z ts true rc] = .ok (t.w c n true, [o]) := by simp only [signRun, s3, Out.bind_ok]
    have e2 := signRun_join hs _ _ _ _ _ _ _ s2 e1
    rw [List.cons_append]
    simp only [signRun, s1, Out.bind_ok, e2, List.cons_append]
  · intro x hx
    rcases List.mem_cons.1 hx with hx | hx
    · exact hx
    · exact m3 x hx

/-- An I-frame that ends a GOP, in three parts with zeros at the cuts and at the end. -/
example : ∃ (s t : Signer) (o : Obs), (s.lastIsLast = true) ∧ s.codec = .h264 ∧
    signStep toyHashing s (.nalu ([0, 0, 0, 1, 0x65, 0x88, 0] ++ [[0, 7, 0]].flatten ++ [0, 9, 0, 0]) (some 5) true none) = .ok (t, o) ∧
    o.rc = none ∧ o.signed.isSome = true := by
  obtain ⟨s, os, h1, h2⟩ := runCheck2 toyHashing toySigner (toyCalls.take 3)
    (fun s _ => s.lastIsLast && decide (s.codec = .h264) &&
      match signStep toyHashing s (.nalu ([0, 0, 0, 1, 0x65, 0x88, 0] ++ [[0, 7, 0]].flatten ++ [0, 9, 0, 0]) (some 5) true none) with
      | .ok p => decide (p.2.rc = none) && p.2.signed.isSome
      | _ => false) (by decide +kernel)
  simp only [Bool.and_eq_true, decide_eq_true_eq] at h2
  obtain ⟨⟨a, b⟩, c⟩ := h2
  split at c
  · next p hp =>
    simp only [Bool.and_eq_true, decide_eq_true_eq] at c
    exact ⟨s, p.1, p.2, a, b, hp, c.1, c.2⟩
  · cases c

end SV
