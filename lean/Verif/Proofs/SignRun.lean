import Verif.Proofs.SignQueue
/-! Sequences of calls: the queue and what has been observed. -/
namespace SV
open Spec

theorem signRun_ub {hs : Hashing} {s : Signer} {c : SCall} {cs : List SCall} {u : Ub} (h : signStep hs s c = .ub u) :
    signRun hs s (c :: cs) = .ub u := by unfold signRun; rw [h]; rfl
theorem signRun_err {hs : Hashing} {s : Signer} {c : SCall} {cs : List SCall} {e : Rc} (h : signStep hs s c = .err e) :
    signRun hs s (c :: cs) = .err e := by unfold signRun; rw [h]; rfl
theorem signRun_ok {hs : Hashing} {s t : Signer} {c : SCall} {cs : List SCall} {o : Obs}
    (h : signStep hs s c = .ok (t, o)) :
    signRun hs s (c :: cs) = match signRun hs t cs with
      | .ok (v, os) => .ok (v, o :: os)
      | .err e => .err e
      | .ub u => .ub u := by
  show (signStep hs s c >>= fun p => signRun hs p.1 cs >>= fun p2 => Out.ok (p2.1, p.2 :: p2.2)) = _
  rw [h]
  show (signRun hs t cs >>= fun p2 => Out.ok (p2.1, o :: p2.2)) = _
  cases signRun hs t cs <;> rfl

/-- What has been observed during a sequence of calls, and the queue before and after. -/
structure RunLog (hs : Hashing) (s : Signer) (cs : List SCall) (q q' : Queue) (gs : List Gen) (ds xs : List Done) (os : List Obs) :
    Prop where
  pend : q.P ++ gs = ds.map Done.g ++ q'.P
  good : ∀ g ∈ gs, g.Good hs
  taken : Spec.taken os = ds.map (·.e.signature)
  generated : os.filterMap Obs.signed = gs
  delivered : Spec.delivered os = xs.map Done.bytes
  perm : (xs ++ q'.C).Perm (q.C ++ ds)
  order : (∀ c ∈ cs, NotPrepend c) → xs ++ q'.C = q.C ++ ds
  pending : ∀ o ∈ os, o.pending ≤ maxSeis
  count : ∀ k, k < os.length → (os.getD k {}).pending + (Spec.delivered (os.take (k + 1))).length =
    (Spec.generated (os.take (k + 1))).length + (q.C.length + q.P.length)
  doneAt : ∀ d ∈ ds, ∃ pre c si oi, pre ++ [c] <+: cs ∧ signRun hs s pre = .ok (si, oi) ∧
    (NotEos c → DoneAt si d ∧ q.P ++ oi.filterMap Obs.signed ≠ [])

/-- The outcome of a sequence of calls. -/
def RunOut (hs : Hashing) (s0 : Signer) (cs : List SCall) (q : Queue) : Out (Signer × List Obs) → Prop
  | .ok (s, os) => ∃ q' gs ds xs, QAbs s q' ∧ RunLog hs s0 cs q q' gs ds xs os
  | .err _ => False
  | .ub u => OtherUb u

theorem head_toList (gs : List Gen) (h : gs.length ≤ 1) : gs.head?.toList = gs := by
  cases gs with
  | nil => rfl
  | cons g gs =>
    cases gs with
    | nil => rfl
    | cons g' gs => simp at h

theorem QStep.count {hs : Hashing} {s : Signer} {c : SCall} {q q1 : Queue} {o : Obs} (hq : QStep hs s c q q1 o) :
    q1.C.length + q1.P.length + o.sei.toList.length = o.signed.toList.length + (q.C.length + q.P.length) := by
  obtain ⟨gs, ds, m1, m2, m3, m4, m5, m7, m6⟩ := hq
  have hgs : o.signed.toList.length = gs.length := by rw [m3, head_toList gs m1]
  have := congrArg List.length m4
  rw [List.length_append, List.length_append, List.length_map] at this
  rcases m6 with ⟨e1, e2⟩ | ⟨d, e1, e2⟩
  · rw [e1, e2, List.length_append, hgs]; simp; omega
  · rcases e2 with ⟨_, e2⟩ | ⟨_, e2⟩
    · have h2 := congrArg List.length e2
      rw [List.length_append, List.length_cons] at h2
      rw [e1, hgs]; simp; omega
    · have h2 := congrArg List.length e2
      rw [List.length_append, List.length_append, List.length_singleton] at h2
      rw [e1, hgs]; simp; omega

theorem generated_cons (o : Obs) (os : List Obs) : Spec.generated (o :: os) = o.signed.toList.map Gen.h ++ Spec.generated os := by
  unfold Spec.generated; cases ho : o.signed <;> simp [ho]

theorem delivered_cons (o : Obs) (os : List Obs) : Spec.delivered (o :: os) = o.sei.toList ++ Spec.delivered os := by
  unfold Spec.delivered; cases ho : o.sei <;> simp [ho]

theorem RunLog.cons {hs : Hashing} {s t : Signer} {c : SCall} {cs : List SCall} {q q1 q2 : Queue} {o : Obs} {os : List Obs}
    (hst : signStep hs s c = .ok (t, o)) (hq : QStep hs s c q q1 o) (hpq : o.pending = q1.C.length + q1.P.length) (hpend : o.pending ≤ maxSeis) {gs2 : List Gen} {ds2 xs2 : List Done}
    (n : RunLog hs t cs q1 q2 gs2 ds2 xs2 os) : ∃ gs ds xs, RunLog hs s (c :: cs) q q2 gs ds xs (o :: os) := by
  have hone := hq.count
  obtain ⟨gs, ds, m1, m2, m3, m4, m5, m7, m6⟩ := hq
  have hgs : o.signed.toList = gs := by rw [m3, head_toList gs m1]
  have hP : q.P ++ (gs ++ gs2) = (ds ++ ds2).map Done.g ++ q2.P := by
    rw [← List.append_assoc, m4, List.append_assoc, n.pend, List.map_append, List.append_assoc]
  have hG : ∀ g ∈ gs ++ gs2, g.Good hs := by
    intro g hg
    rcases List.mem_append.1 hg with hg | hg
    · exact m2 g hg
    · exact n.good g hg
  have hT : Spec.taken (o :: os) = (ds ++ ds2).map (·.e.signature) := by
    have : Spec.taken (o :: os) = o.got ++ Spec.taken os := rfl
    rw [this, n.taken, m5, List.map_append]
  have hGen : (o :: os).filterMap Obs.signed = gs ++ gs2 := by
    have : (o :: os).filterMap Obs.signed = o.signed.toList ++ os.filterMap Obs.signed := by
      cases ho : o.signed <;> simp [ho]
    rw [this, hgs, n.generated]
  have hD : Spec.delivered (o :: os) = o.sei.toList ++ Spec.delivered os := by
    unfold Spec.delivered; cases ho : o.sei <;> simp [ho]
  have hpd : ∀ x ∈ o :: os, x.pending ≤ maxSeis := by
    intro x hx
    cases hx
    · exact hpend
    · exact n.pending x (by assumption)
  have hcount : ∀ k, k < (o :: os).length → ((o :: os).getD k {}).pending + (Spec.delivered ((o :: os).take (k + 1))).length =
      (Spec.generated ((o :: os).take (k + 1))).length + (q.C.length + q.P.length) := by
    intro k hk
    rw [List.take_succ_cons, generated_cons, delivered_cons, List.length_append, List.length_append, List.length_map]
    cases k with
    | zero =>
      show o.pending + (_ + 0) = _ + 0 + _
      omega
    | succ k =>
      have := n.count k (by simpa using hk)
      rw [List.getD_cons_succ]
      omega
  have hat : ∀ d ∈ ds ++ ds2, ∃ pre c' si oi, pre ++ [c'] <+: c :: cs ∧ signRun hs s pre = .ok (si, oi) ∧
      (NotEos c' → DoneAt si d ∧ q.P ++ oi.filterMap Obs.signed ≠ []) := by
    intro d hd
    rcases List.mem_append.1 hd with hd | hd
    · refine ⟨[], c, s, [], by simp, rfl, fun hc => ⟨(m7 hc d hd).1, ?_⟩⟩
      have e := m4
      rw [(m7 hc d hd).2, List.append_nil] at e
      rw [e, List.filterMap_nil, List.append_nil]
      intro hx
      have := (List.append_eq_nil_iff.1 hx).1
      rw [List.map_eq_nil_iff] at this
      rw [this] at hd; cases hd
    · obtain ⟨pre, c', si, oi, a1, a2, a3⟩ := n.doneAt d hd
      refine ⟨c :: pre, c', si, o :: oi, ?_, ?_, fun hc => ⟨(a3 hc).1, ?_⟩⟩
      · rw [List.cons_append]; exact (List.prefix_cons_inj c).2 a1
      · rw [signRun_ok hst, a2]
      · have e : (o :: oi).filterMap Obs.signed = gs ++ oi.filterMap Obs.signed := by
          rw [← hgs, List.filterMap_cons]; cases o.signed <;> rfl
        rw [e, ← List.append_assoc, m4, List.append_assoc]
        intro hx
        exact (a3 hc).2 (List.append_eq_nil_iff.1 hx).2
  rcases m6 with ⟨e1, e2⟩ | ⟨d, e1, e2⟩
  · refine ⟨gs ++ gs2, ds ++ ds2, xs2, hP, hG, hT, hGen, ?_, ?_, ?_, hpd, hcount, hat⟩
    · rw [hD, e1, n.delivered]; rfl
    · have := n.perm
      rw [e2, List.append_assoc] at this; exact this
    · intro hc
      rw [n.order (fun c hm => hc c (by simp [hm])), e2, List.append_assoc]
  · refine ⟨gs ++ gs2, ds ++ ds2, d :: xs2, hP, hG, hT, hGen, ?_, ?_, ?_, hpd, hcount, hat⟩
    · rw [hD, e1, n.delivered]; rfl
    · rw [← List.append_assoc]
      refine (List.Perm.cons d n.perm).trans ?_
      rcases e2 with ⟨_, e2⟩ | ⟨_, e2⟩
      · rw [e2]; exact List.Perm.refl _
      · rw [e2, List.append_assoc]
        exact List.perm_middle.symm
    · intro hc
      rcases e2 with ⟨_, e2⟩ | ⟨e2, _⟩
      · rw [← List.append_assoc, e2]
        show d :: (xs2 ++ q2.C) = _
        rw [n.order (fun c hm => hc c (by simp [hm]))]; rfl
      · exact absurd (hc c (by simp)) e2

theorem QStep.outstanding {hs : Hashing} {s : Signer} {c : SCall} {q q1 : Queue} {o : Obs} (hq : QStep hs s c q q1 o) :
    q1.P.length = q.P.length + o.signed.toList.length - o.got.length := by
  obtain ⟨gs, ds, m1, m2, m3, m4, m5, m7, m6⟩ := hq
  have hgs : o.signed.toList.length = gs.length := by rw [m3, head_toList gs m1]
  have := congrArg List.length m4
  rw [List.length_append, List.length_append, List.length_map] at this
  rw [hgs, m5, List.length_map]; omega

theorem signRun_q (hs : Hashing) (cs : List SCall) : ∀ (s : Signer) (q : Queue) (n : Nat), QAbs s q → q.P.length = n →
    Honest hs s n cs → RunOut hs s cs q (signRun hs s cs) := by
  induction cs with
  | nil =>
    intro s q n h _ _
    exact ⟨q, [], [], [], h, by simp, by simp, rfl, rfl, rfl, by simp, by simp, by simp, by simp, by simp⟩
  | cons c cs ih =>
    intro s q n h hn hh
    subst hn
    obtain ⟨h1, h2, h3⟩ := hh
    have hst := signStep_q hs s c q h h1 h2
    cases hs1 : signStep hs s c with
    | ub u => rw [signRun_ub hs1]; rw [hs1] at hst; exact hst
    | err e => rw [hs1] at hst; exact hst.elim
    | ok p =>
      obtain ⟨t, o⟩ := p
      rw [hs1] at hst
      obtain ⟨q1, k1, k2, k3⟩ := hst
      have hih := ih t q1 _ k1 k2.outstanding (h3 t o hs1)
      rw [signRun_ok hs1]
      cases hs2 : signRun hs t cs with
      | ub u => rw [hs2] at hih; exact hih
      | err e => rw [hs2] at hih; exact hih
      | ok p =>
        obtain ⟨v, os⟩ := p
        rw [hs2] at hih
        obtain ⟨q2, gs2, ds2, xs2, n1, n2⟩ := hih
        have hpend : o.pending ≤ maxSeis := by
          rw [k3, ← Queue.slots_length]; exact k1.le
        obtain ⟨gs, ds, xs, hx⟩ := n2.cons hs1 k2 k3 hpend
        exact ⟨q2, gs, ds, xs, n1, hx⟩

theorem newSigner_q (codec : Codec) (oid : Bytes) (v : UInt8 × UInt8 × UInt8) : QAbs (newSigner codec oid v) ⟨[], []⟩ :=
  ⟨rfl, by simp [Queue.slots], rfl, rfl⟩

end SV
