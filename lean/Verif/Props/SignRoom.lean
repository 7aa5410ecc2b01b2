import Verif.Props.SignQueue
/-! C83: the memory for a SEI that is handed out. -/
namespace SV
open Spec

theorem queue_after (hs : Hashing) (rest : List SCall) : ∀ (cs : List SCall) (s : Signer) (q : Queue) (t : Signer) (os : List Obs),
    QAbs s q → Honest hs s q.P.length (cs ++ rest) → signRun hs s cs = .ok (t, os) →
    ∃ q', QAbs t q' ∧ Honest hs t q'.P.length rest := by
  intro cs
  induction cs with
  | nil =>
    intro s q t os h hh hr
    simp only [signRun, Out.ok.injEq, Prod.mk.injEq] at hr
    rw [← hr.1]
    exact ⟨q, h, hh⟩
  | cons c cs ih =>
    intro s q t os h hh hr
    obtain ⟨h1, h2, h3⟩ := hh
    have hst := signStep_q hs s c q h h1 h2
    cases hs1 : signStep hs s c with
    | ub u => rw [signRun_ub hs1] at hr; cases hr
    | err e => rw [signRun_err hs1] at hr; cases hr
    | ok p =>
      obtain ⟨v, o⟩ := p
      rw [hs1] at hst
      obtain ⟨q1, k1, k2, _⟩ := hst
      rw [signRun_ok hs1] at hr
      cases hs2 : signRun hs v cs with
      | ub u => rw [hs2] at hr; cases hr
      | err e => rw [hs2] at hr; cases hr
      | ok p =>
        obtain ⟨w, os'⟩ := p
        rw [hs2] at hr
        simp only [Out.ok.injEq, Prod.mk.injEq] at hr
        have := h3 v o hs1
        rw [← k2.outstanding] at this
        obtain ⟨q', k3, k4⟩ := ih v q1 w os' k1 this hs2
        rw [← hr.1]
        exact ⟨q', k3, k4⟩

/-- What a query of the size does: the oldest completed SEI has that size. -/
theorem query_front (hs : Hashing) (s t : Signer) (q : Queue) (peek : Option Bytes) (sigs : List SigAnswer) (o : Obs)
    (h : QAbs s q) (h1 : (oks sigs).length ≤ q.P.length) (h2 : ∀ x ∈ oks sigs, x ≠ [])
    (hr : signStep hs s (.getSei false peek sigs) = .ok (t, o)) (hn : seiSize s peek sigs ≠ 0) :
    o.sei = none ∧ ∃ d C P, QAbs t ⟨d :: C, P⟩ ∧ seiSize s peek sigs = d.bytes.length ∧
      P.length = q.P.length + o.signed.toList.length - o.got.length := by
  have h' : QAbs { s with signed := none, got := [] } q := ⟨h.buf, h.le, h.idx, h.completed⟩
  have hcs := completeSeis_step sigs _ q h' h1 h2
  unfold seiSize at hn ⊢
  simp only [signStep, signCall, getSei] at hr
  cases hc : completeSeis { s with signed := none, got := [] } sigs with
  | ub u => rw [hc] at hn; exact absurd rfl hn
  | err t0 e => rw [hc] at hn; exact absurd rfl hn
  | ok t0 x =>
    rw [hc] at hcs hn hr
    obtain ⟨ds, P, k1, k2, k3, k4, -, -⟩ := (show CompStep _ q t0 from hcs)
    simp only [Res.andThen_ok] at hr
    dsimp only at hn ⊢
    by_cases hpos : t0.completed < 1
    · rw [if_pos hpos] at hn; exact absurd rfl hn
    rw [if_neg hpos] at hn hr ⊢
    cases hC : q.C ++ ds with
    | nil => rw [hC] at k2; exact absurd (show t0.completed < 1 by rw [k2.completed]; exact Nat.one_pos) hpos
    | cons d C =>
      rw [hC] at k2
      have hb : t0.buf[0]? = some d.slot := by rw [k2.buf]; rfl
      have hout : handOut t0 0 false = .ok t0 none := by simp [handOut, hb]
      have fin : observe (handOut t0 0 false) = .ok (t, o) → o.sei = none ∧ ∃ d' C' P', QAbs t ⟨d' :: C', P'⟩ ∧
          d.bytes.length = d'.bytes.length ∧ P'.length = q.P.length + o.signed.toList.length - o.got.length := by
        intro hf
        rw [hout] at hf
        simp only [observe, Out.ok.injEq, Prod.mk.injEq] at hf
        obtain ⟨rfl, rfl⟩ := hf
        refine ⟨rfl, d, C, P, k2, rfl, ?_⟩
        have := congrArg List.length k1
        simp only [List.length_append, List.length_map] at this
        simp only [k3, k4, List.nil_append, List.length_map, Option.toList, List.length_nil]
        omega
      simp only [hb] at hn ⊢
      match peek, hn, hr with
      | none, _, hr => exact fin hr
      | some [], _, hr => exact fin hr
      | some (b :: bs), hn, hr =>
        dsimp only at hn hr ⊢
        cases hp : parseNalu (b :: bs) t0.codec false false with
        | ub u => rw [hp] at hn; exact absurd rfl hn
        | err e => rw [hp] at hn; exact absurd rfl hn
        | ok n =>
          rw [hp] at hn hr
          dsimp only at hn hr ⊢
          cases ha : peekAllows n with
          | false => rw [ha] at hn; exact absurd rfl hn
          | true =>
            rw [ha] at hr
            exact fin hr

/-- **C83, the size that was asked for:** if `signed_video_get_sei`, called without memory, gives the size of a SEI, then
the next SEI that is handed out has exactly that size, whatever is called in between and whatever signatures arrive
(as long as `signed_video_get_nalu_to_prepend` is not used as well), for every plugin that does not deliver more signatures
than it accepted hashes and no empty signature. -/
theorem C83_query_exact (hs : Hashing) (codec : Codec) (oid : Bytes) (v : UInt8 × UInt8 × UInt8) (cs ds : List SCall)
    (peek : Option Bytes) (sigs : List SigAnswer)
    (h : Honest hs (newSigner codec oid v) 0 (cs ++ .getSei false peek sigs :: ds)) (hd : ∀ c ∈ ds, NotPrepend c)
    (s s' : Signer) (os os' : List Obs) (hr : signRun hs (newSigner codec oid v) cs = .ok (s, os))
    (hr' : signRun hs s (.getSei false peek sigs :: ds) = .ok (s', os')) (hn : seiSize s peek sigs ≠ 0)
    (b : Bytes) (hb : (delivered os').head? = some b) : b.length = seiSize s peek sigs := by
  obtain ⟨q, k1, k2⟩ := queue_after hs _ cs _ ⟨[], []⟩ s os (newSigner_q codec oid v) h hr
  obtain ⟨m1, m2, m3⟩ := k2
  cases hs1 : signStep hs s (.getSei false peek sigs) with
  | ub u => rw [signRun_ub hs1] at hr'; cases hr'
  | err e => rw [signRun_err hs1] at hr'; cases hr'
  | ok p =>
    obtain ⟨t, o⟩ := p
    obtain ⟨n1, d, C, P, n2, n3, n4⟩ := query_front hs s t q peek sigs o k1 (by simpa [offered, extra] using m1)
      (by simpa [offered] using m2) hs1 hn
    rw [signRun_ok hs1] at hr'
    have hq := signRun_q hs ds t ⟨d :: C, P⟩ _ n2 n4 (m3 t o hs1)
    cases hs2 : signRun hs t ds with
    | ub u => rw [hs2] at hr'; cases hr'
    | err e => rw [hs2] at hr'; cases hr'
    | ok p =>
      obtain ⟨w, os2⟩ := p
      rw [hs2] at hr' hq
      simp only [Out.ok.injEq, Prod.mk.injEq] at hr'
      obtain ⟨q', gs, es, xs, -, hl⟩ := hq
      have ho := hl.order hd
      rw [← hr'.2] at hb
      have hdel : delivered (o :: os2) = xs.map Done.bytes := by
        rw [← hl.delivered]; simp [delivered, n1]
      rw [hdel] at hb
      cases xs with
      | nil => simp at hb
      | cons x xs =>
        simp only [List.cons_append, List.cons.injEq] at ho
        simp only [List.map_cons, List.head?_cons, Option.some.injEq] at hb
        rw [← hb, ho.1, n3]

/-- Non-vacuity: the size is asked for when one SEI is complete, another GOP is added, of which the SEI is larger and
complete too when the SEI is fetched. -/
def roomCalls : List SCall := toyCalls ++
  [.nalu [0, 0, 0, 1, 0x41, 0x9a, 0x80] none true none, .nalu [0, 0, 0, 1, 0x41, 0x9b, 0x80] none true none,
   .nalu [0, 0, 0, 1, 0x41, 0x9c, 0x80] none true none, .nalu [0, 0, 0, 1, 0x65, 0x88, 0x86, 0x80] none true none]

example : Honest toyHashing toySigner 0
      (roomCalls ++ .getSei false none [.ok [1, 2]] :: [.nalu [0, 0, 0, 1, 0x41, 0x9d, 0x80] none true none,
        .getSei true none [.ok [3, 4]], .getSei true none []]) ∧
    (∀ c ∈ [SCall.nalu [0, 0, 0, 1, 0x41, 0x9d, 0x80] none true none, .getSei true none [.ok [3, 4]], .getSei true none []],
      NotPrepend c) ∧
    (match signRun toyHashing toySigner roomCalls with
      | .ok (s, _) => (match signRun toyHashing s (.getSei false none [.ok [1, 2]] ::
            [.nalu [0, 0, 0, 1, 0x41, 0x9d, 0x80] none true none, .getSei true none [.ok [3, 4]], .getSei true none []]) with
          | .ok (_, os) => (delivered os).map List.length == [seiSize s none [.ok [1, 2]], seiSize s none [.ok [1, 2]] + 48]
          | _ => false)
      | _ => false) = true := by
  refine ⟨honest_of_check _ _ _ _ (by decide +kernel), ?_, by decide +kernel⟩
  intro c hc
  simp only [List.mem_cons, List.not_mem_nil, or_false] at hc
  rcases hc with rfl | rfl | rfl <;> simp [NotPrepend]

/-- What `signed_video_get_nalu_to_prepend` should do: write outside of the memory that it allocates for the SEI only if
some SEI does not fit in its memory when it is completed. -/
def C83_prepend_statement : Prop :=
  ∀ (hs : Hashing) (codec : Codec) (oid : Bytes) (v : UInt8 × UInt8 × UInt8) (cs : List SCall) (a b : List SigAnswer)
    (s : Signer) (os : List Obs), Honest hs (newSigner codec oid v) 0 (cs ++ [.prepend a b]) →
    signRun hs (newSigner codec oid v) cs = .ok (s, os) → signStep hs s (.prepend a b) = .ub .overflow →
    signStep hs s (.getSei false none (a ++ b)) = .ub .overflow

/-- **C83** for `signed_video_get_nalu_to_prepend`, if no signature becomes available between its two questions for
signatures (as with the plugin without threads).  Missing: plugins that sign in a thread, for which it is false. -/
theorem C83_prepend_partial (hs : Hashing) (codec : Codec) (oid : Bytes) (v : UInt8 × UInt8 × UInt8) (cs : List SCall)
    (a : List SigAnswer) (s : Signer) (os : List Obs)
    (h : Honest hs (newSigner codec oid v) 0 (cs ++ [.prepend a []]))
    (hr : signRun hs (newSigner codec oid v) cs = .ok (s, os)) (hu : signStep hs s (.prepend a []) = .ub .overflow) :
    signStep hs s (.getSei false none a) = .ub .overflow := by
  obtain ⟨q, k1, m1, m2, -⟩ := queue_after hs _ cs _ ⟨[], []⟩ s os (newSigner_q codec oid v) h hr
  have h' : QAbs { s with signed := none, got := [] } q := ⟨k1.buf, k1.le, k1.idx, k1.completed⟩
  have hcs := completeSeis_step a _ q h' (by simpa [offered, extra, oks] using m1) (by simpa [offered, oks] using m2)
  simp only [signStep, signCall, getSei, getPrepend] at hu ⊢
  cases hc : completeSeis { s with signed := none, got := [] } a with
  | ub u => rw [hc] at hu; exact hu
  | err t e => rw [hc] at hu; cases hu
  | ok t x =>
    rw [hc] at hu hcs
    obtain ⟨ds, P, -, k2, -, -, -, -⟩ := (show CompStep _ q t from hcs)
    simp only [Res.andThen_ok] at hu
    by_cases hpos : t.completed < 1
    · rw [if_pos hpos] at hu; cases hu
    rw [if_neg hpos] at hu
    exfalso
    rcases List.eq_nil_or_concat (q.C ++ ds) with hC | ⟨C, d, hC⟩
    · rw [hC] at k2; have := k2.completed; simp at this; omega
    · rw [List.concat_eq_append] at hC
      rw [hC] at k2
      have hd : t.buf[t.completed - 1]? = some d.slot := by
        rw [k2.buf, k2.completed, Queue.slots]
        simp
      rw [hd] at hu
      dsimp only at hu
      split at hu
      · cases hu
      · obtain ⟨hf, -⟩ | ⟨-, w, hw, -⟩ := handOut_last t d C P true k2
        · cases hf
        rw [getLatest, completeSeis, Res.andThen_ok, if_neg hpos, hw] at hu
        simp [intoRoom, Done.slot, observe] at hu

/-- If the signature of a longer GOP becomes available between the two questions, the larger SEI is copied to memory of
the size of the smaller one. -/
theorem C83_prepend_false : ¬ C83_prepend_statement := by
  intro h
  have hc : (match signRun toyHashing toySigner roomCalls with
      | .ok (s, _) => ubOf (signStep toyHashing s (.prepend [.ok [1]] [.ok [2]])) == some .overflow &&
          ubOf (signStep toyHashing s (.getSei false none [.ok [1], .ok [2]])) == none
      | _ => false) = true := by decide +kernel
  have hh : honestB toyHashing toySigner 0 (roomCalls ++ [.prepend [.ok [1]] [.ok [2]]]) = true := by decide +kernel
  cases hr : signRun toyHashing toySigner roomCalls with
  | ub u => rw [hr] at hc; cases hc
  | err e => rw [hr] at hc; cases hc
  | ok p =>
    rw [hr] at hc
    simp only [Bool.and_eq_true, beq_iff_eq] at hc
    have := h toyHashing .h264 [0x60, 0x86] (2, 2, 0) roomCalls [.ok [1]] [.ok [2]] p.1 p.2
      (honest_of_check _ _ _ _ hh) hr (ubOf_eq hc.1)
    have h2 := hc.2
    rw [show ([.ok [1], .ok [2]] : List SigAnswer) = [.ok [1]] ++ [.ok [2]] from rfl, this] at h2
    cases h2

end SV
