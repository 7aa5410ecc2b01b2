import Verif.Proofs.AuthCall
import Verif.Props.AuthDemo
/-! Termination of the validation loop (C46). -/
namespace SV

/-- **C46** as claimed: in every session, adding a NAL unit ends after some number of rounds of the validation loop. -/
def C46_statement : Prop :=
  ∀ (env : AuthEnv) (codec : Codec) (calls : List AuthCall) (s : Validator) (os : List AObs) (data : Bytes),
    authRun env (newValidator env codec) calls = .ok (s, os) → ∃ k, s.add (env.withRounds k) data ≠ .ub .diverge

/-- Sufficient check for a stuck state. -/
def stuckB (s : Validator) : Bool :=
  s.flags.signing && !s.flags.first && s.synced && decide (Ahead s) && decide (s.d.hashSize ≤ 64) && s.d.hasPublicKey &&
  s.d.maxSignature.isSome && !s.d.signature.isEmpty && s.key.isSome && s.list.all (fun x => !x.2.used) &&
  (Validator.scan true s.list {}).found &&
  (match s.list.find? (fun x => x.2.status = .P) with
    | some x => x.2.isSei && x.2.decoded
    | none => false)

theorem Stuck.of_check {s : Validator} (h : stuckB s = true) : Stuck s := by
  unfold stuckB at h
  simp only [Bool.and_eq_true, decide_eq_true_eq, Bool.not_eq_true', List.all_eq_true] at h
  obtain ⟨⟨⟨⟨⟨⟨⟨⟨⟨⟨⟨h1, h2⟩, h3⟩, h4⟩, h5⟩, h6⟩, h7⟩, h8⟩, h9⟩, h10⟩, h11⟩, h12⟩ := h
  refine ⟨h1, h2, h3, h4, fun _ => h5, h6, fun _ => ⟨?_, ?_, ?_⟩, h10, h11, ?_⟩
  · intro hc; rw [hc] at h7; cases h7
  · intro hc; rw [hc] at h8; cases h8
  · intro hc; rw [hc] at h9; cases h9
  · cases hx : s.list.find? (fun x => x.2.status = .P) with
    | none => rw [hx] at h12; cases h12
    | some x =>
      rw [hx] at h12
      simp only [Bool.and_eq_true] at h12
      obtain ⟨hp, pre, rest, hl, hpre⟩ := List.find?_eq_some_iff_append.1 hx
      unfold Item.isSei at h12
      cases hn : x.2.nalu with
      | none => rw [hn] at h12; cases h12.1
      | some n =>
        rw [hn] at h12
        exact ⟨pre, x, rest, n, hl, fun y hy => by simpa using hpre y hy, by simpa using hp, hn, h12.1, h12.2⟩

/-- A signed stream of which the NAL units 6 to 20 are lost: what is received is an I-frame, two P-frames, an I-frame and
the first SEI, then the SEI of the fifth GOP, two P-frames and an I-frame. -/
def hangStream : List Bytes :=
  let l := toySigned [] "IPPIPPIPPIPPIPPIPPI"
  l.take 5 ++ (l.drop 20).take 4

/-- The session enters the loop at the last NAL unit, and is stuck after the first round. -/
def hangB : Bool :=
  match authRun toyEnv (newValidator toyEnv .h264) (hangStream.dropLast.map AuthCall.nalu) with
  | .ok (s, _) =>
    match Validator.atLoop toyEnv s (hangStream.getLastD []) with
    | some v => v.hasPending.2 && (match v.hasPending.1.round toyEnv with | .ok v _ => stuckB v | _ => false)
    | none => false
  | _ => false

theorem rounds_of_stuck {env : AuthEnv} (he : env.ov = .exact) (k : Nat) {v : Validator}
    (h : (v.hasPending.2 && (match v.hasPending.1.round env with | .ok v _ => stuckB v | _ => false)) = true) :
    v.rounds env k = .ub .diverge := by
  cases k with
  | zero => rfl
  | succ k =>
    rw [Bool.and_eq_true] at h
    unfold Validator.rounds
    rw [if_pos h.1]
    cases hr : v.hasPending.1.round env with
    | err s e => rw [hr] at h; cases h.2
    | ub u => rw [hr] at h; cases h.2
    | ok v' a =>
      rw [hr] at h
      have hs := Stuck.of_check h.2
      rw [Res.andThen_ok, hs.signing, if_pos rfl]
      exact Validator.Stuck.diverges he k hs

/-- **C46** does not hold: after the loss of some GOPs of a signed stream, the validator is stuck in the call for the next
I-frame, however many rounds are allowed. -/
theorem C46_hang : ∃ s os, authRun toyEnv (newValidator toyEnv .h264) (hangStream.dropLast.map AuthCall.nalu) = .ok (s, os) ∧
    ∀ k, s.add (toyEnv.withRounds k) (hangStream.getLastD []) = .ub .diverge := by
  have h : hangB = true := by decide +kernel
  unfold hangB at h
  cases hr : authRun toyEnv (newValidator toyEnv .h264) (hangStream.dropLast.map AuthCall.nalu) with
  | err e => rw [hr] at h; cases h
  | ub u => rw [hr] at h; cases h
  | ok p =>
    rw [hr] at h
    refine ⟨p.1, p.2, rfl, fun k => ?_⟩
    dsimp only at h
    cases ha : Validator.atLoop toyEnv p.1 (hangStream.getLastD []) with
    | none => rw [ha] at h; cases h
    | some v =>
      rw [ha] at h
      exact Validator.atLoop_diverges toyEnv k p.1 _ v ha (rounds_of_stuck rfl k h)

theorem C46_statement_false : ¬ C46_statement := by
  intro h
  obtain ⟨s, os, h1, h2⟩ := C46_hang
  obtain ⟨k, hk⟩ := h toyEnv .h264 _ s os (hangStream.getLastD []) h1
  exact hk (h2 k)

/-! ### When the loop ends -/

/-- `k` rounds of the loop of `maybe_validate_gop` (`signed_video_h26x_auth.c` 1000-1036) lead from one state to another,
and the loop is not stopped. -/
inductive Steps (env : AuthEnv) : Nat → Validator → Validator → Prop
  | zero (s : Validator) : Steps env 0 s s
  | succ {k : Nat} {s t u : Validator} : s.hasPending.2 = true → s.hasPending.1.round env = .ok t () →
      t.flags.signing = true → Steps env k t u → Steps env (k + 1) s u

/-- The loop of the model performs these rounds. -/
theorem Steps.rounds {env : AuthEnv} {k : Nat} {s t : Validator} (h : Steps env k s t) (j : Nat) :
    s.rounds env (k + j) = t.rounds env j := by
  induction h with
  | zero s => rw [Nat.zero_add]
  | @succ k s t u hp hr hs _ ih =>
    rw [show k + 1 + j = (k + j) + 1 by omega, Validator.rounds, if_pos hp, hr, Res.andThen_ok, if_pos hs]
    exact ih

theorem Steps.trans {env : AuthEnv} {k j : Nat} {s t u : Validator} (h : Steps env k s t) (g : Steps env j t u) :
    Steps env (k + j) s u := by
  induction h with
  | zero s => rw [Nat.zero_add]; exact g
  | @succ k s t u hp hr hs _ ih =>
    rw [show k + 1 + j = (k + j) + 1 by omega]
    exact .succ hp hr hs (ih g)

/-- Once it is stopped, the number of rounds that is allowed is of no importance. -/
theorem Steps.stable {env : AuthEnv} {k : Nat} {s : Validator} (h : ∀ t, ¬ Steps env k s t) (j : Nat) :
    s.rounds env (k + j) = s.rounds env k := by
  induction k generalizing s with
  | zero => exact absurd (.zero s) (h s)
  | succ k ih =>
    rw [show k + 1 + j = (k + j) + 1 by omega, Validator.rounds, Validator.rounds]
    split
    · rename_i hp
      cases hr : s.hasPending.1.round env with
      | ub u => rfl
      | err t e => rfl
      | ok t a =>
        rw [Res.andThen_ok, Res.andThen_ok]
        split
        · rename_i hs
          exact ih fun u hu => h u (.succ hp hr hs hu)
        · rfl
    · rfl

theorem Validator.round_first {env : AuthEnv} {s t : Validator} (h : s.round env = .ok t ()) :
    t.flags.first = !t.flags.signing := by
  unfold Validator.round at h
  obtain ⟨u, _, _, h2⟩ := Res.andThen_eq_ok h
  split at h2
  · cases h2
  · cases h2
  · obtain ⟨v, _, _, h3⟩ := Res.andThen_eq_ok h2
    cases h3; rfl

theorem Steps.next_wfs {env : AuthEnv} {s t : Validator} (w : Validator.WFs s) (h : s.hasPending.1.round env = .ok t ()) :
    Validator.WFs t :=
  (Validator.wfs_inv.round env (s := s.hasPending.1) w).of_ok h

/-- A session that is past its first validation performs at most as many rounds as there are pending items, unless it
comes into a stuck state. -/
theorem Steps.bound {env : AuthEnv} {k : Nat} {s t : Validator} (w : Validator.WFs s) (hs : s.flags.signing = true)
    (hf : s.flags.first = false) (h : Steps env k s t) (hk : numPending s.list < k) :
    env.ov = .exact ∧ ∃ j u, Steps env j s u ∧ Stuck u := by
  induction h with
  | zero s => omega
  | @succ k s t u hp hr hs' hst ih =>
    have wt := Steps.next_wfs w hr
    have ft : t.flags.first = false := by rw [Validator.round_first hr, hs']; rfl
    rcases Validator.round_progress w hs hf hp hr with hlt | ⟨he, hstuck⟩
    · obtain ⟨he, j, v, hj, hv⟩ := ih wt hs' ft (by omega)
      exact ⟨he, j + 1, v, .succ hp hr hs' hj, hv⟩
    · cases hst with
      | zero =>
        obtain ⟨x, hx⟩ := Validator.hasPending_sei hs hp
        exfalso
        obtain ⟨hm, hP, -⟩ := Validator.nextSei_spec hx
        have hl := List.length_pos_of_mem (mem_pend.2 ⟨x, hm, rfl, hP⟩)
        rw [pend_length] at hl
        omega
      | succ hp' hr' hs'' hst' =>
        exact ⟨he, 1, t, .succ hp hr hs' (.zero t), hstuck hp'⟩

theorem Stuck.steps {env : AuthEnv} (he : env.ov = .exact) (m : Nat) {t : Validator} (ht : Stuck t) : ∃ u, Steps env m t u := by
  induction m generalizing t with
  | zero => exact ⟨t, .zero t⟩
  | succ m ih =>
    obtain ⟨u, hr, hu⟩ := Validator.Stuck.round he ht
    obtain ⟨v, hv⟩ := ih hu
    have hp : t.hasPending.2 = true := by
      show (Validator.scan t.flags.signing t.list {}).found = true
      rw [ht.signing]; exact ht.pend
    exact ⟨v, .succ hp hr hu.signing hv⟩

theorem Steps.take {env : AuthEnv} {k j : Nat} {s t : Validator} (h : Steps env (k + j) s t) : ∃ u, Steps env k s u := by
  induction k generalizing s with
  | zero => exact ⟨s, .zero s⟩
  | succ k ih =>
    rw [show k + 1 + j = (k + j) + 1 by omega] at h
    cases h with
    | succ hp hr hs hst =>
      obtain ⟨u, hu⟩ := ih hst
      exact ⟨u, .succ hp hr hs hu⟩

/-- The rounds go on for ever only if a stuck state is reached, and then the difference of the GOP counters is computed as
GCC does. -/
theorem endless_stuck {env : AuthEnv} {s : Validator} (w : Validator.WFs s) (h : ∀ k, ∃ t, Steps env k s t) :
    env.ov = .exact ∧ ∃ k t, Steps env k s t ∧ Stuck t := by
  obtain ⟨t1, h1⟩ := h 1
  cases h1 with
  | succ hp hr hs hz =>
    cases hz
    obtain ⟨u, hu⟩ := h (numPending t1.list + 2)
    cases hu with
    | @succ _ _ t2 _ hp' hr' hs' hst =>
      rw [hr] at hr'; cases hr'
      obtain ⟨he, j, v, hj, hv⟩ := Steps.bound (Steps.next_wfs w hr) hs (by rw [Validator.round_first hr, hs]; rfl) hst (by omega)
      exact ⟨he, j + 1, v, .succ hp hr hs hj, hv⟩

theorem atLoop_wfs {env : AuthEnv} {s v : Validator} {data : Bytes} (w : Validator.WFs s) (h : Validator.atLoop env s data = some v) :
    Validator.WFs v := by
  unfold Validator.atLoop at h
  split at h
  · cases h
  · split at h
    · rename_i n _
      dsimp only at h
      split at h
      · cases h
      · have h1 : WF (s.list.append s.brk (newItem (some n))) (s.brk + 1) := Validator.WF.append w _
        split at h
        · rename_i t _ ht
          obtain ⟨t', _, h2, h3⟩ := Res.andThen_eq_ok ht
          have w2 := (Validator.register_wfs env s.brk n (by exact h1)).of_ok h2
          have w3 := (Validator.wfs_mid.hashAlgoBlock env s.brk n w2).of_ok h3
          split at h
          · cases h
          · split at h
            · cases h
            · split at h
              · rename_i u ok hu
                split at h
                · cases h
                  exact ((Validator.recurrentDecoded_decoded env t).mono fun _ hd =>
                    Validator.wfs_mid.prep _ _ (Validator.Prep.of_decoded hd) w3).of_ok hu
                · cases h
              · cases h
        · cases h
    · cases h

/-- **C46**, what holds. Let a call for a NAL unit enter the validation loop, in any session. The rounds of the loop go on
for ever exactly if a stuck state is reached: in sync, the GOP counter of the SEI that was decoded last is ahead of the
expected one, and that SEI is the oldest pending item. A compiler that takes the difference of the counters for non-negative
or wraps it makes the loop end. -/
theorem C46_endless_partial {env : AuthEnv} {codec : Codec} {calls : List AuthCall} {s : Validator} {os : List AObs}
    (hr : authRun env (newValidator env codec) calls = .ok (s, os)) {data : Bytes} {v : Validator}
    (hv : Validator.atLoop env s data = some v) :
    (∀ k, ∃ t, Steps env k v t) ↔ env.ov = .exact ∧ ∃ k t, Steps env k v t ∧ Stuck t := by
  have w := atLoop_wfs (Validator.authRun_wfs hr) hv
  constructor
  · exact endless_stuck w
  · rintro ⟨he, k, t, hk, ht⟩ m
    obtain ⟨u, hu⟩ := ht.steps he m
    have := hk.trans hu
    rw [Nat.add_comm] at this
    exact this.take

/-- **C46**, what holds: if no stuck state is reached, the outcome of the loop does not depend on the number of rounds that
is allowed, from some number on. -/
theorem C46_ends_partial {env : AuthEnv} {codec : Codec} {calls : List AuthCall} {s : Validator} {os : List AObs}
    (hr : authRun env (newValidator env codec) calls = .ok (s, os)) {data : Bytes} {v : Validator}
    (hv : Validator.atLoop env s data = some v) (h : ∀ k t, Steps env k v t → ¬ Stuck t) :
    ∃ k, (∀ t, ¬ Steps env k v t) ∧ ∀ j, v.rounds env (k + j) = v.rounds env k := by
  have : ¬ ∀ k, ∃ t, Steps env k v t := fun hc => by
    obtain ⟨-, k, t, hk, ht⟩ := (C46_endless_partial hr hv).1 hc
    exact h k t hk ht
  obtain ⟨k, hk⟩ := Classical.not_forall.1 this
  have hk' : ∀ t, ¬ Steps env k v t := fun t ht => hk ⟨t, ht⟩
  exact ⟨k, hk', Steps.stable hk'⟩

/-- **C46**, what holds: past the first validation, the number of rounds is at most the number of pending items. -/
theorem C46_rounds_partial {env : AuthEnv} {codec : Codec} {calls : List AuthCall} {s : Validator} {os : List AObs}
    (hr : authRun env (newValidator env codec) calls = .ok (s, os)) {data : Bytes} {v : Validator}
    (hv : Validator.atLoop env s data = some v) (hs : v.flags.signing = true) (hf : v.flags.first = false)
    (h : ∀ k t, Steps env k v t → ¬ Stuck t) {k : Nat} {t : Validator} (hk : Steps env k v t) :
    k ≤ numPending v.list := by
  refine Nat.le_of_not_lt fun hlt => ?_
  obtain ⟨-, j, u, hj, hu⟩ := hk.bound (atLoop_wfs (Validator.authRun_wfs hr) hv) hs hf hlt
  exact h j u hj hu

/-- The session before the second SEI of a stream without losses. -/
def calmSession : Out (Validator × List AObs) :=
  authRun toyEnv (newValidator toyEnv .h264) (((toySigned [] "IPPIPPIPP").take 8).map AuthCall.nalu)

/-- With the SEI the session enters the loop, performs one round and finds nothing more pending. -/
def calmB : Bool :=
  match calmSession with
  | .ok (s, _) =>
    match Validator.atLoop toyEnv s (((toySigned [] "IPPIPPIPP").drop 8).headD []) with
    | some v => v.hasPending.2 && v.flags.signing && !v.flags.first && !decide (Ahead v) && (match v.hasPending.1.round toyEnv with
      | .ok t _ => t.flags.signing && !t.hasPending.2 && !(Validator.scan true t.list {}).found
      | _ => false)
    | none => false
  | _ => false

/-- The hypotheses of the theorems above hold of a session on a stream without losses, in which a round is performed. -/
example : ∃ s os data v, calmSession = .ok (s, os) ∧ Validator.atLoop toyEnv s data = some v ∧
    v.flags.signing = true ∧ v.flags.first = false ∧ (∃ t, Steps toyEnv 1 v t) ∧ ∀ k t, Steps toyEnv k v t → ¬ Stuck t := by
  have h : calmB = true := by decide +kernel
  unfold calmB at h
  cases hr : calmSession with
  | err e => rw [hr] at h; cases h
  | ub u => rw [hr] at h; cases h
  | ok p =>
    rw [hr] at h
    dsimp only at h
    cases ha : Validator.atLoop toyEnv p.1 (((toySigned [] "IPPIPPIPP").drop 8).headD []) with
    | none => rw [ha] at h; cases h
    | some v =>
      rw [ha] at h
      dsimp only at h
      cases ht : v.hasPending.1.round toyEnv with
      | ub u => rw [ht] at h; simp at h
      | err t e => rw [ht] at h; simp at h
      | ok t a =>
        rw [ht] at h
        simp only [Bool.and_eq_true, Bool.not_eq_true', decide_eq_false_iff_not] at h
        obtain ⟨⟨⟨⟨h1, h2⟩, h3⟩, h4⟩, ⟨h5, h6⟩, h7⟩ := h
        refine ⟨p.1, p.2, _, v, rfl, ha, h2, h3, ⟨t, .succ h1 ht h5 (.zero t)⟩, ?_⟩
        intro k u hs hst
        cases hs with
        | zero => exact h4 hst.ahead
        | succ hp hr' hs' hrest =>
          rw [ht] at hr'; cases hr'
          cases hrest with
          | zero => have := hst.pend; rw [h7] at this; cases this
          | succ hp' _ _ _ => rw [h6] at hp'; cases hp'

end SV
