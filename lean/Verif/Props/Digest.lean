import Verif.Spec.Digest
/-!
C66: hashes computed in one go and bit by bit.
-/
namespace SV
namespace Digest
open SV.Spec

/-- The handle is as seen. -/
structure Sees (env : MdEnv) (s : Handle) (k : Seen) : Prop where
  type : s.type = k.algo
  busy : ∀ p d, k.data p = some d → ∃ t, k.algo = some t ∧ s.ctx p = some ⟨t, some d⟩
  idle : ∀ p, k.data p = none → ∀ c, s.ctx p = some c → c.data = none ∧ k.algo = some c.type

@[simp] theorem ctx_setCtx (s : Handle) (p q : Bool) (c : MdCtx) : (s.setCtx p c).ctx q = if q = p then some c else s.ctx q := by
  cases p <;> cases q <;> rfl

@[simp] theorem type_setCtx (s : Handle) (p : Bool) (c : MdCtx) : (s.setCtx p c).type = s.type := by cases p <;> rfl

@[simp] theorem data_set (k : Seen) (p q : Bool) (d : Option Bytes) : (k.set p d).data q = if q = p then d else k.data q := by
  cases p <;> cases q <;> rfl

@[simp] theorem algo_set (k : Seen) (p : Bool) (d : Option Bytes) : (k.set p d).algo = k.algo := by cases p <;> rfl

/-- Setting a context and what is seen of it. -/
theorem Sees.set {env : MdEnv} {s : Handle} {k : Seen} (h : Sees env s k) (p : Bool) (t : Nat) (d : Option Bytes)
    (ht : k.algo = some t) : Sees env (s.setCtx p ⟨t, d⟩) (k.set p d) := by
  refine ⟨by simpa using h.type, ?_, ?_⟩
  · intro q x hx
    simp only [data_set, ctx_setCtx, algo_set] at hx ⊢
    by_cases hq : q = p
    · rw [if_pos hq] at hx ⊢
      subst hx
      exact ⟨t, ht, rfl⟩
    · rw [if_neg hq] at hx ⊢
      exact h.busy q x hx
  · intro q hx c hc
    simp only [data_set, ctx_setCtx, algo_set] at hx hc ⊢
    by_cases hq : q = p
    · rw [if_pos hq] at hx hc
      cases hc
      exact ⟨hx, ht⟩
    · rw [if_neg hq] at hx hc
      exact h.idle q hx c hc

theorem init_sees {env : MdEnv} {s : Handle} {k : Seen} (h : Sees env s k) (p : Bool) :
    Sees env (initHash s p).1 (k.next env ⟨.init p, (initHash s p).2, .none⟩) := by
  unfold initHash
  cases hc : s.ctx p with
  | some c =>
    obtain ⟨t, dd⟩ := c
    have ht : k.algo = some t := by
      cases hd : k.data p with
      | none => exact (h.idle p hd _ hc).2
      | some d =>
        obtain ⟨t', h1, h2⟩ := h.busy p d hd
        rw [hc] at h2; cases h2; exact h1
    exact h.set p t _ ht
  | none =>
    cases ht : s.type with
    | none => exact h
    | some t => exact h.set p t _ (by rw [← h.type, ht])

theorem step_sees {env : MdEnv} {s : Handle} {k : Seen} (h : Sees env s k) (c : Call)
    (ho : ∀ o, c = .oid o → (env.byOid o).bind id = k.algo ∧ k.algo ≠ none) :
    Sees env (step env s c).1 (k.next env (step env s c).2) ∧ k.Right env (step env s c).2 := by
  cases c with
  | init p => exact ⟨init_sees h p, trivial⟩
  | update d p =>
    refine ⟨?_, trivial⟩
    simp only [step]
    unfold updateHash
    by_cases hd : d = []
    · rw [if_pos hd]; exact h
    rw [if_neg hd]
    cases hc : s.ctx p with
    | none => exact h
    | some c =>
      obtain ⟨t, dd⟩ := c
      cases dd with
      | none => exact h
      | some b =>
        cases hk : k.data p with
        | none => have := (h.idle p hk _ hc).1; cases this
        | some b' =>
          obtain ⟨t', h1, h2⟩ := h.busy p b' hk
          rw [hc] at h2; cases h2
          have := h.set p t (some (b ++ d)) h1
          simpa [Seen.next, hk] using this
  | finalize p =>
    simp only [step]
    unfold finalizeHash
    cases hc : s.ctx p with
    | none =>
      refine ⟨h, ?_⟩
      cases hk : k.data p with
      | none => simp [Seen.Right, hk]
      | some d => obtain ⟨t, -, h2⟩ := h.busy p d hk; rw [hc] at h2; cases h2
    | some c =>
      obtain ⟨t, dd⟩ := c
      cases hk : k.data p with
      | none =>
        obtain ⟨h1, h2⟩ := h.idle p hk _ hc
        dsimp only at h1
        subst h1
        exact ⟨h, by simp [Seen.Right, hk]⟩
      | some b =>
        obtain ⟨t', h1, h2⟩ := h.busy p b hk
        rw [hc] at h2; cases h2
        refine ⟨?_, by simp [Seen.Right, hk, h1]⟩
        have := h.set p t .none h1
        simpa [Seen.next] using this
  | hash d =>
    refine ⟨h, ?_⟩
    simp only [step, Seen.Right]
    unfold hashData
    by_cases hd : d = []
    · simp [hd]
    rw [if_neg hd, if_neg hd, ← h.type]
    cases s.type <;> rfl
  | algo n =>
    refine ⟨?_, trivial⟩
    simp only [step]
    unfold setAlgo
    cases hn : env.byName (n.getD env.default) with
    | none => exact h
    | some v =>
      obtain ⟨oid, t⟩ := v
      cases t with
      | none => exact h
      | some t =>
        simp [initHash, Handle.ctx, Handle.setCtx, Seen.next, hn]
        refine ⟨rfl, ?_, ?_⟩
        · intro p d hd
          cases p <;> cases hd
          exact ⟨t, rfl, rfl⟩
        · intro p hd c hc
          cases p
          · cases hd
          · cases hc
  | oid o =>
    refine ⟨?_, trivial⟩
    obtain ⟨h1, h2⟩ := ho o rfl
    simp only [step]
    unfold setOid
    have same : k = { k with algo := (env.byOid o).bind id } := by rw [h1]
    by_cases h3 : o = []
    · rw [if_pos h3]; exact h
    rw [if_neg h3]
    by_cases h4 : o = s.oid
    · rw [if_pos h4]
      simp only [Seen.next]
      rw [← same]; exact h
    rw [if_neg h4]
    cases hb : env.byOid o with
    | none => rw [hb] at h1; exact absurd h1.symm h2
    | some v =>
      rw [hb] at h1
      cases v with
      | none => exact absurd h1.symm h2
      | some t =>
        simp only [Seen.next]
        rw [← same]
        exact ⟨h1, h.busy, h.idle⟩

theorem run_sees {env : MdEnv} (cs : List Call) : ∀ {s : Handle} {k : Seen}, Sees env s k →
    OidsKnown env k (run env s cs).2 → AllRight env k (run env s cs).2 := by
  induction cs with
  | nil => intro s k _ _; trivial
  | cons c cs ih =>
    intro s k h ho
    have hc : (step env s c).2.call = c := by cases c <;> rfl
    obtain ⟨h1, h2⟩ := step_sees h c (fun o he => ho.1 o (hc.trans he))
    exact ⟨h2, ih h1 ho.2⟩

/-- What is seen of a handle that has just been created. -/
def created (env : MdEnv) : Seen := { algo := (env.byName env.default).bind Prod.snd, secondary := some [] }

/-- **C66, partial.** Whatever is called on a handle: a hash computed in one go, and one computed bit by bit, is that of the bytes
given with the algorithm in force, and there is one whenever there can be one.  What is missing: encoded OIDs of other algorithms
than that in force; see `C66_oid_false`. -/
theorem C66_hash_partial (env : MdEnv) (s : Handle) (hs : create env = some s) (cs : List Call)
    (ho : OidsKnown env (created env) (run env s cs).2) : AllRight env (created env) (run env s cs).2 := by
  refine run_sees cs ?_ ho
  have h0 : Sees env {} ⟨none, none, none⟩ := by
    refine ⟨rfl, ?_, ?_⟩
    · intro p d h; cases p <;> cases h
    · intro p _ c h; cases p <;> cases h
  have := (step_sees h0 (.algo (some env.default)) (by intro o h; cases h)).1
  unfold create at hs
  cases h1 : setAlgo env {} (some env.default) with
  | mk s' rc =>
    cases rc with
    | none =>
      rw [h1] at hs
      cases hs
      simpa [step, h1, Seen.next, created] using this
    | some e => rw [h1] at hs; cases hs

/-- Two algorithms for the witnesses. -/
def demoMd : MdEnv where
  byName n := if n = [1] then some ([11], some 1) else if n = [2] then some ([12], some 2) else none
  byOid o := if o = [11] then some (some 1) else if o = [12] then some (some 2) else none
  size _ := 2
  H t d := [UInt8.ofNat t, d.foldl (· + ·) 0]
  default := [1]

/-- Non-vacuity: another algorithm is set by its name, then its OID, and both contexts are used, in turns. -/
example : ∃ s, create demoMd = some s ∧
    let cs : List Call := [.init true, .update [5] true, .algo (some [2]), .oid [12], .init true, .update [1] true, .update [3] false,
      .update [2] true, .finalize true, .finalize false, .hash [1, 2]]
    OidsKnown demoMd (created demoMd) (run demoMd s cs).2 ∧
    (run demoMd s cs).2.filterMap Ev.hash = [[2, 3], [2, 3], [2, 3]] := by
  refine ⟨_, rfl, ?_, by decide⟩
  refine ⟨?_, ?_, ?_, ?_, ?_, ?_, ?_, ?_, ?_, ?_, ?_, trivial⟩
  all_goals first
    | (intro o h; cases h; done)
    | (intro o h; cases h; decide)

/-- **C66, false in general.** An OID sets the algorithm for hashes in one go only: as long as algorithms are set by OIDs, the
context for NAL units in parts computes hashes with the default algorithm, whatever is called. -/
theorem C66_stale_false (env : MdEnv) (s : Handle) (t : Nat) (hs : create env = some s) (ht : (created env).algo = some t)
    (cs : List Call) (hn : ∀ n, .algo n ∉ cs) :
    ∀ e ∈ (run env s cs).2, e.call = .finalize false → ∀ h, e.hash = some h → ∃ d, h = env.H t d := by
  have h0 : ∃ d, s.secondary = some ⟨t, d⟩ := by
    unfold create at hs
    unfold created at ht
    unfold setAlgo at hs
    dsimp only [Option.getD] at hs
    cases h1 : env.byName env.default with
    | none => rw [h1] at ht; cases ht
    | some v =>
      obtain ⟨oid, t'⟩ := v
      rw [h1] at ht hs
      cases ht
      cases hs
      exact ⟨_, rfl⟩
  clear hs ht
  induction cs generalizing s with
  | nil => intro e he; cases he
  | cons c cs ih =>
    obtain ⟨d, hd⟩ := h0
    have hstep : ∃ d, (step env s c).1.secondary = some ⟨t, d⟩ := by
      cases c with
      | init p =>
        cases p with
        | false => exact ⟨some [], by simp [step, initHash, Handle.ctx, hd, Handle.setCtx]⟩
        | true =>
          simp only [step, initHash, Handle.ctx]
          cases s.primary with
          | some c => exact ⟨d, hd⟩
          | none => cases s.type <;> exact ⟨d, hd⟩
      | update x p =>
        simp only [step, updateHash]
        split
        · exact ⟨d, hd⟩
        · cases p with
          | false =>
            simp only [Handle.ctx, hd]
            cases d with
            | none => exact ⟨_, hd⟩
            | some b => exact ⟨_, rfl⟩
          | true =>
            rcases s with ⟨pr, se, oid, sz, ty⟩
            rcases pr with _ | ⟨ty', _ | b⟩ <;> exact ⟨d, hd⟩
      | finalize p =>
        simp only [step, finalizeHash]
        cases p with
        | false =>
          simp only [Handle.ctx, hd]
          cases d with
          | none => exact ⟨_, hd⟩
          | some b => exact ⟨_, rfl⟩
        | true =>
          rcases s with ⟨pr, se, oid, sz, ty⟩
          rcases pr with _ | ⟨ty', _ | b⟩ <;> exact ⟨d, hd⟩
      | hash x => exact ⟨d, hd⟩
      | algo n => exact absurd List.mem_cons_self (hn n)
      | oid o =>
        simp only [step, setOid]
        split
        · exact ⟨d, hd⟩
        · split
          · exact ⟨d, hd⟩
          · split <;> exact ⟨d, hd⟩
    intro e he hc h hh
    rcases List.mem_cons.1 he with rfl | he
    · have hc' : (step env s c).2.call = c := by cases c <;> rfl
      rw [hc'] at hc
      subst hc
      simp only [step, finalizeHash, Handle.ctx, hd] at hh
      cases d with
      | none => cases hh
      | some b => cases hh; exact ⟨b, rfl⟩
    · exact ih _ (fun n hm => hn n (List.mem_cons_of_mem _ hm)) hstep e he hc h hh

/-- **C66, false in general.** After the OID of another algorithm, the same byte has different hashes in one go and bit by bit. -/
theorem C66_oid_false : ∃ env s, create env = some s ∧
    (run env s [.oid [12], .init false, .update [7] false, .finalize false, .hash [7]]).2 =
      [⟨.oid [12], none, none⟩, ⟨.init false, none, none⟩, ⟨.update [7] false, none, none⟩, ⟨.finalize false, none, some [1, 7]⟩,
        ⟨.hash [7], none, some [2, 7]⟩] := ⟨demoMd, _, rfl, by decide⟩

/-- **C66, false in general.** An OID of no algorithm is an error the first time it is set, and fine the second. -/
theorem C66_twice_false (env : MdEnv) (s : Handle) (o : Bytes) (h0 : o ≠ []) (h1 : o ≠ s.oid) (h2 : env.byOid o = none) :
    (run env s [.oid o, .oid o]).2 = [⟨.oid o, some .externalError, none⟩, ⟨.oid o, none, none⟩] ∧
    (run env s [.oid o, .oid o]).1.type = s.type := by
  simp [run, step, setOid, h0, h1, h2]

/-- Non-vacuity of both. -/
example : ∃ s, create demoMd = some s ∧ (created demoMd).algo = some 1 ∧ [99] ≠ s.oid ∧ demoMd.byOid [99] = none :=
  ⟨_, rfl, rfl, by decide, rfl⟩

end Digest
end SV
