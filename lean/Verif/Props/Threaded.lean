import Verif.Proofs.Threaded4
import Verif.Proofs.ThreadedLocal
/-!
C27, C28, C29: the threaded signing plugin.
-/
namespace SV
open SV.Spec SV.Threaded

/-! ### C27 -/

/-- **C27, as stated:** whatever the schedule, the signatures handed to a session are signatures of
hashes it submitted itself, in order of submission. -/
def C27_statement : Prop :=
  ∀ (sign : Nat → Bytes → Option Bytes) (maxSig : Nat) (xs : List Step) (c : Central) (es : List Ev),
    run sign (Central.init maxSig) xs = .ok (c, es) →
    ∀ k, ∃ hs, hs.Sublist (acceptedBy k es) ∧ SigsOf sign hs (deliveredTo k es)

theorem run_hist (sign : Nat → Bytes → Option Bytes) : ∀ (xs : List Step) (c : Central)
    (iq : List (UInt32 × Bytes)) (gq : GQ) (live : List UInt32) (es0 : List Ev) (c' : Central)
    (es : List Ev), BInv (fun _ => True) c iq (forget gq) live →
    Hist sign c.handles c.signing iq gq es0 → Low c live → c.last.toNat + setups xs < 2 ^ 32 →
    run sign c xs = .ok (c', es) →
    ∀ k, ∃ dh, SigsOf sign dh (deliveredTo k (es0 ++ es)) ∧ dh.Sublist (acceptedBy k (es0 ++ es)) := by
  intro xs
  induction xs with
  | nil =>
    intro c iq gq live es0 c' es hb hh hl hn hr k
    simp only [run, Out.ok.injEq, Prod.mk.injEq] at hr
    rw [← hr.2]
    simpa using hh.all k
  | cons x xs ih =>
    intro c iq gq live es0 c' es hb hh hl hn hr
    have hP : SizeOk (fun _ => True) x := by cases x <;> exact trivial
    rcases step_inv sign hb x hP with ⟨h1, -⟩ | ⟨h1, -⟩ | ⟨c1, e, iq', oq', live', h1, h2, h3⟩
    · simp [run, h1] at hr
    · simp [run, h1] at hr
    · simp only [run, h1, Out.bind_ok] at hr
      cases hr2 : run sign c1 xs with
      | err e => rw [hr2] at hr; simp at hr
      | ub e => rw [hr2] at hr; simp at hr
      | ok q =>
        obtain ⟨c2, es2⟩ := q
        rw [hr2] at hr
        simp only [Out.bind_ok, Out.ok.injEq, Prod.mk.injEq] at hr
        obtain ⟨rfl, rfl⟩ := hr
        -- the id handed out is new
        have hlow : (∀ a1 a2 w, x = .setup a1 a2 → c.signing = some w →
            e = .setup c.handles.length true → w.1 ≠ c1.last) ∧ Low c1 live' ∧
            c1.last.toNat + setups xs < 2 ^ 32 := by
          by_cases hx : ∃ a1 a2, x = .setup a1 a2
          · obtain ⟨a1, a2, rfl⟩ := hx
            have hs : setups (Step.setup a1 a2 :: xs) = setups xs + 1 := by simp [setups]
            rw [hs] at hn
            simp only [step] at h1
            cases hcs : centralSetup c a1 a2 with
            | err e => rw [hcs] at h1; simp at h1
            | ub e => rw [hcs] at h1; simp at h1
            | ok q =>
              obtain ⟨c1', ok⟩ := q
              rw [hcs] at h1
              simp only [Out.bind_ok, Out.ok.injEq, Prod.mk.injEq] at h1
              obtain ⟨rfl, rfl⟩ := h1
              obtain ⟨g1, g2, g3⟩ := setup_low hb.id hl (by omega) hcs
              have hmono : c.last.toNat ≤ c1'.last.toNat := by
                rcases g2 with g2 | g2
                · rw [g2]; exact Nat.le_refl _
                · omega
              refine ⟨?_, ⟨?_, ?_⟩, ?_⟩
              · intro b1 b2 w _ hw he
                simp only [Ev.setup.injEq] at he
                have e1 := g3 he.2
                have e2 := hl.2 w hw
                intro e3; rw [e3] at e2; omega
              · intro id hid
                cases h3 with
                | setupFail _ _ h4 _ =>
                  obtain ⟨k, hk⟩ := (h2.id.mem id).1 hid
                  rw [h4] at hk
                  exact Nat.le_trans (hl.1 id ((hb.id.mem id).2 ⟨k, hk⟩)) hmono
                | setupOk _ _ _ _ h4 _ =>
                  obtain ⟨k, hk⟩ := (h2.id.mem id).1 hid
                  rw [h4] at hk
                  by_cases hlt : k < c.handles.length
                  · rw [List.getElem?_append_left hlt] at hk
                    exact Nat.le_trans (hl.1 id ((hb.id.mem id).2 ⟨k, hk⟩)) hmono
                  · rw [List.getElem?_append_right (by omega)] at hk
                    cases hz : k - c.handles.length with
                    | zero => rw [hz] at hk; simp at hk; rw [hk]; exact Nat.le_refl _
                    | succ n => rw [hz] at hk; simp at hk
              · intro w hw
                rw [g1] at hw
                exact Nat.le_trans (hl.2 w hw) hmono
              · rcases g2 with g2 | g2
                · rw [g2]; omega
                · omega
          · have hx' : ∀ a1 a2, x ≠ .setup a1 a2 := fun a1 a2 e => hx ⟨a1, a2, e⟩
            have hlast := step_last h1 hx'
            have hs : setups (x :: xs) = setups xs := by
              cases x with
              | setup a1 a2 => exact absurd rfl (hx' a1 a2)
              | _ => simp [setups]
            rw [hs] at hn
            refine ⟨fun a1 a2 w e => absurd e (hx' a1 a2), ⟨?_, ?_⟩, by rw [hlast]; exact hn⟩
            · intro id hid
              rw [hlast]
              obtain ⟨k, hk⟩ := (h2.id.mem id).1 hid
              have hold : ∃ k : Nat, c.handles[k]? = some (some id) := by
                cases h3 with
                | setupFail _ _ h4 _ => exact absurd rfl (hx' _ _)
                | setupOk _ _ _ _ h4 _ => exact absurd rfl (hx' _ _)
                | @teardown j jd _ _ _ h4 _ =>
                  rw [h4] at hk
                  refine ⟨k, ?_⟩
                  by_cases e : j = k
                  · subst e
                    rw [List.getElem?_set_self'] at hk
                    cases hh : c.handles[j]? with
                    | none => rw [hh] at hk; simp at hk
                    | some v => rw [hh] at hk; simp at hk
                  · rw [List.getElem?_set_ne e] at hk; exact hk
                | submit _ _ _ h4 _ => exact ⟨k, h4 ▸ hk⟩
                | refused _ _ h4 _ => exact ⟨k, h4 ▸ hk⟩
                | fetchNone _ _ h4 _ => exact ⟨k, h4 ▸ hk⟩
                | fetched _ _ _ _ h4 _ => exact ⟨k, h4 ▸ hk⟩
                | wait _ _ h4 _ => exact ⟨k, h4 ▸ hk⟩
                | take _ _ h4 _ _ => exact ⟨k, h4 ▸ hk⟩
                | putNone _ _ h4 _ _ => exact ⟨k, h4 ▸ hk⟩
                | drop _ _ h4 _ => exact ⟨k, h4 ▸ hk⟩
                | put _ _ _ _ h4 _ => exact ⟨k, h4 ▸ hk⟩
              exact hl.1 id ((hb.id.mem id).2 hold)
            · intro w hw
              rw [hlast]
              cases h3 with
              | setupFail _ _ h4 _ => exact absurd rfl (hx' _ _)
              | setupOk _ _ _ _ h4 _ => exact absurd rfl (hx' _ _)
              | teardown _ _ _ _ h5 => exact hl.2 w (h5 ▸ hw)
              | submit _ _ _ _ h5 => exact hl.2 w (h5 ▸ hw)
              | refused _ _ _ h5 => exact hl.2 w (h5 ▸ hw)
              | fetchNone _ _ _ h5 => exact hl.2 w (h5 ▸ hw)
              | fetched _ _ _ _ _ h5 => exact hl.2 w (h5 ▸ hw)
              | wait _ _ _ h5 => exact hl.2 w (h5 ▸ hw)
              | @take w' h4 _ _ _ h5 =>
                rw [h5] at hw
                simp only [Option.some.injEq] at hw
                subst hw
                exact hl.1 _ (hb.iown w' (by rw [h4]; simp))
              | putNone _ _ _ _ h5 => rw [h5] at hw; cases hw
              | drop _ _ _ h5 => rw [h5] at hw; cases hw
              | put _ _ _ _ _ h5 => rw [h5] at hw; cases hw
        obtain ⟨hs1, hs2, hs3⟩ := hlow
        obtain ⟨gq', hg, hh'⟩ := hist_step sign hb hh h3 hs1
        subst hg
        intro k
        have := ih c1 iq' gq' live' (es0 ++ [e]) c2 es2 h2 hh' hs2 hs3 hr2 k
        simpa [List.append_assoc] using this

/-- **C27, partial.** For every schedule of sessions and worker with fewer than 2^32 set ups, the
signatures handed to a session are signatures of hashes it submitted itself, in order of submission.
Missing: schedules in which the 32-bit session id wraps around (see `C27_statement_false`). -/
theorem C27_own_signatures_partial (sign : Nat → Bytes → Option Bytes) (maxSig : Nat)
    (xs : List Step) (c : Central) (es : List Ev) (hn : setups xs < 2 ^ 32)
    (h : run sign (Central.init maxSig) xs = .ok (c, es)) (k : Nat) :
    ∃ hs, hs.Sublist (acceptedBy k es) ∧ SigsOf sign hs (deliveredTo k es) := by
  have := run_hist sign xs (Central.init maxSig) [] [] [] [] c es (BInv_init _ maxSig)
    (Hist_init sign) ⟨by simp, by simp [Central.init]⟩ (by simpa [Central.init] using hn) h k
  obtain ⟨dh, h1, h2⟩ := this
  exact ⟨dh, by simpa using h2, by simpa using h1⟩

set_option maxRecDepth 20000 in
/-- Non-vacuity: two sessions sharing the worker, each gets its own signature. -/
example : ∃ c, run (fun _ h => some (h ++ [9])) (Central.init 8)
    [.setup true true, .setup true true, .submit 0 [1] true true, .submit 1 [2] true true, .take,
      .put 0 true, .take, .fetch 1 8, .fetch 0 8, .put 0 true, .fetch 1 8] = .ok (c,
      [.setup 0 true, .setup 1 true, .submit 0 [1] none, .submit 1 [2] none, .worker, .worker, .worker,
       .fetch 1 none none, .fetch 0 (some [1, 9]) none, .worker, .fetch 1 (some [2, 9]) none]) :=
  ⟨_, rfl⟩

/-! #### The id wraps around -/

theorem run_append (sign : Nat → Bytes → Option Bytes) : ∀ (xs ys : List Step) (c c1 c2 : Central)
    (e1 e2 : List Ev), run sign c xs = .ok (c1, e1) → run sign c1 ys = .ok (c2, e2) →
    run sign c (xs ++ ys) = .ok (c2, e1 ++ e2) := by
  intro xs
  induction xs with
  | nil =>
    intro ys c c1 c2 e1 e2 h1 h2
    simp only [run, Out.ok.injEq, Prod.mk.injEq] at h1
    obtain ⟨rfl, rfl⟩ := h1
    simpa using h2
  | cons x xs ih =>
    intro ys c c1 c2 e1 e2 h1 h2
    simp only [run] at h1
    cases hs : step sign c x with
    | err e => rw [hs] at h1; simp at h1
    | ub e => rw [hs] at h1; simp at h1
    | ok q =>
      rw [hs] at h1
      simp only [Out.bind_ok] at h1
      cases hr : run sign q.1 xs with
      | err e => rw [hr] at h1; simp at h1
      | ub e => rw [hr] at h1; simp at h1
      | ok q2 =>
        rw [hr] at h1
        simp only [Out.bind_ok, Out.ok.injEq, Prod.mk.injEq] at h1
        obtain ⟨rfl, rfl⟩ := h1
        have := ih ys q.1 q2.1 c2 q2.2 e2 hr h2
        simp [run, hs, this]

/-- `n` sessions come and go. -/
def churn (k : Nat) : Nat → List Step
  | 0 => []
  | n + 1 => .setup true true :: .teardown k :: churn (k + 1) n

/-- Nothing happens to the shared data while sessions without hashes come and go. -/
theorem churn_run (sign : Nat → Bytes → Option Bytes) : ∀ (n : Nat) (c : Central),
    c.ids = [0] → c.td.running = true → c.td.inn.length = 60 → c.td.out.length = 60 →
    (∀ s ∈ c.td.inn, s.id = 0) → (∀ s ∈ c.td.out, s.id = 0) → c.last.toNat + n < 2 ^ 32 →
    ∃ c' es, run sign c (churn c.handles.length n) = .ok (c', es) ∧ c'.td = c.td ∧ c'.ids = [0] ∧
      c'.signing = c.signing ∧ c'.last.toNat = c.last.toNat + n ∧
      c'.handles.length = c.handles.length + n ∧
      ∀ k, acceptedBy k es = [] ∧ deliveredTo k es = [] := by
  intro n
  induction n with
  | zero => intro c h1 h2 h3 h4 h5 h6 h7; exact ⟨c, [], rfl, rfl, h1, rfl, rfl, rfl, fun k => ⟨rfl, rfl⟩⟩
  | succ n ih =>
    intro c h1 h2 h3 h4 h5 h6 h7
    have e : (c.last + 1).toNat = c.last.toNat + 1 := by
      rw [UInt32.toNat_add]
      have e1 : (1 : UInt32).toNat = 1 := rfl
      omega
    have hne : c.last + 1 ≠ 0 := by intro h0; rw [h0] at e; simp at e
    have hnl : c.last + 1 ≠ c.last := by intro h0; rw [h0] at e; omega
    have hact : isActive [0] (c.last + 1) = false := by simp [isActive, hne]
    have hp : pickId [0] c.last (2 ^ 32) (c.last + 1) = .ok (c.last + 1) := by
      have e2 : (2 : Nat) ^ 32 = 4294967295 + 1 := by decide
      rw [e2, pickId]
      simp [hact]
    let c1 : Central := { c with last := c.last + 1, ids := [0, c.last + 1]
                                 handles := c.handles ++ [some (c.last + 1)] }
    have hs1 : step sign c (.setup true true) = .ok (c1, .setup c.handles.length true) := by
      simp only [step, centralSetup, h1, h2, Bool.not_true, Bool.false_eq_true, if_false, if_neg hne,
        hp, Out.bind_ok, hnl]
      rfl
    have hh : handle c1 c.handles.length = .ok (c.last + 1) := by simp [handle, c1]
    have hr : bufferReset c1.td (c.last + 1) = .ok c.td := by
      have r1 := resetLoop_skip (c.last + 1) resetSig c.td.out [] c.td.outIdx 121 (by simpa using h4)
        (fun s hs => by rw [h6 s hs]; exact fun h => hne h.symm) (by omega)
      have r2 := resetLoop_skip (c.last + 1) resetHash c.td.inn [] c.td.inIdx 121 (by simpa using h3)
        (fun s hs => by rw [h5 s hs]; exact fun h => hne h.symm) (by omega)
      simp only [List.nil_append, List.length_nil] at r1 r2
      simp only [bufferReset, maxBuffer, c1]
      rw [r1, Out.bind_ok, r2, Out.bind_ok]
    have hd : deleteItem c1.ids (c.last + 1) = .ok [0] := by
      simp [deleteItem, c1, hne.symm]
    let c2 : Central := { c1 with td := c.td, ids := [0], handles := c1.handles.set c.handles.length none }
    have hs2 : step sign c1 (.teardown c.handles.length) = .ok (c2, .teardown c.handles.length) := by
      simp only [step, hh, hr, hd, Out.bind_ok]
      rfl
    have hlen : c2.handles.length = c.handles.length + 1 := by simp [c2, c1]
    obtain ⟨c', es, g1, g2, g3, g4, g5, g6, g7⟩ := ih c2 rfl h2 h3 h4 h5 h6
      (by show (c.last + 1).toNat + n < 2 ^ 32; omega)
    rw [hlen] at g1
    refine ⟨c', .setup c.handles.length true :: .teardown c.handles.length :: es,
      by simp only [churn, run, hs1, hs2, g1, Out.bind_ok], g2, g3, g4, ?_, ?_, ?_⟩
    · rw [g5]; show (c.last + 1).toNat + n = _; omega
    · rw [g6, hlen]; omega
    · intro k
      obtain ⟨a1, a2⟩ := g7 k
      constructor
      · show acceptedBy k ([_, _] ++ es) = []
        simp only [acceptedBy, List.filterMap_append] at a1 ⊢
        rw [a1]; rfl
      · show deliveredTo k ([_, _] ++ es) = []
        simp only [deliveredTo, List.filterMap_append] at a2 ⊢
        rw [a2]; rfl

/-- Toy signing: the signature is the hash itself. -/
def selfSign : Nat → Bytes → Option Bytes := fun _ h => some h

set_option maxRecDepth 20000 in
/-- A session submits a hash and is torn down while the worker signs it; what the worker and a new
session with the same id then do to the shared data. -/
theorem orphan_run : ∃ (c0 : Central) (td1 td2 : TData),
    run selfSign (Central.init 8) [.setup true true, .submit 0 [1] true true, .take, .teardown 0]
      = .ok (c0, [.setup 0 true, .submit 0 [1] none, .worker, .teardown 0]) ∧
    c0.ids = [0] ∧ c0.td.running = true ∧ c0.td.inn.length = 60 ∧ c0.td.out.length = 60 ∧
    c0.td.inn.all (fun s => s.id == 0) = true ∧ c0.td.out.all (fun s => s.id == 0) = true ∧
    c0.last = 1 ∧ c0.handles.length = 1 ∧ c0.signing = some (1, [1]) ∧
    centralPut c0.td [0, 1] 1 (opensslSign selfSign c0.td.maxSig 0 [1]) true = .ok td1 ∧
    getSignature td1 1 8 = .ok (td2, some [1], none) :=
  ⟨_, _, _, rfl, rfl, rfl, rfl, rfl, rfl, rfl, rfl, rfl, rfl, rfl, rfl⟩

/-- **C27 is false of the code** when the 32-bit id wraps around while a hash is being signed: the
signature of a session that is gone is delivered to a new session that never submitted anything. -/
theorem C27_statement_false : ¬ C27_statement := by
  intro hC
  obtain ⟨c0, td1, td2, hr0, hA, hB, hE, hF, hG, hG', hH, hI, hJ, hK, hL⟩ := orphan_run
  obtain ⟨c1, es1, h1, h2, h3, h4, h5, h6, h7⟩ := churn_run selfSign (2 ^ 32 - 2) c0 hA hB hE hF
    (by intro s hs; have := List.all_eq_true.1 hG s hs; simpa using this)
    (by intro s hs; have := List.all_eq_true.1 hG' s hs; simpa using this)
    (by rw [hH]; decide)
  rw [hI] at h1 h6
  have hlast : c1.last + 1 = 0 := by
    apply UInt32.toNat_inj.1
    rw [UInt32.toNat_add, h5, hH]
    decide
  have hne1 : (1 : UInt32) ≠ c1.last := by intro e; rw [← e] at hlast; simp at hlast
  obtain ⟨K, hK0, hKd⟩ : ∃ K, c1.handles.length = K ∧ 0 < K := ⟨_, rfl, by rw [h6]; decide⟩
  let c2 : Central := { c1 with last := 1, ids := [0, 1], handles := c1.handles ++ [some 1] }
  have s1 : step selfSign c1 (.setup true true) = .ok (c2, .setup K true) := by
    have hp : pickId [0] c1.last (2 ^ 32) 1 = .ok 1 := by
      have e2 : (2 : Nat) ^ 32 = 4294967295 + 1 := by decide
      rw [e2]
      rfl
    simp only [step, centralSetup, h3, h2, hB, Bool.not_true, Bool.false_eq_true, if_false,
      if_pos hlast, hp, Out.bind_ok, hne1, hK0]
    simp only [c2, h2]
    rfl
  let c3 : Central := { c2 with td := td1, signing := none }
  have s2 : step selfSign c2 (.put 0 true) = .ok (c3, .worker) := by
    have e1 : c2.signing = some (1, [1]) := by show c1.signing = _; rw [h4, hJ]
    have e2 : c2.td = c0.td := h2
    simp only [step, e1, e2]
    show (do let td ← centralPut c0.td [0, 1] 1 (opensslSign selfSign c0.td.maxSig 0 [1]) true
             _) = _
    rw [hK, Out.bind_ok]
  let c4 : Central := { c3 with td := td2 }
  have s3 : step selfSign c3 (.fetch K 8) = .ok (c4, .fetch K (some [1]) none) := by
    have hh : handle c3 K = .ok 1 := by
      simp [handle, c3, c2, ← hK0]
    simp only [step, hh, Out.bind_ok]
    show (do let (td, sig, rc) ← getSignature td1 1 8
             _) = _
    rw [hL, Out.bind_ok]
  have hrun : run selfSign c1 [.setup true true, .put 0 true, .fetch K 8]
      = .ok (c4, [.setup K true, .worker, .fetch K (some [1]) none]) := by
    simp only [run, s1, s2, s3, Out.bind_ok]
  have hall := run_append selfSign _ _ _ _ _ _ _ (run_append selfSign _ _ _ _ _ _ _ hr0 h1) hrun
  obtain ⟨hs, g1, g2⟩ := hC selfSign 8 _ _ _ hall K
  have a1 : acceptedBy K (([Ev.setup 0 true, .submit 0 [1] none, .worker, .teardown 0] ++ es1)
      ++ [.setup K true, .worker, .fetch K (some [1]) none]) = [] := by
    have := (h7 K).1
    simp only [acceptedBy, List.filterMap_append] at this ⊢
    rw [this]
    have : (0 : Nat) ≠ K := by omega
    simp [List.filterMap_cons, this]
  have a2 : deliveredTo K (([Ev.setup 0 true, .submit 0 [1] none, .worker, .teardown 0] ++ es1)
      ++ [.setup K true, .worker, .fetch K (some [1]) none]) = [[1]] := by
    have := (h7 K).2
    simp only [deliveredTo, List.filterMap_append] at this ⊢
    rw [this]
    simp [List.filterMap_cons]
  rw [a1] at g1
  rw [a2] at g2
  have := List.sublist_nil.1 g1
  subst this
  simp [SigsOf] at g2

/-! ### C28 -/

/-- Sessions only use handles they got and did not tear down. -/
def C28_HandlesOk (sign : Nat → Bytes → Option Bytes) (maxSig : Nat) (xs : List Step) : Prop :=
  ∀ ys x zs c es, xs = ys ++ x :: zs → run sign (Central.init maxSig) ys = .ok (c, es) →
    ∀ k, caller x = some k → SessionLive k es

/-- The buffers of the shared data hold at most 60 elements each. -/
def C28_Bounded (t : TData) : Prop :=
  t.inIdx ≤ 60 ∧ t.outIdx ≤ 60 ∧ t.inn.length = 60 ∧ t.out.length = 60

/-- The handles agree with what the sessions were told. -/
def HandleInv (c : Central) (es : List Ev) : Prop :=
  (∀ k : Nat, (∃ id, c.handles[k]? = some (some id)) ↔ SessionLive k es) ∧
    ∀ k, (.setup k true ∈ es ∨ .teardown k ∈ es) → k < c.handles.length

theorem HandleInv_step {sign : Nat → Bytes → Option Bytes} {c c' : Central} {es : List Ev} {x : Step}
    {e : Ev} {iq iq' : List (UInt32 × Bytes)} {oq oq' : List (UInt32 × Option Bytes)}
    (h : HandleInv c es) (he : Effect sign c c' iq iq' oq oq' x e) : HandleInv c' (es ++ [e]) := by
  have same : c'.handles = c.handles → (∀ k, e ≠ .setup k true) → (∀ k, e ≠ .teardown k) →
      HandleInv c' (es ++ [e]) := by
    intro h1 h2 h3
    unfold HandleInv SessionLive
    rw [h1]
    have e1 : ∀ k, (.setup k true ∈ es ++ [e]) ↔ .setup k true ∈ es := by
      intro k; simp [eq_comm, h2 k]
    have e2 : ∀ k, (.teardown k ∈ es ++ [e]) ↔ .teardown k ∈ es := by
      intro k; simp [eq_comm, h3 k]
    simp only [e1, e2]
    exact h
  cases he with
  | setupFail _ _ h4 _ => exact same h4 (by simp) (by simp)
  | setupOk _ _ _ _ h4 _ =>
    refine ⟨?_, ?_⟩
    · intro k
      rw [h4]
      by_cases hlt : k < c.handles.length
      · rw [List.getElem?_append_left hlt, h.1 k]
        have : k ≠ c.handles.length := by omega
        simp [SessionLive, this]
      · rw [List.getElem?_append_right (by omega)]
        by_cases hk : k = c.handles.length
        · subst hk
          have hn : Ev.teardown c.handles.length ∉ es := fun hm => by
            have := h.2 _ (.inr hm); omega
          simp [SessionLive, hn]
        · have e1 : k - c.handles.length ≠ 0 := by omega
          have e2 : Ev.setup k true ∉ es := fun hm => by have := h.2 _ (.inl hm); omega
          cases hz : k - c.handles.length with
          | zero => exact absurd hz e1
          | succ n => simp [SessionLive, e2, hk]
    · intro k hk
      rw [h4]
      simp only [List.mem_append, List.mem_singleton, Ev.setup.injEq, and_true, reduceCtorEq,
        or_false] at hk
      rw [List.length_append, List.length_singleton]
      rcases hk with (hk | hk) | hk
      · have := h.2 k (.inl hk); omega
      · omega
      · have := h.2 k (.inr hk); omega
  | @teardown j id h3 _ _ h4 _ =>
    have hjl := (List.getElem?_eq_some_iff.1 h3).1
    refine ⟨?_, ?_⟩
    · intro k
      rw [h4]
      by_cases hk : j = k
      · subst hk
        rw [List.getElem?_set_self hjl]
        simp [SessionLive]
      · rw [List.getElem?_set_ne hk, h.1 k]
        have hk' : k ≠ j := fun e => hk e.symm
        simp [SessionLive, hk']
    · intro k hk
      rw [h4, List.length_set]
      simp only [List.mem_append, List.mem_singleton, Ev.teardown.injEq, reduceCtorEq, or_false] at hk
      rcases hk with hk | hk | hk
      · exact h.2 k (.inl hk)
      · exact h.2 k (.inr hk)
      · rw [hk]; exact hjl
  | submit _ _ _ h4 _ => exact same h4 (by simp) (by simp)
  | refused _ _ h4 _ => exact same h4 (by simp) (by simp)
  | fetchNone _ _ h4 _ => exact same h4 (by simp) (by simp)
  | fetched _ _ _ _ h4 _ => exact same h4 (by simp) (by simp)
  | wait _ _ h4 _ => exact same h4 (by simp) (by simp)
  | take _ _ h4 _ _ => exact same h4 (by simp) (by simp)
  | putNone _ _ h4 _ _ => exact same h4 (by simp) (by simp)
  | drop _ _ h4 _ => exact same h4 (by simp) (by simp)
  | put _ _ _ _ h4 _ => exact same h4 (by simp) (by simp)

/-- What a run does, in general. -/
theorem run_inv (sign : Nat → Bytes → Option Bytes) (P : Nat → Prop) : ∀ (xs : List Step) (c : Central)
    (iq : List (UInt32 × Bytes)) (oq : List (UInt32 × Option Bytes)) (live : List UInt32) (es0 : List Ev),
    BInv P c iq oq live → HandleInv c es0 →
    (∀ x ∈ xs, SizeOk P x) →
    (∀ ys x zs c' es, xs = ys ++ x :: zs → run sign c ys = .ok (c', es) →
      ∀ k, caller x = some k → SessionLive k (es0 ++ es)) →
    (run sign c xs = .ub .assertFail ∧ ∃ a b, P a ∧ P b ∧ a ≠ b) ∨
      ∃ c' es iq' oq' live', run sign c xs = .ok (c', es) ∧ BInv P c' iq' oq' live' := by
  intro xs
  induction xs with
  | nil => intro c iq oq live es0 hb _ _ _; exact .inr ⟨c, [], iq, oq, live, rfl, hb⟩
  | cons x xs ih =>
    intro c iq oq live es0 hb hh hP hc
    rcases step_inv sign hb x (hP x (by simp)) with ⟨h1, k, hk, hd⟩ | ⟨h1, h2⟩ | ⟨c1, e, iq', oq', live', h1, h2, h3⟩
    · have hw : caller x = some k := by
        rw [← hk]; cases x <;> rfl
      have := hc [] x xs c [] rfl rfl k hw
      rw [List.append_nil] at this
      exact absurd ((hh.1 k).2 this) hd
    · exact .inl ⟨by simp [run, h1], h2⟩
    · have hrec := ih c1 iq' oq' live' (es0 ++ [e]) h2 (HandleInv_step hh h3)
        (fun y hy => hP y (by simp [hy])) (by
          intro ys y zs c' es he hr k hk
          have := hc (x :: ys) y zs c' (e :: es) (by rw [he]; rfl)
            (by simp only [run, h1, Out.bind_ok, hr]) k hk
          simpa using this)
      rcases hrec with ⟨h4, h5⟩ | ⟨c', es, a, b, l, h4, h5⟩
      · exact .inl ⟨by simp only [run, h1, Out.bind_ok, h4]; rfl, h5⟩
      · exact .inr ⟨c', e :: es, a, b, l, by simp only [run, h1, Out.bind_ok, h4], h5⟩

theorem HandleInv_init (m : Nat) : HandleInv (Central.init m) [] := by
  refine ⟨?_, by simp⟩
  intro k; simp [Central.init, SessionLive]

theorem bounded_of {P : Nat → Prop} {c : Central} {iq : List (UInt32 × Bytes)}
    {oq : List (UInt32 × Option Bytes)} {live : List UInt32} (h : BInv P c iq oq live) :
    C28_Bounded c.td := by
  have h1 := h.td.vin.length_le
  have h2 := h.td.vout.length_le
  rw [h.td.lin] at h1
  rw [h.td.lout] at h2
  exact ⟨by rw [h.td.iidx]; exact h1, by rw [h.td.oidx]; exact h2, h.td.lin, h.td.lout⟩

/-- **C28 for the central thread.** Whatever the schedule, as long as sessions use their own handles,
the run either ends in the assertion that hashes have the same size, or nothing undefined happens (in
particular no index is outside of the buffers, which would be `oobIndex`), and both buffers hold at
most 60 elements. -/
theorem C28_central (sign : Nat → Bytes → Option Bytes) (maxSig : Nat) (xs : List Step)
    (hc : C28_HandlesOk sign maxSig xs) :
    run sign (Central.init maxSig) xs = .ub .assertFail ∨
      ∃ c es, run sign (Central.init maxSig) xs = .ok (c, es) ∧ C28_Bounded c.td := by
  rcases run_inv sign (fun _ => True) xs (Central.init maxSig) [] [] [] [] (BInv_init _ maxSig)
      (HandleInv_init maxSig) (by intro x _; cases x <;> exact trivial)
      (by intro ys x zs c es he hr k hk; simpa using hc ys x zs c es he hr k hk)
    with ⟨h, -⟩ | ⟨c, es, iq, oq, live, h, hb⟩
  · exact .inl h
  · exact .inr ⟨c, es, h, bounded_of hb⟩

/-- **C28 for the central thread, hashes of one size:** the assertion does not fail either. -/
theorem C28_central_one_size (sign : Nat → Bytes → Option Bytes) (maxSig n : Nat) (xs : List Step)
    (hs : SameSize n xs) (hc : C28_HandlesOk sign maxSig xs) :
    ∃ c es, run sign (Central.init maxSig) xs = .ok (c, es) ∧ C28_Bounded c.td := by
  rcases run_inv sign (· = n) xs (Central.init maxSig) [] [] [] [] (BInv_init _ maxSig)
      (HandleInv_init maxSig) (by
        intro x hx
        cases x with
        | submit k h a b => exact hs _ hx k h a b rfl
        | _ => exact trivial)
      (by intro ys x zs c es he hr k hk; simpa using hc ys x zs c es he hr k hk)
    with ⟨-, a, b, h1, h2, h3⟩ | ⟨c, es, iq, oq, live, h, hb⟩
  · exact absurd (h1.trans h2.symm) h3
  · exact ⟨c, es, h, bounded_of hb⟩

/-- Executable check of `C28_HandlesOk`, used in the examples. -/
def handlesOkB (sign : Nat → Bytes → Option Bytes) : Central → List Ev → List Step → Bool
  | _, _, [] => true
  | c, es, x :: xs =>
    (match caller x with
      | none => true
      | some k => es.contains (.setup k true) && !es.contains (.teardown k)) &&
    (match step sign c x with
      | .ok (c', e) => handlesOkB sign c' (es ++ [e]) xs
      | _ => true)

theorem handlesOkB_sound (sign : Nat → Bytes → Option Bytes) : ∀ (xs : List Step) (c : Central)
    (es0 : List Ev), handlesOkB sign c es0 xs = true → ∀ ys x zs c' es, xs = ys ++ x :: zs →
    run sign c ys = .ok (c', es) → ∀ k, caller x = some k → SessionLive k (es0 ++ es) := by
  intro xs
  induction xs with
  | nil => intro c es0 _ ys x zs c' es he; simp at he
  | cons y xs ih =>
    intro c es0 h ys x zs c' es he hr k hk
    simp only [handlesOkB, Bool.and_eq_true] at h
    cases ys with
    | nil =>
      simp only [List.nil_append, List.cons.injEq] at he
      simp only [run, Out.ok.injEq, Prod.mk.injEq] at hr
      rw [he.1, hk] at h
      rw [← hr.2]
      simpa [SessionLive] using h.1
    | cons y' ys =>
      simp only [List.cons_append, List.cons.injEq] at he
      obtain ⟨rfl, he⟩ := he
      simp only [run] at hr
      cases hs : step sign c y with
      | err e => rw [hs] at hr; simp at hr
      | ub e => rw [hs] at hr; simp at hr
      | ok q =>
        rw [hs] at hr
        simp only [Out.bind_ok] at hr
        cases hr2 : run sign q.1 ys with
        | err e => rw [hr2] at hr; simp at hr
        | ub e => rw [hr2] at hr; simp at hr
        | ok q2 =>
          rw [hr2] at hr
          simp only [Out.bind_ok, Out.ok.injEq, Prod.mk.injEq] at hr
          obtain ⟨rfl, rfl⟩ := hr
          have h2 := h.2
          rw [hs] at h2
          have := ih q.1 (es0 ++ [q.2]) h2 ys x zs q2.1 q2.2 he hr2 k hk
          simpa using this

set_option maxRecDepth 20000 in
/-- Non-vacuity: a schedule with two sessions that meets the hypotheses. -/
example : C28_HandlesOk selfSign 8
    [.setup true true, .setup true true, .submit 0 [1] true true, .submit 1 [2] true true, .take,
      .teardown 0, .put 0 true, .take, .put 0 true, .fetch 1 8] ∧
    SameSize 1 [.setup true true, .setup true true, .submit 0 [1] true true, .submit 1 [2] true true,
      .take, .teardown 0, .put 0 true, .take, .put 0 true, .fetch 1 8] := by
  refine ⟨?_, ?_⟩
  · intro ys x zs c es he hr k hk
    have := handlesOkB_sound selfSign _ (Central.init 8) [] (by rfl) ys x zs c es he hr k hk
    simpa using this
  · intro x hx k h a1 a2 e
    subst e
    simp at hx
    rcases hx with h | h <;> simp [h]

set_option maxRecDepth 20000 in
/-- Two sessions with different hash algorithms share the central thread: the assertion that guards
the copy into `sign_data->hash` fails (with `NDEBUG` the copy overflows the block). -/
theorem C28_central_two_sizes : run selfSign (Central.init 8)
    [.setup true true, .setup true true, .submit 0 [1] true true, .submit 1 [1, 2] true true, .take,
      .put 0 true, .take] = .ub .assertFail := rfl

/-- **C28, as stated, for a thread per session.** -/
def C28_local_statement : Prop :=
  ∀ (sign : Nat → Bytes → Option Bytes) (maxSig n : Nat) (xs : List LStep),
    (∀ h a1 a2, LStep.submit h a1 a2 ∈ xs → h.length = n) →
    ∃ c es, lrun sign ⟨TData.init maxSig, none⟩ xs = .ok (c, es) ∧ C28_Bounded c.td

/-- The outcome is an index outside of a buffer. -/
def isOob {α : Type} : Out α → Bool
  | .ub .oobIndex => true
  | _ => false

set_option maxRecDepth 20000 in
theorem local_oob : isOob (lrun selfSign ⟨TData.init 8, none⟩
    (List.replicate 60 (.submit [1] true true) ++ [.take])) = true := by decide +kernel

/-- **C28 is false of the code for a thread per session:** when all 60 elements of the input buffer
have been in use, the worker reads `in[60]`. -/
theorem C28_local_statement_false : ¬ C28_local_statement := by
  intro h
  obtain ⟨c, es, h1, -⟩ := h selfSign 8 1 (List.replicate 60 (.submit [1] true true) ++ [.take]) (by
    intro h a1 a2 hm
    rcases List.mem_append.1 hm with hm | hm
    · have := (List.mem_replicate.1 hm).2
      simp at this; rw [this.1]; rfl
    · simp at hm)
  have := local_oob
  rw [h1] at this
  simp [isOob] at this

theorem lrun_inv (sign : Nat → Bytes → Option Bytes) (n : Nat) : ∀ (xs : List LStep) (c : Local)
    (iq : List (UInt32 × Bytes)) (oq : List (UInt32 × Option Bytes)), LInv n c iq oq →
    (∀ h a1 a2, LStep.submit h a1 a2 ∈ xs → h.length = n) →
    (∀ ys h a1 a2 zs c' es, xs = ys ++ .submit h a1 a2 :: zs → lrun sign c ys = .ok (c', es) →
      c'.td.inIdx < 59) →
    ∃ c' es iq' oq', lrun sign c xs = .ok (c', es) ∧ LInv n c' iq' oq' := by
  intro xs
  induction xs with
  | nil => intro c iq oq h _ _; exact ⟨c, [], iq, oq, rfl, h⟩
  | cons x xs ih =>
    intro c iq oq h hs hl
    obtain ⟨c1, e, iq1, oq1, h1, h2⟩ := lstep_inv sign h x (by
      intro hh a1 a2 he
      subst he
      exact ⟨hs hh a1 a2 (by simp), hl [] hh a1 a2 xs c [] rfl rfl⟩)
    obtain ⟨c2, es, iq2, oq2, h3, h4⟩ := ih c1 iq1 oq1 h2
      (fun hh a1 a2 hm => hs hh a1 a2 (List.mem_cons_of_mem _ hm)) (by
        intro ys hh a1 a2 zs c' es he hr
        exact hl (x :: ys) hh a1 a2 zs c' (e :: es) (by rw [he]; rfl)
          (by simp only [lrun, h1, Out.bind_ok, hr]))
    exact ⟨c2, e :: es, iq2, oq2, by simp only [lrun, h1, Out.bind_ok, h3], h4⟩

/-- **C28 for a thread per session, partial:** whatever the schedule, nothing undefined happens and
both buffers hold at most 60 elements, provided that a hash is submitted only when fewer than 59
hashes wait.  Missing: the 60th element of the input buffer (see `C28_local_statement_false`). -/
theorem C28_local_partial (sign : Nat → Bytes → Option Bytes) (maxSig n : Nat) (xs : List LStep)
    (hs : ∀ h a1 a2, LStep.submit h a1 a2 ∈ xs → h.length = n)
    (hl : ∀ ys h a1 a2 zs c es, xs = ys ++ .submit h a1 a2 :: zs →
      lrun sign ⟨TData.init maxSig, none⟩ ys = .ok (c, es) → c.td.inIdx < 59) :
    ∃ c es, lrun sign ⟨TData.init maxSig, none⟩ xs = .ok (c, es) ∧ C28_Bounded c.td := by
  obtain ⟨c, es, iq, oq, h1, h2⟩ := lrun_inv sign n xs _ [] []
    ⟨TInv_init _ maxSig, by simp, Packed_zero, rfl⟩ hs hl
  have g1 := h2.td.vin.length_le
  have g2 := h2.td.vout.length_le
  rw [h2.td.lin] at g1
  rw [h2.td.lout] at g2
  exact ⟨c, es, h1, by rw [h2.td.iidx]; exact g1, by rw [h2.td.oidx]; exact g2, h2.td.lin, h2.td.lout⟩

/-- Non-vacuity: a schedule that meets the hypotheses. -/
example : ∀ ys h a1 a2 zs c es, [LStep.submit [1] true true, .take, .submit [2] true true, .put 0 true]
      = ys ++ .submit h a1 a2 :: zs →
    lrun selfSign ⟨TData.init 8, none⟩ ys = .ok (c, es) → c.td.inIdx < 59 := by
  intro ys h a1 a2 zs c es he hr
  match ys, he, hr with
  | [], he, hr =>
    simp only [lrun, Out.ok.injEq, Prod.mk.injEq] at hr
    rw [← hr.1]; decide
  | [x, y], he, hr =>
    simp at he
    obtain ⟨rfl, rfl, -⟩ := he
    have : ∃ c1 es1, lrun selfSign ⟨TData.init 8, none⟩ [LStep.submit [1] true true, .take] = .ok (c1, es1)
        ∧ c1.td.inIdx = 0 := ⟨_, _, rfl, rfl⟩
    obtain ⟨c1, es1, h1, h2⟩ := this
    rw [h1] at hr
    simp only [Out.ok.injEq, Prod.mk.injEq] at hr
    rw [← hr.1, h2]; decide
  | [x], he, hr => simp at he
  | [x, y, z], he, hr => simp at he
  | x :: y :: z :: w :: ys, he, hr =>
    have := congrArg List.length he
    simp at this

/-! ### C29 -/

/-- **C29.** After every history of the plugin, including ones where the 32-bit counter wraps around,
two handles in use have different ids and no id is zero. -/
theorem C29_ids_unique (sign : Nat → Bytes → Option Bytes) (maxSig : Nat) :
    ∀ (xs : List Step) (c : Central) (es : List Ev),
    run sign (Central.init maxSig) xs = .ok (c, es) →
    (∀ (j k : Nat) (id : UInt32), c.handles[j]? = some (some id) → c.handles[k]? = some (some id) → j = k) ∧
    ∀ (k : Nat) (id : UInt32), c.handles[k]? = some (some id) → id ≠ 0 := by
  have main : ∀ (xs : List Step) (c0 c : Central) (iq : List (UInt32 × Bytes))
      (oq : List (UInt32 × Option Bytes)) (live : List UInt32) (es : List Ev),
      BInv (fun _ => True) c0 iq oq live → run sign c0 xs = .ok (c, es) →
      ∃ live', IdInv c live' := by
    intro xs
    induction xs with
    | nil =>
      intro c0 c iq oq live es hb hr
      simp only [run, Out.ok.injEq, Prod.mk.injEq] at hr
      exact ⟨live, hr.1 ▸ hb.id⟩
    | cons x xs ih =>
      intro c0 c iq oq live es hb hr
      rcases step_inv sign hb x (by cases x <;> exact trivial) with
        ⟨h1, -⟩ | ⟨h1, -⟩ | ⟨c1, e, iq', oq', live', h1, h2, h3⟩
      · simp [run, h1] at hr
      · simp [run, h1] at hr
      · simp only [run, h1, Out.bind_ok] at hr
        cases hr2 : run sign c1 xs with
        | err e => rw [hr2] at hr; simp at hr
        | ub e => rw [hr2] at hr; simp at hr
        | ok q =>
          rw [hr2] at hr
          simp only [Out.bind_ok, Out.ok.injEq, Prod.mk.injEq] at hr
          obtain ⟨rfl, -⟩ := hr
          exact ih c1 q.1 iq' oq' live' q.2 h2 hr2
  intro xs c es hr
  obtain ⟨live, hi⟩ := main xs _ c [] [] [] es (BInv_init _ maxSig) hr
  exact ⟨fun j k id h1 h2 => hi.inj j k id h1 h2, fun k id h => (hi.ne_zero h).2⟩

/-- **C29, set up.** After every history a set up terminates; it either fails, leaving all handles as
they are, or adds one handle, whose id no session in use has. -/
theorem C29_setup (sign : Nat → Bytes → Option Bytes) (maxSig : Nat) (xs : List Step) (c : Central)
    (es : List Ev) (hc : C28_HandlesOk sign maxSig xs)
    (hr : run sign (Central.init maxSig) xs = .ok (c, es)) (a1 a2 : Bool) :
    ∃ c' ok, centralSetup c a1 a2 = .ok (c', ok) ∧
      ((ok = false ∧ c'.handles = c.handles) ∨
       ∃ id, ok = true ∧ c'.handles = c.handles ++ [some id] ∧ id ≠ 0 ∧
         ∀ k : Nat, c.handles[k]? ≠ some (some id)) := by
  rcases run_inv sign (fun _ => True) xs (Central.init maxSig) [] [] [] [] (BInv_init _ maxSig)
      (HandleInv_init maxSig) (by intro x _; cases x <;> exact trivial)
      (by intro ys x zs c es he hr k hk; simpa using hc ys x zs c es he hr k hk)
    with ⟨h, -⟩ | ⟨c1, es1, iq, oq, live, h, hb⟩
  · rw [h] at hr; simp at hr
  · rw [h] at hr
    simp only [Out.ok.injEq, Prod.mk.injEq] at hr
    obtain ⟨rfl, -⟩ := hr
    obtain ⟨c', ok, h1, h2, h3, h4⟩ := setup_inv hb.id a1 a2
    refine ⟨c', ok, h1, ?_⟩
    rcases h4 with ⟨rfl, h4, h5⟩ | ⟨rfl, h4, -, h5, h6⟩
    · exact .inl ⟨rfl, h4⟩
    · refine .inr ⟨c'.last, rfl, h5, ?_, ?_⟩
      · have hm : c'.last ∈ live ++ [c'.last] := by simp
        intro e; rw [e] at hm; exact h6.zero (e ▸ hm)
      · intro k hk
        exact h4 ((hb.id.mem _).2 ⟨k, hk⟩)

/-- Non-vacuity: ids after two set ups, a tear down and another set up. -/
example : ∃ c es, run selfSign (Central.init 8)
    [.setup true true, .setup true true, .teardown 0, .setup true true] = .ok (c, es) ∧
    c.handles = [none, some 2, some 3] := ⟨_, _, rfl, rfl⟩

end SV
