import Verif.Proofs.LifeHist
/-!
C81: starting and stopping the threaded signing plugin.
-/
namespace SV
open SV.Life SV.Spec

/-- **C81, no undefined behaviour:** a program that keeps to the order of calls never makes the plugin
use memory that is not there, whatever the interleaving, the failures of allocations and the sessions
that outlive the plugin. -/
theorem C81_defined (xs : List Life.Step) (h : Orderly .zero xs) : ∃ s es, Life.run .zero xs = .ok (s, es) := by
  obtain ⟨s, es, h1, -⟩ := Life.run_inv xs Inv_zero h
  exact ⟨s, es, h1⟩

theorem inv_of_run {xs : List Life.Step} (h : Orderly .zero xs) {s : Life.State} {es : List Life.Ev}
    (hr : Life.run .zero xs = .ok (s, es)) : Life.Inv s := by
  obtain ⟨s', es', h1, h2⟩ := Life.run_inv xs Inv_zero h
  rw [h1] at hr
  simp only [Out.ok.injEq, Prod.mk.injEq] at hr
  exact hr.1 ▸ h2

/-- **C81, no lost wake-up:** nobody sleeps who has something to do. -/
theorem C81_awake (xs : List Life.Step) (h : Orderly .zero xs) (s : Life.State) (es : List Life.Ev)
    (hr : Life.run .zero xs = .ok (s, es)) : NobodyOversleeps s := by
  obtain ⟨-, -, -, -, ph⟩ := inv_of_run h hr
  cases ph with
  | off thread exits init worker => exact ⟨by simp [worker], by simp [init], by simp [exits]⟩
  | starting thread exits init worker running =>
    exact ⟨by simp [worker], fun _ => ⟨worker, running⟩, by simp [exits]⟩
  | up ids thread exits init worker =>
    refine ⟨?_, ?_, by simp [exits]⟩
    · intro hw; simpa [hw] using worker
    · intro hi; simp [hi] at init
  | stopping e thread exits init running worker asleep =>
    refine ⟨?_, by simp [init], ?_⟩
    · intro hw; simp [hw] at worker
    · intro he
      rw [exits] at he
      exact asleep (List.mem_singleton.1 he).symm

/-- **C81, exit returns:** whatever else happens, a call of exit has returned once the worker and then
the call itself have been given time. -/
theorem C81_exit_returns (xs : List Life.Step) (s : Life.State) (es : List Life.Ev) (ys : List Life.Step)
    (h : Orderly .zero (xs ++ ys)) (hr : Life.run .zero xs = .ok (s, es)) (he : s.exits ≠ [])
    (hs : Scheduled ys) :
    ∃ zs s' es', zs <+: ys ∧ Life.run s zs = .ok (s', es') ∧ s'.exits = [] := by
  obtain ⟨h1, h2⟩ := orderly_split xs h hr
  have hi := inv_of_run h1 hr
  refine scheduled_returns hi ?_ h2 hs
  cases hi.ph with
  | off thread exits => exact absurd exits he
  | starting thread exits => exact absurd exits he
  | up ids thread exits => exact absurd exits he
  | stopping e thread exits => exact ⟨e, exits, by omega, by omega⟩

/-- **C81, nothing is left:** before the plugin is started, after a start that failed, and after it was
stopped, there is no thread and no memory. -/
theorem C81_nothing_left (xs : List Life.Step) (h : Orderly .zero xs) (s : Life.State) (es : List Life.Ev)
    (hr : Life.run .zero xs = .ok (s, es)) (ht : s.thread = false) (he : s.exits = []) : NothingLeft s := by
  obtain ⟨-, -, -, -, ph⟩ := inv_of_run h hr
  cases ph with
  | off thread exits init worker running inn out idList signData => exact ⟨worker, idList, signData, inn, out⟩
  | starting thread => simp [thread] at ht
  | up ids thread => simp [thread] at ht
  | stopping e thread exits => simp [exits] at he

/-- **C81, own signatures:** a signature handed to a session was made with the key given when the
plugin was last started; since then the session was set up, the hash was accepted from it and signed
without an error, and the plugin was not stopped.  In particular a session that outlived the plugin gets nothing.

Partial: for fewer than `2 ^ 32` attempts to set up a session (afterwards ids are reused, and the one
of a session that outlived the plugin is not known to be in use). -/
theorem C81_own_partial (xs : List Life.Step) (h : Orderly .zero xs) (hn : setUps xs < 2 ^ 32)
    (s : Life.State) (es : List Life.Ev) (hr : Life.run .zero xs = .ok (s, es))
    (es1 es2 : List Life.Ev) (k key : Nat) (hb : Bytes) (rc : Option Rc)
    (he : es = es1 ++ .fetch k (some (key, hb)) rc :: es2) :
    ∃ l, current es1 none = some (key, l) ∧ .setup (some k) ∈ l ∧ .submit k hb none ∈ l ∧ .signed hb true ∈ l :=
  Life.run_hist xs Inv_zero Hist_zero h (by simpa [State.zero] using hn) hr es1 es2 k key hb rc he

/-! ### Checking schedules -/

/-- Decides `MayCall`. -/
def mayCallB (s : Life.State) : Life.Step → Bool
  | .init _ _ _ _ => s.exits.isEmpty
  | .exit _ => s.exits.isEmpty && s.init.isNone
  | .setup _ _ _ => s.init.isNone
  | .teardown k => match s.handles[k]? with | some ⟨_, true⟩ => true | _ => false
  | .submit k _ _ _ => match s.handles[k]? with | some ⟨_, true⟩ => true | _ => false
  | .fetch k _ => match s.handles[k]? with | some ⟨_, true⟩ => true | _ => false
  | _ => true

theorem mayCall_of (s : Life.State) (x : Life.Step) (h : mayCallB s x = true) : MayCall s x := by
  have hh : ∀ k : Nat, (match s.handles[k]? with | some ⟨_, true⟩ => true | _ => false) = true →
      ∃ id, s.handles[k]? = some ⟨id, true⟩ := by
    intro k hk
    split at hk
    · rename_i id h; exact ⟨id, h⟩
    · simp at hk
  cases x with
  | teardown k => exact hh k h
  | submit k _ _ _ => exact hh k h
  | fetch k _ => exact hh k h
  | _ => simpa [mayCallB, MayCall] using h

/-- Decides if a schedule respects what `f` allows. -/
def respectsB (f : Life.State → Life.Step → Bool) : Life.State → List Life.Step → Bool
  | _, [] => true
  | s, x :: xs => f s x && match Life.step s x with
    | .ok (s', _) => respectsB f s' xs
    | _ => true

theorem respects_of {f : Life.State → Life.Step → Bool} {P : Life.State → Life.Step → Prop}
    (hf : ∀ s x, f s x = true → P s x) : ∀ (xs : List Life.Step) (s : Life.State),
    respectsB f s xs = true → Respects P s xs
  | [], _, _ => trivial
  | x :: xs, s, h => by
    simp only [respectsB, Bool.and_eq_true] at h
    refine ⟨hf s x h.1, ?_⟩
    intro s' e hs
    have h2 := h.2
    rw [hs] at h2
    exact respects_of hf xs s' h2

theorem respects_split {P : Life.State → Life.Step → Prop} : ∀ (xs : List Life.Step) {s s1 : Life.State}
    {es : List Life.Ev} {ys : List Life.Step},
    Respects P s (xs ++ ys) → Life.run s xs = .ok (s1, es) → Respects P s1 ys
  | [], s, s1, es, ys, h, hr => by
    simp only [Life.run, Out.ok.injEq, Prod.mk.injEq] at hr
    rw [← hr.1]
    exact h
  | x :: xs, s, s1, es, ys, h, hr => by
    rw [Life.run] at hr
    cases h1 : Life.step s x with
    | err e => simp [h1] at hr
    | ub u => simp [h1] at hr
    | ok q =>
      simp only [h1, Out.bind_ok] at hr
      cases h2 : Life.run q.1 xs with
      | err e => simp [h2] at hr
      | ub u => simp [h2] at hr
      | ok q2 =>
        simp only [h2, Out.bind_ok, Out.ok.injEq, Prod.mk.injEq] at hr
        rw [← hr.1]
        exact respects_split xs (h.2 q.1 q.2 h1) h2

/-! ### When calls overlap -/

/-- A start of the plugin that succeeds and has returned. -/
def lifeUp : List Life.Step := [.init true true true true, .worker true true 0 0, .initWait]

/-- **C81, overlapping calls of exit, as one could hope:** nothing is undefined if exit is called while
another call of it has not returned. -/
def C81_overlap_statement : Prop :=
  ∀ xs : List Life.Step, Respects (fun s x => MayCall s x ∨ ∃ p, x = .exit p ∧ s.init = none) .zero xs →
    ∃ s es, Life.run .zero xs = .ok (s, es)

/-- Two calls of exit that overlap free the key while the worker signs with it. -/
theorem C81_overlap_false : ¬ C81_overlap_statement := by
  intro h
  let xs : List Life.Step := lifeUp ++ [.setup true true true, .submit 0 [1] true 0, .worker true true 0 0,
    .exit 0, .exit 0]
  obtain ⟨s, es, h⟩ := h xs (respects_of (f := fun s x => mayCallB s x || match x with
    | .exit _ => s.init.isNone
    | _ => false) (by
      intro s x hx
      simp only [Bool.or_eq_true] at hx
      rcases hx with hx | hx
      · exact .inl (mayCall_of s x hx)
      · cases x with
        | exit p => exact .inr ⟨p, rfl, by simpa using hx⟩
        | _ => simp at hx) xs .zero (by decide +kernel))
  have : Life.run .zero xs = .ub .useAfterFree := by decide +kernel
  rw [this] at h
  simp at h

/-- **C81, exit during init, as one could hope:** exit returns if the worker and exit are given time,
also if init had not returned when exit was called. -/
def C81_early_statement : Prop :=
  ∀ (xs ys : List Life.Step) (s : Life.State) (es : List Life.Ev),
    Respects (fun s x => MayCall s x ∨ ∃ p, x = .exit p ∧ s.exits = []) .zero (xs ++ ys) →
    Life.run .zero xs = .ok (s, es) → s.exits ≠ [] → Scheduled ys →
    ∃ zs s' es', zs <+: ys ∧ Life.run s zs = .ok (s', es') ∧ s'.exits = []

/-- Tells if a call of exit is in progress after a schedule. -/
def exiting (s : Life.State) (xs : List Life.Step) : Bool :=
  match Life.run s xs with
  | .ok (t, _) => !t.exits.isEmpty
  | _ => true

/-- If exit is called while init still waits for the worker to start, the worker starts afterwards and
is not told to stop: exit waits for it. -/
theorem C81_early_false : ¬ C81_early_statement := by
  intro h
  let xs : List Life.Step := [.init true true true true, .exit 0]
  let ys : List Life.Step := [.worker true true 0 0, .exitWait 0 true 0, .exitJoin 0]
  let s : Life.State := { State.zero with
    worker := .start, signData := some 0, keys := 1, init := some .ready, exits := [.join] }
  have hr : Life.run .zero xs = .ok (s, [.init (some 0), .exit]) := by decide +kernel
  obtain ⟨zs, s', es', h1, h2, h3⟩ := h xs ys s _ (respects_of (f := fun s x => mayCallB s x || match x with
    | .exit _ => s.exits.isEmpty
    | _ => false) (by
      intro s x hx
      simp only [Bool.or_eq_true] at hx
      rcases hx with hx | hx
      · exact .inl (mayCall_of s x hx)
      · cases x with
        | exit p => exact .inr ⟨p, rfl, by simpa using hx⟩
        | _ => simp at hx) (xs ++ ys) .zero (by decide +kernel)) hr (by simp [s])
    (.intro [] [] [] [] true true 0 0 0 true)
  have key : ∀ zs ∈ [[], [Life.Step.worker true true 0 0], [.worker true true 0 0, .exitWait 0 true 0], ys],
      exiting s zs = true := by decide +kernel
  have hmem : zs ∈ [[], [Life.Step.worker true true 0 0], [.worker true true 0 0, .exitWait 0 true 0], ys] := by
    obtain ⟨us, hus⟩ := h1
    match zs, hus with
    | [], _ => simp
    | [a], hus => simp [ys] at hus; simp [hus.1]
    | [a, b], hus => simp [ys] at hus; simp [hus.1, hus.2.1]
    | [a, b, c], hus => simp [ys] at hus; simp [ys, hus.1, hus.2.1, hus.2.2.1]
    | _ :: _ :: _ :: _ :: _, hus => simp [ys] at hus
  have := key zs hmem
  rw [exiting, h2] at this
  simp [h3] at this

/-- The plugin after such a call of exit, once the worker has started. -/
structure LifeStuck (s : Life.State) : Prop where
  exits : s.exits = [.join]
  thread : s.thread = false
  running : s.running = true
  idList : s.idList = none
  signData : s.signData.isSome = true
  worker : s.worker = .asleep ∨ s.worker = .woken ∨ s.worker = .signing

theorem lifeStuck_wake {s : Life.State} (h : LifeStuck s) (w : Who) : LifeStuck (wake s w) := by
  cases w with
  | worker =>
    refine ⟨h.exits, h.thread, h.running, h.idList, h.signData, ?_⟩
    simp only [wake]
    split
    · exact .inr (.inl rfl)
    · exact h.worker
  | init => exact ⟨h.exits, h.thread, h.running, h.idList, h.signData, h.worker⟩
  | exit i =>
    refine ⟨?_, h.thread, h.running, h.idList, h.signData, h.worker⟩
    simp only [wake]
    split
    · rename_i hx
      have := exits_zero h.exits hx
      simp at this
    · exact h.exits

theorem lifeStuck_signal {s : Life.State} (h : LifeStuck s) (p : Nat) : LifeStuck (signal s p) := by
  rcases signal_cases s p with h' | ⟨w, h'⟩ <;> rw [h']
  · exact h
  · exact lifeStuck_wake h w

theorem lifeStuck_loop {s s' : Life.State} (h : LifeStuck s) (p : Nat) (hs : workerLoop s p = .ok s') : LifeStuck s' := by
  unfold workerLoop at hs
  split at hs
  · rename_i hr; simp [h.running] at hr
  · split at hs
    · injection hs with hs
      subst hs
      exact ⟨h.exits, h.thread, h.running, h.idList, h.signData, .inl rfl⟩
    · split at hs
      · simp at hs
      · injection hs with hs
        subst hs
        exact ⟨h.exits, h.thread, h.running, h.idList, h.signData, .inr (.inr rfl)⟩

theorem lifeStuck_step {s s' : Life.State} (h : LifeStuck s) {x : Life.Step} {e : Life.Ev}
    (hc : MayCall s x ∨ ∃ p, x = .exit p ∧ s.exits = []) (hs : Life.step s x = .ok (s', e)) : LifeStuck s' := by
  cases x with
  | init a1 a2 key thr =>
    rcases hc with hc | ⟨p, hc, -⟩
    · simp [MayCall, h.exits] at hc
    · simp at hc
  | exit p =>
    rcases hc with hc | ⟨p, -, hc⟩
    · simp [MayCall, h.exits] at hc
    · simp [h.exits] at hc
  | initWait =>
    simp only [Life.step, Out.ok.injEq, Prod.mk.injEq] at hs
    rw [← hs.1]
    unfold initWait
    split
    · exact ⟨h.exits, h.thread, h.running, h.idList, h.signData, h.worker⟩
    · exact h
  | exitWait i t p =>
    simp only [Life.step, Out.ok.injEq, Prod.mk.injEq] at hs
    rw [← hs.1]
    unfold exitWait
    split
    · rename_i hx
      cases i with
      | zero => simp [h.exits] at hx
      | succ i => simp [h.exits] at hx
    · exact h
  | exitJoin i =>
    rw [Life.step, exitJoin, if_neg (by rcases h.worker with hw | hw | hw <;> simp [hw])] at hs
    simp only [Out.bind_ok, Out.ok.injEq, Prod.mk.injEq] at hs
    rw [← hs.1]
    exact h
  | worker g a p1 p2 =>
    rw [Life.step] at hs
    cases hq : workerStep s g a p1 p2 with
    | err _ => simp [hq] at hs
    | ub _ => simp [hq] at hs
    | ok t =>
      simp only [hq, Out.bind_ok, Out.ok.injEq, Prod.mk.injEq] at hs
      rw [← hs.1]
      rcases h.worker with hw | hw | hw
      · rw [workerStep, hw] at hq
        injection hq with hq
        exact hq ▸ h
      · rw [workerStep, hw] at hq
        exact lifeStuck_loop h p2 hq
      · rw [workerStep, hw] at hq
        cases hp : workerPut s g a with
        | err _ => simp [hp] at hq
        | ub _ => simp [hp] at hq
        | ok u =>
          simp only [hp, Out.bind_ok] at hq
          refine lifeStuck_loop ?_ p2 hq
          unfold workerPut at hp
          split at hp
          · simp at hp
          · rw [if_pos (by simp [active, h.idList])] at hp
            injection hp with hp
            subst hp
            exact ⟨h.exits, h.thread, h.running, h.idList, h.signData, h.worker⟩
  | wake w =>
    simp only [Life.step, Out.ok.injEq, Prod.mk.injEq] at hs
    rw [← hs.1]
    exact lifeStuck_wake h w
  | setup a1 a2 a3 =>
    have : Life.setup s a1 a2 a3 = .ok (s, none) := by simp [Life.setup, h.thread]
    simp only [Life.step, this, Out.bind_ok, Out.ok.injEq, Prod.mk.injEq] at hs
    rw [← hs.1]
    exact h
  | teardown k =>
    obtain ⟨id, hk⟩ : ∃ id, s.handles[k]? = some ⟨id, true⟩ := by
      rcases hc with hc | ⟨p, hc, -⟩
      · exact hc
      · simp at hc
    simp only [Life.step, Life.teardown, handle_eq hk, Out.bind_ok, Life.bufferReset, h.idList, Out.ok.injEq, Prod.mk.injEq] at hs
    rw [← hs.1]
    exact ⟨h.exits, h.thread, h.running, rfl, h.signData, h.worker⟩
  | submit k hb a p =>
    obtain ⟨id, hk⟩ : ∃ id, s.handles[k]? = some ⟨id, true⟩ := by
      rcases hc with hc | ⟨p, hc, -⟩
      · exact hc
      · simp at hc
    rw [Life.step] at hs
    cases hq : Life.submit s k hb a p with
    | err _ => simp [hq] at hs
    | ub _ => simp [hq] at hs
    | ok q =>
      simp only [hq, Out.bind_ok, Out.ok.injEq, Prod.mk.injEq] at hs
      rw [← hs.1]
      unfold Life.submit at hq
      rw [handle_eq hk] at hq
      simp only [Out.bind_ok] at hq
      split at hq
      · injection hq with hq; rw [← hq]; exact h
      split at hq
      · injection hq with hq; rw [← hq]; exact lifeStuck_signal h p
      split at hq
      · injection hq with hq; rw [← hq]; exact lifeStuck_signal h p
      split at hq
      · simp at hq
      split at hq
      · injection hq with hq; rw [← hq]; exact lifeStuck_signal h p
      · injection hq with hq
        rw [← hq]
        exact lifeStuck_signal (s := { s with inn := s.inn ++ [(id, hb)] }) ⟨h.exits, h.thread, h.running, h.idList, h.signData, h.worker⟩ p
  | fetch k f =>
    obtain ⟨id, hk⟩ : ∃ id, s.handles[k]? = some ⟨id, true⟩ := by
      rcases hc with hc | ⟨p, hc, -⟩
      · exact hc
      · simp at hc
    rw [Life.step] at hs
    cases hq : Life.fetch s k f with
    | err _ => simp [hq] at hs
    | ub _ => simp [hq] at hs
    | ok q =>
      simp only [hq, Out.bind_ok, Out.ok.injEq, Prod.mk.injEq] at hs
      rw [← hs.1]
      have h' : ∀ out, LifeStuck { s with out } := fun out =>
        ⟨h.exits, h.thread, h.running, h.idList, h.signData, h.worker⟩
      unfold Life.fetch at hq
      rw [handle_eq hk] at hq
      simp only [Out.bind_ok] at hq
      split at hq
      · injection hq with hq; rw [← hq]; exact h
      split at hq
      · injection hq with hq; rw [← hq]; exact h
      split at hq
      · injection hq with hq; rw [← hq]; exact h
      split at hq
      · injection hq with hq; rw [← hq]; exact h' _
      split at hq
      · injection hq with hq; rw [← hq]; exact h' _
      · injection hq with hq; rw [← hq]; exact h' _

/-- In that situation exit never returns, whatever happens next. -/
theorem C81_early_forever : ∀ (ys : List Life.Step) (s : Life.State) (es : List Life.Ev),
    Respects (fun s x => MayCall s x ∨ ∃ p, x = .exit p ∧ s.exits = []) .zero
      ([.init true true true true, .exit 0, .worker true true 0 0] ++ ys) →
    Life.run .zero ([.init true true true true, .exit 0, .worker true true 0 0] ++ ys) = .ok (s, es) →
    s.exits ≠ [] := by
  have main : ∀ (ys : List Life.Step) (s s' : Life.State) (es : List Life.Ev), LifeStuck s →
      Respects (fun s x => MayCall s x ∨ ∃ p, x = .exit p ∧ s.exits = []) s ys →
      Life.run s ys = .ok (s', es) → s'.exits ≠ [] := by
    intro ys
    induction ys with
    | nil =>
      intro s s' es h _ hr
      simp only [Life.run, Out.ok.injEq, Prod.mk.injEq] at hr
      rw [← hr.1, h.exits]
      simp
    | cons y ys ih =>
      intro s s' es h ho hr
      rw [Life.run] at hr
      cases hq : Life.step s y with
      | err _ => simp [hq] at hr
      | ub _ => simp [hq] at hr
      | ok q =>
        obtain ⟨t, e⟩ := q
        simp only [hq, Out.bind_ok] at hr
        cases hr2 : Life.run t ys with
        | err _ => simp [hr2] at hr
        | ub _ => simp [hr2] at hr
        | ok q2 =>
          simp only [hr2, Out.bind_ok, Out.ok.injEq, Prod.mk.injEq] at hr
          rw [← hr.1]
          exact ih t q2.1 q2.2 (lifeStuck_step h ho.1 hq) (ho.2 t e hq) hr2
  intro ys s es ho hr
  let s1 : Life.State := { State.zero with
    worker := .start, signData := some 0, keys := 1, init := some .ready, exits := [.join] }
  let s2 : Life.State := { s1 with worker := .asleep, running := true }
  have h1 : Life.run .zero [.init true true true true, .exit 0, .worker true true 0 0] =
      .ok (s2, [.init (some 0), .exit, .internal]) := by decide +kernel
  rw [run_append _ ys h1] at hr
  cases hq : Life.run s2 ys with
  | err _ => simp [hq] at hr
  | ub _ => simp [hq] at hr
  | ok q =>
    simp only [hq, Out.bind_ok, Out.ok.injEq, Prod.mk.injEq] at hr
    rw [← hr.1]
    refine main ys s2 q.1 q.2 ⟨rfl, rfl, rfl, rfl, rfl, .inl rfl⟩ ?_ hq
    exact respects_split _ ho h1

/-! ### The hypotheses can be met -/

/-- Started with a key, a session gets a signature; a second session submits a hash, and exit is called
while it is being signed. -/
def lifeFirst : List Life.Step :=
  lifeUp ++ [.setup true true true, .setup true true true, .submit 0 [1] true 0, .worker true true 0 0,
    .worker true true 0 0, .fetch 0 true, .submit 1 [2] true 0, .worker true true 0 0, .exit 0]

/-- The plugin is started again with another key: the first session is torn down, a third session gets
a signature with the new key, the second gets nothing. -/
def lifeSecond : List Life.Step :=
  lifeUp ++ [.teardown 0, .setup true true true, .submit 1 [4] true 0, .submit 2 [5] true 0,
    .worker true true 0 0, .worker true true 0 0, .worker true true 0 0, .fetch 1 true, .fetch 2 true]

/-- Both, with exit returning in between. -/
def lifeDemo : List Life.Step :=
  lifeFirst ++ ([.submit 1 [3] true 0] ++ .worker true true 0 0 :: [] ++ .exitWait 0 false 0 :: [] ++
    .exitJoin 0 :: .fetch 1 true :: lifeSecond)

/-- What is handed out in a run. -/
def handedOut (xs : List Life.Step) : List (Nat × Nat × Bytes) :=
  match Life.run .zero xs with
  | .ok (_, es) => es.filterMap fun
    | .fetch k (some (key, h)) _ => some (k, key, h)
    | _ => none
  | _ => []

example : Orderly .zero lifeDemo ∧ setUps lifeDemo < 2 ^ 32 ∧
    handedOut lifeDemo = [(0, 0, [1]), (2, 1, [5])] :=
  ⟨respects_of mayCall_of lifeDemo .zero (by decide +kernel), by decide +kernel, by decide +kernel⟩

/-- Exit is waiting for the worker after the first part of the example, and the steps that follow let
it return. -/
example : exiting .zero lifeFirst = true ∧ Scheduled ([.submit 1 [3] true 0] ++ .worker true true 0 0 :: [] ++
    .exitWait 0 false 0 :: [] ++ .exitJoin 0 :: .fetch 1 true :: lifeSecond) :=
  ⟨by decide +kernel, .intro _ _ _ _ true true 0 0 0 false⟩

/-- Schedules in which exit is called too early are not hard to meet. -/
example : Respects (fun s x => MayCall s x ∨ ∃ p, x = .exit p ∧ s.exits = []) .zero
    ([.init true true true true, .exit 0, .worker true true 0 0] ++
      [.initWait, .wake .worker, .worker true true 0 0, .exitJoin 0, .setup true true true]) ∧
    exiting .zero ([.init true true true true, .exit 0, .worker true true 0 0] ++
      [.initWait, .wake .worker, .worker true true 0 0, .exitJoin 0, .setup true true true]) = true :=
  ⟨respects_of (f := fun s x => mayCallB s x || match x with
    | .exit _ => s.exits.isEmpty
    | _ => false) (by
      intro s x hx
      simp only [Bool.or_eq_true] at hx
      rcases hx with hx | hx
      · exact .inl (mayCall_of s x hx)
      · cases x with
        | exit p => exact .inr ⟨p, rfl, by simpa using hx⟩
        | _ => simp at hx) _ .zero (by decide +kernel), by decide +kernel⟩

/-- A start that fails leaves nothing; the plugin can be started later. -/
example : Orderly .zero [.init true true false true, .init true true true false, .init true true true true] ∧
    exiting .zero [.init true true false true, .init true true true false] = false :=
  ⟨respects_of mayCall_of _ .zero (by decide +kernel), by decide +kernel⟩

end SV
