import Verif.Proofs.Life
/-!
Calls of exit return.
-/
namespace SV.Life
open SV.Spec

/-- How far stopping has come: the worker has returned; exit is joining it. -/
def Stage (n : Nat) (s : State) : Prop :=
  ∃ e, s.exits = [e] ∧ (1 ≤ n → s.worker = .done) ∧ (2 ≤ n → e = .join)

theorem Stage.le {n m : Nat} (h : m ≤ n) {s : State} (hs : Stage n s) : Stage m s := by
  obtain ⟨e, h1, h2, h3⟩ := hs
  exact ⟨e, h1, fun hm => h2 (by omega), fun hm => h3 (by omega)⟩

theorem signal_stage {s : State} {n : Nat} (hi : Inv s) (h : Stage n s) (p : Nat) : Stage n (signal s p) := by
  obtain ⟨e, he, h1, h2⟩ := h
  cases hi.ph with
  | off thread exits => simp [exits] at he
  | starting thread exits => simp [exits] at he
  | up ids thread exits => simp [exits] at he
  | stopping e' thread exits init running worker asleep idList signData =>
    have hw : s.worker ≠ .asleep := by rcases worker with h | h | h <;> simp [h]
    rw [exits] at he
    injection he with he
    subst he
    by_cases hea : e' = .asleep
    · rw [signal_exit p hw (by simp [init]) (by rw [exits, hea])]
      exact ⟨.ready, rfl, h1, fun h => absurd (hea ▸ h2 h) (by simp)⟩
    · rw [signal_none p hw (by simp [init]) (.inr ⟨e', exits, hea⟩)]
      exact ⟨e', exits, h1, h2⟩

theorem wake_stage {s : State} {n : Nat} (hi : Inv s) (h : Stage n s) (w : Who) : Stage n (wake s w) := by
  obtain ⟨e, he, h1, h2⟩ := h
  cases hi.ph with
  | off thread exits => simp [exits] at he
  | starting thread exits => simp [exits] at he
  | up ids thread exits => simp [exits] at he
  | stopping e' thread exits init running worker asleep idList signData =>
    rw [exits] at he
    injection he with he
    subst he
    have hw : s.worker ≠ .asleep := by rcases worker with h | h | h <;> simp [h]
    cases w with
    | worker => exact ⟨e', exits, by simpa [wake, hw] using h1, h2⟩
    | init => exact ⟨e', exits, h1, h2⟩
    | exit i =>
      by_cases hx : s.exits[i]? = some .asleep
      · obtain ⟨rfl, rfl⟩ := exits_zero exits hx
        exact ⟨.ready, by simp [wake, exits], h1, fun h => absurd (h2 h) (by simp)⟩
      · simp only [wake, if_neg hx]
        exact ⟨e', exits, h1, h2⟩

/-- While the plugin is stopping, the worker returns in its next step. -/
theorem worker_stage {s s' : State} {n : Nat} (hi : Inv s) (h : Stage n s) {g a : Bool} {p1 p2 : Nat}
    (hs : workerStep s g a p1 p2 = .ok s') : Stage n s' ∧ Stage 1 s' := by
  obtain ⟨e, he, h1, h2⟩ := h
  cases hi.ph with
  | off thread exits => simp [exits] at he
  | starting thread exits => simp [exits] at he
  | up ids thread exits => simp [exits] at he
  | stopping e' thread exits init running worker asleep idList signData =>
    rw [exits] at he
    injection he with he
    subst he
    obtain ⟨k, hk⟩ := signData
    have fin : ∀ t : State, t.exits = [e'] → t.init = none → t.running = false →
        workerLoop t p2 = .ok s' → Stage n s' ∧ Stage 1 s' := by
      intro t ht1 ht2 ht3 ht
      rw [loop_stop p2 ht3] at ht
      injection ht with ht
      subst ht
      by_cases hea : e' = .asleep
      · rw [signal_exit (s := { t with worker := .done }) p2 (by simp) (by simp [ht2]) (by simp [ht1, hea])]
        exact ⟨⟨.ready, rfl, fun _ => rfl, fun h => absurd (hea ▸ h2 h) (by simp)⟩,
          ⟨.ready, rfl, fun _ => rfl, by omega⟩⟩
      · rw [signal_none (s := { t with worker := .done }) p2 (by simp) (by simp [ht2]) (.inr ⟨e', ht1, hea⟩)]
        exact ⟨⟨e', ht1, fun _ => rfl, h2⟩, ⟨e', ht1, fun _ => rfl, by omega⟩⟩
    rcases worker with hw | hw | hw
    · rw [workerStep, hw] at hs
      exact fin s exits init running hs
    · rw [workerStep, hw] at hs
      obtain ⟨t, q1, q2, q3, q4, q5, q6, q7, q8, q9, q10, q11, q12⟩ := put_up hk g a
      rw [q1] at hs
      refine fin t (q6 ▸ exits) (q7 ▸ init) ?_ hs
      rcases q12 with h | ⟨h, -⟩
      · rw [h, running]
      · exact h
    · rw [workerStep, hw] at hs
      injection hs with hs
      subst hs
      exact ⟨⟨e', exits, h1, h2⟩, ⟨e', exits, fun _ => hw, by omega⟩⟩

theorem exitWait_stage {s : State} {n : Nat} (hi : Inv s) (h : Stage n s) (i : Nat) (t : Bool) (p : Nat) :
    Stage n (exitWait s i t p) ∧ (i = 0 → Stage 1 s → Stage 2 (exitWait s i t p)) := by
  obtain ⟨e, he, h1, h2⟩ := h
  by_cases hc : (s.exits[i]? = some .ready || (s.exits[i]? = some .asleep && t)) = true
  · unfold exitWait
    rw [if_pos hc]
    have hx : ∃ c, s.exits[i]? = some c ∧ c ≠ .join := by
      cases hx : s.exits[i]? with
      | none => simp [hx] at hc
      | some c => exact ⟨c, rfl, fun h => by simp [hx, h] at hc⟩
    obtain ⟨c, hx, hcj⟩ := hx
    obtain ⟨rfl, rfl⟩ := exits_zero he hx
    split
    · rename_i hs
      simp only [Bool.and_eq_true] at hs
      have hw := hi.sig.1 hs.1
      refine ⟨⟨.asleep, by simp [he], h1, fun h => absurd (h2 h) hcj⟩, ?_⟩
      intro _ ⟨_, _, h, _⟩
      have := h (by omega)
      simp [hw] at this
    · have hwi : s.worker ≠ .asleep ∧ s.init = none := by
        cases hi.ph with
        | off thread exits => simp [exits] at he
        | starting thread exits => simp [exits] at he
        | up ids thread exits => simp [exits] at he
        | stopping e' thread exits init running worker asleep idList signData =>
          exact ⟨by rcases worker with h | h | h <;> simp [h], init⟩
      rw [signal_none (s := { s with exits := s.exits.set 0 .join }) p hwi.1 (by simp [hwi.2])
          (.inr ⟨.join, by simp [he], by simp⟩)]
      refine ⟨⟨.join, by simp [he], h1, fun _ => rfl⟩, ?_⟩
      intro _ ⟨_, _, h, _⟩
      exact ⟨.join, by simp [he], fun _ => h (by omega), fun _ => rfl⟩
  · rw [exitWait, if_neg hc]
    refine ⟨⟨e, he, h1, h2⟩, ?_⟩
    intro hi0 ⟨e', he', h, _⟩
    subst hi0
    rw [he] at he'
    injection he' with he'
    subst he'
    refine ⟨e, he, fun _ => h (by omega), fun _ => ?_⟩
    have hd := h (by omega)
    cases e with
    | join => rfl
    | ready => simp [he] at hc
    | asleep =>
      cases hi.ph with
      | off thread exits => simp [exits] at he
      | starting thread exits => simp [exits] at he
      | up ids thread exits => simp [exits] at he
      | stopping e' thread exits init running worker asleep idList signData =>
        rw [exits] at he
        injection he with he
        have := asleep he
        simp [this] at hd

/-- No allowed step undoes progress. -/
theorem step_stage {s s' : State} {n : Nat} (hi : Inv s) (h : Stage n s) {x : Step} (hc : MayCall s x)
    {e : Ev} (hs : step s x = .ok (s', e)) : s'.exits = [] ∨ Stage n s' := by
  have h0 := h
  obtain ⟨c, he, h1, h2⟩ := h
  cases x with
  | init a1 a2 key thr => simp [MayCall, he] at hc
  | exit p => simp [MayCall, he] at hc
  | initWait =>
    simp only [step, Out.ok.injEq, Prod.mk.injEq] at hs
    rw [← hs.1]
    unfold initWait
    split
    · exact .inr ⟨c, he, h1, h2⟩
    · exact .inr h0
  | exitWait i t p =>
    simp only [step, Out.ok.injEq, Prod.mk.injEq] at hs
    rw [← hs.1]
    exact .inr (exitWait_stage hi h0 i t p).1
  | exitJoin i =>
    rw [step] at hs
    by_cases hj : (s.exits[i]? = some .join && s.worker = .done) = true
    · have hx : s.exits[i]? = some .join := by simp at hj; exact hj.1
      obtain ⟨rfl, -⟩ := exits_zero he hx
      rw [exitJoin, if_pos hj] at hs
      simp only [freePlugin] at hs
      simp only [reduceCtorEq, decide_false, Bool.false_and, Bool.false_eq_true, if_false, Out.bind_ok, Out.ok.injEq, Prod.mk.injEq] at hs
      rw [← hs.1]
      exact .inl (by simp [freeBuffers, he])
    · rw [exitJoin, if_neg hj] at hs
      simp only [Out.bind_ok, Out.ok.injEq, Prod.mk.injEq] at hs
      rw [← hs.1]
      exact .inr h0
  | worker g a p1 p2 =>
    rw [step] at hs
    cases hw : workerStep s g a p1 p2 with
    | err _ => simp [hw] at hs
    | ub _ => simp [hw] at hs
    | ok t =>
      simp only [hw, Out.bind_ok, Out.ok.injEq, Prod.mk.injEq] at hs
      rw [← hs.1]
      exact .inr (worker_stage hi h0 hw).1
  | wake w =>
    simp only [step, Out.ok.injEq, Prod.mk.injEq] at hs
    rw [← hs.1]
    exact .inr (wake_stage hi h0 w)
  | setup a1 a2 a3 =>
    have ht : s.thread = false := by
      cases hi.ph with
      | off thread exits => simp [exits] at he
      | starting thread exits => simp [exits] at he
      | up ids thread exits => simp [exits] at he
      | stopping e' thread exits => exact thread
    have : setup s a1 a2 a3 = .ok (s, none) := by simp [setup, ht]
    simp only [step, this, Out.bind_ok, Out.ok.injEq, Prod.mk.injEq] at hs
    rw [← hs.1]
    exact .inr h0
  | teardown k =>
    obtain ⟨id, hk⟩ := hc
    have hl : s.idList = none := by
      cases hi.ph with
      | off thread exits => simp [exits] at he
      | starting thread exits => simp [exits] at he
      | up ids thread exits => simp [exits] at he
      | stopping e' thread exits init running worker asleep idList signData => exact idList
    simp only [step, teardown, handle_eq hk, Out.bind_ok, bufferReset, hl, Out.ok.injEq, Prod.mk.injEq] at hs
    rw [← hs.1]
    exact .inr ⟨c, he, h1, h2⟩
  | submit k hb a p =>
    obtain ⟨id, hk⟩ := hc
    have hr : s.running = false := by
      cases hi.ph with
      | off thread exits => simp [exits] at he
      | starting thread exits => simp [exits] at he
      | up ids thread exits => simp [exits] at he
      | stopping e' thread exits init running => exact running
    have : submit s k hb a p = .ok (s, some .invalidParameter) ∨
        ∃ rc, submit s k hb a p = .ok (signal s p, rc) := by
      unfold submit
      rw [handle_eq hk]
      simp only [Out.bind_ok, hr, Bool.not_false, if_true]
      split
      · exact .inl rfl
      · split
        · exact .inr ⟨_, rfl⟩
        · exact .inr ⟨_, rfl⟩
    rcases this with h | ⟨rc, h⟩
    · simp only [step, h, Out.bind_ok, Out.ok.injEq, Prod.mk.injEq] at hs
      rw [← hs.1]
      exact .inr h0
    · simp only [step, h, Out.bind_ok, Out.ok.injEq, Prod.mk.injEq] at hs
      rw [← hs.1]
      exact .inr (signal_stage hi h0 p)
  | fetch k f =>
    obtain ⟨id, hk⟩ := hc
    have hr : s.running = false := by
      cases hi.ph with
      | off thread exits => simp [exits] at he
      | starting thread exits => simp [exits] at he
      | up ids thread exits => simp [exits] at he
      | stopping e' thread exits init running => exact running
    simp only [step, fetch, handle_eq hk, Out.bind_ok, hr, Bool.not_false, if_true, Out.ok.injEq, Prod.mk.injEq] at hs
    rw [← hs.1]
    exact .inr h0

/-- At some point of the schedule there is no call of exit in progress. -/
def Returns (s : State) (xs : List Step) : Prop :=
  ∃ zs s' es, zs <+: xs ∧ run s zs = .ok (s', es) ∧ s'.exits = []

theorem Returns.append {s : State} {xs : List Step} (h : Returns s xs) (ys : List Step) :
    Returns s (xs ++ ys) := by
  obtain ⟨zs, s', es, h1, h2, h3⟩ := h
  exact ⟨zs, s', es, h1.trans (List.prefix_append xs ys), h2, h3⟩

theorem run_append : ∀ (xs : List Step) {s s1 : State} {es : List Ev} (ys : List Step),
    run s xs = .ok (s1, es) → run s (xs ++ ys) = (run s1 ys >>= fun q => .ok (q.1, es ++ q.2))
  | [], s, s1, es, ys, h => by
    simp only [run, Out.ok.injEq, Prod.mk.injEq] at h
    obtain ⟨rfl, rfl⟩ := h
    rw [List.nil_append]
    cases run s ys with
    | ok q => rfl
    | err e => rfl
    | ub u => rfl
  | x :: xs, s, s1, es, ys, h => by
    rw [run] at h
    cases h1 : step s x with
    | err e => simp [h1] at h
    | ub u => simp [h1] at h
    | ok q =>
      obtain ⟨t, e⟩ := q
      simp only [h1, Out.bind_ok] at h
      cases h2 : run t xs with
      | err e => simp [h2] at h
      | ub u => simp [h2] at h
      | ok q2 =>
        obtain ⟨t2, es2⟩ := q2
        simp only [h2, Out.bind_ok, Out.ok.injEq, Prod.mk.injEq] at h
        obtain ⟨rfl, rfl⟩ := h
        rw [List.cons_append, run, h1]
        simp only [Out.bind_ok, run_append xs ys h2]
        cases run t2 ys with
        | ok q => rfl
        | err e => rfl
        | ub u => rfl

theorem Returns.after {s s1 : State} {xs : List Step} {es : List Ev} (h : run s xs = .ok (s1, es))
    {ys : List Step} (hr : Returns s1 ys) : Returns s (xs ++ ys) := by
  obtain ⟨zs, s', es', h1, h2, h3⟩ := hr
  refine ⟨xs ++ zs, s', es ++ es', (List.prefix_append_right_inj xs).2 h1, ?_, h3⟩
  rw [run_append xs zs h, h2]
  rfl

theorem orderly_split : ∀ (xs : List Step) {s s1 : State} {es : List Ev} {ys : List Step},
    Orderly s (xs ++ ys) → run s xs = .ok (s1, es) → Orderly s xs ∧ Orderly s1 ys
  | [], s, s1, es, ys, h, hr => by
    simp only [run, Out.ok.injEq, Prod.mk.injEq] at hr
    rw [← hr.1]
    exact ⟨trivial, h⟩
  | x :: xs, s, s1, es, ys, h, hr => by
    rw [run] at hr
    cases h1 : step s x with
    | err e => simp [h1] at hr
    | ub u => simp [h1] at hr
    | ok q =>
      obtain ⟨t, e⟩ := q
      simp only [h1, Out.bind_ok] at hr
      cases h2 : run t xs with
      | err e => simp [h2] at hr
      | ub u => simp [h2] at hr
      | ok q2 =>
        obtain ⟨t2, es2⟩ := q2
        simp only [h2, Out.bind_ok, Out.ok.injEq, Prod.mk.injEq] at hr
        obtain ⟨rfl, -⟩ := hr
        obtain ⟨k1, k2⟩ := orderly_split xs (h.2 t e h1) h2
        refine ⟨⟨h.1, ?_⟩, k2⟩
        intro s' e' hs'
        rw [h1] at hs'
        injection hs' with hs'
        injection hs' with hs1 hs2
        rw [← hs1]
        exact k1

/-- The first part of an orderly schedule is one. -/
theorem orderly_left : ∀ (xs : List Step) {s : State} {ys : List Step},
    Orderly s (xs ++ ys) → Orderly s xs
  | [], _, _, _ => trivial
  | _ :: xs, _, _, h => ⟨h.1, fun s' e hs => orderly_left xs (h.2 s' e hs)⟩

/-- Progress is kept along a schedule. -/
theorem run_stage : ∀ (xs : List Step) {s : State} {n : Nat}, Inv s → Stage n s → Orderly s xs →
    Returns s xs ∨ ∃ s' es, run s xs = .ok (s', es) ∧ Inv s' ∧ Stage n s'
  | [], s, n, hi, h, _ => .inr ⟨s, [], rfl, hi, h⟩
  | x :: xs, s, n, hi, h, ho => by
    obtain ⟨s1, e, h1, h2⟩ := step_inv hi x ho.1
    have hrun : run s [x] = .ok (s1, [e]) := by simp [run, h1]
    rcases step_stage hi h ho.1 h1 with h3 | h3
    · exact .inl ⟨[x], s1, [e], by simp, hrun, h3⟩
    · rcases run_stage xs h2 h3 (ho.2 s1 e h1) with h4 | ⟨s2, es, h4, h5, h6⟩
      · exact .inl (Returns.after hrun h4)
      · exact .inr ⟨s2, e :: es, by simp [run, h1, h4], h5, h6⟩

/-- A single step that makes progress, in the middle of a schedule. -/
theorem run_progress (xs : List Step) {s : State} {n : Nat} {Q : State → Prop} (hi : Inv s) (h : Stage n s) (x : Step)
    (ho : Orderly s (xs ++ [x]))
    (hx : ∀ s1 s2 e, Inv s1 → Stage n s1 → step s1 x = .ok (s2, e) → s2.exits = [] ∨ Q s2) :
    Returns s (xs ++ [x]) ∨ ∃ s' es, run s (xs ++ [x]) = .ok (s', es) ∧ Inv s' ∧ Q s' := by
  rcases run_stage xs hi h (orderly_left _ ho) with h1 | ⟨s1, es, h1, h2, h3⟩
  · exact .inl (h1.append _)
  · obtain ⟨-, ho1⟩ := orderly_split xs ho h1
    obtain ⟨s2, e, h4, h5⟩ := step_inv h2 x ho1.1
    have hrun : run s1 [x] = .ok (s2, [e]) := by simp [run, h4]
    rcases hx s1 s2 e h2 h3 h4 with h6 | h6
    · exact .inl (Returns.after h1 ⟨[x], s2, [e], by simp, hrun, h6⟩)
    · exact .inr ⟨s2, es ++ [e], by rw [run_append xs [x] h1, hrun]; rfl, h5, h6⟩

theorem scheduled_returns {s : State} (hi : Inv s) (h : Stage 0 s) {xs : List Step} (ho : Orderly s xs)
    (hs : Scheduled xs) : Returns s xs := by
  obtain ⟨xs, ys, zs, us, g, a, p1, p2, p, t⟩ := hs
  have e1 : xs ++ Step.worker g a p1 p2 :: ys ++ Step.exitWait 0 t p :: zs ++ Step.exitJoin 0 :: us =
      (xs ++ [Step.worker g a p1 p2]) ++ ((ys ++ [Step.exitWait 0 t p]) ++ ((zs ++ [Step.exitJoin 0]) ++ us)) := by
    simp
  rw [e1] at ho ⊢
  rcases run_progress xs (Q := Stage 1) hi h (.worker g a p1 p2) (orderly_left _ ho) (by
    intro s1 s2 e k1 k2 k3
    rw [step] at k3
    cases hw : workerStep s1 g a p1 p2 with
    | err _ => simp [hw] at k3
    | ub _ => simp [hw] at k3
    | ok t =>
      simp only [hw, Out.bind_ok, Out.ok.injEq, Prod.mk.injEq] at k3
      rw [← k3.1]
      exact .inr (worker_stage k1 k2 hw).2) with h1 | ⟨s1, es1, h1, hi1, hs1⟩
  · exact h1.append _
  · obtain ⟨-, ho1⟩ := orderly_split _ ho h1
    refine Returns.after h1 ?_
    rcases run_progress ys (Q := Stage 2) hi1 hs1 (.exitWait 0 t p) (orderly_left _ ho1) (by
      intro s1 s2 e k1 k2 k3
      simp only [step, Out.ok.injEq, Prod.mk.injEq] at k3
      rw [← k3.1]
      exact .inr ((exitWait_stage k1 k2 0 t p).2 rfl k2)) with h2 | ⟨s2, es2, h2, hi2, hs2⟩
    · exact h2.append _
    · obtain ⟨-, ho2⟩ := orderly_split _ ho1 h2
      refine Returns.after h2 ?_
      rcases run_progress zs (Q := fun _ => False) hi2 hs2 (.exitJoin 0) (orderly_left _ ho2) (by
        intro s1 s2 e k1 k2 k3
        obtain ⟨c, q1, q2, q3⟩ := k2
        have hj : (s1.exits[0]? = some .join && s1.worker = .done) = true := by
          simp [q1, q2 (by omega), q3 (by omega)]
        rw [step, exitJoin, if_pos hj] at k3
        simp only [freePlugin] at k3
        simp only [reduceCtorEq, decide_false, Bool.false_and, Bool.false_eq_true, if_false, Out.bind_ok, Out.ok.injEq, Prod.mk.injEq] at k3
        rw [← k3.1]
        exact .inl (by simp [freeBuffers, q1])) with h3 | ⟨s3, es3, h3, hi3, hs3⟩
      · exact h3.append _
      · exact hs3.elim

end SV.Life
