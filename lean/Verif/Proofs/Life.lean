import Verif.Spec.Life
import Verif.Proofs.Threaded3
/-!
Invariant of the threaded plugin over its life.
-/
namespace SV.Life
open SV.Spec
open SV.Threaded (pickId isActive deleteItem)

/-- The four phases of the life of the plugin. -/
inductive Phase (s : State) : Prop
  | off (thread : s.thread = false) (exits : s.exits = []) (init : s.init = none)
    (worker : s.worker = .none) (running : s.running = false) (inn : s.inn = []) (out : s.out = [])
    (idList : s.idList = none) (signData : s.signData = none)
  | starting (thread : s.thread = true) (exits : s.exits = [])
    (init : s.init = some .ready ∨ s.init = some .asleep)
    (worker : s.worker = .start) (running : s.running = false) (inn : s.inn = []) (out : s.out = [])
    (idList : s.idList = some [0]) (signData : ∃ k, s.signData = some k)
  | up (ids : List UInt32) (thread : s.thread = true) (exits : s.exits = [])
    (init : s.init = none ∨ (s.init = some .ready ∧ s.running = true ∧ ids = []))
    (worker : (s.worker = .asleep ∧ s.running = true ∧ s.inn = []) ∨
      (s.worker = .woken ∧ s.running = true) ∨ (s.worker = .signing ∧ s.running = true) ∨
      (s.worker = .done ∧ s.running = false))
    (idList : s.idList = some (0 :: ids)) (last : s.last = 0 → ids = [])
    (signData : ∃ k, s.signData = some k)
  | stopping (e : Caller) (thread : s.thread = false) (exits : s.exits = [e])
    (init : s.init = none) (running : s.running = false)
    (worker : s.worker = .woken ∨ s.worker = .signing ∨ s.worker = .done)
    (asleep : e = .asleep → s.worker = .signing)
    (idList : s.idList = none) (signData : ∃ k, s.signData = some k)

/-- What holds whenever the lock is free. -/
structure Inv (s : State) : Prop where
  hid : ∀ h ∈ s.handles, h.id ≠ 0
  inn0 : ∀ w ∈ s.inn, w.1 ≠ 0
  cur0 : s.worker = .signing → s.cur.1 ≠ 0
  sig : s.inSigning = true ↔ s.worker = .signing
  ph : Phase s

theorem Inv_zero : Inv State.zero :=
  ⟨by simp [State.zero], by simp [State.zero], by simp [State.zero], by simp [State.zero],
    .off rfl rfl rfl rfl rfl rfl rfl rfl rfl⟩

/-! ### Signals -/

theorem signal_none {s : State} (p : Nat) (hw : s.worker ≠ .asleep) (hi : s.init ≠ some .asleep)
    (he : s.exits = [] ∨ ∃ e, s.exits = [e] ∧ e ≠ .asleep) : signal s p = s := by
  have : sleepers s = [] := by
    rcases he with he | ⟨e, he, hne⟩ <;> simp [sleepers, *]
  simp [signal, this]

theorem signal_worker {s : State} (p : Nat) (hw : s.worker = .asleep) (hi : s.init ≠ some .asleep)
    (he : s.exits = []) : signal s p = { s with worker := .woken } := by
  have : sleepers s = [.worker] := by simp [sleepers, *]
  simp [signal, this, wake, hw, Nat.mod_one]

theorem signal_init {s : State} (p : Nat) (hw : s.worker ≠ .asleep) (hi : s.init = some .asleep)
    (he : s.exits = []) : signal s p = { s with init := some .ready } := by
  have : sleepers s = [.init] := by simp [sleepers, *]
  simp [signal, this, wake, hi, Nat.mod_one]

theorem signal_exit {s : State} (p : Nat) (hw : s.worker ≠ .asleep) (hi : s.init ≠ some .asleep)
    (he : s.exits = [.asleep]) : signal s p = { s with exits := [.ready] } := by
  have : sleepers s = [.exit 0] := by simp [sleepers, *]
  simp [signal, this, wake, he, Nat.mod_one]

theorem signal_cases (s : State) (p : Nat) : signal s p = s ∨ ∃ w, signal s p = wake s w := by
  unfold signal
  split
  · exact .inr ⟨_, rfl⟩
  · exact .inl rfl

theorem wake_inv {s : State} (h : Inv s) (w : Who) : Inv (wake s w) := by
  obtain ⟨hid, inn0, cur0, sig, ph⟩ := h
  cases w with
  | worker =>
    by_cases hw : s.worker = .asleep
    · cases ph with
      | off thread exits init worker => simp [worker] at hw
      | starting thread exits init worker => simp [worker] at hw
      | stopping e thread exits init running worker => simp [hw] at worker
      | up ids thread exits init worker idList last signData =>
        simp only [hw, reduceCtorEq, false_and, or_false, true_and] at worker
        refine ⟨hid, inn0, ?_, ?_, .up ids thread exits init ?_ idList last signData⟩
        · simp [wake, hw]
        · simpa [wake, hw] using sig
        · simp [wake, hw, worker.1]
    · simpa [wake, hw] using Inv.mk hid inn0 cur0 sig ph
  | init =>
    by_cases hw : s.init = some .asleep
    · cases ph with
      | off thread exits init worker => simp [init] at hw
      | stopping e thread exits init => simp [init] at hw
      | up ids thread exits init worker idList last signData => simp [hw] at init
      | starting thread exits init worker running inn out idList signData =>
        exact ⟨hid, inn0, cur0, sig, .starting thread exits (.inl (by simp [wake, hw])) worker running
          inn out idList signData⟩
    · simpa [wake, hw] using Inv.mk hid inn0 cur0 sig ph
  | exit i =>
    by_cases hw : s.exits[i]? = some .asleep
    · cases ph with
      | off thread exits => simp [exits] at hw
      | starting thread exits => simp [exits] at hw
      | up ids thread exits => simp [exits] at hw
      | stopping e thread exits init running worker asleep idList signData =>
        have hi : i = 0 := by
          rcases Nat.eq_zero_or_pos i with h | h
          · exact h
          · rw [exits, List.getElem?_eq_none (by simp; omega)] at hw; simp at hw
        subst hi
        refine ⟨hid, inn0, cur0, sig, .stopping .ready thread ?_ init running worker (by simp) idList
          signData⟩
        simp only [wake, hw, if_true]
        rw [exits]; rfl
    · simpa [wake, hw] using Inv.mk hid inn0 cur0 sig ph

theorem signal_inv {s : State} (h : Inv s) (p : Nat) : Inv (signal s p) := by
  rcases signal_cases s p with h' | ⟨w, h'⟩ <;> rw [h']
  · exact h
  · exact wake_inv h w

/-! ### The worker -/

theorem loop_stop {s : State} (p : Nat) (hr : s.running = false) :
    workerLoop s p = .ok (signal { s with worker := .done } p) := by
  unfold workerLoop
  rw [if_pos (by simp [hr])]

theorem loop_empty {s : State} (p : Nat) (hr : s.running = true) (hn : s.inn = []) :
    workerLoop s p = .ok { s with worker := .asleep } := by
  unfold workerLoop
  rw [if_neg (by simp [hr])]
  split
  · rfl
  · rename_i h; rw [hn] at h; simp at h

theorem loop_take {s : State} (p : Nat) (hr : s.running = true) {w : UInt32 × Bytes}
    {inn : List (UInt32 × Bytes)} (hn : s.inn = w :: inn) {k : Nat} (hk : s.signData = some k) :
    workerLoop s p = .ok { s with inn, cur := w, inSigning := true, worker := .signing } := by
  unfold workerLoop
  rw [if_neg (by simp [hr])]
  split
  · rename_i h; rw [hn] at h; simp at h
  · rename_i h
    rw [hn] at h
    injection h with h1 h2
    subst h1 h2
    split
    · rename_i h; rw [hk] at h; simp at h
    · rfl

/-- The loop of the worker, entered while the plugin is up. -/
theorem loop_up {s : State} (hid : ∀ h ∈ s.handles, h.id ≠ 0) (inn0 : ∀ w ∈ s.inn, w.1 ≠ 0)
    (sig : s.inSigning = false) (ids : List UInt32) (thread : s.thread = true) (exits : s.exits = [])
    (init : s.init = none ∨ (s.init = some .ready ∧ s.running = true ∧ ids = []))
    (worker : s.worker ≠ .asleep)
    (idList : s.idList = some (0 :: ids)) (last : s.last = 0 → ids = [])
    (signData : ∃ k, s.signData = some k) (p : Nat) :
    ∃ s', workerLoop s p = .ok s' ∧ Inv s' := by
  obtain ⟨k, hk⟩ := signData
  have hin : s.init ≠ some .asleep := by rcases init with h | h <;> simp [h]
  cases hr : s.running with
  | false =>
    refine ⟨_, loop_stop p hr, ?_⟩
    rw [signal_none (s := { s with worker := .done }) p (by simp) hin (.inl exits)]
    refine ⟨hid, inn0, by simp, by simp [sig], .up ids thread exits ?_ ?_ idList last ⟨k, hk⟩⟩
    · rcases init with h | h
      · exact .inl h
      · simp [hr] at h
    · simp [hr]
  | true =>
    cases hn : s.inn with
    | nil =>
      refine ⟨_, loop_empty p hr hn, hid, by simp [hn], by simp, by simp [sig],
        .up ids thread exits init (.inl ⟨rfl, hr, hn⟩) idList last ⟨k, hk⟩⟩
    | cons w inn =>
      rw [hn] at inn0
      refine ⟨_, loop_take p hr hn hk, hid, ?_, ?_, by simp,
        .up ids thread exits init (.inr (.inr (.inl ⟨rfl, hr⟩))) idList last ⟨k, hk⟩⟩
      · intro w' hw'; exact inn0 w' (List.mem_cons_of_mem _ hw')
      · intro _; exact inn0 w (List.mem_cons_self ..)

theorem put_up {s : State} {k : Nat} (hk : s.signData = some k) (g a : Bool) :
    ∃ s', workerPut s g a = .ok s' ∧ s'.handles = s.handles ∧ (∀ w ∈ s'.inn, w ∈ s.inn) ∧
      s'.inSigning = false ∧ s'.thread = s.thread ∧ s'.exits = s.exits ∧ s'.init = s.init ∧
      s'.worker = s.worker ∧ s'.idList = s.idList ∧ s'.last = s.last ∧ s'.signData = s.signData ∧
      (s'.running = s.running ∨ (s'.running = false ∧ active s s.cur.1 = true)) := by
  unfold workerPut
  split
  · rename_i h; rw [hk] at h; simp at h
  simp only []
  have hact : active { s with inSigning := false } s.cur.1 = active s s.cur.1 := rfl
  split
  · exact ⟨_, rfl, rfl, fun _ h => h, rfl, rfl, rfl, rfl, rfl, rfl, rfl, rfl, .inl rfl⟩
  · rename_i ha
    have ha : active s s.cur.1 = true := by simpa [hact] using ha
    split
    · refine ⟨_, rfl, rfl, ?_, rfl, rfl, rfl, rfl, rfl, rfl, rfl, rfl, .inl rfl⟩
      intro w hw
      exact (List.mem_filter.1 hw).1
    · split
      · exact ⟨_, rfl, rfl, by simp [freeBuffers], rfl, rfl, rfl, rfl, rfl, rfl, rfl, rfl,
          .inr ⟨rfl, ha⟩⟩
      · exact ⟨_, rfl, rfl, fun _ h => h, rfl, rfl, rfl, rfl, rfl, rfl, rfl, rfl, .inl rfl⟩

theorem worker_start {s : State} (g a : Bool) (p1 p2 : Nat) (hw : s.worker = .start)
    (hr : s.running = false) :
    workerStep s g a p1 p2 = workerLoop (signal { s with running := true } p1) p2 := by
  unfold workerStep
  split <;> simp_all

theorem worker_inv {s : State} (h : Inv s) (g a : Bool) (p1 p2 : Nat) :
    ∃ s', workerStep s g a p1 p2 = .ok s' ∧ Inv s' := by
  have h0 := h
  obtain ⟨hid, inn0, cur0, sig, ph⟩ := h
  cases ph with
  | off thread exits init worker => exact ⟨s, by rw [workerStep, worker], h0⟩
  | starting thread exits init worker running inn out idList signData =>
    rw [worker_start g a p1 p2 worker running]
    have hsig : s.inSigning = false := by
      cases hs : s.inSigning with
      | false => rfl
      | true => simp [sig.1 hs] at worker
    rcases init with hi | hi
    · rw [signal_none (s := { s with running := true }) p1 (by simp [worker]) (by simp [hi]) (.inl exits)]
      exact loop_up (s := { s with running := true }) hid inn0 hsig [] thread exits
        (.inr ⟨hi, rfl, rfl⟩) (by simp [worker]) idList (fun _ => rfl) signData p2
    · rw [signal_init (s := { s with running := true }) p1 (by simp [worker]) (by simp [hi]) exits]
      exact loop_up (s := { s with running := true, init := some .ready }) hid inn0 hsig [] thread exits
        (.inr ⟨rfl, rfl, rfl⟩) (by simp [worker]) idList (fun _ => rfl) signData p2
  | up ids thread exits init worker idList last signData =>
    rcases worker with ⟨hw, hr, hn⟩ | ⟨hw, hr⟩ | ⟨hw, hr⟩ | ⟨hw, hr⟩
    · exact ⟨s, by rw [workerStep, hw], h0⟩
    · rw [workerStep, hw]
      refine loop_up hid inn0 ?_ ids thread exits init (by simp [hw]) idList last signData p2
      cases hs : s.inSigning with
      | false => rfl
      | true => simp [sig.1 hs] at hw
    · rw [workerStep, hw]
      obtain ⟨k, hk⟩ := signData
      obtain ⟨s', h1, h2, h3, h4, h5, h6, h7, h8, h9, h10, h11, h12⟩ := put_up hk g a
      rw [h1]
      refine loop_up (h2 ▸ hid) (fun w hw' => inn0 w (h3 w hw')) h4 ids (h5 ▸ thread) (h6 ▸ exits) ?_
        (by simp [h8, hw]) (h9 ▸ idList) (h10 ▸ last) ⟨k, h11 ▸ hk⟩ p2
      rw [h7]
      rcases init with hi | ⟨hi, -, hids⟩
      · exact .inl hi
      · refine .inr ⟨hi, ?_, hids⟩
        rcases h12 with h | ⟨h, ha⟩
        · rw [h, hr]
        · have := cur0 hw
          simp [active, idList, hids, isActive] at ha
          exact absurd ha this
    · exact ⟨s, by rw [workerStep, hw], h0⟩
  | stopping e thread exits init running worker asleep idList signData =>
    obtain ⟨k, hk⟩ := signData
    have fin : ∀ s' : State, s'.handles = s.handles → (∀ w ∈ s'.inn, w ∈ s.inn) → s'.inSigning = false →
        s'.thread = false → s'.exits = [e] → s'.init = none → s'.worker ≠ .asleep →
        s'.idList = none → s'.signData = some k → s'.running = false →
        ∃ s'', workerLoop s' p2 = .ok s'' ∧ Inv s'' := by
      intro s' h2 h3 h4 h5 h6 h7 h8 h9 h10 h11
      refine ⟨_, loop_stop p2 h11, ?_⟩
      by_cases he : e = .asleep
      · rw [signal_exit (s := { s' with worker := .done }) p2 (by simp) (by simp [h7]) (by simp [h6, he])]
        exact ⟨h2 ▸ hid, fun w hw => inn0 w (h3 w hw), by simp, by simp [h4],
          .stopping .ready h5 rfl h7 h11 (by simp) (by simp) h9 ⟨k, h10⟩⟩
      · rw [signal_none (s := { s' with worker := .done }) p2 (by simp) (by simp [h7]) (.inr ⟨e, h6, he⟩)]
        exact ⟨h2 ▸ hid, fun w hw => inn0 w (h3 w hw), by simp, by simp [h4],
          .stopping e h5 h6 h7 h11 (by simp) (fun h => absurd h he) h9 ⟨k, h10⟩⟩
    rcases worker with hw | hw | hw
    · rw [workerStep, hw]
      refine fin s rfl (fun _ h => h) ?_ thread exits init (by simp [hw]) idList hk running
      cases hs : s.inSigning with
      | false => rfl
      | true => simp [sig.1 hs] at hw
    · rw [workerStep, hw]
      obtain ⟨s', h1, h2, h3, h4, h5, h6, h7, h8, h9, h10, h11, h12⟩ := put_up hk g a
      rw [h1]
      refine fin s' h2 h3 h4 (h5 ▸ thread) (h6 ▸ exits) (h7 ▸ init) (by simp [h8, hw]) (h9 ▸ idList)
        (h11 ▸ hk) ?_
      rcases h12 with h | ⟨h, -⟩
      · rw [h, running]
      · exact h
    · exact ⟨s, by rw [workerStep, hw], h0⟩

/-! ### Init and exit -/

theorem notSigning {s : State} (h : Inv s) (hw : s.worker ≠ .signing) : s.inSigning = false := by
  cases hs : s.inSigning with
  | false => rfl
  | true => exact absurd (h.sig.1 hs) hw

theorem init_inv {s : State} (h : Inv s) (he : s.exits = []) (a1 a2 key thr : Bool) :
    ∃ s' b, initCall s a1 a2 key thr = .ok (s', b) ∧ Inv s' := by
  by_cases hc : (s.thread || s.idList.isSome || s.signData.isSome) = true
  · exact ⟨s, false, by rw [initCall, if_pos hc], h⟩
  · obtain ⟨hid, inn0, cur0, sig, ph⟩ := h
    cases ph with
    | starting thread => simp [thread] at hc
    | up ids thread => simp [thread] at hc
    | stopping e thread exits => simp [exits] at he
    | off thread exits init worker running inn out idList signData =>
      have same : ({ s with idList := none, signData := none } : State) = s := by
        cases s; simp only at idList signData; subst idList signData; rfl
      cases a1 with
      | false => exact ⟨s, false, by simp [initCall, hc, same], ⟨hid, inn0, cur0, sig, .off thread exits init worker running inn out idList signData⟩⟩
      | true =>
        cases hk : (!a2 || !key) with
        | true =>
          exact ⟨s, false, by rw [initCall, if_neg hc]; simp only [Bool.not_true, Bool.false_eq_true, if_false, hk, if_true, same],
            ⟨hid, inn0, cur0, sig, .off thread exits init worker running inn out idList signData⟩⟩
        | false =>
          cases thr with
          | false =>
            refine ⟨{ s with keys := s.keys + 1 }, false, ?_, ⟨hid, inn0, cur0, sig, .off thread exits init worker running inn out idList signData⟩⟩
            rw [initCall, if_neg hc]
            simp only [Bool.not_true, Bool.false_eq_true, if_false, hk, Bool.not_false, if_true]
            congr 2
            cases s; simp only at idList signData; subst idList signData; rfl
          | true =>
            refine ⟨{ s with idList := some [0], signData := some s.keys, keys := s.keys + 1, thread := true, worker := .start, init := some .ready }, true, ?_,
              ⟨hid, inn0, by simp, ?_, .starting rfl exits (.inl rfl) rfl running inn out rfl ⟨_, rfl⟩⟩⟩
            · rw [initCall, if_neg hc]
              simp [hk, worker]
            · simpa [worker] using sig

theorem initWait_inv {s : State} (h : Inv s) : Inv (initWait s) := by
  unfold initWait
  split
  · rename_i hi
    obtain ⟨hid, inn0, cur0, sig, ph⟩ := h
    refine ⟨hid, inn0, cur0, sig, ?_⟩
    cases ph with
    | off thread exits init => simp [init] at hi
    | stopping e thread exits init => simp [init] at hi
    | starting thread exits init worker running inn out idList signData =>
      exact .starting thread exits (.inr (by simp [running])) worker running inn out idList signData
    | up ids thread exits init worker idList last signData =>
      refine .up ids thread exits (.inl ?_) worker idList last signData
      rcases init with h | ⟨-, h, -⟩
      · simp [h] at hi
      · simp [h]
  · exact h

theorem exit_inv {s : State} (h : Inv s) (he : s.exits = []) (hi : s.init = none) (p : Nat) :
    ∃ s', exitCall s p = .ok s' ∧ Inv s' := by
  obtain ⟨hid, inn0, cur0, sig, ph⟩ := h
  cases ph with
  | starting thread exits init => simp [hi] at init
  | stopping e thread exits => simp [exits] at he
  | off thread exits init worker running inn out idList signData =>
    refine ⟨freeBuffers { s with idList := none, signData := none }, ?_, hid, by simp [freeBuffers], cur0, sig,
      .off thread exits init worker running rfl rfl rfl rfl⟩
    simp [exitCall, thread, freePlugin, worker]
  | up ids thread exits init worker idList last signData =>
    unfold exitCall
    simp only [thread, Bool.not_true, Bool.false_eq_true, if_false]
    cases hs : s.inSigning with
    | true =>
      have hw := sig.1 hs
      refine ⟨_, rfl, hid, inn0, cur0, by simpa [hs] using hw, .stopping .asleep rfl (by simp [he]) hi rfl (.inr (.inl hw))
        (fun _ => hw) rfl signData⟩
    | false =>
      have hns : s.worker ≠ .signing := fun hw => by simp [sig.2 hw] at hs
      rcases worker with ⟨hw, hr, hn⟩ | ⟨hw, hr⟩ | ⟨hw, hr⟩ | ⟨hw, hr⟩
      · simp only [Bool.false_eq_true, if_false]
        rw [signal_worker (s := { s with idList := none, running := false, thread := false, inSigning := false }) p hw (by simp [hi]) he]
        refine ⟨_, rfl, hid, inn0, by simp, by simp, .stopping .join rfl (by simp [he]) hi rfl (.inl rfl)
          (by simp) rfl signData⟩
      · simp only [Bool.false_eq_true, if_false]
        rw [signal_none (s := { s with idList := none, running := false, thread := false, inSigning := false })
          p (by simp [hw]) (by simp [hi]) (.inl he)]
        refine ⟨_, rfl, hid, inn0, cur0, by simp [hw], .stopping .join rfl (by simp [he]) hi rfl (.inl hw)
          (by simp) rfl signData⟩
      · exact absurd hw hns
      · simp only [Bool.false_eq_true, if_false]
        rw [signal_none (s := { s with idList := none, running := false, thread := false, inSigning := false })
          p (by simp [hw]) (by simp [hi]) (.inl he)]
        refine ⟨_, rfl, hid, inn0, cur0, by simp [hw], .stopping .join rfl (by simp [he]) hi rfl (.inr (.inr hw))
          (by simp) rfl signData⟩

/-- Only the first call of exit can be waiting. -/
theorem exits_zero {s : State} {e c : Caller} {i : Nat} (he : s.exits = [e]) (h : s.exits[i]? = some c) :
    i = 0 ∧ e = c := by
  rw [he] at h
  cases i with
  | zero => simpa using h
  | succ i => simp at h

theorem exitWait_inv {s : State} (h : Inv s) (i : Nat) (t : Bool) (p : Nat) : Inv (exitWait s i t p) := by
  by_cases hc : (s.exits[i]? = some .ready || (s.exits[i]? = some .asleep && t)) = true
  · obtain ⟨hid, inn0, cur0, sig, ph⟩ := h
    have hex : ∃ c, s.exits[i]? = some c := by
      cases hx : s.exits[i]? with
      | none => simp [hx] at hc
      | some c => exact ⟨c, rfl⟩
    obtain ⟨c, hx⟩ := hex
    cases ph with
    | off thread exits => simp [exits] at hx
    | starting thread exits => simp [exits] at hx
    | up ids thread exits => simp [exits] at hx
    | stopping e thread exits init running worker asleep idList signData =>
      obtain ⟨rfl, rfl⟩ := exits_zero exits hx
      unfold exitWait
      rw [if_pos hc]
      split
      · rename_i hs
        simp only [Bool.and_eq_true] at hs
        refine ⟨hid, inn0, cur0, sig, .stopping .asleep thread (by simp [exits]) init running worker
          (fun _ => sig.1 hs.1) idList signData⟩
      · have hw : s.worker ≠ .asleep := by rcases worker with h | h | h <;> simp [h]
        rw [signal_none (s := { s with exits := s.exits.set 0 .join }) p hw (by simp [init])
          (.inr ⟨.join, by simp [exits], by simp⟩)]
        exact ⟨hid, inn0, cur0, sig, .stopping .join thread (by simp [exits]) init running worker
          (by simp) idList signData⟩
  · rw [exitWait, if_neg hc]; exact h

theorem exitJoin_inv {s : State} (h : Inv s) (i : Nat) : ∃ s', exitJoin s i = .ok s' ∧ Inv s' := by
  by_cases hc : (s.exits[i]? = some .join && s.worker = .done) = true
  · have h1 : s.exits[i]? = some .join ∧ s.worker = .done := by simpa using hc
    have hsig := notSigning h (by simp [h1.2])
    obtain ⟨hid, inn0, cur0, sig, ph⟩ := h
    cases ph with
    | off thread exits => simp [exits] at h1
    | starting thread exits => simp [exits] at h1
    | up ids thread exits => simp [exits] at h1
    | stopping e thread exits init running worker asleep idList signData =>
      obtain ⟨rfl, -⟩ := exits_zero exits h1.1
      refine ⟨freeBuffers { s with worker := .none, exits := s.exits.eraseIdx 0, signData := none }, ?_,
        hid, by simp [freeBuffers], by simp [freeBuffers], by simp [freeBuffers, hsig],
        .off thread (by simp [freeBuffers, exits]) init rfl running rfl rfl idList rfl⟩
      rw [exitJoin, if_pos hc]
      simp [freePlugin]
  · exact ⟨s, by rw [exitJoin, if_neg hc], h⟩

/-! ### Sessions -/

theorem setup_inv {s : State} (h : Inv s) (hi : s.init = none) (a1 a2 a3 : Bool) :
    ∃ s' k, setup s a1 a2 a3 = .ok (s', k) ∧ Inv s' := by
  unfold setup
  split
  · exact ⟨_, _, rfl, h⟩
  split
  · exact ⟨_, _, rfl, h⟩
  rename_i ht
  have ht : s.thread = true := by simpa using ht
  have h0 := h
  obtain ⟨hid, inn0, cur0, sig, ph⟩ := h
  cases ph with
  | off thread => simp [thread] at ht
  | starting thread exits init => simp [hi] at init
  | stopping e thread => simp [thread] at ht
  | up ids thread exits init worker idList last signData =>
    rw [if_neg (by simp [idList])]
    split
    · exact ⟨_, _, rfl, h0⟩
    split
    · exact ⟨_, _, rfl, h0⟩
    split
    · rename_i h; rw [idList] at h; simp at h
    rename_i ids' hids
    rw [idList] at hids
    injection hids with hids
    subst hids
    obtain ⟨x, hx, hx0, hx1⟩ := SV.Threaded.pickId_ok (0 :: ids) s.last (fun h => by rw [last h])
    rw [hx]
    simp only [Out.bind_ok]
    split
    · exact ⟨_, _, rfl, h0⟩
    split
    · exact ⟨_, _, rfl, hid, inn0, cur0, sig, .up ids thread exits (.inl hi) worker idList
        (fun h => absurd h hx0) signData⟩
    · refine ⟨_, _, rfl, ?_, inn0, cur0, sig, .up (ids ++ [x]) thread exits (.inl hi) worker rfl
        (fun h => absurd h hx0) signData⟩
      intro y hy
      rcases List.mem_append.1 hy with hy | hy
      · exact hid y hy
      · simp only [List.mem_singleton] at hy
        rw [hy]; exact hx0

theorem handle_eq {s : State} {k : Nat} {id : UInt32} (h : s.handles[k]? = some ⟨id, true⟩) :
    handle s k = .ok id := by rw [handle, h]

theorem teardown_inv {s : State} (h : Inv s) {k : Nat} {id : UInt32}
    (hk : s.handles[k]? = some ⟨id, true⟩) : ∃ s', teardown s k = .ok s' ∧ Inv s' := by
  have hid0 : id ≠ 0 := h.hid _ (List.mem_of_getElem? hk)
  obtain ⟨hid, inn0, cur0, sig, ph⟩ := h
  have hid' : ∀ h ∈ s.handles.set k ⟨id, false⟩, h.id ≠ 0 := by
    intro h hh
    rcases List.mem_or_eq_of_mem_set hh with h' | h'
    · exact hid h h'
    · rw [h']; exact hid0
  have inn0' : ∀ w ∈ s.inn.filter (·.1 != id), w.1 ≠ 0 := fun w hw => inn0 w (List.mem_filter.1 hw).1
  unfold teardown
  rw [handle_eq hk]
  simp only [Out.bind_ok]
  cases ph with
  | off thread exits init worker running inn out idList signData =>
    simp only [bufferReset, idList]
    exact ⟨_, rfl, hid', inn0', cur0, sig, .off thread exits init worker running (by simp [inn]) (by simp [out]) rfl signData⟩
  | starting thread exits init worker running inn out idList signData =>
    simp only [bufferReset, idList, deleteItem, if_neg hid0.symm]
    exact ⟨_, rfl, hid', inn0', cur0, sig, .starting thread exits init worker running (by simp [inn]) (by simp [out]) (by simp) signData⟩
  | up ids thread exits init worker idList last signData =>
    simp only [bufferReset, idList, deleteItem, if_neg hid0.symm]
    refine ⟨_, rfl, hid', inn0', cur0, sig, .up (ids.erase id) thread exits ?_ ?_ rfl ?_ signData⟩
    · rcases init with h | ⟨h1, h2, h3⟩
      · exact .inl h
      · exact .inr ⟨h1, h2, by simp [h3]⟩
    · rcases worker with ⟨h1, h2, h3⟩ | h | h | h
      · exact .inl ⟨h1, h2, by simp [h3]⟩
      · exact .inr (.inl h)
      · exact .inr (.inr (.inl h))
      · exact .inr (.inr (.inr h))
    · intro h; simp [last h]
  | stopping e thread exits init running worker asleep idList signData =>
    simp only [bufferReset, idList]
    exact ⟨_, rfl, hid', inn0', cur0, sig, .stopping e thread exits init running worker asleep rfl signData⟩

theorem submit_inv {s : State} (h : Inv s) {k : Nat} {id : UInt32}
    (hk : s.handles[k]? = some ⟨id, true⟩) (hb : Bytes) (a : Bool) (p : Nat) :
    ∃ s' rc, submit s k hb a p = .ok (s', rc) ∧ Inv s' := by
  have hid0 : id ≠ 0 := h.hid _ (List.mem_of_getElem? hk)
  unfold submit
  rw [handle_eq hk]
  simp only [Out.bind_ok]
  split
  · exact ⟨_, _, rfl, h⟩
  split
  · exact ⟨_, _, rfl, signal_inv h p⟩
  split
  · exact ⟨_, _, rfl, signal_inv h p⟩
  rename_i hr
  have hr : s.running = true := by simpa using hr
  have h0 := h
  obtain ⟨hid, inn0, cur0, sig, ph⟩ := h
  cases ph with
  | off thread exits init worker running => simp [running] at hr
  | starting thread exits init worker running => simp [running] at hr
  | stopping e thread exits init running => simp [running] at hr
  | up ids thread exits init worker idList last signData =>
    have hsd : s.signData.isNone = false := by obtain ⟨k, hk⟩ := signData; simp [hk]
    rw [if_neg (by simp [hsd])]
    split
    · exact ⟨_, _, rfl, signal_inv h0 p⟩
    · refine ⟨_, _, rfl, ?_⟩
      have hin : s.init ≠ some .asleep := by rcases init with h | h <;> simp [h]
      have inn0' : ∀ w ∈ s.inn ++ [(id, hb)], w.1 ≠ 0 := by
        intro w hw
        rcases List.mem_append.1 hw with hw | hw
        · exact inn0 w hw
        · simp only [List.mem_singleton] at hw
          rw [hw]; exact hid0
      by_cases hw : s.worker = .asleep
      · rw [signal_worker (s := { s with inn := s.inn ++ [(id, hb)] }) p hw hin exits]
        exact ⟨hid, inn0', by simp, by simp [notSigning h0 (by simp [hw])],
          .up ids thread exits init (.inr (.inl ⟨rfl, hr⟩)) idList last signData⟩
      · rw [signal_none (s := { s with inn := s.inn ++ [(id, hb)] }) p hw hin (.inl exits)]
        refine ⟨hid, inn0', cur0, sig, .up ids thread exits init ?_ idList last signData⟩
        rcases worker with h | h | h | h
        · exact absurd h.1 hw
        · exact .inr (.inl h)
        · exact .inr (.inr (.inl h))
        · exact .inr (.inr (.inr h))

/-- Taking an element from the output buffer. -/
theorem out_inv {s : State} (h : Inv s) (hr : s.running = true) (out : List Sig) :
    Inv { s with out } := by
  obtain ⟨hid, inn0, cur0, sig, ph⟩ := h
  refine ⟨hid, inn0, cur0, sig, ?_⟩
  cases ph with
  | off thread exits init worker running => simp [running] at hr
  | starting thread exits init worker running => simp [running] at hr
  | stopping e thread exits init running => simp [running] at hr
  | up ids thread exits init worker idList last signData =>
    exact .up ids thread exits init worker idList last signData

theorem fetch_inv {s : State} (h : Inv s) {k : Nat} {id : UInt32}
    (hk : s.handles[k]? = some ⟨id, true⟩) (f : Bool) :
    ∃ s' sig rc, fetch s k f = .ok (s', sig, rc) ∧ Inv s' := by
  unfold fetch
  rw [handle_eq hk]
  simp only [Out.bind_ok]
  split
  · exact ⟨_, _, _, rfl, h⟩
  rename_i hr
  have hr : s.running = true := by simpa using hr
  split
  · exact ⟨_, _, _, rfl, h⟩
  split
  · exact ⟨_, _, _, rfl, h⟩
  split
  · exact ⟨_, _, _, rfl, out_inv h hr _⟩
  split
  · exact ⟨_, _, _, rfl, out_inv h hr _⟩
  · exact ⟨_, _, _, rfl, out_inv h hr _⟩

/-- Every allowed step is defined and keeps the invariant. -/
theorem step_inv {s : State} (h : Inv s) (x : Step) (hc : MayCall s x) :
    ∃ s' e, step s x = .ok (s', e) ∧ Inv s' := by
  cases x with
  | init a1 a2 key thr =>
    obtain ⟨s', b, h1, h2⟩ := init_inv h hc a1 a2 key thr
    exact ⟨_, _, by rw [step, h1]; rfl, h2⟩
  | initWait => exact ⟨_, _, rfl, initWait_inv h⟩
  | exit p =>
    obtain ⟨s', h1, h2⟩ := exit_inv h hc.1 hc.2 p
    exact ⟨_, _, by rw [step, h1]; rfl, h2⟩
  | exitWait i t p => exact ⟨_, _, rfl, exitWait_inv h i t p⟩
  | exitJoin i =>
    obtain ⟨s', h1, h2⟩ := exitJoin_inv h i
    exact ⟨_, _, by rw [step, h1]; rfl, h2⟩
  | worker g a p1 p2 =>
    obtain ⟨s', h1, h2⟩ := worker_inv h g a p1 p2
    exact ⟨_, _, by rw [step, h1]; rfl, h2⟩
  | wake w => exact ⟨_, _, rfl, wake_inv h w⟩
  | setup a1 a2 a3 =>
    obtain ⟨s', k, h1, h2⟩ := setup_inv h hc a1 a2 a3
    exact ⟨_, _, by rw [step, h1]; rfl, h2⟩
  | teardown k =>
    obtain ⟨id, hk⟩ := hc
    obtain ⟨s', h1, h2⟩ := teardown_inv h hk
    exact ⟨_, _, by rw [step, h1]; rfl, h2⟩
  | submit k hb a p =>
    obtain ⟨id, hk⟩ := hc
    obtain ⟨s', rc, h1, h2⟩ := submit_inv h hk hb a p
    exact ⟨_, _, by rw [step, h1]; rfl, h2⟩
  | fetch k f =>
    obtain ⟨id, hk⟩ := hc
    obtain ⟨s', sig, rc, h1, h2⟩ := fetch_inv h hk f
    exact ⟨_, _, by rw [step, h1]; rfl, h2⟩

theorem run_inv : ∀ (xs : List Step) {s : State}, Inv s → Orderly s xs →
    ∃ s' es, run s xs = .ok (s', es) ∧ Inv s'
  | [], s, h, _ => ⟨s, [], rfl, h⟩
  | x :: xs, s, h, ho => by
    obtain ⟨s1, e, h1, h2⟩ := step_inv h x ho.1
    obtain ⟨s2, es, h3, h4⟩ := run_inv xs h2 (ho.2 s1 e h1)
    exact ⟨s2, e :: es, by simp [run, h1, h3], h4⟩

end SV.Life
