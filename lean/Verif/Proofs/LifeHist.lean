import Verif.Proofs.LifeStop
/-!
Signatures handed out belong to the session, the key and the life of the plugin they should.
-/
namespace SV.Life
open SV.Spec
open SV.Threaded (pickId isActive deleteItem)

/-- The session that has the id `id` is one of which `P` holds. -/
def Has (hs : List Handle) (id : UInt32) (P : Nat → Prop) : Prop :=
  ∃ k b, hs[k]? = some ⟨id, b⟩ ∧ P k

/-- Sessions keep their ids. -/
def Keep (hs hs' : List Handle) : Prop := ∀ (k : Nat) id b, hs[k]? = some ⟨id, b⟩ → ∃ b', hs'[k]? = some ⟨id, b'⟩

theorem Keep.refl (hs : List Handle) : Keep hs hs := fun _ _ b h => ⟨b, h⟩

theorem Has.mono {hs hs' : List Handle} {id : UInt32} {P Q : Nat → Prop} (h : Has hs id P)
    (hk : Keep hs hs') (hp : ∀ k, P k → Q k) : Has hs' id Q := by
  obtain ⟨k, b, h1, h2⟩ := h
  obtain ⟨b', h3⟩ := hk k id b h1
  exact ⟨k, b', h3, hp k h2⟩

/-- What is known of the data of a running plugin: where it comes from.  `l` is what happened since
it was started with `key`. -/
structure Known (s : State) (key : Nat) (l : List Ev) : Prop where
  sd : s.signData = some key
  ids : ∀ ids, s.idList = some ids → ∀ id ∈ ids, id ≠ 0 → Has s.handles id fun k => .setup (some k) ∈ l
  inn : ∀ w ∈ s.inn, Has s.handles w.1 fun k => .submit k w.2 none ∈ l
  cur : s.worker = .signing → Has s.handles s.cur.1 fun k => .submit k s.cur.2 none ∈ l
  out : ∀ o ∈ s.out, o.key = key ∧
    Has s.handles o.id fun k => .setup (some k) ∈ l ∧ .submit k o.hash none ∈ l ∧
      (o.ok = true → .signed o.hash true ∈ l)

structure Hist (s : State) (c : Option (Nat × List Ev)) : Prop where
  uniq : ∀ (j k : Nat) id a b, s.handles[j]? = some ⟨id, a⟩ → s.handles[k]? = some ⟨id, b⟩ → j = k
  low : ∀ h ∈ s.handles, h.id.toNat ≤ s.last.toNat
  known : s.thread = true → ∃ key l, c = some (key, l) ∧ Known s key l

theorem Hist_zero : Hist State.zero none := ⟨by simp [State.zero], by simp [State.zero], by simp [State.zero]⟩

theorem Known.mono {s s' : State} {key : Nat} {l l' : List Ev} (h : Known s key l)
    (hs : s'.signData = s.signData)
    (hids : ∀ ids, s'.idList = some ids → ∃ ids0, s.idList = some ids0 ∧ ∀ id ∈ ids, id ∈ ids0)
    (hinn : ∀ w ∈ s'.inn, w ∈ s.inn)
    (hcur : s'.worker = .signing → (s.worker = .signing ∧ s'.cur = s.cur) ∨ s'.cur ∈ s.inn)
    (hout : ∀ o ∈ s'.out, o ∈ s.out) (hh : Keep s.handles s'.handles) (hl : ∀ e ∈ l, e ∈ l') :
    Known s' key l' where
  sd := hs ▸ h.sd
  ids := by
    intro ids hi id hid h0
    obtain ⟨ids0, h1, h2⟩ := hids ids hi
    exact (h.ids ids0 h1 id (h2 id hid) h0).mono hh fun k hk => hl _ hk
  inn := fun w hw => (h.inn w (hinn w hw)).mono hh fun k hk => hl _ hk
  cur := by
    intro hw
    rcases hcur hw with ⟨h1, h2⟩ | h1
    · rw [h2]; exact (h.cur h1).mono hh fun k hk => hl _ hk
    · exact (h.inn _ h1).mono hh fun k hk => hl _ hk
  out := fun o ho => ⟨(h.out o (hout o ho)).1,
    (h.out o (hout o ho)).2.mono hh fun k hk => ⟨hl _ hk.1, hl _ hk.2.1, fun hg => hl _ (hk.2.2 hg)⟩⟩

/-- A signal changes who sleeps, nothing else. -/
structure Same (s s' : State) : Prop where
  thread : s'.thread = s.thread
  inn : s'.inn = s.inn
  out : s'.out = s.out
  cur : s'.cur = s.cur
  idList : s'.idList = s.idList
  signData : s'.signData = s.signData
  last : s'.last = s.last
  handles : s'.handles = s.handles
  worker : s'.worker = .signing → s.worker = .signing

theorem Same.refl (s : State) : Same s s := ⟨rfl, rfl, rfl, rfl, rfl, rfl, rfl, rfl, id⟩

theorem wake_same (s : State) (w : Who) : Same s (wake s w) := by
  cases w with
  | worker =>
    refine ⟨rfl, rfl, rfl, rfl, rfl, rfl, rfl, rfl, ?_⟩
    simp only [wake]
    split
    · simp
    · exact id
  | init => exact ⟨rfl, rfl, rfl, rfl, rfl, rfl, rfl, rfl, id⟩
  | exit i => exact ⟨rfl, rfl, rfl, rfl, rfl, rfl, rfl, rfl, id⟩

theorem signal_same (s : State) (p : Nat) : Same s (signal s p) := by
  rcases signal_cases s p with h | ⟨w, h⟩ <;> rw [h]
  · exact .refl s
  · exact wake_same s w

theorem Hist.same {s s' : State} {c : Option (Nat × List Ev)} (h : Hist s c) (hs : Same s s') (e : Ev)
    (hc : current [e] c = c.map fun (k, l) => (k, l ++ [e])) : Hist s' (current [e] c) := by
  refine ⟨hs.handles ▸ h.uniq, hs.handles ▸ hs.last ▸ h.low, ?_⟩
  rw [hs.thread]
  intro ht
  obtain ⟨key, l, h1, h2⟩ := h.known ht
  refine ⟨key, l ++ [e], by rw [hc, h1]; rfl, h2.mono hs.signData ?_ ?_ ?_ ?_ (hs.handles ▸ .refl _) ?_⟩
  · intro ids hi; exact ⟨ids, hs.idList ▸ hi, fun _ h => h⟩
  · rw [hs.inn]; exact fun _ h => h
  · intro hw; exact .inl ⟨hs.worker hw, hs.cur⟩
  · rw [hs.out]; exact fun _ h => h
  · intro e he; exact List.mem_append_left _ he

theorem Known.grow {s : State} {key : Nat} {l : List Ev} (h : Known s key l) (e : Ev) : Known s key (l ++ [e]) :=
  h.mono rfl (fun ids hi => ⟨ids, hi, fun _ h => h⟩) (fun _ h => h) (fun hw => .inl ⟨hw, rfl⟩) (fun _ h => h)
    (.refl _) (fun _ he => List.mem_append_left _ he)

theorem Known.same {s s' : State} {key : Nat} {l : List Ev} (h : Known s key l) (hs : Same s s') : Known s' key l := by
  refine h.mono hs.signData ?_ ?_ ?_ ?_ (hs.handles ▸ .refl _) (fun _ h => h)
  · intro ids hi; exact ⟨ids, hs.idList ▸ hi, fun _ h => h⟩
  · rw [hs.inn]; exact fun _ h => h
  · intro hw; exact .inl ⟨hs.worker hw, hs.cur⟩
  · rw [hs.out]; exact fun _ h => h

/-! ### The worker -/

theorem loop_known {s s' : State} {p : Nat} {key : Nat} {l : List Ev} (h : Known s key l)
    (hw : workerLoop s p = .ok s') :
    Known s' key l ∧ s'.thread = s.thread ∧ s'.handles = s.handles ∧ s'.last = s.last := by
  cases hr : s.running with
  | false =>
    rw [loop_stop p hr] at hw
    injection hw with hw
    subst hw
    have hs := signal_same { s with worker := .done } p
    refine ⟨Known.same ?_ hs, hs.thread, hs.handles, hs.last⟩
    exact h.mono rfl (fun ids hi => ⟨ids, hi, fun _ h => h⟩) (fun _ h => h) (by simp) (fun _ h => h)
      (.refl _) (fun _ h => h)
  | true =>
    cases hn : s.inn with
    | nil =>
      rw [loop_empty p hr hn] at hw
      injection hw with hw
      subst hw
      exact ⟨h.mono rfl (fun ids hi => ⟨ids, hi, fun _ h => h⟩) (fun _ h => h) (by simp) (fun _ h => h)
        (.refl _) (fun _ h => h), rfl, rfl, rfl⟩
    | cons w inn =>
      rw [loop_take p hr hn h.sd] at hw
      injection hw with hw
      subst hw
      refine ⟨h.mono rfl (fun ids hi => ⟨ids, hi, fun _ h => h⟩) ?_ ?_ (fun _ h => h) (.refl _) (fun _ h => h),
        rfl, rfl, rfl⟩
      · intro w' hw'; rw [hn]; exact List.mem_cons_of_mem _ hw'
      · intro _; rw [hn]; exact .inr (List.mem_cons_self ..)

theorem put_known {s s' : State} {g a : Bool} {key : Nat} {l : List Ev} (hi : Inv s)
    (huniq : ∀ (j k : Nat) id a b, s.handles[j]? = some ⟨id, a⟩ → s.handles[k]? = some ⟨id, b⟩ → j = k)
    (h : Known s key l) (hw : s.worker = .signing) (hg : g = true → .signed s.cur.2 true ∈ l)
    (hp : workerPut s g a = .ok s') : Known s' key l ∧ s'.thread = s.thread ∧ s'.handles = s.handles ∧ s'.last = s.last := by
  unfold workerPut at hp
  split at hp
  · rename_i hn; rw [h.sd] at hn; simp at hn
  rename_i key' hkey
  rw [h.sd] at hkey
  injection hkey with hkey
  subst hkey
  simp only [] at hp
  split at hp
  · injection hp with hp
    subst hp
    exact ⟨h.mono rfl (fun ids hi => ⟨ids, hi, fun _ h => h⟩) (fun _ h => h) (fun h => .inl ⟨h, rfl⟩) (fun _ h => h)
      (.refl _) (fun _ h => h), rfl, rfl, rfl⟩
  rename_i ha
  have ha : active s s.cur.1 = true := by simpa [active] using ha
  split at hp
  · injection hp with hp
    subst hp
    exact ⟨h.mono rfl (fun ids hi => ⟨ids, hi, fun _ h => h⟩) (fun _ h => (List.mem_filter.1 h).1)
      (fun h => .inl ⟨h, rfl⟩) (fun _ h => (List.mem_filter.1 h).1) (.refl _) (fun _ h => h), rfl, rfl, rfl⟩
  split at hp
  · injection hp with hp
    subst hp
    exact ⟨h.mono rfl (fun ids hi => ⟨ids, hi, fun _ h => h⟩) (by simp [freeBuffers])
      (fun h => .inl ⟨h, rfl⟩) (by simp [freeBuffers]) (.refl _) (fun _ h => h), rfl, rfl, rfl⟩
  · injection hp with hp
    subst hp
    refine ⟨⟨h.sd, h.ids, h.inn, h.cur, ?_⟩, rfl, rfl, rfl⟩
    intro o ho
    rcases List.mem_append.1 ho with ho | ho
    · exact h.out o ho
    · simp only [List.mem_singleton] at ho
      subst ho
      refine ⟨rfl, ?_⟩
      have h1 : Has s.handles s.cur.1 fun k => Ev.setup (some k) ∈ l := by
        unfold active at ha
        split at ha
        · simp at ha
        · rename_i ids hids
          exact h.ids ids hids _ (by simpa [isActive] using ha) (hi.cur0 hw)
      obtain ⟨k, b, q1, q2⟩ := h1
      obtain ⟨j, c, q3, q4⟩ := h.cur hw
      have := huniq _ _ _ _ _ q1 q3
      subst this
      exact ⟨k, b, q1, q2, q4, hg⟩

theorem worker_known {s s' : State} {g a : Bool} {p1 p2 key : Nat} {l : List Ev} (hi : Inv s)
    (huniq : ∀ (j k : Nat) id a b, s.handles[j]? = some ⟨id, a⟩ → s.handles[k]? = some ⟨id, b⟩ → j = k)
    (h : Known s key l) (hg : s.worker = .signing → g = true → .signed s.cur.2 true ∈ l)
    (hp : workerStep s g a p1 p2 = .ok s') : Known s' key l := by
  unfold workerStep at hp
  split at hp
  · split at hp
    · injection hp with hp
      subst hp
      have h1 : Known { s with worker := .done } key l :=
        h.mono rfl (fun ids hi => ⟨ids, hi, fun _ h => h⟩) (fun _ h => h) (by simp) (fun _ h => h)
          (.refl _) (fun _ h => h)
      exact h1.same (signal_same _ p1)
    · have h1 : Known { s with running := true } key l := ⟨h.sd, h.ids, h.inn, h.cur, h.out⟩
      exact (loop_known (h1.same (signal_same _ p1)) hp).1
  · exact (loop_known h hp).1
  · rename_i hw
    cases hq : workerPut s g a with
    | err e => simp [hq] at hp
    | ub u => simp [hq] at hp
    | ok t =>
      simp only [hq, Out.bind_ok] at hp
      exact (loop_known (put_known hi huniq h hw (hg hw) hq).1 hp).1
  · injection hp with hp
    subst hp
    exact h

theorem loop_fields {s s' : State} {p : Nat} (hp : workerLoop s p = .ok s') :
    s'.thread = s.thread ∧ s'.handles = s.handles ∧ s'.last = s.last := by
  unfold workerLoop at hp
  split at hp
  · injection hp with hp
    subst hp
    have := signal_same { s with worker := .done } p
    exact ⟨this.thread, this.handles, this.last⟩
  · split at hp
    · injection hp with hp; subst hp; exact ⟨rfl, rfl, rfl⟩
    · split at hp
      · simp at hp
      · injection hp with hp; subst hp; exact ⟨rfl, rfl, rfl⟩

theorem put_fields {s s' : State} {g a : Bool} (hp : workerPut s g a = .ok s') :
    s'.thread = s.thread ∧ s'.handles = s.handles ∧ s'.last = s.last := by
  cases hk : s.signData with
  | none =>
    unfold workerPut at hp
    split at hp
    · simp at hp
    · rename_i h; rw [hk] at h; simp at h
  | some k =>
    obtain ⟨t, q1, q2, q3, q4, q5, q6, q7, q8, q9, q10, q11, q12⟩ := put_up hk g a
    rw [q1] at hp
    injection hp with hp
    subst hp
    exact ⟨q5, q2, q10⟩

theorem worker_fields {s s' : State} {g a : Bool} {p1 p2 : Nat} (hp : workerStep s g a p1 p2 = .ok s') :
    s'.thread = s.thread ∧ s'.handles = s.handles ∧ s'.last = s.last := by
  unfold workerStep at hp
  split at hp
  · split at hp
    · injection hp with hp
      subst hp
      have := signal_same { s with worker := .done } p1
      exact ⟨this.thread, this.handles, this.last⟩
    · have h1 := signal_same { s with running := true } p1
      have h2 := loop_fields hp
      exact ⟨h2.1.trans h1.thread, h2.2.1.trans h1.handles, h2.2.2.trans h1.last⟩
  · exact loop_fields hp
  · cases hq : workerPut s g a with
    | err e => simp [hq] at hp
    | ub u => simp [hq] at hp
    | ok t =>
      simp only [hq, Out.bind_ok] at hp
      have h1 := put_fields hq
      have h2 := loop_fields hp
      exact ⟨h2.1.trans h1.1, h2.2.1.trans h1.2.1, h2.2.2.trans h1.2.2⟩
  · injection hp with hp
    subst hp
    exact ⟨rfl, rfl, rfl⟩

/-! ### All steps -/

/-- One if the step is the set up of a session. -/
def isSetup : Step → Nat
  | .setup _ _ _ => 1
  | _ => 0

theorem thread_running {s : State} (hi : Inv s) (hr : s.running = true) : s.thread = true := by
  cases hi.ph with
  | off thread exits init worker running => simp [running] at hr
  | starting thread => exact thread
  | up ids thread => exact thread
  | stopping e thread exits init running => simp [running] at hr

/-- The search for an id ends at once as long as ids have not been used up. -/
theorem pickId_low {ids : List UInt32} {last x : UInt32} (hl : ∀ id ∈ ids, id.toNat ≤ last.toNat)
    (hb : last.toNat + 1 < 2 ^ 32)
    (hp : pickId ids last (2 ^ 32) (if last + 1 = 0 then 1 else last + 1) = .ok x) :
    x.toNat = last.toNat + 1 := by
  have h1 : (last + 1).toNat = last.toNat + 1 := by
    rw [UInt32.toNat_add]
    simp only [UInt32.toNat_one]
    omega
  have h2 : last + 1 ≠ 0 := by
    intro h
    rw [h] at h1
    simp at h1
  rw [if_neg h2] at hp
  have h3 : isActive ids (last + 1) = false := by
    cases hc : isActive ids (last + 1) with
    | false => rfl
    | true =>
      have := hl (last + 1) (by simpa [isActive] using hc)
      omega
  have h4 : (2 : Nat) ^ 32 = 4294967295 + 1 := by decide
  rw [h4, pickId, h3] at hp
  simp at hp
  rw [← hp, h1]

theorem init_hist {s s' : State} {c : Option (Nat × List Ev)} (hi : Inv s) (h : Hist s c)
    (he : s.exits = []) {a1 a2 key thr b : Bool} (hs : initCall s a1 a2 key thr = .ok (s', b)) :
    Hist s' (current [.init (if b then some s.keys else none)] c) ∧ s'.last = s.last := by
  have keep : ∀ t : State, t.handles = s.handles → t.last = s.last → t.thread = s.thread → t.inn = s.inn →
      t.out = s.out → t.cur = s.cur → t.worker = s.worker →
      (s.thread = true → t.idList = s.idList ∧ t.signData = s.signData) → Hist t (current [.init none] c) := by
    intro t q1 q2 q3 q4 q5 q6 q7 q8
    refine ⟨q1 ▸ h.uniq, q1 ▸ q2 ▸ h.low, ?_⟩
    intro ht
    obtain ⟨k, l, r1, r2⟩ := h.known (q3 ▸ ht)
    obtain ⟨q9, q10⟩ := q8 (q3 ▸ ht)
    refine ⟨k, l ++ [.init none], by rw [r1]; rfl, ?_⟩
    refine (r2.same (s' := t) ⟨q3, q4, q5, q6, q9, q10, q2, q1, fun h => q7 ▸ h⟩).grow _
  unfold initCall at hs
  split at hs
  · simp only [Out.ok.injEq, Prod.mk.injEq] at hs
    obtain ⟨rfl, rfl⟩ := hs
    exact ⟨keep s rfl rfl rfl rfl rfl rfl rfl (fun _ => ⟨rfl, rfl⟩), rfl⟩
  rename_i hc
  simp only [Bool.or_eq_true, not_or, Bool.not_eq_true] at hc
  have ht : s.thread = false := hc.1.1
  have imp : ∀ P : Prop, s.thread = true → P := by intro P h; rw [ht] at h; simp at h
  split at hs
  · simp only [Out.ok.injEq, Prod.mk.injEq] at hs
    obtain ⟨rfl, rfl⟩ := hs
    exact ⟨keep _ rfl rfl rfl rfl rfl rfl rfl (imp _), rfl⟩
  simp only [] at hs
  split at hs
  · simp only [Out.ok.injEq, Prod.mk.injEq] at hs
    obtain ⟨rfl, rfl⟩ := hs
    exact ⟨keep _ rfl rfl rfl rfl rfl rfl rfl (imp _), rfl⟩
  split at hs
  · simp only [Out.ok.injEq, Prod.mk.injEq] at hs
    obtain ⟨rfl, rfl⟩ := hs
    exact ⟨keep _ rfl rfl rfl rfl rfl rfl rfl (imp _), rfl⟩
  split at hs
  · simp at hs
  · simp only [Out.ok.injEq, Prod.mk.injEq] at hs
    obtain ⟨rfl, rfl⟩ := hs
    refine ⟨⟨h.uniq, h.low, ?_⟩, rfl⟩
    intro _
    refine ⟨s.keys, [], rfl, rfl, ?_, ?_, by simp, ?_⟩
    · intro ids hids id hid h0
      simp only [Option.some.injEq] at hids
      subst hids
      simp only [List.mem_singleton] at hid
      exact absurd hid h0
    all_goals
      cases hi.ph with
      | starting thread => rw [ht] at thread; simp at thread
      | up ids thread => rw [ht] at thread; simp at thread
      | stopping e thread exits => simp [exits] at he
      | off thread exits init worker running inn out => simp [inn, out]

theorem setup_hist {s s' : State} {c : Option (Nat × List Ev)} (hi : Inv s) (h : Hist s c)
    (hb : s.last.toNat + 1 < 2 ^ 32) {a1 a2 a3 : Bool} {k : Option Nat}
    (hs : setup s a1 a2 a3 = .ok (s', k)) :
    Hist s' (current [.setup k] c) ∧ s'.last.toNat ≤ s.last.toNat + 1 := by
  have keep : Hist s (current [.setup none] c) := h.same (.refl s) _ rfl
  unfold setup at hs
  split at hs
  · simp only [Out.ok.injEq, Prod.mk.injEq] at hs
    obtain ⟨rfl, rfl⟩ := hs
    exact ⟨keep, by omega⟩
  split at hs
  · simp only [Out.ok.injEq, Prod.mk.injEq] at hs
    obtain ⟨rfl, rfl⟩ := hs
    exact ⟨keep, by omega⟩
  rename_i ht
  have ht : s.thread = true := by simpa using ht
  obtain ⟨key, l, r1, r2⟩ := h.known ht
  split at hs
  · simp at hs
  split at hs
  · simp only [Out.ok.injEq, Prod.mk.injEq] at hs
    obtain ⟨rfl, rfl⟩ := hs
    exact ⟨keep, by omega⟩
  split at hs
  · simp only [Out.ok.injEq, Prod.mk.injEq] at hs
    obtain ⟨rfl, rfl⟩ := hs
    exact ⟨keep, by omega⟩
  split at hs
  · simp at hs
  rename_i ids hids
  cases hp : pickId ids s.last (2 ^ 32) (if s.last + 1 = 0 then 1 else s.last + 1) with
  | err e => rw [hp] at hs; simp at hs
  | ub u => rw [hp] at hs; simp at hs
  | ok x =>
    rw [hp] at hs
    simp only [Out.bind_ok] at hs
    have hx := pickId_low (ids := ids) (fun id hid => by
      by_cases h0 : id = 0
      · subst h0; simp
      · obtain ⟨k, b, q1, -⟩ := r2.ids ids hids id hid h0
        exact h.low _ (List.mem_of_getElem? q1)) hb hp
    split at hs
    · simp only [Out.ok.injEq, Prod.mk.injEq] at hs
      obtain ⟨rfl, rfl⟩ := hs
      exact ⟨keep, by omega⟩
    split at hs
    · simp only [Out.ok.injEq, Prod.mk.injEq] at hs
      obtain ⟨rfl, rfl⟩ := hs
      refine ⟨⟨h.uniq, ?_, ?_⟩, by simp [hx]⟩
      · intro y hy; have := h.low y hy; simp only [hx]; omega
      · intro _
        have r3 := r2.grow (.setup none)
        exact ⟨key, l ++ [.setup none], by rw [r1]; rfl, r3.sd, r3.ids, r3.inn, r3.cur, r3.out⟩
    · simp only [Out.ok.injEq, Prod.mk.injEq] at hs
      obtain ⟨rfl, rfl⟩ := hs
      have hk : Keep s.handles (s.handles ++ [⟨x, true⟩]) := by
        intro k id b hk
        exact ⟨b, by rw [List.getElem?_append_left (by
          have := (List.getElem?_eq_some_iff.1 hk).1; exact this)]; exact hk⟩
      have new : ∀ (k : Nat) b, s.handles[k]? ≠ some ⟨x, b⟩ := by
        intro k b hk
        have := h.low _ (List.mem_of_getElem? hk)
        simp only at this
        omega
      refine ⟨⟨?_, ?_, ?_⟩, by simp [hx]⟩
      · intro i j id a b hi' hj'
        simp only [List.getElem?_append] at hi' hj'
        split at hi'
        · split at hj'
          · exact h.uniq i j id a b hi' hj'
          · rename_i hj
            rw [List.getElem?_singleton] at hj'
            split at hj'
            · simp only [Option.some.injEq, Handle.mk.injEq] at hj'
              exact absurd (hj'.1 ▸ hi') (new i a)
            · simp at hj'
        · rw [List.getElem?_singleton] at hi'
          split at hi'
          · simp only [Option.some.injEq, Handle.mk.injEq] at hi'
            split at hj'
            · exact absurd (hi'.1 ▸ hj') (new j b)
            · rw [List.getElem?_singleton] at hj'
              split at hj'
              · omega
              · simp at hj'
          · simp at hi'
      · intro y hy
        rcases List.mem_append.1 hy with hy | hy
        · have := h.low y hy; simp only [hx]; omega
        · simp only [List.mem_singleton] at hy
          rw [hy]; simp
      · intro _
        refine ⟨key, l ++ [.setup (some s.handles.length)], by rw [r1]; rfl, r2.sd, ?_, ?_, ?_, ?_⟩
        · intro ids' hids' id hid h0
          simp only [Option.some.injEq] at hids'
          subst hids'
          rcases List.mem_append.1 hid with hid | hid
          · exact (r2.ids ids hids id hid h0).mono hk fun k hk => List.mem_append_left _ hk
          · simp only [List.mem_singleton] at hid
            subst hid
            exact ⟨s.handles.length, true, by simp, by simp⟩
        · exact fun w hw => (r2.inn w hw).mono hk fun k hk => List.mem_append_left _ hk
        · exact fun hw => (r2.cur hw).mono hk fun k hk => List.mem_append_left _ hk
        · exact fun o ho => ⟨(r2.out o ho).1,
            (r2.out o ho).2.mono hk fun k hk => ⟨List.mem_append_left _ hk.1, List.mem_append_left _ hk.2.1,
              fun hg => List.mem_append_left _ (hk.2.2 hg)⟩⟩

theorem teardown_hist {s s' : State} {c : Option (Nat × List Ev)} (h : Hist s c) {k : Nat} {id : UInt32}
    (hk : s.handles[k]? = some ⟨id, true⟩) (hs : teardown s k = .ok s') :
    Hist s' (current [.teardown k] c) ∧ s'.last = s.last := by
  have hset : ∀ (j : Nat) x b, (s.handles.set k ⟨id, false⟩)[j]? = some ⟨x, b⟩ → ∃ b', s.handles[j]? = some ⟨x, b'⟩ := by
    intro j x b hj
    rw [List.getElem?_set] at hj
    split at hj
    · rename_i hkj
      subst hkj
      split at hj
      · simp only [Option.some.injEq, Handle.mk.injEq] at hj
        exact ⟨true, by rw [← hj.1]; exact hk⟩
      · simp at hj
    · exact ⟨b, hj⟩
  have hkeep : Keep s.handles (s.handles.set k ⟨id, false⟩) := by
    intro j x b hj
    rw [List.getElem?_set]
    split
    · rename_i hkj
      subst hkj
      rw [hk] at hj
      simp only [Option.some.injEq, Handle.mk.injEq] at hj
      rw [if_pos (List.getElem?_eq_some_iff.1 hk).1, hj.1]
      exact ⟨_, rfl⟩
    · exact ⟨b, hj⟩
  have fin : ∀ t : State, t.handles = s.handles.set k ⟨id, false⟩ → t.last = s.last → t.thread = s.thread →
      t.signData = s.signData → (∀ w ∈ t.inn, w ∈ s.inn) → (∀ o ∈ t.out, o ∈ s.out) → t.cur = s.cur →
      t.worker = s.worker → (∀ ids, t.idList = some ids → ∃ ids0, s.idList = some ids0 ∧ ∀ id ∈ ids, id ∈ ids0) →
      Hist t (current [.teardown k] c) := by
    intro t q1 q2 q3 q4 q5 q6 q7 q8 q9
    refine ⟨?_, ?_, ?_⟩
    · rw [q1]
      intro i j x a b hi hj
      obtain ⟨a', hi⟩ := hset i x a hi
      obtain ⟨b', hj⟩ := hset j x b hj
      exact h.uniq i j x a' b' hi hj
    · rw [q1, q2]
      intro y hy
      rcases List.mem_or_eq_of_mem_set hy with hy | hy
      · exact h.low y hy
      · rw [hy]; exact h.low ⟨id, true⟩ (List.mem_of_getElem? hk)
    · intro ht
      obtain ⟨key, l, r1, r2⟩ := h.known (q3 ▸ ht)
      refine ⟨key, l ++ [.teardown k], by rw [r1]; rfl, r2.mono q4 q9 q5 ?_ q6 (q1 ▸ hkeep) ?_⟩
      · intro hw; exact .inl ⟨q8 ▸ hw, q7⟩
      · intro e he; exact List.mem_append_left _ he
  unfold teardown at hs
  rw [handle_eq hk] at hs
  simp only [Out.bind_ok] at hs
  split at hs
  · rename_i hl
    have hl : s.idList = none := hl
    injection hs with hs
    subst hs
    refine ⟨fin _ rfl rfl rfl rfl (fun _ h => (List.mem_filter.1 h).1) (fun _ h => (List.mem_filter.1 h).1)
      rfl rfl ?_, rfl⟩
    intro ids hids
    have : s.idList = some ids := hids
    rw [hl] at this
    simp at this
  · rename_i ids hl
    have hl : s.idList = some ids := hl
    cases hd : deleteItem ids id with
    | err e => rw [hd] at hs; simp at hs
    | ub u => rw [hd] at hs; simp at hs
    | ok ids' =>
      rw [hd] at hs
      simp only [Out.bind_ok, Out.ok.injEq] at hs
      subst hs
      refine ⟨fin _ rfl rfl rfl rfl (fun _ h => (List.mem_filter.1 h).1) (fun _ h => (List.mem_filter.1 h).1)
        rfl rfl ?_, rfl⟩
      intro ids2 hids2
      simp only [Option.some.injEq] at hids2
      subst hids2
      refine ⟨ids, hl, ?_⟩
      cases ids with
      | nil => simp [deleteItem] at hd; simp [← hd]
      | cons y ys =>
        simp only [deleteItem] at hd
        split at hd
        · simp at hd
        · injection hd with hd
          subst hd
          intro z hz
          rcases List.mem_cons.1 hz with hz | hz
          · exact hz ▸ List.mem_cons_self ..
          · exact List.mem_cons_of_mem _ (List.mem_of_mem_erase hz)

theorem submit_hist {s s' : State} {c : Option (Nat × List Ev)} (h : Hist s c) {k : Nat} {id : UInt32}
    (hk : s.handles[k]? = some ⟨id, true⟩) {hb : Bytes} {a : Bool} {p : Nat} {rc : Option Rc}
    (hs : submit s k hb a p = .ok (s', rc)) :
    Hist s' (current [.submit k hb rc] c) ∧ s'.last = s.last := by
  unfold submit at hs
  rw [handle_eq hk] at hs
  simp only [Out.bind_ok] at hs
  split at hs
  · simp only [Out.ok.injEq, Prod.mk.injEq] at hs
    obtain ⟨rfl, rfl⟩ := hs
    exact ⟨h.same (.refl s) _ rfl, rfl⟩
  split at hs
  · simp only [Out.ok.injEq, Prod.mk.injEq] at hs
    obtain ⟨rfl, rfl⟩ := hs
    exact ⟨h.same (signal_same s p) _ rfl, (signal_same s p).last⟩
  split at hs
  · simp only [Out.ok.injEq, Prod.mk.injEq] at hs
    obtain ⟨rfl, rfl⟩ := hs
    exact ⟨h.same (signal_same s p) _ rfl, (signal_same s p).last⟩
  split at hs
  · simp at hs
  split at hs
  · simp only [Out.ok.injEq, Prod.mk.injEq] at hs
    obtain ⟨rfl, rfl⟩ := hs
    exact ⟨h.same (signal_same s p) _ rfl, (signal_same s p).last⟩
  · simp only [Out.ok.injEq, Prod.mk.injEq] at hs
    obtain ⟨rfl, rfl⟩ := hs
    have hsame := signal_same { s with inn := s.inn ++ [(id, hb)] } p
    refine ⟨⟨?_, ?_, ?_⟩, hsame.last⟩
    · rw [hsame.handles]; exact h.uniq
    · rw [hsame.handles, hsame.last]; exact h.low
    intro ht
    rw [hsame.thread] at ht
    obtain ⟨key, l, r1, r2⟩ := h.known ht
    refine ⟨key, l ++ [.submit k hb none], by rw [r1]; rfl, Known.same ?_ hsame⟩
    have r3 := r2.grow (.submit k hb none)
    refine ⟨r3.sd, r3.ids, ?_, r3.cur, r3.out⟩
    intro w hw
    rcases List.mem_append.1 hw with hw | hw
    · exact r3.inn w hw
    · simp only [List.mem_singleton] at hw
      subst hw
      exact ⟨k, true, hk, by simp⟩

theorem fetch_hist {s s' : State} {c : Option (Nat × List Ev)} (hi : Inv s) (h : Hist s c) {k : Nat} {id : UInt32}
    (hk : s.handles[k]? = some ⟨id, true⟩) {f : Bool} {sig : Option (Nat × Bytes)} {rc : Option Rc}
    (hs : fetch s k f = .ok (s', sig, rc)) :
    (Hist s' (current [.fetch k sig rc] c) ∧ s'.last = s.last) ∧
    ∀ key hb, sig = some (key, hb) → ∃ l, c = some (key, l) ∧ .setup (some k) ∈ l ∧ .submit k hb none ∈ l ∧ .signed hb true ∈ l := by
  unfold fetch at hs
  rw [handle_eq hk] at hs
  simp only [Out.bind_ok] at hs
  split at hs
  · simp only [Out.ok.injEq, Prod.mk.injEq] at hs
    obtain ⟨rfl, rfl, rfl⟩ := hs
    exact ⟨⟨h.same (.refl s) _ rfl, rfl⟩, by simp⟩
  rename_i hr
  have ht := thread_running hi (by simpa using hr)
  split at hs
  · simp only [Out.ok.injEq, Prod.mk.injEq] at hs
    obtain ⟨rfl, rfl, rfl⟩ := hs
    exact ⟨⟨h.same (.refl s) _ rfl, rfl⟩, by simp⟩
  rename_i o out ho
  split at hs
  · simp only [Out.ok.injEq, Prod.mk.injEq] at hs
    obtain ⟨rfl, rfl, rfl⟩ := hs
    exact ⟨⟨h.same (.refl s) _ rfl, rfl⟩, by simp⟩
  rename_i hid
  simp only [ne_eq, Decidable.not_not] at hid
  have hout : ∀ sig' rc', Hist { s with out } (current [.fetch k sig' rc'] c) := by
    intro sig' rc'
    refine ⟨h.uniq, h.low, ?_⟩
    intro _
    obtain ⟨key, l, r1, r2⟩ := h.known ht
    refine ⟨key, l ++ [.fetch k sig' rc'], by rw [r1]; rfl, ?_⟩
    refine r2.mono rfl (fun ids hi => ⟨ids, hi, fun _ h => h⟩) (fun _ h => h) (fun hw => .inl ⟨hw, rfl⟩) ?_ (.refl _) ?_
    · intro o' ho'; rw [ho]; exact List.mem_cons_of_mem _ ho'
    · intro e he; exact List.mem_append_left _ he
  split at hs
  · simp only [Out.ok.injEq, Prod.mk.injEq] at hs
    obtain ⟨rfl, rfl, rfl⟩ := hs
    exact ⟨⟨hout _ _, rfl⟩, by simp⟩
  rename_i hok
  split at hs
  · simp only [Out.ok.injEq, Prod.mk.injEq] at hs
    obtain ⟨rfl, rfl, rfl⟩ := hs
    exact ⟨⟨hout _ _, rfl⟩, by simp⟩
  · simp only [Out.ok.injEq, Prod.mk.injEq] at hs
    obtain ⟨rfl, rfl, rfl⟩ := hs
    refine ⟨⟨hout _ _, rfl⟩, ?_⟩
    intro key hb hsig
    simp only [Option.some.injEq, Prod.mk.injEq] at hsig
    obtain ⟨rfl, rfl⟩ := hsig
    obtain ⟨key, l, r1, r2⟩ := h.known ht
    obtain ⟨q1, j, b, q2, q3, q4, q5⟩ := r2.out o (by rw [ho]; exact List.mem_cons_self ..)
    rw [hid] at q2
    have := h.uniq _ _ _ _ _ hk q2
    subst this
    exact ⟨l, by rw [q1]; exact r1, q3, q4, q5 (by simpa using hok)⟩

theorem step_hist {s s' : State} {c : Option (Nat × List Ev)} (hi : Inv s) (h : Hist s c) {x : Step}
    (hc : MayCall s x) (hb : s.last.toNat + isSetup x < 2 ^ 32) {e : Ev} (hs : step s x = .ok (s', e)) :
    (Hist s' (current [e] c) ∧ s'.last.toNat ≤ s.last.toNat + isSetup x) ∧
    ∀ k key hb rc, e = .fetch k (some (key, hb)) rc →
      ∃ l, c = some (key, l) ∧ .setup (some k) ∈ l ∧ .submit k hb none ∈ l ∧ .signed hb true ∈ l := by
  cases x with
  | init a1 a2 key thr =>
    rw [step] at hs
    cases hq : initCall s a1 a2 key thr with
    | err _ => simp [hq] at hs
    | ub _ => simp [hq] at hs
    | ok q =>
      obtain ⟨t, b⟩ := q
      simp only [hq, Out.bind_ok, Out.ok.injEq, Prod.mk.injEq] at hs
      obtain ⟨rfl, rfl⟩ := hs
      obtain ⟨h1, h2⟩ := init_hist hi h hc hq
      exact ⟨⟨h1, by rw [h2]; omega⟩, by simp⟩
  | initWait =>
    simp only [step, Out.ok.injEq, Prod.mk.injEq] at hs
    obtain ⟨rfl, rfl⟩ := hs
    have : Same s (initWait s) := by
      unfold initWait
      split
      · exact ⟨rfl, rfl, rfl, rfl, rfl, rfl, rfl, rfl, id⟩
      · exact .refl s
    exact ⟨⟨h.same this _ rfl, by rw [this.last]; omega⟩, by simp⟩
  | exit p =>
    rw [step] at hs
    cases hq : exitCall s p with
    | err _ => simp [hq] at hs
    | ub _ => simp [hq] at hs
    | ok t =>
      simp only [hq, Out.bind_ok, Out.ok.injEq, Prod.mk.injEq] at hs
      obtain ⟨rfl, rfl⟩ := hs
      have ht : t.handles = s.handles ∧ t.last = s.last ∧ t.thread = false := by
        unfold exitCall at hq
        simp only [] at hq
        split at hq
        · rename_i hth
          unfold freePlugin at hq
          split at hq
          · simp at hq
          · injection hq with hq
            subst hq
            have hth : s.thread = false := by simpa using hth
            exact ⟨rfl, rfl, hth⟩
        · split at hq
          · injection hq with hq
            subst hq
            exact ⟨rfl, rfl, rfl⟩
          · injection hq with hq
            subst hq
            have := signal_same { s with idList := none, running := false, thread := false } p
            exact ⟨this.handles, this.last, this.thread⟩
      refine ⟨⟨⟨ht.1 ▸ h.uniq, ht.1 ▸ ht.2.1 ▸ h.low, ?_⟩, by rw [ht.2.1]; omega⟩, by simp⟩
      intro h'
      rw [ht.2.2] at h'
      simp at h'
  | exitWait i t p =>
    simp only [step, Out.ok.injEq, Prod.mk.injEq] at hs
    obtain ⟨rfl, rfl⟩ := hs
    have : Same s (exitWait s i t p) := by
      unfold exitWait
      split
      · split
        · exact ⟨rfl, rfl, rfl, rfl, rfl, rfl, rfl, rfl, id⟩
        · have := signal_same { s with exits := s.exits.set i .join } p
          exact ⟨this.thread, this.inn, this.out, this.cur, this.idList, this.signData, this.last, this.handles, this.worker⟩
      · exact .refl s
    exact ⟨⟨h.same this _ rfl, by rw [this.last]; omega⟩, by simp⟩
  | exitJoin i =>
    rw [step] at hs
    by_cases hj : (s.exits[i]? = some .join && s.worker = .done) = true
    · have hth : s.thread = false := by
        have hx : s.exits[i]? = some .join := by simp at hj; exact hj.1
        cases hi.ph with
        | off thread => exact thread
        | starting thread exits => simp [exits] at hx
        | up ids thread exits => simp [exits] at hx
        | stopping e thread => exact thread
      rw [exitJoin, if_pos hj] at hs
      simp only [freePlugin] at hs
      simp only [reduceCtorEq, decide_false, Bool.false_and, Bool.false_eq_true, if_false, Out.bind_ok, Out.ok.injEq, Prod.mk.injEq] at hs
      obtain ⟨rfl, rfl⟩ := hs
      refine ⟨⟨⟨h.uniq, h.low, ?_⟩, by simp [freeBuffers]⟩, by simp⟩
      intro h'
      have : s.thread = true := h'
      rw [hth] at this
      simp at this
    · rw [exitJoin, if_neg hj] at hs
      simp only [Out.bind_ok, Out.ok.injEq, Prod.mk.injEq] at hs
      obtain ⟨rfl, rfl⟩ := hs
      exact ⟨⟨h.same (.refl s) _ rfl, by omega⟩, by simp⟩
  | worker g a p1 p2 =>
    rw [step] at hs
    cases hq : workerStep s g a p1 p2 with
    | err _ => simp [hq] at hs
    | ub _ => simp [hq] at hs
    | ok t =>
      simp only [hq, Out.bind_ok, Out.ok.injEq, Prod.mk.injEq] at hs
      obtain ⟨rfl, rfl⟩ := hs
      obtain ⟨h1, h2, h3⟩ := worker_fields hq
      refine ⟨⟨⟨h2 ▸ h.uniq, h2 ▸ h3 ▸ h.low, ?_⟩, by rw [h3]; omega⟩, by split <;> simp⟩
      intro ht
      obtain ⟨key, l, r1, r2⟩ := h.known (h1 ▸ ht)
      have hc : ∀ e : Ev, (e = .internal ∨ ∃ h, e = .signed h g) →
          current [e] c = some (key, l ++ [e]) := by
        rintro e (rfl | ⟨h, rfl⟩) <;> rw [r1] <;> rfl
      refine ⟨key, _, hc _ ?_, worker_known hi h.uniq (r2.grow _) ?_ hq⟩
      · split
        · exact .inr ⟨_, rfl⟩
        · exact .inl rfl
      · intro hw hg
        simp [hw, hg]
  | wake w =>
    simp only [step, Out.ok.injEq, Prod.mk.injEq] at hs
    obtain ⟨rfl, rfl⟩ := hs
    have := wake_same s w
    exact ⟨⟨h.same this _ rfl, by rw [this.last]; omega⟩, by simp⟩
  | setup a1 a2 a3 =>
    rw [step] at hs
    cases hq : setup s a1 a2 a3 with
    | err _ => simp [hq] at hs
    | ub _ => simp [hq] at hs
    | ok q =>
      obtain ⟨t, k⟩ := q
      simp only [hq, Out.bind_ok, Out.ok.injEq, Prod.mk.injEq] at hs
      obtain ⟨rfl, rfl⟩ := hs
      obtain ⟨h1, h2⟩ := setup_hist hi h hb hq
      exact ⟨⟨h1, h2⟩, by simp⟩
  | teardown k =>
    obtain ⟨id, hk⟩ := hc
    rw [step] at hs
    cases hq : teardown s k with
    | err _ => simp [hq] at hs
    | ub _ => simp [hq] at hs
    | ok t =>
      simp only [hq, Out.bind_ok, Out.ok.injEq, Prod.mk.injEq] at hs
      obtain ⟨rfl, rfl⟩ := hs
      obtain ⟨h1, h2⟩ := teardown_hist h hk hq
      exact ⟨⟨h1, by rw [h2]; omega⟩, by simp⟩
  | submit k hb' a p =>
    obtain ⟨id, hk⟩ := hc
    rw [step] at hs
    cases hq : submit s k hb' a p with
    | err _ => simp [hq] at hs
    | ub _ => simp [hq] at hs
    | ok q =>
      obtain ⟨t, rc⟩ := q
      simp only [hq, Out.bind_ok, Out.ok.injEq, Prod.mk.injEq] at hs
      obtain ⟨rfl, rfl⟩ := hs
      obtain ⟨h1, h2⟩ := submit_hist h hk hq
      exact ⟨⟨h1, by rw [h2]; omega⟩, by simp⟩
  | fetch k f =>
    obtain ⟨id, hk⟩ := hc
    rw [step] at hs
    cases hq : fetch s k f with
    | err _ => simp [hq] at hs
    | ub _ => simp [hq] at hs
    | ok q =>
      obtain ⟨t, sig, rc⟩ := q
      simp only [hq, Out.bind_ok, Out.ok.injEq, Prod.mk.injEq] at hs
      obtain ⟨rfl, rfl⟩ := hs
      obtain ⟨⟨h1, h2⟩, h3⟩ := fetch_hist hi h hk hq
      refine ⟨⟨h1, by rw [h2]; omega⟩, ?_⟩
      intro k' key hb' rc' he
      simp only [Ev.fetch.injEq] at he
      obtain ⟨rfl, rfl, -⟩ := he
      exact h3 key hb' rfl

theorem current_cons (e : Ev) (es : List Ev) (c : Option (Nat × List Ev)) :
    current (e :: es) c = current es (current [e] c) := by
  cases e with
  | init k => cases k <;> rfl
  | _ => rfl

theorem setUps_cons (x : Step) (xs : List Step) : setUps (x :: xs) = isSetup x + setUps xs := by
  cases x <;> simp [setUps, isSetup, Nat.add_comm]

theorem run_hist : ∀ (xs : List Step) {s s' : State} {c : Option (Nat × List Ev)} {es : List Ev}, Inv s → Hist s c →
    Orderly s xs → s.last.toNat + setUps xs < 2 ^ 32 → run s xs = .ok (s', es) →
    ∀ es1 es2 k key hb rc, es = es1 ++ .fetch k (some (key, hb)) rc :: es2 →
      ∃ l, current es1 c = some (key, l) ∧ .setup (some k) ∈ l ∧ .submit k hb none ∈ l ∧ .signed hb true ∈ l
  | [], s, s', c, es, hi, h, ho, hb, hr, es1, es2, k, key, hb', rc, he => by
    simp only [run, Out.ok.injEq, Prod.mk.injEq] at hr
    rw [← hr.2] at he
    simp at he
  | x :: xs, s, s', c, es, hi, h, ho, hb, hr, es1, es2, k, key, hb', rc, he => by
    rw [setUps_cons] at hb
    obtain ⟨s1, e, h1, h2⟩ := step_inv hi x ho.1
    obtain ⟨⟨h3, h4⟩, h5⟩ := step_hist hi h ho.1 (by omega) h1
    rw [run, h1] at hr
    simp only [Out.bind_ok] at hr
    cases hq : run s1 xs with
    | err _ => simp [hq] at hr
    | ub _ => simp [hq] at hr
    | ok q =>
      obtain ⟨s2, es'⟩ := q
      simp only [hq, Out.bind_ok, Out.ok.injEq, Prod.mk.injEq] at hr
      obtain ⟨rfl, rfl⟩ := hr
      cases es1 with
      | nil =>
        simp only [List.nil_append, List.cons.injEq] at he
        exact h5 k key hb' rc he.1
      | cons e1 es1 =>
        simp only [List.cons_append, List.cons.injEq] at he
        obtain ⟨rfl, he⟩ := he
        rw [current_cons]
        exact run_hist xs h2 h3 (ho.2 s1 e h1) (by omega) hq es1 es2 k key hb' rc he

end SV.Life
