import Verif.Proofs.Keys
import Verif.Spec.Keys
namespace SV
namespace Keys
open SV.Spec

/-- The plugin of a session, if there is one: the text of its key, the largest signature, and the hashes waiting. -/
def PInv (env : KeyEnv) (s : Sess) : Option (Bytes × Nat × List Bytes) → Prop
  | none => s.plug = none
  | some (pem, m, q) => ∃ p y, s.plug = some p ∧ p.d.key = some (y, pem) ∧ Unthreaded.Inv (env.sign pem) m p.st q

/-- A session seen from outside: its plugin, and the room for a signature. -/
structure AState where
  plug : Option (Bytes × Nat × List Bytes) := none
  room : Option Nat := none

/-- The invariant. -/
structure Good (env : KeyEnv) (s : Sess) (k : List Nat) (a : AState) : Prop where
  inv : Inv s k
  plug : PInv env s a.plug
  room : s.d.signature.map Prod.snd = a.room

/-- One call, seen from outside. -/
inductive AStep (env : KeyEnv) : AState → Call → Ev → AState → Prop
  | accepted {a : AState} {pem : Bytes} {key : Pkey} : Accepts env pem key →
      AStep env a (.key pem) (.key pem none) ⟨some (pem, key.size, []), some key.size⟩
  | empty {a : AState} : AStep env a (.key []) (.key [] (some .invalidParameter)) a
  | refused {a : AState} {pem : Bytes} : pem ≠ [] →
      ¬ (∃ key, env.read pem = some key ∧ key.size ≠ 0 ∧ key.usable = true) →
      AStep env a (.key pem) (.key pem (some .externalError)) { a with room := none }
  | nopub {a : AState} {pem : Bytes} {key : Pkey} : env.read pem = some key → key.size ≠ 0 → key.usable = true →
      (∀ x xs, key.pub ≠ some (x :: xs)) →
      AStep env a (.key pem) (.key pem (some .externalError)) { a with room := some key.size }
  | nokey {a : AState} {h : Bytes} {r : Nat} {e : Rc} : a.plug = none → AStep env a (.submit h r) (.submit h (some e)) a
  | submit {a : AState} {h : Bytes} {r : Nat} {pem : Bytes} {m : Nat} {q q' : List Bytes} {rc : Option Rc} :
      a.plug = some (pem, m, q) →
      FifoStep (env.sign pem) m q (.submit (some h) r true) (.submit (some h) rc) q' →
      AStep env a (.submit h r) (.submit h rc) { a with plug := some (pem, m, q') }
  | silent {a : AState} : a.plug = none ∨ a.room = none → AStep env a .fetch (.fetch none) a
  | fetch {a : AState} {pem : Bytes} {m n : Nat} {q q' : List Bytes} {x : Option Bytes} :
      a.plug = some (pem, m, q) → a.room = some n →
      FifoStep (env.sign pem) m q (.fetch n) (.fetch n x) q' → (m ≤ n → x = none → q = []) →
      AStep env a .fetch (.fetch x) { a with plug := some (pem, m, q') }

/-- Many calls. -/
inductive ARun (env : KeyEnv) : AState → List Call → List Ev → AState → Prop
  | nil {a : AState} : ARun env a [] [] a
  | cons {a a' a'' : AState} {c : Call} {cs : List Call} {e : Ev} {es : List Ev} :
      AStep env a c e a' → ARun env a' cs es a'' → ARun env a (c :: cs) (e :: es) a''

theorem good_init (env : KeyEnv) : Good env {} [] {} :=
  ⟨⟨rfl, ⟨by simp [owned, sigL, plugL], by simp [owned, sigL, plugL], by simp⟩, by simp⟩, rfl, rfl⟩

/-- A call on the plugin leaves the rest. -/
theorem Inv.plug {s : Sess} {k : List Nat} {p : Plug} (h : Inv s k) (hp : s.plug = some p) (st : Unthreaded.St) :
    Inv { s with plug := some { p with st := st } } k := by
  refine ⟨h.key, ?_, h.sig⟩
  have := h.own
  unfold owned at this ⊢
  rw [hp] at this
  exact this

/-- With enough room a waiting signature is handed out. -/
theorem fetch_room {sign : Nat → Bytes → Option Bytes} {m n : Nat} {st st' : Unthreaded.St} {q : List Bytes}
    (h : Unthreaded.Inv sign m st q) (hr : m ≤ n) (hf : Unthreaded.fetch st n = .ok (st', none)) : q = [] := by
  cases q with
  | nil => rfl
  | cons x q =>
    exfalso
    obtain ⟨gs, b, ho, hq, hv⟩ := h.view
    obtain ⟨s', hs, -⟩ := Unthreaded.shift_inv h
    cases gs with
    | nil => simp at hq
    | cons g gs =>
      obtain ⟨p, hp, hsz, -⟩ := hv g (by simp)
      have hmem := h.mem g.1 (by rw [ho]; simp) p hp
      have hmx := h.max
      have hr0 : rd st.out 0 = .ok g.1 := by rw [ho]; rfl
      have hpos : 0 < st.idx := by rw [h.idx]; simp
      have hm : ¬ n < g.1.size := by omega
      simp only [Unthreaded.fetch, hpos, if_true, hr0, Out.bind_ok, hm, if_false, hp, Heap.load, hsz, hs] at hf
      cases hf

theorem step_good {env : KeyEnv} {s : Sess} {k : List Nat} {a : AState} (h : Good env s k a) (c : Call) :
    ∃ s' e k' a', step env s c = .ok (s', e) ∧ Good env s' k' a' ∧ AStep env a c e a' ∧
      (∀ pem, c = .key pem → Loads env pem → s.d.signature = none → s.plug = none → k' = k) ∧
      ((∀ pem, c = .key pem → ¬ Loads env pem) →
        k' = k ∧ (s.d.signature = none → s.plug = none → s'.d.signature = none ∧ s'.plug = none)) := by
  cases c with
  | key pem =>
    obtain ⟨s', rc, k', h1, h2, h3, h4, h5⟩ := setKey_spec env pem h.inv
    have hst : step env s (.key pem) = .ok (s', .key pem rc) := by simp [step, h1]
    have hplug : ∀ p, s'.plug = s.plug → PInv env s p → PInv env s' p := by
      intro p hp h; cases p with
      | none => exact hp.trans h
      | some p => obtain ⟨pem, m, q⟩ := p; obtain ⟨p, y, e1, e2⟩ := h; exact ⟨p, y, hp.trans e1, e2⟩
    cases h3 with
    | accepted ha hp hd hpub hk =>
      refine ⟨s', _, k', _, hst, ⟨h2, ?_, ?_⟩, .accepted ha, fun _ _ _ => h5, fun hl => ?_⟩
      · exact ⟨_, _, hp, rfl, Unthreaded.inv_init _ _⟩
      · rw [hd]; rfl
      · exact absurd ⟨ha.1, _, ha.2.1, ha.2.2.1⟩ (hl pem rfl)
    | empty hp hs =>
      subst hs hp
      exact ⟨s', _, k', a, hst, ⟨h2, h.plug, h.room⟩, .empty, fun _ _ _ => h5, fun hl => ⟨h4 (hl [] rfl), fun a b => ⟨a, b⟩⟩⟩
    | refused hp hr hpl hpu hd =>
      refine ⟨s', _, k', { a with room := none }, hst, ⟨h2, hplug _ hpl h.plug, by rw [hd]; rfl⟩, .refused hp hr, fun _ _ _ => h5,
        fun hl => ⟨h4 (hl pem rfl), fun a b => ⟨by rw [hd], by rw [hpl, b]⟩⟩⟩
    | nopub hp hr hs hu hn hpl hpu hd =>
      refine ⟨s', _, k', { a with room := some _ }, hst, ⟨h2, hplug _ hpl h.plug, by rw [hd]; rfl⟩, .nopub hr hs hu hn, fun _ _ _ => h5, fun hl => ?_⟩
      exact absurd ⟨hp, _, hr, hs⟩ (hl pem rfl)
  | submit hash r =>
    cases hp : a.plug with
    | none =>
      have hn : s.plug = none := by have := h.plug; rwa [hp] at this
      exact ⟨s, .submit hash (some .invalidParameter), k, a, by simp [step, submit, hn], h, .nokey hp, fun _ h => (by cases h), fun _ => ⟨rfl, fun a b => ⟨a, b⟩⟩⟩
    | some v =>
      obtain ⟨pem, m, q⟩ := v
      have := h.plug
      rw [hp] at this
      obtain ⟨p, y, e1, e2, e3⟩ := this
      obtain ⟨st, rc, q', h1, h2, h3⟩ := Unthreaded.submit_inv e3 (some hash) r true
      refine ⟨{ s with plug := some { p with st := st } }, .submit hash rc, k, { a with plug := some (pem, m, q') }, ?_, ⟨h.inv.plug e1 st, ?_, h.room⟩,
        .submit hp h3, fun _ h => (by cases h), fun _ => ⟨rfl, fun a b => by rw [e1] at b; cases b⟩⟩
      · simp [step, submit, e1, e2, h1]
      · exact ⟨_, y, rfl, e2, h2⟩
  | fetch =>
    cases hp : a.plug with
    | none =>
      have hn : s.plug = none := by have := h.plug; rwa [hp] at this
      exact ⟨s, .fetch none, k, a, by simp [step, fetch, hn], h, .silent (.inl hp), fun _ h => (by cases h), fun _ => ⟨rfl, fun a b => ⟨a, b⟩⟩⟩
    | some v =>
      obtain ⟨pem, m, q⟩ := v
      have := h.plug
      rw [hp] at this
      obtain ⟨p, y, e1, e2, e3⟩ := this
      cases hr : a.room with
      | none =>
        have hn : s.d.signature = none := by have := h.room; rw [hr] at this; simpa using this
        exact ⟨s, .fetch none, k, a, by simp [step, fetch, e1, hn], h, .silent (.inr hr), fun _ h => (by cases h), fun _ => ⟨rfl, fun a b => ⟨a, b⟩⟩⟩
      | some n =>
        have hn : ∃ z, s.d.signature = some (z, n) := by
          have := h.room; rw [hr] at this
          cases hs : s.d.signature with
          | none => rw [hs] at this; cases this
          | some z => obtain ⟨z, w⟩ := z; rw [hs] at this; cases this; exact ⟨z, rfl⟩
        obtain ⟨z, hz⟩ := hn
        have hm : n = s.d.max := h.inv.sig _ hz
        obtain ⟨st, x, q', h1, h2, h3⟩ := Unthreaded.fetch_inv e3 n
        rw [hm] at h1
        refine ⟨{ s with plug := some { p with st := st } }, .fetch x, k, { a with plug := some (pem, m, q') }, ?_, ⟨h.inv.plug e1 st, ?_, h.room⟩,
          .fetch hp hr h3 (fun hmn hx => fetch_room e3 hmn (by rw [← hx, hm]; exact h1)), fun _ h => (by cases h), fun _ => ⟨rfl, fun a b => by rw [e1] at b; cases b⟩⟩
        · cases x with
          | none => simp [step, fetch, e1, hz, h1]
          | some x =>
            have hl : x.length ≤ n := by cases h3; assumption
            have : ¬ n < x.length := by omega
            simp [step, fetch, e1, hz, h1, this]
        · exact ⟨_, y, rfl, e2, h2⟩

theorem run_good {env : KeyEnv} (cs : List Call) : ∀ {s : Sess} {k : List Nat} {a : AState}, Good env s k a →
    ∃ s' es k' a', run env s cs = .ok (s', es) ∧ Good env s' k' a' ∧ ARun env a cs es a' := by
  induction cs with
  | nil => intro s k a h; exact ⟨s, [], k, a, rfl, h, .nil⟩
  | cons c cs ih =>
    intro s k a h
    obtain ⟨s1, e, k1, a1, h1, h2, h3, -⟩ := step_good h c
    obtain ⟨s2, es, k2, a2, h4, h5, h6⟩ := ih h2
    exact ⟨s2, e :: es, k2, a2, by simp [run, h1, h4], h5, .cons h3 h6⟩

theorem close_ok {s : Sess} {k : List Nat} (h : Inv s k) : ∃ b, close s = .ok b ∧ Owns b [] k := by
  have h0 : Owns s.b (plugL s.plug ++ (sigL s.d ++ ((s.pub.map Prod.fst).toList ++ []))) k := h.own.mono (by
    apply List.Perm.append_right
    rw [List.append_nil]
    unfold owned
    rw [← List.append_assoc]
    exact List.perm_append_comm)
  obtain ⟨b1, h1, h2⟩ := teardown_ok _ h0
  obtain ⟨b3, h5, h6⟩ := h2.free (s.d.signature.map Prod.fst)
  obtain ⟨b4, h7, h8⟩ := h6.free (s.pub.map Prod.fst)
  refine ⟨b4, ?_, h8⟩
  simp [close, h1, h.key, Blocks.free]
  simp [Blocks.free] at h5 h7
  simp [h5, h7]

end Keys
end SV
