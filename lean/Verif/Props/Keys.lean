import Verif.Proofs.KeysRun
/-!
C64, C65, C67 and C68: private keys.
-/
namespace SV
namespace Keys
open SV.Spec

/-! ### C68: the memory that belongs to keys -/

/-- **C68, no undefined behaviour.** Whatever keys are set, accepted or refused, and whatever is signed and fetched in between: no
memory is freed twice, no signature is written outside of its memory, and closing the session goes well, too. -/
theorem C68_memory (env : KeyEnv) (cs : List Call) :
    ∃ s es b, run env {} cs = .ok (s, es) ∧ close s = .ok b := by
  obtain ⟨s, es, k, a, h1, h2, -⟩ := run_good cs (good_init env)
  obtain ⟨b, h3, -⟩ := close_ok h2.inv
  exact ⟨s, es, b, h1, h3⟩

/-- The call sets a key that can be read. -/
def readable (env : KeyEnv) : Call → Bool
  | .key pem => !pem.isEmpty && (env.read pem).any (fun k => k.size != 0)
  | _ => false

theorem loads_iff {env : KeyEnv} {pem : Bytes} : readable env (.key pem) = true ↔ Loads env pem := by
  unfold readable Loads
  cases pem with
  | nil => simp
  | cons x xs => cases h : env.read (x :: xs) <;> simp [h]

theorem leak_aux {env : KeyEnv} (cs : List Call) : ∀ {s : Sess} {a : AState}, Good env s [] a →
    ((s.d.signature = none ∧ s.plug = none ∧ cs.countP (readable env) ≤ 1) ∨ cs.countP (readable env) = 0) →
    ∃ s' es a', run env s cs = .ok (s', es) ∧ Good env s' [] a' := by
  induction cs with
  | nil => intro s a h _; exact ⟨s, [], a, rfl, h⟩
  | cons c cs ih =>
    intro s a h hc
    obtain ⟨s1, e, k1, a1, h1, h2, -, h4, h5⟩ := step_good h c
    have fin : k1 = [] → ((s1.d.signature = none ∧ s1.plug = none ∧ cs.countP (readable env) ≤ 1) ∨ cs.countP (readable env) = 0) →
        ∃ s' es a', run env s (c :: cs) = .ok (s', es) ∧ Good env s' [] a' := by
      rintro rfl hn
      obtain ⟨s2, es, a2, h6, h7⟩ := ih h2 hn
      exact ⟨s2, e :: es, a2, by simp [run, h1, h6], h7⟩
    by_cases hr : readable env c = true
    · rw [List.countP_cons_of_pos hr] at hc
      rcases hc with ⟨ha, hb, hn⟩ | hn
      · cases c with
        | key pem => exact fin (h4 pem rfl (loads_iff.1 hr) ha hb) (.inr (by omega))
        | submit => cases hr
        | fetch => cases hr
      · omega
    · rw [List.countP_cons_of_neg hr] at hc
      obtain ⟨hk, hs⟩ := h5 (fun pem hp hl => hr (by rw [hp]; exact loads_iff.2 hl))
      rcases hc with ⟨ha, hb, hn⟩ | hn
      · exact fin hk (.inl ⟨(hs ha hb).1, (hs ha hb).2, hn⟩)
      · exact fin hk (.inr hn)

/-- **C68, partial.** If at most one of the keys set can be read, no memory is left when the session is closed. What is missing:
sessions in which a second key is set; see `C68_leak_false`. -/
theorem C68_leak_partial (env : KeyEnv) (cs : List Call) (h : cs.countP (readable env) ≤ 1) :
    ∃ s es b, run env {} cs = .ok (s, es) ∧ close s = .ok b ∧ b.live = [] := by
  obtain ⟨s, es, a, h1, h2⟩ := leak_aux cs (good_init env) (.inl ⟨rfl, rfl, h⟩)
  obtain ⟨b, h3, h4⟩ := close_ok h2.inv
  exact ⟨s, es, b, h1, h3, List.perm_nil.1 h4.perm⟩

/-- Keys of one byte with signatures of two bytes, for the witnesses: `0` cannot be read. -/
def demoEnv : KeyEnv where
  read pem := match pem with
    | [0] => none
    | [n] => some ⟨2, true, some [n, 255]⟩
    | _ => none
  sign pem _ h := some (pem ++ h.take 1)

/-- Non-vacuity: a key is refused, one is accepted, another refused, with a signature in between. -/
example : [Call.key [0], .key [1], .submit [7] 0, .fetch, .key [0]].countP (readable demoEnv) ≤ 1 ∧
    ∃ s, run demoEnv {} [.key [0], .key [1], .submit [7] 0, .fetch, .key [0]] =
      .ok (s, [.key [0] (some .externalError), .key [1] none, .submit [7] none, .fetch (some [1, 7]), .key [0] (some .externalError)]) :=
  ⟨by decide, _, rfl⟩

/-- **C68, false in general.** With a second accepted key, the memory of the first is lost: it is still allocated when the session
has been closed. -/
theorem C68_leak_false : ∃ env cs s es b, run env {} cs = .ok (s, es) ∧ close s = .ok b ∧ b.live ≠ [] := by
  refine ⟨demoEnv, [.key [1], .key [2]], _, _, _, rfl, rfl, by decide⟩

/-! ### C65: signatures and hashes in step -/

/-- The hashes that wait in a state. -/
def AState.waiting (a : AState) : List (Option Bytes × Bytes) :=
  match a.plug with
  | none => []
  | some (pem, _, q) => q.map fun h => (some pem, h)

/-- The key of a state. -/
def AState.cur (a : AState) : Option Bytes := a.plug.map Prod.fst

theorem order_aux {env : KeyEnv} {a a' : AState} {cs : List Call} {es : List Ev} (h : ARun env a cs es a')
    (hpub : ∀ pem key, env.read pem = some key → key.size ≠ 0 → key.usable = true → ∃ x xs, key.pub = some (x :: xs)) :
    (∀ pem m q n, a.plug = some (pem, m, q) → a.room = some n → n = m) →
    (∀ es1 pem es2, es = es1 ++ .key pem none :: es2 →
      a.waiting.length + (signedHashes a.cur es1).length = (handedOut es1).length) →
    InOrder env (a.waiting ++ signedHashes a.cur es) (handedOut es) := by
  induction h with
  | @nil a =>
    intro _ _
    show InOrder env (a.waiting ++ []) []
    cases a.waiting ++ [] <;> trivial
  | @cons a a1 a2 c cs e es hs _ ih =>
    intro hroom hw
    -- an observation that neither accepts a key or hash, nor hands out a signature
    have plain : a1.waiting = a.waiting → a1.cur = a.cur →
        (∀ es, signedHashes a.cur (e :: es) = signedHashes a.cur es) → (∀ es, handedOut (e :: es) = handedOut es) →
        (∀ pem m q n, a1.plug = some (pem, m, q) → a1.room = some n → n = m) →
        InOrder env (a.waiting ++ signedHashes a.cur (e :: es)) (handedOut (e :: es)) := by
      intro h1 h2 h3 h4 h5
      rw [h3, h4, ← h1, ← h2]
      refine ih h5 ?_
      intro es1 pem es2 he
      have := hw (e :: es1) pem es2 (by rw [he]; rfl)
      rw [h3, h4] at this
      rw [h1, h2]; exact this
    cases hs with
    | @accepted pem key ha =>
      have h0 := hw [] pem es rfl
      have hz : a.waiting = [] := by
        simp only [signedHashes, handedOut, List.length_nil, Nat.add_zero] at h0
        exact List.eq_nil_of_length_eq_zero h0
      rw [hz]
      simp only [List.nil_append, signedHashes, handedOut]
      refine ih ?_ ?_
      · intro _ _ _ _ h1 h2; cases h1; cases h2; rfl
      · intro es1 pem' es2 he
        have := hw (.key pem none :: es1) pem' es2 (by rw [he]; rfl)
        rw [hz] at this
        simpa [signedHashes, handedOut, AState.waiting, AState.cur] using this
    | empty => exact plain rfl rfl (fun _ => rfl) (fun _ => rfl) hroom
    | refused => exact plain rfl rfl (fun _ => rfl) (fun _ => rfl) (by intro _ _ _ _ _ h; cases h)
    | nopub hr h1 h2 h3 =>
      obtain ⟨x, xs, hx⟩ := hpub _ _ hr h1 h2
      exact absurd hx (h3 x xs)
    | nokey hp => exact plain rfl rfl (fun _ => rfl) (fun _ => rfl) hroom
    | @submit hh r pem m q q' rc hp hf =>
      have hroom' : ∀ pem1 m1 q1 n, some (pem, m, q') = some (pem1, m1, q1) → a.room = some n → n = m1 := by
        intro _ _ _ n h1 h2; cases h1; exact hroom _ _ _ n hp h2
      have hwait : a.waiting = q.map fun h => (some pem, h) := by simp [AState.waiting, hp]
      have hcur : a.cur = some pem := by simp [AState.cur, hp]
      cases hf with
      | accepted =>
        rw [hwait, hcur]
        simp only [signedHashes, handedOut]
        have := ih hroom' ?_
        · simpa [AState.waiting, AState.cur] using this
        · intro es1 pem' es2 he
          have := hw (.submit hh none :: es1) pem' es2 (by rw [he]; rfl)
          rw [hwait, hcur] at this
          simp [signedHashes, handedOut, AState.waiting, AState.cur] at this ⊢
          omega
      | refused =>
        refine plain ?_ ?_ (fun _ => rfl) (fun _ => rfl) hroom'
        · simp [AState.waiting, hp]
        · simp [AState.cur, hp]
    | silent => exact plain rfl rfl (fun _ => rfl) (fun _ => rfl) hroom
    | @fetch pem m n q q' x hp hr hf hx =>
      have hroom' : ∀ pem1 m1 q1 n, some (pem, m, q') = some (pem1, m1, q1) → a.room = some n → n = m1 := by
        intro _ _ _ n h1 h2; cases h1; exact hroom _ _ _ n hp h2
      have hnm := hroom _ _ _ _ hp hr
      have hwait : a.waiting = q.map fun h => (some pem, h) := by simp [AState.waiting, hp]
      have hcur : a.cur = some pem := by simp [AState.cur, hp]
      cases hf with
      | delivered hsig hl =>
        rw [hwait, hcur]
        simp only [signedHashes, handedOut, List.map_cons, List.cons_append]
        refine ⟨?_, ?_⟩
        · obtain ⟨r, hr⟩ := hsig
          exact ⟨pem, r, rfl, hr⟩
        · have := ih hroom' ?_
          · simpa [AState.waiting, AState.cur] using this
          · intro es1 pem' es2 he
            have := hw (.fetch (some _) :: es1) pem' es2 (by rw [he]; rfl)
            rw [hwait, hcur] at this
            simp [signedHashes, handedOut, AState.waiting, AState.cur] at this ⊢
            omega
      | tooLarge hsig hl => exact absurd (hx (by omega) rfl) (by simp)
      | empty =>
        refine plain ?_ ?_ (fun _ => rfl) (fun _ => rfl) hroom'
        · simp [AState.waiting, hp]
        · simp [AState.cur, hp]

/-- **C65, partial.** Every signature that is handed out is, in order and without gaps, a signature of an accepted hash, made
with the last key that had been accepted when the hash was.  It is assumed that a private key that can sign has a public key, and
that nothing waits when a key is accepted. What is missing: keys that are accepted while hashes wait; see `C65_order_false`. -/
theorem C65_order_partial (env : KeyEnv) (cs : List Call)
    (hpub : ∀ pem key, env.read pem = some key → key.size ≠ 0 → key.usable = true → ∃ x xs, key.pub = some (x :: xs)) :
    ∃ s es, run env {} cs = .ok (s, es) ∧ (NoneWaiting es → InOrder env (signedHashes none es) (handedOut es)) := by
  obtain ⟨s, es, k, a, h1, h2, h3⟩ := run_good cs (good_init env)
  refine ⟨s, es, h1, fun hw => ?_⟩
  have := order_aux h3 hpub (by intro _ _ _ _ h; cases h) (by
    intro es1 pem es2 he
    have := hw es1 pem es2 he
    simpa [AState.waiting, AState.cur] using this)
  simpa [AState.waiting, AState.cur] using this

/-- Non-vacuity: a key is replaced after its hash has been signed and fetched. -/
example : (∀ pem key, demoEnv.read pem = some key → key.size ≠ 0 → key.usable = true → ∃ x xs, key.pub = some (x :: xs)) ∧
    ∃ s, run demoEnv {} [.key [1], .submit [7] 0, .fetch, .key [2], .submit [8] 0, .fetch] =
      .ok (s, [.key [1] none, .submit [7] none, .fetch (some [1, 7]), .key [2] none, .submit [8] none, .fetch (some [2, 8])]) ∧
      NoneWaiting [.key [1] none, .submit [7] none, .fetch (some [1, 7]), .key [2] none, .submit [8] none, .fetch (some [2, 8])] := by
  refine ⟨?_, _, rfl, ?_⟩
  · intro pem key h _ _
    unfold demoEnv at h
    dsimp only at h
    split at h
    · cases h
    · cases h; exact ⟨_, _, rfl⟩
    · cases h
  · intro es1 pem es2 h
    rcases es1 with _ | ⟨e1, _ | ⟨e2, _ | ⟨e3, _ | ⟨e4, _ | ⟨e5, _ | ⟨e6, es1⟩⟩⟩⟩⟩⟩
    · rfl
    all_goals simp only [List.cons_append, List.nil_append, List.cons.injEq, reduceCtorEq, false_and, and_false] at h
    · obtain ⟨rfl, rfl, rfl, -⟩ := h; rfl
    · obtain ⟨-, -, -, -, -, -, h⟩ := h
      cases es1 <;> cases h

/-- **C65, false in general.** If a key is accepted while a hash waits, that hash never gets a signature, and the signature that is
handed out next belongs to a later hash. -/
theorem C65_order_false : ∃ env cs s es, run env {} cs = .ok (s, es) ∧
    (∀ pem key, env.read pem = some key → key.size ≠ 0 → key.usable = true → ∃ x xs, key.pub = some (x :: xs)) ∧
    ¬ InOrder env (signedHashes none es) (handedOut es) := by
  refine ⟨demoEnv, [.key [1], .submit [7] 0, .key [2], .submit [8] 0, .fetch], _,
    [.key [1] none, .submit [7] none, .key [2] none, .submit [8] none, .fetch (some [2, 8])], rfl, ?_, ?_⟩
  · intro pem key h _ _
    unfold demoEnv at h
    dsimp only at h
    split at h
    · cases h
    · cases h; exact ⟨_, _, rfl⟩
    · cases h
  · rintro ⟨⟨pem, r, h1, h2⟩, -⟩
    cases h1
    simp [demoEnv] at h2

/-- The public key that belongs to a private key. -/
def publicOf (env : KeyEnv) (pem : Option Bytes) : Option Bytes := pem.bind fun x => (env.read x).bind Pkey.pub

theorem public_aux {env : KeyEnv}
    (hpub : ∀ pem key, env.read pem = some key → key.size ≠ 0 → key.usable = true → ∃ x xs, key.pub = some (x :: xs))
    (cs : List Call) : ∀ {s : Sess} {k : List Nat} {a : AState} {pem : Option Bytes}, Good env s k a →
      s.pub.map Prod.snd = publicOf env pem →
      ∃ s' es, run env s cs = .ok (s', es) ∧ s'.pub.map Prod.snd = publicOf env (lastKey pem es) := by
  induction cs with
  | nil => intro s _ _ pem _ h; exact ⟨s, [], rfl, h⟩
  | cons c cs ih =>
    intro s k a pem hg h
    obtain ⟨s1, e, k1, a1, h1, h2, -⟩ := step_good hg c
    have key : ∃ pem1, s1.pub.map Prod.snd = publicOf env pem1 ∧ ∀ es, lastKey pem (e :: es) = lastKey pem1 es := by
      cases c with
      | key x =>
        obtain ⟨s', rc, k', h4, -, h6, -⟩ := setKey_spec env x hg.inv
        simp only [step, h4, Out.bind_ok] at h1
        cases h1
        cases h6 with
        | accepted ha hp hd hpu hk =>
          refine ⟨some x, ?_, fun _ => rfl⟩
          rw [hpu]
          simp [publicOf, ha.2.1, hk]
        | empty _ hs => subst hs; exact ⟨pem, h, fun _ => rfl⟩
        | refused _ _ _ hpu => exact ⟨pem, by rw [hpu]; exact h, fun _ => rfl⟩
        | nopub _ hr h1 h2 h3 =>
          obtain ⟨y, ys, hy⟩ := hpub _ _ hr h1 h2
          exact absurd hy (h3 y ys)
      | submit x r =>
        refine ⟨pem, ?_, ?_⟩
        · rw [← h]
          simp only [step, submit] at h1
          cases hp : s.plug with
          | none => rw [hp] at h1; cases h1; rfl
          | some p =>
            rw [hp] at h1
            dsimp only at h1
            cases hk : p.d.key with
            | none => rw [hk] at h1; cases h1; rfl
            | some z =>
              rw [hk] at h1
              dsimp only at h1
              generalize Unthreaded.submit _ _ _ _ _ = o at h1
              cases o with
              | ok v => cases h1; rfl
              | err _ => cases h1
              | ub _ => cases h1
        · have he : ∃ rc, e = .submit x rc := by
            simp only [step] at h1
            generalize submit env s x r = o at h1
            cases o with
            | ok v => cases h1; exact ⟨_, rfl⟩
            | err _ => cases h1
            | ub _ => cases h1
          obtain ⟨rc, rfl⟩ := he
          intro es; rfl
      | fetch =>
        refine ⟨pem, ?_, ?_⟩
        · rw [← h]
          simp only [step, fetch] at h1
          cases hp : s.plug with
          | none => rw [hp] at h1; cases h1; rfl
          | some p =>
            rw [hp] at h1
            dsimp only at h1
            cases hk : s.d.signature with
            | none => rw [hk] at h1; cases h1; rfl
            | some z =>
              rw [hk] at h1
              dsimp only at h1
              generalize Unthreaded.fetch _ _ = o at h1
              cases o with
              | ok v =>
                obtain ⟨v, x⟩ := v
                cases x with
                | none => cases h1; rfl
                | some x =>
                  simp only [Out.bind_ok] at h1
                  split at h1
                  · cases h1
                  · cases h1; rfl
              | err _ => cases h1
              | ub _ => cases h1
        · have he : ∃ x, e = .fetch x := by
            simp only [step] at h1
            generalize fetch s = o at h1
            cases o with
            | ok v => cases h1; exact ⟨_, rfl⟩
            | err _ => cases h1
            | ub _ => cases h1
          obtain ⟨x, rfl⟩ := he
          intro es; rfl
    obtain ⟨pem1, h3, h4⟩ := key
    obtain ⟨s2, es, h5, h6⟩ := ih h2 h3
    exact ⟨s2, e :: es, by simp [run, h1, h5], by rw [h4]; exact h6⟩

/-- **C65, the public key.** The public key of a session, which is written to its SEIs, is the one that belongs to the private key
accepted last, whatever is refused, signed and fetched before and after. -/
theorem C65_public (env : KeyEnv) (cs : List Call)
    (hpub : ∀ pem key, env.read pem = some key → key.size ≠ 0 → key.usable = true → ∃ x xs, key.pub = some (x :: xs)) :
    ∃ s es, run env {} cs = .ok (s, es) ∧ s.pub.map Prod.snd = publicOf env (lastKey none es) :=
  public_aux hpub cs (good_init env) rfl

/-- Non-vacuity: the second of two accepted keys, then a refused one. -/
example : ∃ s es, run demoEnv {} [.key [1], .key [2], .key [0]] = .ok (s, es) ∧ s.pub.map Prod.snd = some [2, 255] := ⟨_, _, rfl, rfl⟩

/-! ### C64: refused keys -/

/-- Two sessions that cannot be told apart by calls. -/
structure Same (s t : Sess) : Prop where
  plug : s.plug.map (fun p => (p.d.key.map Prod.snd, p.st)) = t.plug.map (fun p => (p.d.key.map Prod.snd, p.st))
  room : s.plug ≠ none → s.d.signature.map Prod.snd = t.d.signature.map Prod.snd ∧ s.d.max = t.d.max

theorem key_same {env : KeyEnv} {s t : Sess} {k k' : List Nat} (hs : Inv s k) (ht : Inv t k') (h : Same s t) (pem : Bytes) :
    ∃ s' t' rc, setKey env s pem = .ok (s', rc) ∧ setKey env t pem = .ok (t', rc) ∧ Same s' t' := by
  obtain ⟨s', rc, k1, h1, -, h3, -⟩ := setKey_spec env pem hs
  obtain ⟨t', rc', k2, h4, -, h6, -⟩ := setKey_spec env pem ht
  have acc : ∀ {key key' : Pkey}, Accepts env pem key → env.read pem = some key' → key' = key := by
    intro key key' ha hr
    rw [ha.2.1] at hr; cases hr; rfl
  have loads : ∀ {key : Pkey}, Accepts env pem key → ∃ key, env.read pem = some key ∧ key.size ≠ 0 ∧ key.usable = true :=
    fun ha => ⟨_, ha.2.1, ha.2.2.1, ha.2.2.2.1⟩
  have hmap : ∀ {s' t' : Sess}, s'.plug = s.plug → t'.plug = t.plug →
      s'.plug.map (fun p => (p.d.key.map Prod.snd, p.st)) = t'.plug.map (fun p => (p.d.key.map Prod.snd, p.st)) := by
    intro s' t' h1 h2; rw [h1, h2]; exact h.plug
  suffices hh : rc = rc' ∧ Same s' t' by
    obtain ⟨rfl, hh⟩ := hh
    exact ⟨s', t', rc, h1, h4, hh⟩
  cases h3 with
  | accepted ha hp hd hpub hk =>
    cases h6 with
    | accepted ha' hp' hd' hpub' hk' =>
      cases acc ha ha'.2.1
      exact ⟨rfl, by rw [hp, hp']; rfl, fun _ => by rw [hd, hd']; exact ⟨rfl, rfl⟩⟩
    | empty hp => exact absurd hp ha.1
    | refused _ hr => exact absurd (loads ha) hr
    | nopub _ hr _ _ hn =>
      obtain ⟨x, xs, hx⟩ := ha.2.2.2.2
      cases acc ha hr
      exact absurd hx (hn x xs)
  | empty hp hs =>
    subst hs hp
    cases h6 with
    | accepted ha => exact absurd rfl ha.1
    | empty _ ht => subst ht; exact ⟨rfl, h⟩
    | refused hp => exact absurd rfl hp
    | nopub hp => exact absurd rfl hp
  | refused hp hr hpl hpu hd =>
    cases h6 with
    | accepted ha => exact absurd (loads ha) hr
    | empty hp' => exact absurd hp' hp
    | refused _ _ hpl' _ hd' =>
      refine ⟨rfl, hmap hpl hpl', fun hn => ?_⟩
      rw [hd, hd']
      exact ⟨rfl, (h.room (by rwa [hpl] at hn)).2⟩
    | nopub _ h1 h2 h3 => exact absurd ⟨_, h1, h2, h3⟩ hr
  | nopub hp hr hsz hu hn hpl hpu hd =>
    cases h6 with
    | accepted ha =>
      obtain ⟨x, xs, hx⟩ := ha.2.2.2.2
      cases acc ha hr
      exact absurd hx (hn x xs)
    | empty hp' => exact absurd hp' hp
    | refused _ hr' => exact absurd ⟨_, hr, hsz, hu⟩ hr'
    | nopub _ hr' _ _ _ hpl' _ hd' =>
      rw [hr] at hr'
      cases hr'
      refine ⟨rfl, hmap hpl hpl', fun _ => ?_⟩
      rw [hd, hd']; exact ⟨rfl, rfl⟩

theorem Same.cases {env : KeyEnv} {s t : Sess} {k : List Nat} {a : AState} (hs : Good env s k a) (h : Same s t) :
    (s.plug = none ∧ t.plug = none) ∨
    ∃ p p' pem m q y y', s.plug = some p ∧ t.plug = some p' ∧ p'.st = p.st ∧ p.d.key = some (y, pem) ∧ p'.d.key = some (y', pem) ∧
      Unthreaded.Inv (env.sign pem) m p.st q := by
  have hp := h.plug
  cases ha : a.plug with
  | none =>
    have h1 := hs.plug
    rw [ha] at h1
    refine .inl ⟨h1, ?_⟩
    have h1 : s.plug = none := h1
    rw [h1] at hp
    cases h5 : t.plug with
    | none => rfl
    | some _ => rw [h5] at hp; cases hp
  | some v =>
    obtain ⟨pem, m, q⟩ := v
    have h1 := hs.plug
    rw [ha] at h1
    obtain ⟨p, y, h2, h3, h4⟩ := h1
    rw [h2] at hp
    cases h5 : t.plug with
    | none => rw [h5] at hp; cases hp
    | some p' =>
      rw [h5] at hp
      simp only [Option.map_some, Option.some.injEq, Prod.mk.injEq, h3] at hp
      cases h6 : p'.d.key with
      | none => rw [h6] at hp; cases hp.1
      | some z =>
        obtain ⟨y', pem'⟩ := z
        rw [h6] at hp
        simp only [Option.map_some, Option.some.injEq] at hp
        obtain ⟨rfl, hp⟩ := hp
        exact .inr ⟨p, p', pem, m, q, y, y', h2, rfl, hp.symm, h3, h6, h4⟩

theorem step_same {env : KeyEnv} {s t : Sess} {k k' : List Nat} {a a' : AState} (hs : Good env s k a) (ht : Good env t k' a')
    (h : Same s t) (c : Call) : ∃ s' t' e, step env s c = .ok (s', e) ∧ step env t c = .ok (t', e) ∧ Same s' t' := by
  have upd : ∀ {p p' : Plug} {pem : Bytes} {y y' : Nat} (st : Unthreaded.St), s.plug = some p → t.plug = some p' → p.d.key = some (y, pem) →
      p'.d.key = some (y', pem) →
      Same { s with plug := some { p with st := st } } { t with plug := some { p' with st := st } } := by
    intro p p' pem y y' st h1 h2 h3 h4
    refine ⟨by simp [h3, h4], fun _ => h.room (by rw [h1]; simp)⟩
  cases c with
  | key pem =>
    obtain ⟨s', t', rc, h1, h2, h3⟩ := key_same (env := env) hs.inv ht.inv h pem
    exact ⟨s', t', .key pem rc, by simp [step, h1], by simp [step, h2], h3⟩
  | submit hash r =>
    rcases h.cases hs with ⟨h1, h2⟩ | ⟨p, p', pem, m, q, y, y', h1, h2, h3, h4, h5, h6⟩
    · exact ⟨s, t, .submit hash (some .invalidParameter), by simp [step, submit, h1], by simp [step, submit, h2], h⟩
    · obtain ⟨st, rc, q', h7, -⟩ := Unthreaded.submit_inv h6 (some hash) r true
      exact ⟨_, _, .submit hash rc, by simp [step, submit, h1, h4, h7], by simp [step, submit, h2, h5, h3, h7], upd st h1 h2 h4 h5⟩
  | fetch =>
    rcases h.cases hs with ⟨h1, h2⟩ | ⟨p, p', pem, m, q, y, y', h1, h2, h3, h4, h5, h6⟩
    · exact ⟨s, t, .fetch none, by simp [step, fetch, h1], by simp [step, fetch, h2], h⟩
    · obtain ⟨hr1, hr2⟩ := h.room (by rw [h1]; simp)
      cases hsg : s.d.signature with
      | none =>
        have htg : t.d.signature = none := by
          rw [hsg] at hr1
          cases h8 : t.d.signature with
          | none => rfl
          | some _ => rw [h8] at hr1; cases hr1
        exact ⟨s, t, .fetch none, by simp [step, fetch, h1, hsg], by simp [step, fetch, h2, htg], h⟩
      | some z =>
        obtain ⟨z, n⟩ := z
        have htg : ∃ z', t.d.signature = some (z', n) := by
          rw [hsg] at hr1
          cases h8 : t.d.signature with
          | none => rw [h8] at hr1; cases hr1
          | some v => obtain ⟨v, w⟩ := v; rw [h8] at hr1; simp at hr1; exact ⟨v, by rw [hr1]⟩
        obtain ⟨z', htg⟩ := htg
        have hm : n = s.d.max := hs.inv.sig _ hsg
        obtain ⟨st, x, q', h7, -, h9⟩ := Unthreaded.fetch_inv h6 n
        have h7' : Unthreaded.fetch p.st s.d.max = .ok (st, x) := hm ▸ h7
        cases x with
        | none =>
          exact ⟨_, _, .fetch none, by simp [step, fetch, h1, hsg, h7'], by simp [step, fetch, h2, htg, h3, ← hr2, h7'],
            upd st h1 h2 h4 h5⟩
        | some x =>
          have hl : ¬ n < x.length := by cases h9; omega
          exact ⟨_, _, .fetch (some x), by simp [step, fetch, h1, hsg, h7', hl],
            by simp [step, fetch, h2, htg, h3, ← hr2, h7', hl], upd st h1 h2 h4 h5⟩

theorem run_same {env : KeyEnv} (cs : List Call) : ∀ {s t : Sess} {k k' : List Nat} {a a' : AState}, Good env s k a → Good env t k' a' →
    Same s t → ∃ s' t' es, run env s cs = .ok (s', es) ∧ run env t cs = .ok (t', es) := by
  induction cs with
  | nil => intro s t _ _ _ _ _ _ _; exact ⟨s, t, [], rfl, rfl⟩
  | cons c cs ih =>
    intro s t k k' a a' hs ht h
    obtain ⟨s1, t1, e, h1, h2, h3⟩ := step_same hs ht h c
    obtain ⟨s1', e', k1, a1, h4, h5, -⟩ := step_good hs c
    obtain ⟨t1', e'', k2, a2, h6, h7, -⟩ := step_good ht c
    rw [h1] at h4; cases h4
    rw [h2] at h6; cases h6
    obtain ⟨s2, t2, es, h8, h9⟩ := ih h5 h7 h3
    exact ⟨s2, t2, e :: es, by simp [run, h1, h8], by simp [run, h2, h9]⟩

theorem noplug_run {env : KeyEnv} {a a' : AState} {cs : List Call} {es : List Ev} (h : ARun env a cs es a') :
    a.plug = none → (∀ pem, .key pem none ∉ es) → a'.plug = none := by
  induction h with
  | nil => intro h _; exact h
  | cons hs _ ih =>
    intro hp hn
    refine ih ?_ (fun pem hm => hn pem (List.mem_cons_of_mem _ hm))
    cases hs with
    | accepted => exact absurd (List.mem_cons_self) (hn _)
    | empty => exact hp
    | refused => exact hp
    | nopub => exact hp
    | nokey => exact hp
    | submit h => rw [hp] at h; cases h
    | silent => exact hp
    | fetch h => rw [hp] at h; cases h

/-- **C64, partial.** Until the first key has been accepted, nothing that is called has an influence on what follows; in particular,
refused keys have none. What is missing: keys that are refused later; see `C64_refused_false`. -/
theorem C64_refused_partial (env : KeyEnv) (cs0 cs : List Call) :
    ∃ s0 es0, run env {} cs0 = .ok (s0, es0) ∧ ((∀ pem, .key pem none ∉ es0) →
      ∃ s s' es, run env {} cs = .ok (s, es) ∧ run env s0 cs = .ok (s', es)) := by
  obtain ⟨s0, es0, k0, a0, h1, h2, h3⟩ := run_good cs0 (good_init env)
  refine ⟨s0, es0, h1, fun hn => ?_⟩
  have hp : a0.plug = none := noplug_run h3 rfl hn
  have hs : s0.plug = none := by have := h2.plug; rwa [hp] at this
  obtain ⟨s, t, es, h4, h5⟩ := run_same cs (good_init env) h2
    ⟨by rw [hs], fun h => absurd rfl h⟩
  exact ⟨s, t, es, h4, h5⟩

/-- Non-vacuity: a refused key, then a session that signs. -/
example : ∃ s s', run demoEnv {} [.key [0]] = .ok (s, [.key [0] (some .externalError)]) ∧
    run demoEnv s [.key [1], .submit [7] 0, .fetch] = .ok (s', [.key [1] none, .submit [7] none, .fetch (some [1, 7])]) :=
  ⟨_, _, rfl, rfl⟩

theorem silent_run {env : KeyEnv} {a a' : AState} {cs : List Call} {es : List Ev} (h : ARun env a cs es a') :
    a.room = none → (∀ pem, .key pem ∈ cs → env.read pem = none) → ∀ x, .fetch (some x) ∉ es := by
  induction h with
  | nil => intro _ _ x; simp
  | cons hs _ ih =>
    intro hp hn x hx
    have hn' := fun pem hm => hn pem (List.mem_cons_of_mem _ hm)
    cases hs with
    | accepted ha => have := hn _ List.mem_cons_self; rw [ha.2.1] at this; cases this
    | empty => exact ih hp hn' x (by simpa using hx)
    | refused => exact ih rfl hn' x (by simpa using hx)
    | nopub hr => have := hn _ List.mem_cons_self; rw [hr] at this; cases this
    | nokey => exact ih hp hn' x (by simpa using hx)
    | submit => exact ih hp hn' x (by simpa using hx)
    | silent => exact ih hp hn' x (by simpa using hx)
    | fetch _ h => rw [hp] at h; cases h

/-- **C64, false in general.** A key that cannot be read silences the session, whatever was called before: no signature is handed
out any more, however many hashes are signed, unless another key is read. -/
theorem C64_silent_false (env : KeyEnv) (cs0 cs : List Call) (pem : Bytes) (hp : pem ≠ []) (hr : env.read pem = none)
    (hn : ∀ pem, .key pem ∈ cs → env.read pem = none) :
    ∃ s0 es0 s es, run env {} cs0 = .ok (s0, es0) ∧ run env s0 (.key pem :: cs) = .ok (s, .key pem (some .externalError) :: es) ∧
      ∀ x, .fetch (some x) ∉ es := by
  obtain ⟨s0, es0, k0, a0, h1, h2, h3⟩ := run_good cs0 (good_init env)
  obtain ⟨s, es, k, a, h4, h5, h6⟩ := run_good (.key pem :: cs) h2
  cases h6 with
  | cons hs hrun =>
    cases hs with
    | accepted ha => have := ha.2.1; rw [hr] at this; cases this
    | empty => exact absurd rfl hp
    | nopub h => rw [hr] at h; cases h
    | refused => exact ⟨s0, es0, s, _, h1, h4, silent_run hrun rfl hn⟩

/-- **C64, false in general.** With a key accepted, a hash is signed and its signature handed out; with a refused key in between
there is no signature. -/
theorem C64_refused_false : ∃ env pem s t s' es,
    run env {} [.key [1], .submit [7] 0, .fetch] = .ok (s, [.key [1] none, .submit [7] none, .fetch (some [1, 7])]) ∧
    run env {} [.key [1], .key pem] = .ok (t, [.key [1] none, .key pem (some .externalError)]) ∧
    run env t [.submit [7] 0, .fetch] = .ok (s', es) ∧ es = [.submit [7] none, .fetch none] :=
  ⟨demoEnv, [0], _, _, _, _, rfl, rfl, rfl, rfl⟩

/-- Non-vacuity of `C64_silent_false`. -/
example : demoEnv.read [0] = none ∧ ∀ pem, Call.key pem ∈ [Call.submit [7] 0, .fetch, .key [0], .fetch] → demoEnv.read pem = none := by
  refine ⟨rfl, ?_⟩
  intro pem h
  simp at h
  subst h
  rfl

/-! ### C67: the file of a generated key -/

/-- **C67, partial.** The name of the file of a generated key is the directory, a slash unless the directory ends with one, and the
file name; it fits in its memory. What is missing: an empty directory; see `C67_path_false`. -/
theorem C67_path_partial (dir file : Bytes) (h : dir ≠ []) :
    pathToKey dir file = .ok (if dir.getLast h = 47 then dir ++ file else dir ++ 47 :: file) := by
  have h1 : dir.getLast? = some (dir.getLast h) := List.getLast?_eq_some_getLast h
  have h2 : ¬ (dir.length + 1 > dir.length + file.length + 2) := by omega
  simp only [pathToKey, h1, h2, if_false, Out.bind_ok]
  by_cases h3 : dir.getLast h = 47
  · have h4 : ¬ ((dir ++ file).length + 1 > dir.length + file.length + 2) := by simp
    simp only [h3, ne_eq, not_true, if_false, Out.bind_ok, h4, if_true]
  · have h4 : ¬ ((dir ++ [47]).length + 1 > dir.length + file.length + 2) := by simp
    have h5 : ¬ ((dir ++ [47] ++ file).length + 1 > dir.length + file.length + 2) := by simp; omega
    simp only [h3, ne_eq, not_false_eq_true, if_true, Out.bind_ok, h4, if_false, h5]
    simp

/-- Non-vacuity: "./" and "." with the file "k". -/
example : pathToKey [46, 47] [107] = .ok [46, 47, 107] ∧ pathToKey [46] [107] = .ok [46, 47, 107] := ⟨by decide, by decide⟩

/-- **C67, false in general.** With an empty directory the byte before the string is read. -/
theorem C67_path_false (file : Bytes) : pathToKey [] file = .ub .overread := by
  have : ¬ (([] : Bytes).length + 1 > ([] : Bytes).length + file.length + 2) := by simp
  simp only [pathToKey, this, if_false, Out.bind_ok, List.getLast?_nil]

end Keys
end SV
