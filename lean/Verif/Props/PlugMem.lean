import Verif.Proofs.PlugMemRun
/-!
C82: the memory of the threaded signing plugin.
-/
namespace SV
open SV.Keys (KeyEnv)
open SV.PlugMem (Plugin Step)
open SV.Spec (refs Idle failures Obeys MayStep)

/-- **C82, memory of the threaded plugin:** as long as only sessions that are set up are torn down,
nothing is undefined (nothing is freed twice, no key data are used that are not there), and every block
that is allocated is referred to exactly once, except for one block for each session with its own thread
that could not be set up. -/
theorem C82_memory (env : KeyEnv) (xs : List Step) (h : Obeys env .zero xs) :
    ∃ s lost, PlugMem.run env .zero xs = .ok s ∧ s.b.live.Perm (refs s ++ lost) ∧ (refs s ++ lost).Nodup ∧
      lost.length = failures env .zero xs := by
  obtain ⟨s, lost, e, hl, i⟩ := PlugMem.run_inv env xs PlugMem.inv_zero h
  exact ⟨s, lost, e, i.own.perm, i.own.nodup, by simpa using hl⟩

/-- **C82, exactly the failed sessions leak:** once the plugin is stopped and all sessions are torn down,
as many blocks are left as sessions with their own thread could not be set up. -/
theorem C82_left (env : KeyEnv) (xs : List Step) (h : Obeys env .zero xs) (s : Plugin)
    (hr : PlugMem.run env .zero xs = .ok s) (hi : Idle s) : s.b.live.length = failures env .zero xs := by
  obtain ⟨s', lost, e, hl, i⟩ := PlugMem.run_inv env xs PlugMem.inv_zero h
  rw [hr] at e
  cases e
  obtain ⟨h1, h2, h3⟩ := i.down hi.1
  have h4 : s.sess.flatMap Spec.sessL = [] := by
    rw [List.flatMap_eq_nil_iff]
    intro x hx
    rw [hi.2 x hx]; rfl
  have h5 : refs s = [] := by simp [refs, h1, h2, h3, h4]
  have := i.own.perm.length_eq
  rw [h5] at this
  simpa [hl] using this

/-- **C82, everything is returned, as one could hope:** once the plugin is stopped and all sessions are
torn down, no memory is left. -/
def C82_returned_statement : Prop :=
  ∀ (env : KeyEnv) (xs : List Step), Obeys env .zero xs → ∀ s, PlugMem.run env .zero xs = .ok s → Idle s →
    s.b.live = []

/-- **C82, everything is returned** if no session with its own thread fails to be set up.  What is missing
for the statement above is false: `local_setup` does not free its `threaded_data_t` when it fails. -/
theorem C82_returned_partial (env : KeyEnv) (xs : List Step) (h : Obeys env .zero xs) (s : Plugin)
    (hr : PlugMem.run env .zero xs = .ok s) (hi : Idle s) (hf : failures env .zero xs = 0) : s.b.live = [] := by
  have := C82_left env xs h s hr hi
  rw [hf] at this
  exact List.eq_nil_of_length_eq_zero this

/-- Keys for the examples: `[1]` can be used, `[0]` cannot be read. -/
def plugEnv : KeyEnv where
  read pem := if pem = [1] then some { size := 64, usable := true, pub := some [9] } else none
  sign pem _ h := some (pem ++ h.take 1)

/-- A key that cannot be read leaks a `threaded_data_t` at every attempt. -/
theorem C82_returned_false : ¬ C82_returned_statement := by
  intro h
  have := h plugEnv [.setup [0] true true true true true] ⟨trivial, fun _ _ => trivial⟩ _ rfl ⟨rfl, by decide⟩
  exact absurd this (by decide)

/-- The leak grows without bound: `n` attempts leave `n` blocks. -/
theorem C82_leak_grows (env : KeyEnv) (pem : Bytes) (hp : pem ≠ []) (hk : env.read pem = none) (n : Nat) :
    ∃ s, PlugMem.run env .zero (List.replicate n (.setup pem true true true true true)) = .ok s ∧ Idle s ∧
      s.b.live.length = n := by
  have ob : ∀ n s, Obeys env s (List.replicate n (.setup pem true true true true true)) := by
    intro n
    induction n with
    | zero => intro s; trivial
    | succ n ih => intro s; exact ⟨trivial, fun s' _ => ih s'⟩
  have key : ∀ n (s : Plugin) lost, PlugMem.Inv s lost → Idle s →
      failures env s (List.replicate n (.setup pem true true true true true)) = n ∧
      ∃ s', PlugMem.run env s (List.replicate n (.setup pem true true true true true)) = .ok s' ∧ Idle s' := by
    intro n
    induction n with
    | zero => intro s lost _ hi; exact ⟨rfl, s, rfl, hi⟩
    | succ n ih =>
      intro s lost i hi
      have hf : Spec.Fails env s (.setup pem true true true true true) = true := by
        cases pem with
        | nil => exact absurd rfl hp
        | cons x xs => simp [Spec.Fails, hi.1, hk]
      obtain ⟨s1, l1, e1, -, i1⟩ := PlugMem.step_inv env i (.setup pem true true true true true) trivial
      have hi1 : Idle s1 := by
        obtain ⟨b', r, e2, h2⟩ := PlugMem.localSetup_spec env pem true true true hp i.own.alloc
        have hu : PlugMem.usableB env pem = false := by simp [PlugMem.usableB, hk]
        simp only [PlugMem.step, PlugMem.setup, hi.1, e2, Out.bind_ok] at e1
        cases r with
        | some r => simp [hu] at h2
        | none =>
          obtain ⟨k', -, h2⟩ := h2
          obtain ⟨b2, e3, -⟩ := Keys.Owns.free (l := refs s) (some s.b.next) h2
          simp [hp, e3] at e1
          subst e1
          refine ⟨rfl, fun x hx => ?_⟩
          simp only [List.mem_append, List.mem_singleton] at hx
          exact hx.elim (hi.2 x) id
      obtain ⟨h3, s2, e2, hi2⟩ := ih s1 l1 i1 hi1
      refine ⟨?_, s2, ?_, hi2⟩
      · simp only [List.replicate_succ, failures, hf, e1, h3, if_true]; omega
      · simp [List.replicate_succ, PlugMem.run, e1, e2]
  obtain ⟨h1, s, e, hi⟩ := key n .zero [] PlugMem.inv_zero ⟨rfl, by simp [Plugin.zero]⟩
  exact ⟨s, e, hi, by rw [C82_left env _ (ob n _) s e hi, h1]⟩

/-- Decides `Obeys`. -/
def obeysB (env : KeyEnv) : Plugin → List Step → Bool
  | _, [] => true
  | s, x :: xs =>
    (match x with
      | .teardown k => match s.sess[k]? with | some (some _) => true | _ => false
      | _ => true) &&
    match PlugMem.step env s x with | .ok s' => obeysB env s' xs | _ => true

theorem obeys_of (env : KeyEnv) : ∀ (xs : List Step) (s : Plugin), obeysB env s xs = true → Obeys env s xs
  | [], _, _ => trivial
  | x :: xs, s, h => by
    simp only [obeysB, Bool.and_eq_true] at h
    refine ⟨?_, fun s' e => obeys_of env xs s' ?_⟩
    · cases x with
      | teardown k =>
        have h := h.1
        simp only at h
        split at h
        · exact ⟨_, by assumption⟩
        · cases h
      | _ => trivial
    · have h := h.2
      rw [e] at h; exact h

/-- Two sessions with their own threads, one of which stops with its buffer full; the plugin is started
with a central thread, used by a third session, and stopped; the sessions are torn down afterwards, and
one more session cannot be set up. -/
def plugDemo : List Step :=
  [.setup [1] true true true true true, .setup [1] true true true true true,
   .data (some 0) (.sign 0 true true), .data (some 0) (.put 0 true), .data (some 0) (.moveOut 0 3),
   .data (some 1) (.sign 0 true true), .data (some 1) (.put 60 true), .data (some 1) (.sign 0 true true),
   .init [0] true true true, .init [1] true true true, .setup [] true true true true true,
   .data none (.sign 0 true true), .data none (.put 0 true), .data none (.sign 1 true true), .data none (.put 1 false),
   .exit, .teardown 2, .teardown 0, .init [1] true true true, .teardown 1, .exit]

/-- The number of blocks allocated so far and of those referred to. -/
def plugBlocks (xs : List Step) : Option (Nat × Nat) :=
  match PlugMem.run plugEnv .zero xs with
  | .ok s => some (s.b.next, (refs s).length)
  | _ => none


example : Obeys plugEnv .zero plugDemo ∧ failures plugEnv .zero plugDemo = 0 ∧
    ∃ s, PlugMem.run plugEnv .zero plugDemo = .ok s ∧ Idle s := by
  refine ⟨obeys_of _ _ _ (by decide +kernel), by decide +kernel, _, rfl, ⟨rfl, by decide +kernel⟩⟩

/-- In the middle of that, many blocks are referred to. -/
example : plugBlocks plugDemo = some (32, 0) ∧ plugBlocks (plugDemo.take 13) = some (27, 20) := by decide +kernel

example : failures plugEnv .zero (plugDemo ++ [.setup [0] true true true true true]) = 1 := by decide +kernel

end SV
