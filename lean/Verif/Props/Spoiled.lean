import Verif.Props.SignQueue
import Verif.Props.Threaded
import Verif.Props.Keys
/-!
C86: A signature that cannot be made spoils only its own SEI.  A session for signing (C30-C32) is joined with the plugins: the
hashes that the session gives away are those that the plugin accepts, and the signatures that the session takes are those that
the plugin hands out.
-/
namespace SV.Props
open SV SV.Spec

/-! ### Lists -/

theorem sub_index {α : Type} {a b : List α} (h : a.Sublist b) :
    ∀ (i : Nat) (x : α), a[i]? = some x → ∃ j, i ≤ j ∧ b[j]? = some x := by
  induction h with
  | slnil => intro i x h; simp at h
  | cons y _ ih =>
    intro i x h
    obtain ⟨j, h1, h2⟩ := ih i x h
    exact ⟨j + 1, by omega, by simpa using h2⟩
  | cons_cons y _ ih =>
    intro i x h
    cases i with
    | zero => exact ⟨0, Nat.le_refl _, by simpa using h⟩
    | succ i =>
      obtain ⟨j, h1, h2⟩ := ih i x (by simpa using h)
      exact ⟨j + 1, by omega, by simpa using h2⟩

theorem sub_skip {α : Type} {a b : List α} (h : a.Sublist b) :
    ∀ (f : Nat) (y : α), b[f]? = some y → y ∉ a → ∀ (i : Nat) (x : α), f ≤ i → a[i]? = some x →
      ∃ j, i < j ∧ b[j]? = some x := by
  induction h with
  | slnil => intro f y _ _ i x _ h; simp at h
  | cons z hs ih =>
    intro f y hf hy i x hi h
    cases f with
    | zero =>
      obtain ⟨j, h1, h2⟩ := sub_index hs i x h
      exact ⟨j + 1, by omega, by simpa using h2⟩
    | succ f =>
      obtain ⟨j, h1, h2⟩ := ih f y (by simpa using hf) hy i x (by omega) h
      exact ⟨j + 1, by omega, by simpa using h2⟩
  | cons_cons z _ ih =>
    intro f y hf hy i x hi h
    cases f with
    | zero =>
      simp only [List.getElem?_cons_zero, Option.some.injEq] at hf
      exact absurd (hf ▸ List.mem_cons_self) hy
    | succ f =>
      cases i with
      | zero => omega
      | succ i =>
        obtain ⟨j, h1, h2⟩ := ih f y (by simpa using hf) (fun h => hy (List.mem_cons_of_mem _ h)) i x (by omega) (by simpa using h)
        exact ⟨j + 1, by omega, by simpa using h2⟩

theorem sigsOf_index {sign : Nat → Bytes → Option Bytes} : ∀ {hs ds : List Bytes}, SigsOf sign hs ds → ∀ (i : Nat) (d : Bytes),
    ds[i]? = some d → ∃ h, hs[i]? = some h ∧ IsSig sign h d
  | [], [], _, i, d, h => by simp at h
  | [], _ :: _, h, _, _, _ => absurd h (by simp [SigsOf])
  | _ :: _, [], h, _, _, _ => absurd h (by simp [SigsOf])
  | h :: hs, d :: ds, hh, i, x, hx => by
    cases i with
    | zero => exact ⟨h, rfl, by simp at hx; exact hx ▸ hh.1⟩
    | succ i =>
      obtain ⟨y, h1, h2⟩ := sigsOf_index hh.2 i x (by simpa using hx)
      exact ⟨y, by simpa using h1, h2⟩

theorem inOrder_index {env : Keys.KeyEnv} : ∀ {ps : List (Option Bytes × Bytes)} {ds : List Bytes}, InOrder env ps ds →
    ∀ (i : Nat) (d : Bytes), ds[i]? = some d → ∃ p, ps[i]? = some p ∧ SignedBy env p d
  | _, [], _, i, d, h => by simp at h
  | [], _ :: _, h, _, _, _ => h.elim
  | p :: ps, d :: ds, hh, i, x, hx => by
    cases i with
    | zero => exact ⟨p, rfl, by simp at hx; exact hx ▸ hh.1⟩
    | succ i =>
      obtain ⟨y, h1, h2⟩ := inOrder_index hh.2 i x (by simpa using hx)
      exact ⟨y, by simpa using h1, h2⟩

/-! ### Sessions -/

/-- A SEI that was handed out, as the `i`-th that was generated: the hash of its bytes and the signature in it. -/
structure HandedOut (os : List Obs) (i : Nat) (d : Done) : Prop where
  out : Done.bytes d ∈ delivered os
  hash : (generated os)[i]? = some d.g.h
  sig : (taken os)[i]? = some d.e.signature

/-- SEIs and signatures are paired by their numbers, whatever the plugin signs: the `i`-th SEI generated has the `i`-th signature
that was taken. -/
theorem C86_paired (hs : Hashing) (codec : Codec) (oid : Bytes) (v : UInt8 × UInt8 × UInt8) (cs : List SCall)
    (h : Honest hs (newSigner codec oid v) 0 cs) (s : Signer) (os : List Obs)
    (hr : signRun hs (newSigner codec oid v) cs = .ok (s, os)) :
    ∃ seis : List Done, delivered os = seis.map Done.bytes ∧ ∀ d ∈ seis, d.g.Good hs ∧ ∃ i, HandedOut os i d := by
  have := signRun_q hs cs _ ⟨[], []⟩ 0 (newSigner_q codec oid v) rfl h
  rw [hr] at this
  obtain ⟨q, gs, ds, xs, h1, h2⟩ := this
  have hgs : gs = ds.map Done.g ++ q.P := h2.pend
  have hperm : (xs ++ q.C).Perm ds := h2.perm
  refine ⟨xs, h2.delivered, fun d hd => ?_⟩
  have hm : d ∈ ds := hperm.subset (List.mem_append.2 (.inl hd))
  refine ⟨h2.good d.g (by rw [hgs]; exact List.mem_append.2 (.inl (List.mem_map_of_mem hm))), ?_⟩
  obtain ⟨i, hi⟩ := List.getElem?_of_mem hm
  refine ⟨i, ?_, ?_, ?_⟩
  · rw [h2.delivered]; exact List.mem_map_of_mem hd
  · have hlt : i < ds.length := (List.getElem?_eq_some_iff.1 hi).1
    rw [generated, h2.generated, hgs, List.map_append, List.getElem?_append_left (by simpa using hlt)]
    simp [hi]
  · rw [h2.taken]; simp [hi]

/-- The session is joined with session `k` of a threaded plugin. -/
structure Joined (k : Nat) (os : List Obs) (es : List Threaded.Ev) : Prop where
  hashes : acceptedBy k es = generated os
  sigs : deliveredTo k es = taken os

/-- The full claim: a SEI whose hash can be signed carries its own signature, whatever happens to other hashes. -/
def C86_statement : Prop :=
  ∀ (sign : Nat → Bytes → Option Bytes) (maxSig : Nat) (xs : List Threaded.Step) (c : Threaded.Central) (es : List Threaded.Ev)
    (k : Nat) (hs : Hashing) (codec : Codec) (oid : Bytes) (v : UInt8 × UInt8 × UInt8) (cs : List SCall) (s : Signer) (os : List Obs),
    setups xs < 2 ^ 32 → Threaded.run sign (Threaded.Central.init maxSig) xs = .ok (c, es) →
    Honest hs (newSigner codec oid v) 0 cs → signRun hs (newSigner codec oid v) cs = .ok (s, os) → Joined k os es →
    ∀ i d, HandedOut os i d → (∀ n, sign n d.g.h ≠ none) → IsSig sign d.g.h d.e.signature

/-- With the threaded plugin: as long as the hashes are signed without gaps, SEIs carry their own signatures (`n` is the number of
hashes before the first gap).  What is missing: SEIs after a gap, for which the claim is false (`C86_false`, `C86_spoiled`). -/
theorem C86_partial (sign : Nat → Bytes → Option Bytes) (maxSig : Nat) (xs : List Threaded.Step) (c : Threaded.Central)
    (es : List Threaded.Ev) (k : Nat) (hn : setups xs < 2 ^ 32)
    (ht : Threaded.run sign (Threaded.Central.init maxSig) xs = .ok (c, es)) (os : List Obs) (hj : Joined k os es) :
    ∃ dh, dh.Sublist (generated os) ∧ SigsOf sign dh (taken os) ∧
      ∀ n, dh.take n = (generated os).take n → ∀ i d, i < n → HandedOut os i d → IsSig sign d.g.h d.e.signature := by
  obtain ⟨dh, h1, h2⟩ := SV.C27_own_signatures_partial sign maxSig xs c es hn ht k
  rw [hj.hashes] at h1
  rw [hj.sigs] at h2
  refine ⟨dh, h1, h2, fun n hnn i d hi ho => ?_⟩
  obtain ⟨h, h3, h4⟩ := sigsOf_index h2 i _ ho.sig
  have e1 : (dh.take n)[i]? = some h := by rw [List.getElem?_take_of_lt hi]; exact h3
  rw [hnn, List.getElem?_take_of_lt hi, ho.hash] at e1
  cases e1
  exact h4

/-- **A signature that cannot be made spoils every SEI from then on.**  If the hash of the `f`-th SEI cannot be signed by the
threaded plugin, then, however long the session lasts, whatever is called and however the threads are scheduled, every SEI from
the `f`-th on carries the signature of another SEI. -/
theorem C86_spoiled (sign : Nat → Bytes → Option Bytes) (maxSig : Nat) (xs : List Threaded.Step) (c : Threaded.Central)
    (es : List Threaded.Ev) (k : Nat) (hn : setups xs < 2 ^ 32)
    (ht : Threaded.run sign (Threaded.Central.init maxSig) xs = .ok (c, es)) (os : List Obs) (hj : Joined k os es)
    (hd : (generated os).Nodup) (f : Nat) (y : Bytes) (hf : (generated os)[f]? = some y) (hy : ∀ n, sign n y = none)
    (i : Nat) (hi : f ≤ i) (d : Done) (ho : HandedOut os i d) :
    ∃ j h, i < j ∧ (generated os)[j]? = some h ∧ h ≠ d.g.h ∧ IsSig sign h d.e.signature := by
  obtain ⟨dh, h1, h2⟩ := SV.C27_own_signatures_partial sign maxSig xs c es hn ht k
  rw [hj.hashes] at h1
  rw [hj.sigs] at h2
  have hmem : y ∉ dh := by
    intro hm
    obtain ⟨p, hp⟩ := List.getElem?_of_mem hm
    have hl : ∀ {hs ds : List Bytes}, SigsOf sign hs ds → ∀ q ∈ hs, ∃ x, IsSig sign q x := by
      intro hs
      induction hs with
      | nil => intro _ _ q hq; cases hq
      | cons a hs ih =>
        intro ds hh q hq
        cases ds with
        | nil => exact absurd hh (by simp [SigsOf])
        | cons b ds =>
          cases hq with
          | head => exact ⟨b, hh.1⟩
          | tail _ hq => exact ih hh.2 q hq
    obtain ⟨x, r, hx⟩ := hl h2 y hm
    rw [hy r] at hx
    cases hx
  obtain ⟨h, h3, h4⟩ := sigsOf_index h2 i _ ho.sig
  obtain ⟨j, h5, h6⟩ := sub_skip h1 f y hf hmem i h hi h3
  refine ⟨j, h, h5, h6, ?_, h4⟩
  intro he
  have h7 := ho.hash
  rw [← he] at h7
  obtain ⟨l1, e1⟩ := List.getElem?_eq_some_iff.1 h6
  obtain ⟨l2, e2⟩ := List.getElem?_eq_some_iff.1 h7
  exact (List.pairwise_iff_getElem.1 hd) i j l2 l1 h5 (e2.trans e1.symm)

/-- So such a SEI does not verify, if a signature is a signature of one hash only. -/
theorem C86_unverifiable (sign : Nat → Bytes → Option Bytes) (hinj : ∀ h h' x, IsSig sign h x → IsSig sign h' x → h = h')
    (maxSig : Nat) (xs : List Threaded.Step) (c : Threaded.Central)
    (es : List Threaded.Ev) (k : Nat) (hn : setups xs < 2 ^ 32)
    (ht : Threaded.run sign (Threaded.Central.init maxSig) xs = .ok (c, es)) (os : List Obs) (hj : Joined k os es)
    (hd : (generated os).Nodup) (f : Nat) (y : Bytes) (hf : (generated os)[f]? = some y) (hy : ∀ n, sign n y = none)
    (i : Nat) (hi : f ≤ i) (d : Done) (ho : HandedOut os i d) : ¬ IsSig sign d.g.h d.e.signature := by
  intro hs
  obtain ⟨j, h, -, -, h1, h2⟩ := C86_spoiled sign maxSig xs c es k hn ht os hj hd f y hf hy i hi d ho
  exact h1 (hinj _ _ _ h2 hs)

/-- With the unthreaded plugin the claim holds: a hash that cannot be signed is refused at once, so that there is no SEI for it,
and every SEI handed out carries a signature of its own hash with the key in force when it was generated, unless keys are
replaced while hashes wait (see C65). -/
theorem C86_unthreaded (env : Keys.KeyEnv) (kcs : List Keys.Call)
    (hpub : ∀ pem key, env.read pem = some key → key.size ≠ 0 → key.usable = true → ∃ x xs, key.pub = some (x :: xs))
    (ks : Keys.Sess) (es : List Keys.Ev) (hk : Keys.run env {} kcs = .ok (ks, es)) (hw : NoneWaiting es) (os : List Obs)
    (h1 : (signedHashes none es).map Prod.snd = generated os) (h2 : handedOut es = taken os)
    (i : Nat) (d : Done) (ho : HandedOut os i d) : ∃ pem r, env.sign pem r d.g.h = some d.e.signature := by
  obtain ⟨s', es', e, h3⟩ := Keys.C65_order_partial env kcs hpub
  rw [hk] at e
  cases e
  have h4 := h3 hw
  rw [h2] at h4
  obtain ⟨p, h5, pem, r, -, h6⟩ := inOrder_index h4 i _ ho.sig
  have h7 := ho.hash
  rw [← h1, List.getElem?_map, h5] at h7
  simp only [Option.map_some, Option.some.injEq] at h7
  exact ⟨pem, r, h7 ▸ h6⟩

/-! ### A session in which one signature fails -/

/-- Hashes of the example: all bytes but the last are the same. -/
def badHash (x : UInt8) : Bytes := List.replicate 31 0x5A ++ [x]

/-- The first hash of the example cannot be signed. -/
def badSign (_ : Nat) (h : Bytes) : Option Bytes := if h = badHash 169 then none else some (h ++ [9])

/-- What the user does: four GOPs; the SEIs are fetched until there is none. -/
def badCalls : List SCall := toyCalls ++
  [.nalu [0, 0, 0, 1, 0x65, 0x88, 0x86, 0x80] none true none,
   .nalu [0, 0, 0, 1, 0x65, 0x88, 0x87, 0x80] none true none,
   .getSei true none [],
   .getSei true none [.ok (badHash 153 ++ [9]), .ok (badHash 43 ++ [9])],
   .getSei true none []]

/-- What the plugin does meanwhile: it signs after each hash; the first call for a signature finds the failed one. -/
def badSteps : List Threaded.Step :=
  [.setup true true, .submit 0 (badHash 169) true true, .take, .put 0 true, .submit 0 (badHash 153) true true, .take, .put 0 true,
   .submit 0 (badHash 43) true true, .take, .put 0 true, .fetch 0 72, .fetch 0 72, .fetch 0 72, .fetch 0 72, .fetch 0 72]

def badEvents : List Threaded.Ev :=
  [.setup 0 true, .submit 0 (badHash 169) none, .worker, .worker, .submit 0 (badHash 153) none, .worker, .worker,
   .submit 0 (badHash 43) none, .worker, .worker, .fetch 0 none (some .externalError), .fetch 0 (some (badHash 153 ++ [9])) none,
   .fetch 0 (some (badHash 43 ++ [9])) none, .fetch 0 none none, .fetch 0 none none]

/-- An executable check of a run of the plugin. -/
def threadedB (r : Out (Threaded.Central × List Threaded.Ev)) (es : List Threaded.Ev) : Bool :=
  match r with
  | .ok (_, es') => es' == es
  | _ => false

theorem threadedCheck {r : Out (Threaded.Central × List Threaded.Ev)} {es : List Threaded.Ev} (h : threadedB r es = true) :
    ∃ c, r = .ok (c, es) := by
  unfold threadedB at h
  split at h
  · exact ⟨_, by rw [eq_of_beq h]⟩
  · cases h

theorem bad_plugin : ∃ c, Threaded.run badSign (Threaded.Central.init 72) badSteps = .ok (c, badEvents) :=
  threadedCheck (by decide +kernel)

theorem bad_session : ∃ s os, signRun toyHashing toySigner badCalls = .ok (s, os) ∧
    generated os = [badHash 169, badHash 153, badHash 43] ∧ taken os = [badHash 153 ++ [9], badHash 43 ++ [9]] ∧
    (delivered os).length = 2 ∧ os.all (fun o => o.rc == none) = true := by
  obtain ⟨s, os, h1, h2⟩ := runCheck toyHashing toySigner badCalls
    (fun os => generated os = [badHash 169, badHash 153, badHash 43] ∧ taken os = [badHash 153 ++ [9], badHash 43 ++ [9]] ∧
      (delivered os).length = 2 ∧ os.all (fun o => o.rc == none) = true) (by decide +kernel)
  exact ⟨s, os, h1, h2⟩

theorem bad_honest : Honest toyHashing toySigner 0 badCalls := honest_of_check _ _ _ _ (by decide +kernel)

theorem bad_joined {os : List Obs} (h1 : generated os = [badHash 169, badHash 153, badHash 43])
    (h2 : taken os = [badHash 153 ++ [9], badHash 43 ++ [9]]) : Joined 0 os badEvents :=
  ⟨by rw [h1]; decide +kernel, by rw [h2]; decide +kernel⟩

/-- **C86 is false of the code.**  The second SEI can be signed, and carries the signature of the third; no call returns an
error. -/
theorem C86_false : ¬ C86_statement := by
  intro h
  obtain ⟨c, hc⟩ := bad_plugin
  obtain ⟨s, os, hr, g1, g2, g3, -⟩ := bad_session
  have hall := h badSign 72 badSteps c badEvents 0 toyHashing .h264 [0x60, 0x86] (2, 2, 0) badCalls s os (by decide) hc bad_honest hr
    (bad_joined g1 g2) 1
  obtain ⟨seis, waiting, -, h2, -, -, h5, h6, -, -⟩ := C31_order toyHashing .h264 [0x60, 0x86] (2, 2, 0) badCalls bad_honest
    (by intro c hc; simp only [badCalls, toyCalls, List.mem_append, List.mem_cons, List.not_mem_nil, or_false] at hc
        rcases hc with (rfl | rfl | rfl | rfl) | (rfl | rfl | rfl | rfl | rfl) <;> trivial) s os hr
  rw [g3] at h6
  rw [g2] at h5
  have hl : seis.length = 2 := by
    have := congrArg List.length h5
    simpa using this.symm
  have hget : ∃ d, seis[1]? = some d := ⟨seis[1]'(by omega), by simp [hl]⟩
  obtain ⟨d, hd⟩ := hget
  have e1 : (generated os)[1]? = some d.g.h := by
    rw [h2, List.getElem?_append_left (by simp [hl])]
    simp [hd]
  have e2 : (taken os)[1]? = some d.e.signature := by
    rw [g2, h5]
    simp [hd]
  have e3 : Done.bytes d ∈ delivered os := by
    rw [h6, List.take_of_length_le (by omega)]
    exact List.mem_map_of_mem (List.mem_of_getElem? hd)
  have f1 : d.g.h = badHash 153 := by
    rw [g1] at e1
    simpa using e1.symm
  have f2 : d.e.signature = badHash 43 ++ [9] := by
    rw [g2] at e2
    simpa using e2.symm
  obtain ⟨r, hs⟩ := hall d ⟨e3, e1, e2⟩ (by intro n; rw [f1]; exact (by decide +kernel : badSign 0 (badHash 153) ≠ none))
  rw [f1, f2] at hs
  exact (by decide +kernel : badSign 0 (badHash 153) ≠ some (badHash 43 ++ [9])) hs

/-- Non-vacuity of `C86_spoiled` and `C86_unverifiable`: the example meets all their hypotheses with `f = 0`, two SEIs are handed
out, and both are spoiled. -/
example : (∀ h h' x, IsSig badSign h x → IsSig badSign h' x → h = h') ∧ (∀ n, badSign n (badHash 169) = none) ∧
    setups badSteps < 2 ^ 32 ∧ ∃ c s os, Threaded.run badSign (Threaded.Central.init 72) badSteps = .ok (c, badEvents) ∧
      Honest toyHashing toySigner 0 badCalls ∧ signRun toyHashing toySigner badCalls = .ok (s, os) ∧ Joined 0 os badEvents ∧
      (generated os).Nodup ∧ (generated os)[0]? = some (badHash 169) ∧ (delivered os).length = 2 := by
  obtain ⟨c, hc⟩ := bad_plugin
  obtain ⟨s, os, hr, g1, g2, g3, -⟩ := bad_session
  refine ⟨?_, fun n => (by decide +kernel : badSign 0 (badHash 169) = none), by decide, c, s, os, hc, bad_honest, hr, bad_joined g1 g2, by rw [g1]; decide +kernel,
    by rw [g1]; rfl, g3⟩
  rintro h h' x ⟨r, hr⟩ ⟨r', hr'⟩
  unfold badSign at hr hr'
  split at hr
  · cases hr
  split at hr'
  · cases hr'
  simp only [Option.some.injEq] at hr hr'
  exact List.append_cancel_right (hr.trans hr'.symm)

/-- Non-vacuity of `C86_unthreaded`: a hash that cannot be signed is refused, the next one is signed and handed out. -/
example : ∃ s, Keys.run { Keys.demoEnv with sign := fun pem _ h => if h = [6] then none else some (pem ++ h) } {}
      [.key [1], .submit [6] 0, .submit [7] 0, .fetch] =
    .ok (s, [.key [1] none, .submit [6] (some .externalError), .submit [7] none, .fetch (some [1, 7])]) := ⟨_, rfl⟩

end SV.Props
