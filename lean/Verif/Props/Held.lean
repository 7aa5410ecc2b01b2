import Verif.Proofs.Held
import Verif.Spec.Create
/-!
C88: What a validating session copies from SEIs is kept in memory that is there, and is freed with the session.
-/
namespace SV.Props
open SV.Held SV.Spec
open SV.Keys (Blocks Owns)

/-- The full claim: whatever records are decoded and whatever allocations fail, nothing is written outside of the memory that was
allocated for it, nothing is freed twice, and freeing the session leaves memory as before. -/
def C88_statement : Prop :=
  ∀ (b : Blocks) (os : List Op), HeapOk b →
    ∃ b1 s b2, ops b {} os = .ok (b1, s) ∧ close b1 s = .ok b2 ∧ b2.live.Perm b.live

theorem caps_new : Caps {} := ⟨fun _ _ h => (by cases h), fun _ _ h => (by cases h)⟩

theorem held_new {b : Blocks} (h : HeapOk b) : Owns b (heldL {}) b.live := ⟨by simpa [heldL, addr] using h.1, by simp [heldL, addr], h.2⟩

/-- One step. -/
theorem op_spec {b : Blocks} {s : Sess} {k : List Nat} (o : Op) (h : Owns b (heldL s) k) (hc : Caps s) :
    (op b s o = .ub .nullDeref ∧ s.key = none ∧ s.keySize ≠ 0) ∨
    ∃ b' s' ok, op b s o = .ok (b', s', ok) ∧ Owns b' (heldL s') k ∧ Caps s' ∧ s'.arb.isSome = arbStep s.arb.isSome o ∧
      ((∀ v n a c, o = .key v n a c → a = true) → (s.key = none → s.keySize = 0) → (s'.key = none → s'.keySize = 0)) := by
  cases o with
  | key v n a c =>
    rcases decKey_spec (s := { s with started := true }) v n a c h ⟨hc.key, hc.sig⟩ with ⟨e, h1, h2, h3, h4⟩ | ⟨-, b', s', ok, e, h1, h2, h3, h4, h5⟩
    · exact .inl ⟨e, h1, by rw [show s.keySize = _ from h2]; exact h4⟩
    · refine .inr ⟨b', s', ok, e, h1, h2, by rw [h3]; rfl, fun ha hz hk => ?_⟩
      have ha := ha v n a c rfl
      rw [h5] at hk
      split at hk
      · rw [ha] at hk; cases hk
      · rename_i hx
        have hz := hz hk
        rw [h4]
        split
        · rename_i hy
          exact absurd ⟨hy.1, hy.2.1, by show s.keySize ≠ _; rw [hz]; exact fun e => hy.2.1 e.symm⟩ hx
        · exact hz
  | arb v n a =>
    obtain ⟨b', s', ok, e, h1, h2, h3, h4, h5⟩ := decArb_spec (s := { s with started := true }) v n a h ⟨hc.key, hc.sig⟩
    exact .inr ⟨b', s', ok, e, h1, h2, h5, fun _ hz hk => by rw [h4]; exact hz (by rw [h3] at hk; exact hk)⟩
  | sig acc n sz a =>
    obtain ⟨b', s', ok, e, h1, h2, h3, h4, h5⟩ := decSig_spec (s := { s with started := true }) acc n sz a h ⟨hc.key, hc.sig⟩
    exact .inr ⟨b', s', ok, e, h1, h2, by rw [h5]; rfl, fun _ hz hk => by rw [h4]; exact hz (by rw [h3] at hk; exact hk)⟩
  | setKey n a c =>
    obtain ⟨b', s', ok, e, h1, h2, h3, h4⟩ := setKey_spec n a c h hc
    exact .inr ⟨b', s', ok, e, h1, h2, by rw [h3]; rfl, fun _ hz hk => by rw [(h4 hk).1]; exact hz (h4 hk).2⟩

theorem arbKept_eq (os : List Op) : arbKept os = os.foldl arbStep false := by
  unfold arbKept
  rfl

theorem ops_spec {k : List Nat} (os : List Op) : ∀ {b : Blocks} {s : Sess}, Owns b (heldL s) k → Caps s →
    (ops b s os = .ub .nullDeref ∨ ∃ b' s', ops b s os = .ok (b', s') ∧ Owns b' (heldL s') k ∧ Caps s' ∧
      s'.arb.isSome = os.foldl arbStep s.arb.isSome) ∧
    (KeyMemory os → (s.key = none → s.keySize = 0) → ops b s os ≠ .ub .nullDeref) := by
  induction os with
  | nil => intro b s h hc; exact ⟨.inr ⟨b, s, rfl, h, hc, rfl⟩, fun _ _ h => by cases h⟩
  | cons o os ih =>
    intro b s h hc
    rcases op_spec o h hc with ⟨e, h1, h2⟩ | ⟨b', s', ok, e, h1, h2, h3, h4⟩
    · exact ⟨.inl (by simp [ops, e]), fun _ hz => absurd (hz h1) h2⟩
    · obtain ⟨i1, i2⟩ := ih h1 h2
      have e' : ops b s (o :: os) = ops b' s' os := by simp [ops, e]
      rw [e', List.foldl_cons, ← h3]
      refine ⟨i1, fun hk hz => i2 (fun v n a c hm => hk v n a c (List.mem_cons_of_mem _ hm)) (h4 (fun v n a c ho => ?_) hz)⟩
      exact hk v n a c (by rw [ho]; exact List.mem_cons_self)

/-- In every history, the only thing that can go wrong is the use of a key that is not there: memory is never freed twice and never
written to outside of its size. -/
theorem C88_only (b : Blocks) (hb : HeapOk b) (os : List Op) :
    ops b {} os = .ub .nullDeref ∨ ∃ b1 s, ops b {} os = .ok (b1, s) := by
  rcases (ops_spec os (held_new hb) caps_new).1 with h | ⟨b', s', h, -⟩
  · exact .inl h
  · exact .inr ⟨b', s', h⟩

/-- What holds: unless the allocation for a public key in a SEI fails, all memory is used within its size, and freeing the session
leaves memory as before but for the arbitrary data of the last SEI with such data.

Missing: failing allocations for public keys (`C88_null`), and that the arbitrary data are freed (`C88_false_leak`). -/
theorem C88_partial (b : Blocks) (hb : HeapOk b) (os : List Op) (hk : KeyMemory os) :
    ∃ b1 s b2 left, ops b {} os = .ok (b1, s) ∧ close b1 s = .ok b2 ∧ b2.live.Perm (left ++ b.live) ∧ (left ++ b.live).Nodup ∧
      left.length = if arbKept os then 1 else 0 := by
  obtain ⟨h1, h2⟩ := ops_spec os (held_new hb) caps_new
  rcases h1 with h1 | ⟨b1, s, e, h3, -, h4⟩
  · exact absurd h1 (h2 hk fun _ => rfl)
  · obtain ⟨b2, e2, h5⟩ := close_spec h3
    refine ⟨b1, s, b2, (addr s.arb).toList, e, e2, h5.perm, h5.nodup, ?_⟩
    rw [arbKept_eq, show (false : Bool) = (({} : Sess).arb).isSome from rfl, ← h4]
    cases s.arb <;> rfl

theorem ops_append (os os' : List Op) : ∀ (b : Blocks) (s : Sess),
    ops b s (os ++ os') = ops b s os >>= fun (r : Blocks × Sess) => ops r.1 r.2 os' := by
  induction os with
  | nil => intro b s; rfl
  | cons o os ih =>
    intro b s
    simp only [List.cons_append, ops]
    cases op b s o with
    | ok r => simp [ih]
    | err e => rfl
    | ub u => rfl

/-- The crash, in every history: a SEI brings a key of some length, the allocation for a key of another length fails, and a SEI brings a key of
the first length again. Then NULL is dereferenced, whatever happened before. -/
theorem C88_null (b : Blocks) (hb : HeapOk b) (before : List Op) (v1 n1 v2 n2 v3 n3 : Nat) (a3 : Bool) (c1 c2 c3 : Pem)
    (hv1 : v1 ≠ 0) (hv2 : v2 ≠ 0) (hv3 : v3 ≠ 0) (h1 : keyLen v1 n1 ≠ 0) (h2 : keyLen v2 n2 ≠ 0) (h12 : keyLen v2 n2 ≠ keyLen v1 n1)
    (h3 : keyLen v3 n3 = keyLen v1 n1) :
    ops b {} (before ++ [.key v1 n1 true c1, .key v2 n2 false c2, .key v3 n3 a3 c3]) = .ub .nullDeref := by
  rw [ops_append]
  rcases (ops_spec before (held_new hb) caps_new).1 with h | ⟨b0, s0, e0, o0, k0, -⟩
  · rw [h]; rfl
  rw [e0]
  show ops b0 s0 _ = _
  rcases decKey_spec (s := { s0 with started := true }) v1 n1 true c1 o0 ⟨k0.key, k0.sig⟩ with ⟨e1, -⟩ | ⟨-, b1, s1, r1, e1, o1, k1, -, z1, -⟩
  · simp [ops, op, e1]
  rw [if_pos ⟨hv1, h1, rfl⟩] at z1
  rcases decKey_spec (s := { s1 with started := true }) v2 n2 false c2 o1 ⟨k1.key, k1.sig⟩ with ⟨e2, -⟩ | ⟨-, b2, s2, r2, e2, o2, k2, -, z2, y2⟩
  · simp [ops, op, e1, e2]
  rw [if_neg (fun h => by cases h.2.2)] at z2
  have z2 : s2.keySize = keyLen v1 n1 := z2.trans z1
  have y2 : s2.key = none := y2.2 (by rw [if_pos ⟨hv2, h2, by show s1.keySize ≠ _; rw [z1]; exact h12.symm⟩])
  rcases decKey_spec (s := { s2 with started := true }) v3 n3 a3 c3 o2 ⟨k2.key, k2.sig⟩ with ⟨e3, -⟩ | ⟨hn, -⟩
  · simp [ops, op, e1, e2, e3]
  · exact absurd ⟨y2, z2.trans h3.symm, hv3, by rw [h3]; exact h1⟩ hn

/-- A key that can be read. -/
def fine : Pem := ⟨true, true, true⟩

/-- **C88 does not hold (1).** An RSA key, an EC key for which there is no memory, and the RSA key again. -/
theorem C88_false_null : ¬ C88_statement := by
  intro h
  obtain ⟨b1, s, -, e, -⟩ := h {} [.key 2 452 true fine, .key 2 179 false fine, .key 2 452 true fine] ⟨List.nodup_nil, fun _ h => by cases h⟩
  have := C88_null {} ⟨List.nodup_nil, fun _ h => by cases h⟩ [] 2 452 2 179 2 452 true fine fine fine (by decide) (by decide) (by decide) (by decide)
    (by decide) (by decide) (by decide)
  rw [List.nil_append] at this
  rw [this] at e
  cases e

/-- **C88 does not hold (2).** Arbitrary data received in a SEI are never freed, in every history that ends with such data, although nothing
fails. -/
theorem C88_leak (b : Blocks) (hb : HeapOk b) (os : List Op) (hk : KeyMemory os) (ha : arbKept os = true) :
    ∃ b1 s b2, ops b {} os = .ok (b1, s) ∧ close b1 s = .ok b2 ∧ b2.live.length = b.live.length + 1 := by
  obtain ⟨b1, s, b2, left, h1, h2, h3, -, h4⟩ := C88_partial b hb os hk
  refine ⟨b1, s, b2, h1, h2, ?_⟩
  rw [h3.length_eq, List.length_append, h4, if_pos ha]
  omega

theorem C88_false_leak : ¬ C88_statement := by
  intro h
  have hb : HeapOk {} := ⟨List.nodup_nil, fun _ h => by cases h⟩
  obtain ⟨b1, s, b2, e1, e2, hp⟩ := h {} [.key 2 452 true fine, .arb 1 101 true, .sig true 261 256 true] hb
  obtain ⟨c1, t, c2, g1, g2, g3⟩ := C88_leak {} hb [.key 2 452 true fine, .arb 1 101 true, .sig true 261 256 true]
    (fun v n a c hm => by simp at hm; exact hm.2.2.1) (by decide)
  rw [e1] at g1
  cases g1
  rw [e2] at g2
  cases g2
  rw [hp.length_eq] at g3
  cases g3

/-- The hypotheses of `C88_partial` are met by a history with keys of different sizes and other allocations that fail. -/
example : KeyMemory [.setKey 178 false fine, .key 2 452 true fine, .sig true 261 256 false, .arb 1 101 true, .key 2 179 true ⟨true, true, false⟩, .sig true 261 256 true,
    .arb 1 33 false] ∧ arbKept [.setKey 178 false fine, .key 2 452 true fine, .sig true 261 256 false, .arb 1 101 true, .key 2 179 true ⟨true, true, false⟩,
    .sig true 261 256 true, .arb 1 33 false] = false := by
  refine ⟨fun v n a c hm => ?_, by decide⟩
  simp at hm
  rcases hm with h | h <;> exact h.2.2.1

/-- A memory that is in use already. -/
example : HeapOk { next := 7, live := [3, 5] } := ⟨by decide, by decide⟩

end SV.Props
