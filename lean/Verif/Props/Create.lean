import Verif.Proofs.Create
/-!
C85: A session that cannot be made leaves nothing behind, and a session that is freed leaves nothing behind.
-/
namespace SV.Props
open SV.Create SV.Spec
open SV.Keys (Blocks)

theorem owns_heap {b : Blocks} (h : HeapOk b) : Keys.Owns b [] b.live :=
  ⟨by simpa using h.1, by simp, h.2⟩

/-- A session is made exactly when everything that it needs is there (all but the list of NAL units); NULL is dereferenced
exactly when only the data for signing or verification lack memory; in all other cases there is no session. -/
theorem C85_when (b : Blocks) (hb : HeapOk b) (c : Can) :
    ((∃ b' s, create b c = .ok (b', some s)) ↔ Made c) ∧
    (create b c = .ub .nullDeref ↔ DataMissing c) ∧
    (¬ Made c → ¬ DataMissing c → ∃ b', create b c = .ok (b', none)) := by
  rcases create_spec c (owns_heap hb) with ⟨h1, h2, h3⟩ | ⟨h1, b', r, h3, -, h4, -⟩
  · rw [h3]
    refine ⟨⟨?_, fun h => absurd h h2⟩, ⟨fun _ => h1, fun _ => rfl⟩, fun _ h => absurd h1 h⟩
    rintro ⟨_, _, h⟩
    cases h
  · rw [h3]
    refine ⟨⟨?_, ?_⟩, ⟨?_, fun h => absurd h h1⟩, ?_⟩
    · rintro ⟨_, s, h⟩
      cases h
      exact h4.1 rfl
    · intro h
      obtain ⟨s, rfl⟩ := Option.isSome_iff_exists.1 (h4.2 h)
      exact ⟨_, _, rfl⟩
    · intro h
      cases h
    · intro h _
      cases r with
      | none => exact ⟨_, rfl⟩
      | some s => exact absurd (h4.1 rfl) h

/-- The full claim: whatever fails, making a session returns; without a session, memory is as before; with a session, whatever
is then called and whatever fails in it, freeing the session leaves memory as before it was made. -/
def C85_statement : Prop :=
  ∀ (b : Blocks) (c : Can), HeapOk b →
    ∃ b' r, create b c = .ok (b', r) ∧
      match r with
      | none => b'.live.Perm b.live
      | some s => ∀ os, ∃ b1 s1 b2, ops b' s os = .ok (b1, s1) ∧ free b1 (some s1) = .ok b2 ∧ b2.live.Perm b.live

/-- The claim holds except for the two kinds of calls in `C85_false_null` and `C85_false_leak`: unless memory for the data for
signing or verification is missing, and but for one object for each hash algorithm given as the text of an OID. -/
theorem C85_partial (b : Blocks) (c : Can) (hb : HeapOk b) (hc : ¬ DataMissing c) :
    ∃ b' r, create b c = .ok (b', r) ∧
      match r with
      | none => b'.live.Perm b.live
      | some s => ∀ os, ∃ b1 s1 b2 lost, ops b' s os = .ok (b1, s1) ∧ free b1 (some s1) = .ok b2 ∧
          b2.live.Perm (lost ++ b.live) ∧ (lost ++ b.live).Nodup ∧ lost.length = textOids os := by
  rcases create_spec c (owns_heap hb) with ⟨h1, -⟩ | ⟨-, b', r, h3, h4, -, h5⟩
  · exact absurd h1 hc
  refine ⟨b', r, h3, ?_⟩
  cases r with
  | none => simpa [Create.sessL] using h4.perm
  | some s =>
    intro os
    obtain ⟨b1, s1, lost, e1, h6, hl⟩ := ops_spec os (h5 s rfl) h4
    obtain ⟨b2, e2, h7⟩ := free_spec (l := []) (some s1) (by simpa using h6)
    exact ⟨b1, s1, b2, lost, e1, e2, by simpa using h7.perm, by simpa using h7.nodup, hl⟩

/-- Freeing no session does nothing. -/
theorem C85_null (b : Blocks) : free b none = .ok b := rfl

/-- A build with everything available. -/
def allGood (axis : Bool) : Can :=
  { axis, codec := true, self := true, product := true, handle := true, known := true, digest := true, oid := true, ctx := true,
    init := true, size := 32, gop := true, vendor := true, bio := true, puts := true, ca := true, sign := true,
    signHash := true, last := true, list := true, verify := true, verifyHash := true }

/-- The claim is false: `signed_video_create` uses what `sign_or_verify_data_create` returns without a check. -/
theorem C85_false_null : ¬ C85_statement := by
  intro h
  obtain ⟨b', r, e, -⟩ := h {} { allGood false with verifyHash := false } ⟨by simp, by simp⟩
  revert e
  have : create {} { allGood false with verifyHash := false } = .ub .nullDeref := by decide +kernel
  rw [this]
  intro e
  cases e

/-- A hash algorithm given as the text of its OID, accepted. -/
def textOid : Op := .algo { obj := some true, digest := true, oid := true, ctx := true, init := true }

/-- It is also false with all the memory there is: the object of a hash algorithm given as the text of its OID remains. -/
theorem C85_false_leak :
    ¬ ∀ (b : Blocks) (c : Can), HeapOk b → ¬ DataMissing c →
      ∃ b' r, create b c = .ok (b', r) ∧
        match r with
        | none => b'.live.Perm b.live
        | some s => ∀ os, ∃ b1 s1 b2, ops b' s os = .ok (b1, s1) ∧ free b1 (some s1) = .ok b2 ∧ b2.live.Perm b.live := by
  intro h
  have hb : HeapOk {} := ⟨by simp, by simp⟩
  have hc : ¬ DataMissing (allGood false) := by simp [DataMissing, allGood]
  obtain ⟨b', r, e, h1⟩ := h {} (allGood false) hb hc
  obtain ⟨b'', r', e', h2⟩ := C85_partial {} (allGood false) hb hc
  rw [e] at e'
  cases e'
  cases r with
  | none =>
    have : create {} (allGood false) ≠ .ok (b', none) := by
      intro h
      have h3 := ((C85_when {} hb (allGood false)).1.2 (by simp [Made, Starts, allGood]))
      rw [h] at h3
      obtain ⟨_, _, h3⟩ := h3
      cases h3
    exact this e
  | some s =>
    obtain ⟨b1, s1, b2, e1, e2, h3⟩ := h1 [textOid]
    obtain ⟨c1, t1, c2, lost, f1, f2, h4, -, h5⟩ := h2 [textOid]
    rw [e1] at f1
    cases f1
    rw [e2] at f2
    cases f2
    have := h4.length_eq
    have h6 := h3.length_eq
    rw [List.length_append, h5] at this
    have h7 : textOids [textOid] = 1 := by decide
    simp only [h7, List.length_nil] at this h6
    omega

/-- A heap with blocks of others. -/
def someHeap : Blocks := { next := 7, live := [2, 5] }

example : HeapOk someHeap := ⟨by decide, by decide⟩
example : Made (allGood true) ∧ ¬ DataMissing (allGood true) := by simp [Made, Starts, DataMissing, allGood]
example : DataMissing { allGood true with sign := false } := by simp [DataMissing, Starts, allGood]
/-- The root CA cannot be read: no session, memory as before. -/
example : (match create someHeap { allGood true with ca := false } with
    | .ok (b, none) => b.live
    | _ => []) = [2, 5] := by decide +kernel
/-- A session has 14 blocks; after changes of the algorithm and free, three objects remain. -/
example : (match create someHeap (allGood true) with
    | .ok (b, some s) =>
      match ops b s [textOid, .hash true true true, .oid false true true, textOid, .oid false false false,
          .algo { obj := some true, digest := false, oid := true, ctx := true, init := true },
          .algo { obj := some false, digest := true, oid := true, ctx := true, init := true }] with
      | .ok (b1, s1) =>
        match free b1 (some s1) with
        | .ok b2 => (b.live.length, b2.live.length)
        | _ => (0, 0)
      | _ => (0, 0)
    | _ => (0, 0)) = (16, 5) := by decide +kernel

end SV.Props
