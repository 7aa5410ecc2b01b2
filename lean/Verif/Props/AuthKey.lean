import Verif.Props.AuthDemo
/-! Setting a public key for validation (C40). -/
namespace SV

/-- **C40**, validation: a public key is refused, with the session unchanged, if there is one already, given by the user
or received in a SEI, or if validation has started. -/
theorem C40_public_key (env : AuthEnv) (s : Validator) (k : Bytes) (h : s.d.publicKey ≠ [] ∨ s.started = true) :
    ∃ e, authStep env s (.publicKey k) = .ok (s, ⟨some e, none⟩) := by
  unfold authStep authCall Validator.setPublicKey
  dsimp only
  by_cases hk : k = []
  · exact ⟨_, by rw [if_pos hk]; rfl⟩
  · by_cases h1 : s.d.publicKey ≠ []
    · exact ⟨_, by rw [if_neg hk, if_pos h1]; rfl⟩
    · have h2 : s.started = true := h.resolve_left h1
      exact ⟨_, by rw [if_neg hk, if_neg h1, if_pos h2]; rfl⟩

/-- A key that can be used is accepted in a new session, and takes effect. -/
theorem C40_public_key_accepted (env : AuthEnv) (c : Codec) (k : Bytes) (hk : k ≠ []) (ho : env.crypto.keyOk k = true) :
    ∃ s, authStep env (newValidator env c) (.publicKey k) = .ok (s, ⟨none, none⟩) ∧ s.key = some k ∧
      s.d.publicKey = k ∧ s.d.hasPublicKey = true := by
  unfold authStep authCall Validator.setPublicKey
  dsimp only
  have h1 : ¬ ((newValidator env c).d.publicKey ≠ []) := by simp [newValidator]
  have h2 : ¬ ((newValidator env c).started = true) := by simp [newValidator]
  rw [if_neg hk, if_neg h1, if_neg h2, if_pos ho]
  exact ⟨_, rfl, rfl, rfl, rfl⟩

/-- A session in which the first NAL unit has been added. -/
example : ∃ s os, authRun toyEnv (newValidator toyEnv .h264) [.nalu (toyNalu 'I' 1), .publicKey [9, 9]] = .ok (s, os) ∧
    s.started = true ∧ os.map AObs.rc = [none, some .notSupported] := by
  obtain ⟨s, os, h1, h2⟩ := authCheck toyEnv (newValidator toyEnv .h264) [.nalu (toyNalu 'I' 1), .publicKey [9, 9]]
    (fun s os => decide (s.started = true ∧ os.map AObs.rc = [none, some .notSupported])) (by decide +kernel)
  exact ⟨s, os, h1, of_decide_eq_true h2⟩

end SV
