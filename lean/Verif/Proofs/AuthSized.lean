import Verif.Proofs.AuthContent
/-! The codec and the room for the reference hash over all calls. -/
namespace SV
namespace Validator

/-- The codec of the session and room for two hashes of any size. -/
structure Sized (c : Codec) (s : Validator) : Prop where
  wf : WFs s
  codec : s.codec = c
  room : 128 ≤ s.buddies.length

theorem Sized.from {c : Codec} {s t : Validator} (h : Sized c s) (hf : FromS s t) : Sized c t :=
  ⟨hf.wf, hf.codec.trans h.codec, by rw [hf.buddies]; exact h.room⟩

theorem sized_mid (c : Codec) : MidInv (Sized c) where
  round := {
    pending := fun t h => ⟨h.wf, h.codec, h.room⟩
    begin := fun t h => h.from ((fromS_inv t).begin t ⟨h.wf, rfl, rfl, .refl _⟩)
    prep := fun env t h => ((fromS_inv t).prep env t ⟨h.wf, rfl, rfl, .refl _⟩).mono fun u hu => h.from hu
    link := fun u v h hl => h.from ((fromS_inv u).link u v ⟨h.wf, rfl, rfl, .refl _⟩ hl)
    verify := fun v t p h hv => h.from ((fromS_inv v).verify v t p ⟨h.wf, rfl, rfl, .refl _⟩ hv)
    conclude := fun t p h => h.from ((fromS_inv t).conclude t p ⟨h.wf, rfl, rfl, .refl _⟩)
    notSigned := fun t h => ⟨h.wf, h.codec, h.room⟩
    finish := fun t h => ⟨h.wf, h.codec, h.room⟩ }
  prep _ _ hp h := ⟨wfs_mid.prep _ _ hp h.wf, hp.codec.trans h.codec, by rw [hp.buddies]; exact h.room⟩
  hashed _ _ hh h := ⟨wfs_mid.hashed _ _ hh h.wf, by rw [hh.eq]; exact h.codec, Nat.le_trans h.room hh.room⟩
  gold _ _ _ h := ⟨h.wf, h.codec, h.room⟩
  legacy _ h := ⟨h.wf, h.codec, h.room⟩
  firstSei s n a h := by
    refine ⟨wfs_mid.firstSei s n a h.wf, ?_, ?_⟩
    · unfold Validator.firstSei
      dsimp only
      split
      · split <;> exact h.codec
      · exact h.codec
    · unfold Validator.firstSei
      dsimp only
      split
      · split <;> exact h.room
      · exact h.room

theorem sized_inv (env : AuthEnv) (c : Codec) : CallInv env fun _ => Sized c where
  misc _ s s' hm h := ⟨by unfold WFs; rw [hm]; exact h.wf, by rw [hm]; exact h.codec, by rw [hm]; exact h.room⟩
  round _ _ h := (sized_mid c).round.round env h
  recurrent _ s h := (recurrentDecoded_decoded env s).mono fun _ hd => (sized_mid c).prep _ _ (Prep.of_decoded hd) h
  known _ _ h := ⟨h.wf, h.codec, h.room⟩
  golden _ _ a n _ h _ _ := (sized_mid c).prepareGolden env a n h
  hash _ _ x h _ := (sized_mid c).hashItem env x h
  noKey _ _ h := ⟨h.wf, h.codec, h.room⟩
  mark _ _ _ _ h _ _ := ⟨by unfold WFs; exact WF.of_addr h.wf (by dsimp only; exact set_addr _ _ _), h.codec, h.room⟩
  append _ _ _ _ h _ := ⟨WF.append h.wf _, h.codec, h.room⟩
  update _ _ _ _ _ _ _ h _ _ _ _ _ := ⟨by unfold WFs; exact WF.of_addr h.wf (by dsimp only; exact set_addr _ _ _), h.codec, h.room⟩
  copy _ _ _ _ _ h _ _ _ := ⟨by unfold WFs; exact WF.of_addr h.wf (by dsimp only; exact set_addr _ _ _), h.codec, h.room⟩
  clean _ _ h := ⟨WF.sublist h.wf (List.dropWhile_sublist _), h.codec, h.room⟩
  reset _ _ h := ⟨⟨List.nodup_nil, fun x hx => by cases hx⟩, h.codec, h.room⟩
  key _ s k h hk := by
    unfold setPublicKey
    rw [if_neg hk]
    split
    · exact h
    · split
      · exact h
      · dsimp only
        split
        · exact ⟨h.wf, h.codec, h.room⟩
        · exact ⟨h.wf, h.codec, h.room⟩

theorem authRun_sized {env : AuthEnv} {codec : Codec} {calls : List AuthCall} {s : Validator} {os : List AObs}
    (e : authRun env (newValidator env codec) calls = .ok (s, os)) : Sized codec s := by
  have h0 : Sized codec (newValidator env codec) := ⟨⟨List.nodup_nil, fun x hx => by cases hx⟩, rfl, by show 128 ≤ (List.replicate 128 (0 : UInt8)).length; rw [List.length_replicate]; omega⟩
  exact (sized_inv env codec).run (L := []) h0 e

end Validator
end SV
