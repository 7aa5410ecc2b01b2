import Verif.Model.Auth
/-! Detection of lost SEIs by the GOP counter (C49) and signed overflow while doing so (C54). -/
namespace SV

/-- The counter of the received SEI is ahead of the expected one, as numbers. -/
def Ahead (s : Validator) : Prop := s.d.gopCounter.toNat > (s.latestGop + 1).toNat

instance (s : Validator) : Decidable (Ahead s) := inferInstanceAs (Decidable (_ > _))

theorem add64_in (o : Overflow) (a b : Int) (h1 : -9223372036854775808 ≤ a + b) (h2 : a + b ≤ 9223372036854775807) :
    add64 o a b = .ok (a + b) := by
  unfold add64; rw [if_pos ⟨h1, h2⟩]

theorem add64_out (o : Overflow) (a b : Int) (h2 : ¬ a + b ≤ 9223372036854775807) :
    add64 o a b = match o with
      | .strict => .ub .intOverflow
      | .wrap => .ok ((a + b + 9223372036854775808) % 18446744073709551616 - 9223372036854775808)
      | .exact => .ok (a + b) := by
  unfold add64; rw [if_neg (fun h => h2 h.2)]; cases o <;> rfl

theorem UInt32.range (x : UInt32) : (0 : Int) ≤ x.toNat ∧ (x.toNat : Int) < 4294967296 := by
  have := x.toNat_lt; omega

/-- **C49**: if additions do not overflow, which is what the compilers in use make of the expression, a SEI is taken for
lost exactly if the session is in sync and the counter received is larger than the one expected. -/
theorem C49_detect (env : AuthEnv) (s : Validator) (h : env.ov = .exact) :
    s.detectLost env = .ok { s with gop := { s.gop with lost := decide (Ahead s) && s.synced } } () := by
  have h1 := UInt32.range s.d.gopCounter
  have h2 := UInt32.range (s.latestGop + 1)
  unfold Validator.detectLost
  dsimp only
  generalize hd : (s.d.gopCounter.toNat : Int) - ((s.latestGop + 1).toNat : Int) = diff
  have e : add64 env.ov diff 9223372036854775807 = .ok (diff + 9223372036854775807) := by
    by_cases hc : diff + 9223372036854775807 ≤ 9223372036854775807
    · exact add64_in _ _ _ (by omega) hc
    · rw [add64_out _ _ _ hc, h]
  have e2 : ¬ diff + 9223372036854775807 < (9223372036854775807 : Int) / 2 := by omega
  have e3 : decide (diff > 0) = decide (Ahead s) := by
    apply decide_eq_decide.2; unfold Ahead; omega
  simp only [e, if_neg e2, e3]

/-- An equal counter is not taken for a lost SEI, a smaller one neither, whatever the compiler does. -/
theorem C49_expected (env : AuthEnv) (s : Validator) (h : ¬ Ahead s) :
    s.detectLost env = .ok { s with gop := { s.gop with lost := false } } () := by
  have h1 := UInt32.range s.d.gopCounter
  have h2 := UInt32.range (s.latestGop + 1)
  unfold Ahead at h
  unfold Validator.detectLost
  dsimp only
  generalize hd : (s.d.gopCounter.toNat : Int) - ((s.latestGop + 1).toNat : Int) = diff
  rw [add64_in _ _ _ (by omega) (by omega)]
  have e2 : ¬ diff + 9223372036854775807 < (9223372036854775807 : Int) / 2 := by omega
  have e3 : ¬ diff > 0 := by omega
  simp only [if_neg e2, decide_eq_false e3, Bool.false_and]

/-- **C54** does not hold: whenever the counter is ahead, that is, in every session in which a SEI is lost, the addition
in `detect_lost_sei` overflows (whether or not the session is in sync). -/
theorem C54_overflow (env : AuthEnv) (s : Validator) (h : env.ov = .strict) (ha : Ahead s) :
    s.detectLost env = .ub .intOverflow := by
  have h1 := UInt32.range s.d.gopCounter
  have h2 := UInt32.range (s.latestGop + 1)
  unfold Ahead at ha
  unfold Validator.detectLost
  dsimp only
  rw [add64_out _ _ _ (by omega), h]

/-- **C54**, the part that holds: without lost SEIs there is no overflow. -/
theorem C54_no_overflow_partial (env : AuthEnv) (s : Validator) (h : ¬ Ahead s) :
    s.detectLost env ≠ .ub .intOverflow := by
  rw [C49_expected env s h]; intro h; cases h

/-- With two's complement arithmetic a lost SEI is never detected. -/
theorem C49_wrapping (env : AuthEnv) (s : Validator) (h : env.ov = .wrap) :
    s.detectLost env = .ok { s with gop := { s.gop with lost := false } } () := by
  by_cases ha : Ahead s
  · have h1 := UInt32.range s.d.gopCounter
    have h2 := UInt32.range (s.latestGop + 1)
    unfold Ahead at ha
    unfold Validator.detectLost
    dsimp only
    generalize hd : (s.d.gopCounter.toNat : Int) - ((s.latestGop + 1).toNat : Int) = diff
    have e : add64 env.ov diff 9223372036854775807 = .ok (diff + 9223372036854775807 - 18446744073709551616) := by
      rw [add64_out _ _ _ (by omega), h]
      simp only
      congr 1
      omega
    have e2 : diff + 9223372036854775807 - 18446744073709551616 < (9223372036854775807 : Int) / 2 := by omega
    have e3 : ¬ diff + 9223372036854775807 - 18446744073709551616 > 0 := by omega
    simp only [e, if_pos e2, decide_eq_false e3, Bool.false_and]
  · exact C49_expected env s ha

/-- **C49** including wrap around, as claimed: once in sync a SEI is taken for lost exactly if the counter is ahead of
the expected one modulo 2^32, that is, by less than 2^31. -/
def C49_statement : Prop :=
  ∀ (env : AuthEnv) (s : Validator), env.ov = .exact → s.synced = true →
    s.detectLost env = .ok { s with gop := { s.gop with lost := decide (0 < (s.d.gopCounter - (s.latestGop + 1)).toNat ∧ (s.d.gopCounter - (s.latestGop + 1)).toNat < 2 ^ 31) } } ()

/-- A parameter set for examples. -/
def anEnv (o : Overflow) : AuthEnv :=
  ⟨fun _ _ => List.replicate 32 1, ⟨fun _ => some 32, fun _ => true⟩, [], fun _ _ _ => 1, o, 100⟩

/-- **C49** does not hold at the wrap around: the SEI with counter 2^32 - 1 lost, counter 0 received. -/
theorem C49_statement_false : ¬ C49_statement := by
  intro h
  have := h (anEnv .exact)
    { newValidator (anEnv .exact) .h264 with latestGop := 4294967294, synced := true } rfl rfl
  rw [C49_detect _ _ rfl] at this
  simp only [Res.ok.injEq, Validator.mk.injEq, and_true, true_and, GopState.mk.injEq] at this
  exact absurd this (by decide)

/-- **C49**, the part that holds: as long as neither counter has wrapped around with respect to the other one. -/
theorem C49_modular_partial (env : AuthEnv) (s : Validator) (h : env.ov = .exact) (hs : s.synced = true)
    (hw : (s.latestGop + 1).toNat < s.d.gopCounter.toNat + 2 ^ 31 ∧ s.d.gopCounter.toNat < (s.latestGop + 1).toNat + 2 ^ 31) :
    s.detectLost env = .ok { s with gop := { s.gop with lost := decide (0 < (s.d.gopCounter - (s.latestGop + 1)).toNat ∧ (s.d.gopCounter - (s.latestGop + 1)).toNat < 2 ^ 31) } } () := by
  rw [C49_detect env s h, hs]
  have h1 := UInt32.range s.d.gopCounter
  have h2 := UInt32.range (s.latestGop + 1)
  have e : decide (Ahead s) = decide (0 < (s.d.gopCounter - (s.latestGop + 1)).toNat ∧
      (s.d.gopCounter - (s.latestGop + 1)).toNat < 2 ^ 31) := by
    apply decide_eq_decide.2
    unfold Ahead
    rw [UInt32.toNat_sub]
    omega
  rw [e, Bool.and_true]

/-- A session that expects the SEI with counter 3, and receives the one with counter 5. -/
example : ∃ s : Validator, s.synced = true ∧ Ahead s ∧
    (s.latestGop + 1).toNat < s.d.gopCounter.toNat + 2 ^ 31 ∧ s.d.gopCounter.toNat < (s.latestGop + 1).toNat + 2 ^ 31 ∧
    ∃ s', s.detectLost (anEnv .exact) = .ok s' () ∧ s'.gop.lost = true := by
  refine ⟨{ newValidator (anEnv .exact) .h264 with d := { gopCounter := 5 }, latestGop := 2, synced := true }, rfl,
    by decide, by decide, by decide, _, C49_detect _ _ rfl, by decide⟩

end SV
