import Verif.Proofs.SignCounter
import Verif.Props.SignHist
/-! The GOP counter in any history, with golden SEIs and errors: C36. -/
namespace SV
open Spec

/-- **C36**: in every history, starting in any state, in which no attempt to generate a SEI breaks off (NAL units that are
refused because SEIs are waiting to be fetched are allowed), the GOP counter that the `k`-th generated SEI follows is the
one at the start plus the number of SEIs before it that are not golden, modulo 2^32: consecutive SEIs carry consecutive
counters and golden SEIs do not consume one.  Missing: histories in which the plugin refuses a hash, for which it is false
(`C36_statement_false`). -/
theorem C36_any_history_partial (hs : Hashing) (cs : List SCall) : ∀ (s s' : Signer) (os : List Obs),
    signRun hs s cs = .ok (s', os) → AllUnbroken cs os → ∀ (k : Nat) g, (os.filterMap Obs.signed)[k]? = some g →
      g.e.gopCounter = s.e.gopCounter + UInt32.ofNat (((os.filterMap Obs.signed).take k).countP fun g => !g.o.golden) := by
  induction cs with
  | nil =>
    intro s s' os h _ k g hk
    cases h
    cases hk
  | cons c cs ih =>
    intro s s' os h hu k g hk
    obtain ⟨t, o, os', h1, h2, rfl⟩ := signRun_cons h
    obtain ⟨u1, u2⟩ := hu
    have h3 := signStep_count hs s t c o h1 u1
    have h4 := ih t s' os' h2 u2
    rcases h3 with ⟨a, b⟩ | ⟨x, a, b, d⟩
    · rw [List.filterMap_cons_none a] at hk ⊢
      rw [← b]; exact h4 k g hk
    · rw [List.filterMap_cons_some a] at hk ⊢
      cases k with
      | zero => cases hk; simpa using b
      | succ k =>
        rw [List.getElem?_cons_succ] at hk
        rw [h4 k g hk, d, List.take_succ_cons, List.countP_cons]
        cases hx : x.o.golden <;> simp [UInt32.ofNat_add, UInt32.add_assoc, UInt32.add_comm]

/-- Golden SEIs, a refused NAL unit and the end of the stream. -/
def countCalls : List SCall :=
  [.set (.privateKey (some ([9, 9, 9], 72)) true),
   .golden none,
   .nalu [0, 0, 0, 1, 0x65, 0x88, 0x84, 0x80] none true none,
   .nalu [0, 0, 0, 1, 0x65, 0x88, 0x85, 0x80] none true none,
   .golden none,
   .getSei false none [.ok [1]],
   .nalu [0, 0, 0, 1, 0x41, 0x88, 0x85, 0x80] none true none,
   .getSei true none [.ok [2, 3]],
   .getSei true none [],
   .endOfStream none [.ok [4, 4]]]

def unbrokenB : List SCall → List Obs → Bool
  | .nalu _ _ _ rc :: cs, o :: os =>
    (o.rc.isNone || o.signed.isSome || (o.rc == some .notSupported && rc.isNone)) && unbrokenB cs os
  | .endOfStream rc _ :: cs, o :: os =>
    (o.rc.isNone || o.signed.isSome || (o.rc == some .notSupported && rc.isNone)) && unbrokenB cs os
  | .golden rc :: cs, o :: os =>
    (o.rc.isNone || o.signed.isSome || (o.rc == some .notSupported && rc.isNone)) && unbrokenB cs os
  | _ :: cs, _ :: os => unbrokenB cs os
  | _, _ => true

theorem unbroken_of_check : ∀ (cs : List SCall) (os : List Obs), unbrokenB cs os = true → AllUnbroken cs os := by
  intro cs
  induction cs with
  | nil => intro os _; trivial
  | cons c cs ih =>
    intro os h
    cases os with
    | nil => trivial
    | cons o os =>
      have key : ∀ rc : Option Rc, pluginSays c = rc →
          ((o.rc.isNone || o.signed.isSome || (o.rc == some .notSupported && rc.isNone)) && unbrokenB cs os) = true →
          AllUnbroken (c :: cs) (o :: os) := by
        intro rc hrc h
        simp only [Bool.and_eq_true, Bool.or_eq_true, Option.isNone_iff_eq_none, beq_iff_eq] at h
        refine ⟨fun _ => ?_, ih os h.2⟩
        rcases h.1 with (h1 | h1) | ⟨h1, h2⟩
        · exact .inl h1
        · exact .inr (.inl (by intro h0; rw [h0] at h1; cases h1))
        · exact .inr (.inr ⟨h1, by rw [hrc, h2]; simp⟩)
      cases c with
      | nalu d ts l rc => exact key rc rfl h
      | endOfStream rc _ => exact key rc rfl h
      | golden rc => exact key rc rfl h
      | _ => exact ⟨fun hx => hx.elim, ih os h⟩

/-- Golden, ordinary, golden and ordinary SEI: the counters they follow are 0, 0, 1 and 1. -/
example : ∃ s os, signRun toyHashing toySigner countCalls = .ok (s, os) ∧ AllUnbroken countCalls os ∧
    (os.filterMap Obs.signed).map (fun g => (g.o.golden, g.e.gopCounter)) =
      [(true, 0), (false, 0), (true, 1), (false, 1)] ∧ os.filterMap Obs.rc = [.notSupported] := by
  obtain ⟨s, os, h1, h2⟩ := runCheck2 toyHashing toySigner countCalls
    (fun _ os => unbrokenB countCalls os && decide ((os.filterMap Obs.signed).map (fun g => (g.o.golden, g.e.gopCounter)) =
      [(true, 0), (false, 0), (true, 1), (false, 1)]) && decide (os.filterMap Obs.rc = [.notSupported])) (by decide +kernel)
  simp only [Bool.and_eq_true, decide_eq_true_eq] at h2
  exact ⟨s, os, h1, unbroken_of_check _ _ h2.1.1, h2.1.2, h2.2⟩

/-- The plugin refuses a hash between two SEIs. -/
def gapCalls : List SCall :=
  [.set (.privateKey (some ([9, 9, 9], 72)) true),
   .nalu [0, 0, 0, 1, 0x65, 0x88, 0x84, 0x80] none true none,
   .nalu [0, 0, 0, 1, 0x65, 0x88, 0x85, 0x80] none true none,
   .getSei true none [.ok [1]],
   .nalu [0, 0, 0, 1, 0x65, 0x88, 0x86, 0x80] none true (some .externalError),
   .nalu [0, 0, 0, 1, 0x41, 0x88, 0x85, 0x80] none true none,
   .nalu [0, 0, 0, 1, 0x65, 0x88, 0x87, 0x80] none true none]

/-- **C36** is false as stated: when the plugin refuses a hash, the counter has been consumed and the SEI is never seen. -/
theorem C36_statement_false : ∃ (hs : Hashing) (s s' : Signer) (cs : List SCall) (os : List Obs) (g g' : Gen),
    signRun hs s cs = .ok (s', os) ∧ os.filterMap Obs.signed = [g, g'] ∧ g.o.golden = false ∧ g'.o.golden = false ∧
    g'.e.gopCounter ≠ g.e.gopCounter + 1 := by
  obtain ⟨s, os, h1, h2⟩ := runCheck2 toyHashing toySigner gapCalls
    (fun _ os => match os.filterMap Obs.signed with
      | [g, g'] => !g.o.golden && !g'.o.golden && decide (g'.e.gopCounter ≠ g.e.gopCounter + 1)
      | _ => false) (by decide +kernel)
  split at h2
  · next g g' hg =>
    simp only [Bool.and_eq_true, decide_eq_true_eq, Bool.not_eq_true'] at h2
    exact ⟨_, _, s, _, os, g, g', h1, hg, h2.1.1, h2.1.2, h2.2⟩
  · cases h2

end SV
