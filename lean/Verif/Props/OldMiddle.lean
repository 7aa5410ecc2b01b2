import Verif.Proofs.OldJoin
import Verif.Props.OldDamage
/-! C78: sessions that join a stream of the older format in the middle. -/
namespace SV
open Spec

/-- **C78, partial.** A session that starts in the middle of a stream of the older format, at a SEI with the public key, first reports that there is a signature and nothing else (the NAL units that
SEI signs were not received); from then on the reports are those of C77 for the GOPs that follow, with a verdict that does not suffer from the beginning.

`pics` are the protected NAL units of the GOP before, which were sent and not received.

Missing: a session that starts with the very first SEI and another I-frame, for which the claim is false (`C78_first_false`). -/
theorem C78_old_join_partial {env : AuthEnv} {key : Bytes} {c : Codec} {max : Nat} (len : ∀ b, (env.H env.oid b).length = 32) (rounds : 2 ≤ env.rounds) (accepted : env.crypto.keyOk key = true)
    (known : env.crypto.oidHashSize env.oid = some 32) {lead pics : List Bytes} {n : Option UInt32} {g : OldGop} {gs : List (OldGop × Bool)} (hlead : ∀ d ∈ lead, Ordinary c d ∧ picture c d = none)
    (first : 2 ∈ g.sei.tags) (received : OldReceived env key c max pics n ((g, true) :: gs))
    (apart : ∀ x, (g.pictures c).take 1 = [x] → g.sei.Apart c (env.H env.oid) (env.verify key) pics x) :
    ∃ s os r ps1 ps2 qs, Session.run env (newSession env c) ((lead ++ ((g, true) :: gs).flatMap fun g => g.1.units c).map .nalu) = .ok (s, os ++ (ps1 ++ ⟨none, some r⟩ :: ps2) ++ qs) ∧
      os.length = lead.length ∧ (∀ o ∈ os, o.rc = none ∧ ∀ r, o.report = some r → r.latest.auth = .notSigned ∧ r.acc.auth = .notSigned) ∧
      AsClaimed (none :: g.between.map fun _ => none) ps1 ∧ OldUndecided r ∧ AsClaimed (g.rest.map fun _ => none) ps2 ∧
      AsClaimed (oldClaims c (g.pictures c).length false true gs) qs := by
  obtain ⟨s, os, r, ps1, ps2, qs, h1, h2, h3, h4, h5, h6, h7, -⟩ := Old.run_join (Γ := ⟨env, c, env.oid, 32, key, max, true, 0, true, none⟩)
    ⟨Nat.le_of_ble_eq_true rfl, Nat.le_of_ble_eq_true rfl, len, rounds, .inl rfl⟩ rfl rfl ⟨accepted, known, fun _ => rfl⟩ rfl rfl hlead first received apart
  exact ⟨s, os, r, ps1, ps2, qs, h1, h2, h3, h4, h5, h6, h7⟩

theorem oldSigned_drop {env : AuthEnv} {key : Bytes} {c : Codec} {max : Nat} {h : OldGop} {gs : List OldGop} : ∀ {before : List OldGop} {prev : List Bytes} {n : Option UInt32},
    OldSigned env key c max prev n (before ++ h :: gs) → OldSigned env key c max (h.pictures c) (some h.sei.e.gopCounter) gs := by
  intro before
  induction before with
  | nil => intro prev n ⟨_, _, _, _, h5⟩; exact h5
  | cons g before ih => intro prev n ⟨_, _, _, _, h5⟩; exact ih h5

/-- **C78, partial,** for a stream that was sent as in C76 and from which the first GOPs (`before` and `h`) were not received: after the first report, all GOPs are OK. -/
theorem C78_old_join_ok_partial {env : AuthEnv} {key : Bytes} {c : Codec} {max : Nat} (len : ∀ b, (env.H env.oid b).length = 32) (rounds : 2 ≤ env.rounds) (accepted : env.crypto.keyOk key = true)
    (known : env.crypto.oidHashSize env.oid = some 32) {lead : List Bytes} {before gs : List OldGop} {h g : OldGop} (hlead : ∀ d ∈ lead, Ordinary c d ∧ picture c d = none)
    (first : 2 ∈ g.sei.tags) (signed : OldSigned env key c max [] none (before ++ h :: g :: gs))
    (apart : ∀ x, (g.pictures c).take 1 = [x] → g.sei.Apart c (env.H env.oid) (env.verify key) (h.pictures c) x) :
    ∃ s os r ps1 ps2 qs, Session.run env (newSession env c) ((lead ++ (g :: gs).flatMap fun g => g.units c).map .nalu) = .ok (s, os ++ (ps1 ++ ⟨none, some r⟩ :: ps2) ++ qs) ∧
      os.length = lead.length ∧ (∀ o ∈ os, o.rc = none ∧ ∀ r, o.report = some r → r.latest.auth = .notSigned ∧ r.acc.auth = .notSigned) ∧
      AsReported (none :: g.between.map fun _ => none) ps1 ∧ OldUndecided r ∧ AsReported (g.rest.map fun _ => none) ps2 ∧
      AsReported (oldReports c (g.pictures c).length gs) qs := by
  have hs := oldSigned_drop signed
  obtain ⟨s, os, r, ps1, ps2, qs, h1, h2, h3, h4, h5, h6, h7⟩ := C78_old_join_partial len rounds accepted known hlead first (gs := gs.map fun g => (g, true)) (Old.oldReceived_of hs) apart
  rw [show (g, true) :: gs.map (fun g => (g, true)) = (g :: gs).map fun g => (g, true) from rfl, units_all] at h1
  rw [Old.oldClaims_of hs.2.2.2.2] at h7
  refine ⟨s, os, r, ps1, ps2, qs, h1, h2, h3, Old.asReported_of ?_, h5, Old.asReported_of ?_, Old.asReported_of h7⟩
  · rw [List.map_cons, List.map_map]; exact h4
  · rw [List.map_map]; exact h6

/-- **C60, partial.** With streams of the older format that are received from their start or from the middle on, possibly altered as in C77, no memory is accessed that must not be: the outcome of the run is
that of defined behaviour, no call returns an error, and no item of the list is one of which the NAL unit has gone.

Missing: SEIs that are late, lost or added, for which the claim is false (`C60_memory_false`); SEIs that match only in part of a list of hashes. -/
theorem C60_memory_partial {env : AuthEnv} {key : Bytes} {c : Codec} {max : Nat} (len : ∀ b, (env.H env.oid b).length = 32) (rounds : 2 ≤ env.rounds) (accepted : env.crypto.keyOk key = true)
    (known : env.crypto.oidHashSize env.oid = some 32) {lead pics : List Bytes} {n : Option UInt32} {g : OldGop} {gs : List (OldGop × Bool)} (hlead : ∀ d ∈ lead, Ordinary c d ∧ picture c d = none)
    (first : 2 ∈ g.sei.tags) (received : OldReceived env key c max pics n ((g, true) :: gs))
    (apart : pics = [] ∨ ∀ x, (g.pictures c).take 1 = [x] → g.sei.Apart c (env.H env.oid) (env.verify key) pics x) :
    ∃ s l os, Session.run env (newSession env c) ((lead ++ ((g, true) :: gs).flatMap fun g => g.1.units c).map .nalu) = .ok (s, os) ∧ (∀ o ∈ os, o.rc = none) ∧ s.leg = some l ∧
      ∀ x ∈ l.list, x.2.dead = false := by
  have hok : (⟨env, c, env.oid, 32, key, max, true, 0, true, none⟩ : Validator.Scene).Ok := ⟨Nat.le_of_ble_eq_true rfl, Nat.le_of_ble_eq_true rfl, len, rounds, .inl rfl⟩
  have hcl : ∀ (es : List (Option OldClaim)) (os : List AObs), AsClaimed es os → ∀ o ∈ os, o.rc = none := by
    intro es
    induction es with
    | nil => intro os h o ho; cases os with
      | nil => cases ho
      | cons a b => exact False.elim (by simpa [AsClaimed] using h)
    | cons e es ih =>
      intro os h o ho
      cases os with
      | nil => cases ho
      | cons a b => cases e <;> (rcases List.mem_cons.1 ho with rfl | ho; exact h.1; exact ih b h.2.2 o ho)
  have hend : ∀ s, Old.Follows ⟨env, c, env.oid, 32, key, max, true, 0, true, none⟩ s → ∃ l, s.leg = some l ∧ ∀ x ∈ l.list, x.2.dead = false := by
    rintro s ⟨l, w, q, ref, hs, k, e1, e2⟩
    exact ⟨l, e1, fun x hx => e2.rows.dead hx⟩
  rcases apart with rfl | apart
  · have hr : OldReceived env key c max [] none ((g, true) :: gs) := ⟨received.1, received.2.1, received.2.2.1, (fun k hk => by cases hk), received.2.2.2.2⟩
    obtain ⟨s, os, ps, h1, -, h3, h4, h5⟩ := Old.run_stream hok rfl rfl ⟨accepted, known, fun _ => rfl⟩ rfl rfl hlead first hr
    obtain ⟨l, e1, e2⟩ := hend s h5
    refine ⟨s, l, _, h1, fun o ho => ?_, e1, e2⟩
    rcases List.mem_append.1 ho with ho | ho
    · exact (h3 o ho).1
    · exact hcl _ _ h4 o ho
  · obtain ⟨s, os, r, ps1, ps2, qs, h1, -, h3, h4, -, h6, h7, h8⟩ := Old.run_join hok rfl rfl ⟨accepted, known, fun _ => rfl⟩ rfl rfl hlead first received apart
    obtain ⟨l, e1, e2⟩ := hend s h8
    refine ⟨s, l, _, h1, fun o ho => ?_, e1, e2⟩
    simp only [List.mem_append, List.mem_cons] at ho
    rcases ho with (ho | ho | rfl | ho) | ho
    · exact (h3 o ho).1
    · exact hcl _ _ h4 o ho
    · rfl
    · exact hcl _ _ h6 o ho
    · exact hcl _ _ h7 o ho

/-- **C61, partial.** A validator that joins an untouched stream of the older format at the SEI of a GOP reports OK from the second SEI on.

Missing: joining at the I-frame that follows the SEI, for which the claim is false (`C61_join_false`). -/
theorem C61_join_partial {env : AuthEnv} {key : Bytes} {c : Codec} {max : Nat} (len : ∀ b, (env.H env.oid b).length = 32) (rounds : 2 ≤ env.rounds) (accepted : env.crypto.keyOk key = true)
    (known : env.crypto.oidHashSize env.oid = some 32) {lead : List Bytes} {before gs : List OldGop} {h g : OldGop} (hlead : ∀ d ∈ lead, Ordinary c d ∧ picture c d = none)
    (first : 2 ∈ g.sei.tags) (signed : OldSigned env key c max [] none (before ++ h :: g :: gs))
    (apart : ∀ x, (g.pictures c).take 1 = [x] → g.sei.Apart c (env.H env.oid) (env.verify key) (h.pictures c) x) :
    ∃ s os qs, Session.run env (newSession env c) ((lead ++ (g :: gs).flatMap fun g => g.units c).map .nalu) = .ok (s, os ++ qs) ∧
      os.length = (lead ++ g.units c).length ∧ qs.length = (gs.flatMap fun g => g.units c).length ∧
      (∀ o ∈ qs, o.rc = none ∧ ∀ r, o.report = some r → r.latest.auth = .ok ∧ r.acc.auth = .ok) ∧ (qs.filter fun o => o.report.isSome).length = gs.length := by
  obtain ⟨s, os, r, ps1, ps2, qs, h1, h2, -, h4, -, h6, h7⟩ := C78_old_join_ok_partial len rounds accepted known hlead first signed apart
  have hlen : ∀ (es : List (Option Nat)) (os : List AObs), AsReported es os → os.length = es.length ∧ (∀ o ∈ os, o.rc = none ∧ ∀ r, o.report = some r → r.latest.auth = .ok ∧ r.acc.auth = .ok) ∧
      (os.filter fun o => o.report.isSome).length = (es.filter Option.isSome).length := by
    intro es
    induction es with
    | nil => intro os h; cases os with
      | nil => exact ⟨rfl, (by intro o ho; cases ho), rfl⟩
      | cons a b => exact False.elim (by simpa [AsReported] using h)
    | cons e es ih =>
      intro os h
      cases os with
      | nil => cases e <;> exact False.elim (by simpa [AsReported] using h)
      | cons a b =>
        cases e with
        | none =>
          obtain ⟨g1, g2, g3⟩ := h
          obtain ⟨k1, k2, k3⟩ := ih b g3
          refine ⟨by simp [k1], ?_, by simp [List.filter_cons, g2, k3]⟩
          intro o ho
          rcases List.mem_cons.1 ho with rfl | ho
          · exact ⟨g1, fun r hr => by rw [g2] at hr; cases hr⟩
          · exact k2 o ho
        | some k =>
          obtain ⟨g1, ⟨r, g2, g4⟩, g3⟩ := h
          obtain ⟨k1, k2, k3⟩ := ih b g3
          refine ⟨by simp [k1], ?_, by simp [List.filter_cons, g2, k3]⟩
          intro o ho
          rcases List.mem_cons.1 ho with rfl | ho
          · exact ⟨g1, fun r' hr => by rw [g2] at hr; cases hr; exact ⟨g4.latest, g4.overall⟩⟩
          · exact k2 o ho
  have hrep : ∀ (gs : List OldGop) (k : Nat), (oldReports c k gs).length = (gs.flatMap fun g => g.units c).length ∧ ((oldReports c k gs).filter Option.isSome).length = gs.length := by
    intro gs
    induction gs with
    | nil => intro k; exact ⟨rfl, rfl⟩
    | cons g gs ih =>
      intro k
      obtain ⟨i1, i2⟩ := ih (g.pictures c).length
      have hn : ∀ l : List Bytes, (l.map fun _ => (none : Option Nat)).filter Option.isSome = [] := by intro l; simp
      refine ⟨?_, ?_⟩
      · simp only [oldReports, OldGop.reports, List.flatMap_cons, OldGop.units, List.length_append, List.length_cons, List.length_map, i1]
        omega
      · simp only [oldReports, OldGop.reports, List.filter_append, List.filter_cons, List.length_append, hn, i2]
        simp
        omega
  obtain ⟨a1, -, -⟩ := hlen _ _ h4
  obtain ⟨b1, -, -⟩ := hlen _ _ h6
  obtain ⟨c1, c2, c3⟩ := hlen _ _ h7
  obtain ⟨d1, d2⟩ := hrep gs (g.pictures c).length
  refine ⟨s, os ++ (ps1 ++ ⟨none, some r⟩ :: ps2), qs, h1, ?_, c1.trans d1, c2, c3.trans d2⟩
  simp only [List.length_append, List.length_cons, List.length_map, h2, a1, b1, OldGop.units]
  omega

/-! ### A stream that meets the conditions -/

/-- Five GOPs, all SEIs with the public key; those with a list of hashes and those with a hash of the GOP alternate. -/
def oldLong (list : Bool) : List OldGop :=
  let i1 := toyNalu 'I' 1; let p1 := toyNalu 'P' 2; let i2 := toyNalu 'I' 3; let p2 := toyNalu 'P' 4; let i3 := toyNalu 'I' 5; let p3 := toyNalu 'P' 6; let i4 := toyNalu 'I' 7; let i5 := toyNalu 'I' 8
  let hs := fun l : List Bytes => oldHashes polyHash (l.map fun d => d.drop 4)
  let tags := fun b : Bool => if b then [1, 2, 3, 4] else [1, 2, 3]
  [⟨oldDemoSei list (tags list) false 7 (hs [i1]), [], i1, [p1]⟩,
   ⟨oldDemoSei list (tags list) true 8 (hs [i1, p1, i2]), [], i2, [p2]⟩,
   ⟨oldDemoSei list (tags list) false 9 (hs [i2, p2, i3]), [toyNalu 'A' 0], i3, [toyNalu 'A' 0, p3]⟩,
   ⟨oldDemoSei (!list) (tags !list) false 10 (hs [i3, p3, i4]), [], i4, []⟩,
   ⟨oldDemoSei list (tags list) false 11 (hs [i4, i5]), [], i5, []⟩]

theorem oldLong_signed (b : Bool) : OldSigned polyEnv [9, 9, 9] .h264 40 [] none (oldLong b) := by
  cases b <;> exact oldSigned_of_check (by decide +kernel)

def apartB (s : OldSei) (c : Codec) (H : Bytes → Bytes) (verify : Bytes → Bytes → Int) (pics : List Bytes) (first : Bytes) : Bool :=
  decide (pics ≠ []) && (decide (s.e.hashType ≠ 0) || decide (verify s.e.signature (oldGopHash H [first] (s.doc c)) = 0)) &&
    (decide (s.e.hashType ≠ 1) || decide (H first ∉ oldHashes H (pics ++ [first])))

theorem apart_of_check {s : OldSei} {c : Codec} {H : Bytes → Bytes} {verify : Bytes → Bytes → Int} {pics : List Bytes} {first : Bytes} (h : apartB s c H verify pics first = true) :
    s.Apart c H verify pics first := by
  unfold apartB at h
  simp only [Bool.and_eq_true, Bool.or_eq_true, decide_eq_true_eq] at h
  obtain ⟨⟨h1, h2⟩, h3⟩ := h
  exact ⟨h1, fun e => h2.resolve_left fun hn => hn e, fun e => h3.resolve_left fun hn => hn e⟩

/-- The stream from its third GOP on: nothing is said of the second one, the third and the fourth are OK. -/
example (b : Bool) : ∃ s r ps1 ps2 qs, Session.run polyEnv (newSession polyEnv .h264) ((((oldLong b).drop 2).flatMap fun g => g.units .h264).map .nalu) = .ok (s, (ps1 ++ ⟨none, some r⟩ :: ps2) ++ qs) ∧
    OldUndecided r ∧ AsReported [none, some 3, none, some 2] qs := by
  have key : ∀ l : List OldGop, ∀ b0 h g gs, l = [b0, h] ++ g :: gs → OldSigned polyEnv [9, 9, 9] .h264 40 [] none l → 2 ∈ g.sei.tags →
      (∀ x, (g.pictures .h264).take 1 = [x] → g.sei.Apart .h264 polyHash (polyEnv.verify [9, 9, 9]) (h.pictures .h264) x) → oldReports .h264 (g.pictures .h264).length gs = [none, some 3, none, some 2] →
      ∃ s r ps1 ps2 qs, Session.run polyEnv (newSession polyEnv .h264) (((l.drop 2).flatMap fun g => g.units .h264).map .nalu) = .ok (s, (ps1 ++ ⟨none, some r⟩ :: ps2) ++ qs) ∧
        OldUndecided r ∧ AsReported [none, some 3, none, some 2] qs := by
    intro l b0 h g gs hl hs h2 ha hr
    rw [hl] at hs ⊢
    obtain ⟨s, os, r, ps1, ps2, qs, e1, e2, -, -, e5, -, e7⟩ := C78_old_join_ok_partial (env := polyEnv) (key := [9, 9, 9]) (c := .h264) (max := 40) (fun b => by simp [polyEnv, polyHash]) (by decide) (by decide) (by decide)
      (lead := []) (before := [b0]) (by intro d hd; cases hd) h2 hs ha
    cases os with
    | cons o os => cases e2
    | nil => exact ⟨s, r, ps1, ps2, qs, e1, e5, hr ▸ e7⟩
  cases b
  · exact key _ _ _ _ _ rfl (oldLong_signed false) (by decide +kernel) (fun x hx => by cases hx; exact apart_of_check (by decide +kernel)) (by decide +kernel)
  · exact key _ _ _ _ _ rfl (oldLong_signed true) (by decide +kernel) (fun x hx => by cases hx; exact apart_of_check (by decide +kernel)) (by decide +kernel)

/-- The conditions of `C61_join_partial` and `C60_memory_partial` hold of the same stream from its third GOP on; both variants. -/
example (b : Bool) : ∃ h g gs, oldLong b = [(oldLong b).head (by cases b <;> decide)] ++ h :: g :: gs ∧ gs.length = 2 ∧ 2 ∈ g.sei.tags ∧ OldReceived polyEnv [9, 9, 9] .h264 40 (h.pictures .h264) (some h.sei.e.gopCounter) ((g, true) :: gs.map (·, true)) ∧
    ∀ x, (g.pictures .h264).take 1 = [x] → g.sei.Apart .h264 polyHash (polyEnv.verify [9, 9, 9]) (h.pictures .h264) x := by
  have key : ∀ l : List OldGop, ∀ b0 h g gs, l = [b0] ++ h :: g :: gs → OldSigned polyEnv [9, 9, 9] .h264 40 [] none l →
      OldReceived polyEnv [9, 9, 9] .h264 40 (h.pictures .h264) (some h.sei.e.gopCounter) ((g, true) :: gs.map (·, true)) := by
    intro l b0 h g gs hl hs
    rw [hl] at hs
    exact Old.oldReceived_of (oldSigned_drop (before := [b0]) hs)
  cases b
  · exact ⟨_, _, _, rfl, rfl, by decide +kernel, key _ _ _ _ _ rfl (oldLong_signed false), fun x hx => by cases hx; exact apart_of_check (by decide +kernel)⟩
  · exact ⟨_, _, _, rfl, rfl, by decide +kernel, key _ _ _ _ _ rfl (oldLong_signed true), fun x hx => by cases hx; exact apart_of_check (by decide +kernel)⟩

/-! ### The first GOP -/

/-- The verdicts of the reports. -/
def verdictsOf (o : Out (Session × List AObs)) : Option (List Auth) :=
  match o with
  | .ok (_, os) => some (os.filterMap fun o => o.report.map fun r => r.latest.auth)
  | _ => none

/-- **C78 is false at the beginning of a stream.** A stream is received from its start and only its very first NAL unit of a picture was changed. Then no GOP is OK, although all others are as they
were sent: the validator takes the first SEI for one that is not of this part of the stream, and from then on expects each SEI one GOP too late. -/
theorem C78_first_false (b : Bool) : OldSigned polyEnv [9, 9, 9] .h264 40 [] none (oldLong b) ∧
    verdictsOf (Session.run polyEnv (newSession polyEnv .h264) (((oldLong b).flatMap fun g => g.units .h264).map .nalu)) = some [.ok, .ok, .ok, .ok, .ok] ∧
    verdictsOf (Session.run polyEnv (newSession polyEnv .h264) ((((oldLong b).flatMap fun g => g.units .h264).set 1 (toyNalu 'I' 99)).map .nalu)) =
      some [.signaturePresent, .signaturePresent, .notOk, .notOk, .notOk] := by
  refine ⟨oldLong_signed b, ?_⟩
  cases b <;> decide +kernel

end SV
